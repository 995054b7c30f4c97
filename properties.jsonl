{"id": "C01", "title": "Key/value precedence", "statement": "The key/values delivered to every sink for an emission are the union of the call's, the job's and the stream's key/values; on a key clash the call's value wins over the job's, which wins over the stream's; no other key appears.", "quantifier": "all stream, job and call-level maps (any of them nil, empty or overlapping) and all keys", "why_tests_cant": "the set of triples of maps is infinite and the code has an aliasing fast path for 0/1 non-empty maps that a test has to hit by luck", "anchors": ["health.go:mergedKeyValues", "health.go:EventKv", "health.go:KeyValue"]}
{"id": "C02", "title": "No key/values means no key/value map", "statement": "A sink receives no (nil) key/value map exactly when the stream, the job and the call all carry no key/values, so log lines show a kvs section iff there is at least one pair.", "quantifier": "all stream, job and call-level maps", "why_tests_cant": "nil versus empty has to be right for every combination of nil/empty/non-empty maps", "anchors": ["health.go:mergedKeyValues", "writer_sink.go:writeMapConsistently"]}
{"id": "C03", "title": "Fan-out to every sink exactly once, in order", "statement": "Each Event/EventErr/Timing/Gauge/Complete call (and Kv variants) on a job calls every sink added to the stream exactly once, in AddSink order, with the job's name, the caller's event/payload and the same key/values, and calls nothing else. The duration given with a completion is the time since the job was made, read anew for each sink (cut off at the ends of the int64 range).", "quantifier": "all sink lists, all jobs, all sequences of AddSink/KeyValue/emission calls", "why_tests_cant": "needs every sequence of calls and every number of sinks", "anchors": ["health.go:Event", "health.go:EventErr", "health.go:Timing", "health.go:Gauge", "health.go:Complete", "health.go:AddSink", "health.go:NewJob"]}
{"id": "C04", "title": "Run completes the job exactly once with the right status", "statement": "With sinks that do not panic, Run emits exactly one completion: Success if f returns nil, Error if f returns an error, Panic if f panics; a panic is first reported once as a 'panic' error event carrying a 'stack' key. Run returns f's own error unchanged, and a non-nil error with the panic's text if f panicked; it never re-panics.", "quantifier": "all job functions (any mix of nested emissions, return values, panics), all streams", "why_tests_cant": "the property is about all possible outcomes of an arbitrary callback", "anchors": ["health.go:Run"]}
{"id": "C05", "title": "A logged error is wrapped at most once", "statement": "However many times an error returned by EventErr is logged again, the result is the same error object with the same root error, same message and the stack captured at the first logging; muted errors are returned untouched and never wrapped.", "quantifier": "all chains of EventErr/EventErrKv calls of any length, on any jobs/streams", "why_tests_cant": "needs chains of unbounded length through arbitrary jobs", "anchors": ["error.go:wrapErr", "health.go:EventErr", "health.go:EventErrKv"]}
{"id": "C06", "title": "An error is pushed to Bugsnag exactly once", "statement": "An unmuted error logged through any number of nested EventErr calls (each passing on the returned error) is reported exactly once to each Bugsnag sink present at the first call, under the first event name; a muted error is never reported.", "quantifier": "all call chains of any length, all job/event names, all sink lists", "why_tests_cant": "chains of unbounded length", "anchors": ["sinks/bugsnag/sink.go:EmitEventErr", "health.go:EventErr", "error.go:Mute"]}
{"id": "C07", "title": "A sink's key/value map is a snapshot of the moment of emission", "statement": "The map handed to a sink keeps the values it had when the emission was made, even if the stream's or job's key/values are changed afterwards (asynchronous sinks such as Bugsnag read it later).", "quantifier": "all histories of KeyValue calls after an emission", "why_tests_cant": "requires reasoning about aliasing over every later history", "anchors": ["health.go:mergedKeyValues", "health.go:KeyValue", "sinks/bugsnag/sink.go:EmitEventErr"]}
{"id": "C08", "title": "Event counts are exact", "statement": "In every retained interval, the count shown for an event equals the number of times that event was emitted while the clock was in that interval, and the count under a job equals the number emitted by that job; events never emitted have no entry.", "quantifier": "all histories of emissions of all kinds with all clock readings (including clocks that stand still or jump), all event/job names", "why_tests_cant": "histories are unbounded and interleave several maps", "anchors": ["aggregator.go:EmitEvent", "interval_aggregation.go:getJobAggregation"]}
{"id": "C09", "title": "Totals equal the sum over jobs", "statement": "In every retained interval, every event's (error's, timer's) interval-wide count equals the sum of the per-job counts for it.", "quantifier": "all histories, all events", "why_tests_cant": "an invariant over unboundedly many jobs and emissions", "anchors": ["aggregator.go:EmitEvent", "aggregator.go:EmitEventErr", "aggregator.go:EmitTiming"]}
{"id": "C10", "title": "Timer summaries are exact", "statement": "For every timer (interval-wide and per job), count, sum, min and max are exactly those of the durations emitted in the interval, and the sum of squares is the left-to-right floating point accumulation of the squares.", "quantifier": "all non-empty sequences of int64 durations, negative ones included", "why_tests_cant": "first-sample special case and min/max need all sequences", "anchors": ["interval_aggregation.go:TimerAggregation.ingest", "aggregator.go:EmitTiming"]}
{"id": "C11", "title": "A gauge shows the last value set", "statement": "In every retained interval a gauge equals the last value emitted for it in that interval (interval-wide: from any job; per job: from that job).", "quantifier": "all histories", "why_tests_cant": "last-writer-wins over all interleavings of jobs", "anchors": ["aggregator.go:EmitGauge"]}
{"id": "C12", "title": "Job completion counters are exact", "statement": "For every job in every interval, the count of each completion status equals the number of completions with it, the total count equals the number of completions, and equals the sum of the five status counters when only the five statuses are used; min/max/sum of job durations are exact.", "quantifier": "all histories of completions", "why_tests_cant": "unbounded histories", "anchors": ["interval_aggregation.go:JobAggregation.ingest", "aggregator.go:EmitComplete"]}
{"id": "C13", "title": "Error counters and error samples", "statement": "An error counter's count equals the number of error emissions; its samples are the most recent (up to five) of the emitted errors after dropping immediate repeats, never more than five, and never contain two equal adjacent errors in recency order.", "quantifier": "all sequences of errors", "why_tests_cant": "ring buffer wrap-around for sequences of any length", "anchors": ["interval_aggregation.go:addError", "interval_aggregation.go:getErrorSamples"]}
{"id": "C14", "title": "Retention window", "statement": "With 0 < interval ≤ retain, the sink never holds more than retain/interval intervals; they are exactly the most recent distinct intervals in which anything (emission or one-second tick) happened; with a clock that does not go backwards their start times are strictly increasing multiples of the interval.", "quantifier": "all histories of emissions and ticks, all clock readings, all interval/retain pairs", "why_tests_cant": "sliding-window shifting needs all lengths", "anchors": ["aggregator.go:getIntervalAggregation", "aggregator.go:createIntervalAggregation", "aggregator.go:newAggregator"]}
{"id": "C15", "title": "A metrics snapshot never changes and is never written concurrently", "statement": "Whatever GetMetrics returned is never modified afterwards: no later emission, tick or GetMetrics writes to any memory reachable from a returned snapshot (so serialising it concurrently is safe).", "quantifier": "all histories before and after the snapshot, including clocks that go backwards", "why_tests_cant": "a memory-aliasing property over all later executions; a test sees only one schedule", "anchors": ["aggregator.go:memorySafeIntervals", "interval_aggregation_clone.go:Clone", "json_polling_sink.go:GetMetrics"]}
{"id": "C16", "title": "Serial number identifies the contents", "statement": "Every emission increments the current interval's serial number by exactly one and leaves all other intervals unchanged, so two reports of one interval by one process with equal serial numbers have identical contents.", "quantifier": "all histories and all pairs of snapshots; for the contents, those with a clock that does not go backwards", "why_tests_cant": "pairs of snapshots over all histories", "anchors": ["aggregator.go:EmitEvent", "interval_aggregation.go:SerialNumber", "healthd/healthd.go:consumePollResponse"]}
{"id": "C17", "title": "Metrics reflect a prefix of the emissions, in order", "statement": "At any time the data served by GetMetrics is the result of applying, in emission order, exactly the first n emissions accepted by the sink for some n; nothing is lost, duplicated or reordered, and a later GetMetrics never reflects fewer emissions.", "quantifier": "all interleavings of emitters, the aggregation goroutine, ticks and readers", "why_tests_cant": "all schedules of goroutines", "anchors": ["json_polling_sink.go:EmitEvent", "aggregator.go:startAggregator"]}
{"id": "C18", "title": "Emitting blocks only when the buffer is full; after shutdown it eventually blocks for ever", "statement": "While the polling sink runs, an emission can always eventually proceed; after ShutdownServer at most 4096 further emissions return and the next one blocks for ever, and GetMetrics blocks for ever.", "quantifier": "all schedules, all call sequences after shutdown", "why_tests_cant": "blocking for ever cannot be observed by a finite test", "anchors": ["json_polling_sink.go:ShutdownServer", "json_polling_sink.go:NewJsonPollingSink", "aggregator.go:startAggregator"]}
{"id": "C19", "title": "Configurations that work", "statement": "NewJsonPollingSink works for every 0 < interval ≤ retain; with interval = 0 its goroutine panics, and with 0 ≤ retain < interval the first emission or tick panics.", "quantifier": "all pairs of durations", "why_tests_cant": "all pairs of durations", "anchors": ["aggregator.go:newAggregator", "aggregator.go:createIntervalAggregation"]}
{"id": "C20", "title": "Merge adds counts pointwise", "statement": "After a.Merge(b) every event, error, timer and job counter is the sum of the two, a key is present iff it was present in a or b, gauges of b override those of a, and a's start time is kept.", "quantifier": "all pairs of aggregations", "why_tests_cant": "all map overlaps", "anchors": ["interval_aggregation_merge.go:Merge", "interval_aggregation_merge.go:merge"]}
{"id": "C21", "title": "Merged minimum and maximum are those of all samples", "statement": "After merging, a timer's or job's min/max equals the min/max over both sides' samples.", "quantifier": "all pairs of aggregations produced by emissions", "why_tests_cant": "needs every combination of empty and non-empty sides; the code mishandles jobs without completions", "anchors": ["interval_aggregation_merge.go:TimerAggregation.merge"]}
{"id": "C22", "title": "Merging into a new aggregation copies it", "statement": "Merging an aggregation into a fresh one with the same start time yields the same data in every map.", "quantifier": "all aggregations", "why_tests_cant": "all contents", "anchors": ["interval_aggregation_merge.go:Merge", "healthd/healthd.go:recalculateIntervals"]}
{"id": "C23", "title": "Merge order does not matter (except gauges)", "statement": "Merging any list of aggregations into a fresh one gives the same events, error counts, timer and job counts, sums, minima and maxima for every order of the list and every map iteration order; gauges may depend on the order.", "quantifier": "all lists of aggregations and all permutations, all map iteration orders", "why_tests_cant": "Go randomises map iteration; a test sees a few orders", "anchors": ["healthd/healthd.go:recalculateIntervals", "interval_aggregation_merge.go:Merge"]}
{"id": "C24", "title": "Clone is an equal, independent copy", "statement": "A clone has the same contents as the original, and no later change made through the original (or the clone) is visible through the other.", "quantifier": "all aggregations, all later mutations", "why_tests_cant": "aliasing over all later mutations", "anchors": ["interval_aggregation_clone.go:Clone"]}
{"id": "C25", "title": "Merge leaves its argument alone and shares nothing with it", "statement": "a.Merge(b) does not modify anything reachable from b, and later changes to a are not visible through b or vice versa.", "quantifier": "all heaps in which a and b are disjoint", "why_tests_cant": "aliasing over all later mutations", "anchors": ["interval_aggregation_merge.go:Merge", "healthd/api.go:combineAggregations"]}
{"id": "C26", "title": "Splitting traffic over processes and merging is the same as one process", "statement": "If a stream of emissions for one interval is split in any way over several aggregators, merging their aggregations gives the same event, error and status counts, timer counts, sums as one aggregator that saw all of it.", "quantifier": "all histories and all ways of splitting them", "why_tests_cant": "all interleavings", "anchors": ["interval_aggregation_merge.go:Merge", "aggregator.go:EmitEvent"]}
{"id": "C27", "title": "UDP packets respect the size limit", "statement": "Every UDP packet sent by the StatsD sink is non-empty and at most 1440 bytes long.", "quantifier": "all histories of emissions, flushes and drains, all key lengths, all sanitisers", "why_tests_cant": "boundary arithmetic over all lengths and histories", "anchors": ["statsd_sink.go:writeStatsDMetric", "statsd_sink.go:flush"]}
{"id": "C28", "title": "Metrics are neither lost, split, duplicated nor reordered", "statement": "The packets sent so far followed by the pending buffer are exactly the metric lines of at most 1440 bytes in emission order, and no line is split over two packets; only lines longer than 1440 bytes are dropped.", "quantifier": "all histories", "why_tests_cant": "all histories and packet boundaries", "anchors": ["statsd_sink.go:writeStatsDMetric", "statsd_sink.go:processCmd"]}
{"id": "C29", "title": "Datagrams parse back to the metrics emitted", "statement": "With the default sanitiser, whatever bytes are in prefix, job and event names (including ':', '|', newlines), splitting a packet at newlines, ':' and '|' gives back exactly the emitted (key, value, type) triples; names cannot inject or corrupt metrics.", "quantifier": "all byte strings for prefix, job, event; all histories", "why_tests_cant": "adversarial names range over all byte strings", "anchors": ["statsd_sink.go:sanitizeKey", "statsd_sink.go:writeSanitizedKeys"]}
{"id": "C30", "title": "Cached key buffers are invisible", "statement": "The bytes produced for an emission depend only on the sink's options and that emission, not on earlier emissions (the prefix-buffer cache never leaks stale bytes).", "quantifier": "all histories", "why_tests_cant": "stale-cache bugs need particular histories", "anchors": ["statsd_sink.go:getPrefixBuffer"]}
{"id": "C31", "title": "Drain sends everything emitted before it", "statement": "When Drain returns, every (not oversized) metric accepted by the sink before the Drain call has been handed to the UDP socket and nothing is left in the buffer.", "quantifier": "all schedules and histories with one drainer", "why_tests_cant": "all interleavings with emitters and the flush ticker", "anchors": ["statsd_sink.go:Drain", "statsd_sink.go:loop"]}
{"id": "C32", "title": "Stop and Drain always return", "statement": "A call to Stop or Drain returns.", "quantifier": "all schedules with concurrent Stop/Drain callers", "why_tests_cant": "a lost wake-up depends on the schedule; the code swallows a Stop that arrives during a Drain", "anchors": ["statsd_sink.go:Stop", "statsd_sink.go:Drain", "statsd_sink.go:loop"]}
{"id": "C33", "title": "Which StatsD lines an emission produces", "statement": "An event, error, timing or gauge produces the top-level line unless SkipTopLevelEvents and the job-nested line unless SkipNestedEvents, in that order, and a completion always produces exactly one line keyed by job and status; empty name components produce no empty dot segments.", "quantifier": "all option settings and emissions", "why_tests_cant": "all combinations and names", "anchors": ["statsd_sink.go:processEvent", "statsd_sink.go:processComplete", "statsd_sink.go:writeSanitizedKeys"]}
{"id": "C34", "title": "StatsD timings are in milliseconds, correctly rounded", "statement": "The timing value sent is the duration in milliseconds: truncated to an integer from 10 ms up, otherwise rounded to two decimals, off by at most half a hundredth of a millisecond (plus float error).", "quantifier": "all int64 durations", "why_tests_cant": "2^64 inputs including negative ones", "anchors": ["statsd_sink.go:writeNanosToTimingBuf"]}
{"id": "C35", "title": "Different events have different StatsD keys", "statement": "Two different (job, event) emissions of the same kind never share a StatsD key.", "quantifier": "all names", "why_tests_cant": "needs all pairs of names; false in general because '.' joins and '$' replaces", "anchors": ["statsd_sink.go:writeSanitizedKeys", "statsd_sink.go:sanitizeKey"]}
{"id": "C36", "title": "One complete log line per emission, deterministic key order", "statement": "Each emission makes exactly one Write of one newline-terminated record; key/value pairs appear sorted by key whatever the map iteration order, so the record is a function of the arguments and the time.", "quantifier": "all arguments and all map iteration orders", "why_tests_cant": "Go randomises map iteration", "anchors": ["writer_sink.go:EmitEvent", "writer_sink.go:writeMapConsistently"]}
{"id": "C37", "title": "Human readable durations", "statement": "The duration shown in a log line is the true one truncated to the unit shown: at most 2 µs in ns, at most 2 ms in µs, above in ms; the shown number is within one unit of the truth.", "quantifier": "all int64 durations", "why_tests_cant": "2^64 inputs", "anchors": ["writer_sink.go:writeNanoseconds"]}
{"id": "C38", "title": "JSON log records are lossless", "statement": "The JSON record written for an emission decodes back to the same job, event, value, status and key/values; an emission whose value JSON cannot represent (NaN, ±Inf) writes nothing.", "quantifier": "all arguments with valid UTF-8 strings", "why_tests_cant": "all strings needing escapes, all values", "anchors": ["json_writer_sink.go:EmitEvent", "json_writer_sink.go:EmitGauge"]}
{"id": "C39", "title": "/health serves exactly the metrics JSON", "statement": "A request for /health gets status 200 and a body that is exactly the JSON of the current metrics; any other path gets 404.", "quantifier": "all metric contents and paths", "why_tests_cant": "all names; the body is passed through a format string, so names containing '%' corrupt it", "anchors": ["json_polling_sink_http.go:ServeHTTP"]}
{"id": "C40", "title": "No emission can break the metrics endpoint", "statement": "Whatever was emitted, /health answers 200 with the metrics.", "quantifier": "all emission histories", "why_tests_cant": "needs all float values; a NaN or Inf gauge makes the JSON encoder fail", "anchors": ["json_polling_sink_http.go:ServeHTTP", "aggregator.go:EmitGauge"]}
{"id": "C41", "title": "healthd totals are the sums of the hosts' latest reports", "statement": "After recalculation, for every interval reported since the last one, each event, error, timer and job count healthd shows equals the sum over (host, process) of the counts in that process's latest report of the interval.", "quantifier": "all sequences of poll responses, purges and recalculations, all map orders", "why_tests_cant": "unbounded histories of several hosts", "anchors": ["healthd/healthd.go:consumePollResponse", "healthd/healthd.go:recalculateIntervals", "healthd/healthd.go:setAggregation"]}
{"id": "C42", "title": "Polling again does not double count", "statement": "Consuming a response whose intervals were all already consumed with the same serial numbers changes no aggregation and marks no interval for recalculation, however often it is repeated.", "quantifier": "all states and responses", "why_tests_cant": "all repetitions", "anchors": ["healthd/healthd.go:consumePollResponse"]}
{"id": "C43", "title": "healthd's time series is sorted, duplicate free and bounded", "statement": "The aggregations served are in strictly increasing order of start time with no duplicates, at most retain/interval of them, and when truncation happens the newest are kept.", "quantifier": "all histories", "why_tests_cant": "all histories of out-of-order reports", "anchors": ["healthd/healthd.go:setAggregation", "healthd/healthd.go:purge"]}
{"id": "C44", "title": "Host status is faithful", "statement": "A host's status always shows the outcome of its last consumed poll; first/last success times are set only by responses with code 200 and no error, the first never changes once set; other hosts are untouched and the set of hosts never changes.", "quantifier": "all sequences of responses", "why_tests_cant": "all sequences", "anchors": ["healthd/healthd.go:consumePollResponse", "healthd/healthd.go:memorySafeHosts"]}
{"id": "C45", "title": "Failed or incompatible responses contribute no data", "statement": "A response with an error, a code other than 200 or a different interval duration than the first accepted one changes no aggregation.", "quantifier": "all states and responses", "why_tests_cant": "all states", "anchors": ["healthd/healthd.go:consumePollResponse"]}
{"id": "C46", "title": "No response from a monitored host can crash healthd", "statement": "Whatever a host answers, healthd keeps running.", "quantifier": "all responses a host can send", "why_tests_cant": "needs all malformed responses; a zero interval_duration divides by zero", "anchors": ["healthd/healthd.go:consumePollResponse"]}
{"id": "C47", "title": "The same interval from two polls is recognised as the same", "statement": "Two reports of the same interval instant by the same process are stored under one key.", "quantifier": "all time zone configurations of host and healthd", "why_tests_cant": "depends on time.Time == comparing location pointers; only fails across zones", "anchors": ["healthd/healthd.go:hostAggregationKey", "healthd/healthd.go:consumePollResponse", "aggregator.go:getIntervalAggregation"]}
{"id": "C48", "title": "Purge removes exactly the stale host data", "statement": "A purge removes exactly the host reports whose interval started more than five intervals ago and keeps the rest, and never changes totals of intervals already computed beyond dropping those over the limit.", "quantifier": "all states and clock readings", "why_tests_cant": "all states", "anchors": ["healthd/healthd.go:purge"]}
{"id": "C49", "title": "Debouncer: rate and latency", "statement": "The debouncer fires only after a request, at most once per threshold, and never later than the first loop iteration whose clock is past the oldest pending request by more than the threshold; a pending request is never forgotten.", "quantifier": "all sequences of requests and clock readings", "why_tests_cant": "real-time schedules cannot be enumerated", "anchors": ["healthd/debouncer.go:debouncer"]}
{"id": "C50", "title": "healthd's aggregation loop never deadlocks with its debouncer", "statement": "The aggregation goroutine and the debouncer can always make progress.", "quantifier": "all schedules, any number of hosts", "why_tests_cant": "a cyclic wait needs a particular schedule and more than 64 pending responses", "anchors": ["healthd/healthd.go:pollAndAggregate", "healthd/debouncer.go:debouncer"]}
{"id": "C51", "title": "API requests racing with Stop return", "statement": "An API request (aggregations, hosts) made around Stop returns.", "quantifier": "all schedules of requests and Stop", "why_tests_cant": "check-then-act race", "anchors": ["healthd/healthd.go:getAggregationSequence", "healthd/healthd.go:Stop"]}
{"id": "C52", "title": "/jobs returns the top jobs", "statement": "The jobs API returns each job of the overall aggregation at most once, sorted by the requested key (name ascending, everything else descending), and with limit n > 0 the n first of them (so no omitted job precedes a returned one); an unknown sort returns all jobs in some order, limit ≤ 0 means no limit.", "quantifier": "all aggregations, sort keys and limits, all map orders and all unstable sorting algorithms", "why_tests_cant": "all inputs and tie orders", "anchors": ["healthd/api.go:filterJobs", "healthd/api.go:sortJobs", "healthd/api.go:getLimit"]}
{"id": "C53", "title": "Average and standard deviation", "statement": "The average shown is sum/count and the standard deviation the sample standard deviation of the durations (0 for fewer than two samples), and both are always finite numbers so the response can be rendered.", "quantifier": "all sequences of durations", "why_tests_cant": "cancellation in floating point; for some inputs the code takes the square root of a negative number", "anchors": ["healthd/api.go:filterJobs"]}
{"id": "C54", "title": "Overall is the merge of the time series", "statement": "The overall aggregation has for every counter the sum over the retained intervals, for every gauge the value of the latest interval that has it, and is absent iff there are no intervals.", "quantifier": "all time series", "why_tests_cant": "all series", "anchors": ["healthd/api.go:combineAggregations", "healthd/api.go:Overall"]}
{"id": "C55", "title": "/hosts lists every monitored host once, sorted", "statement": "The hosts API returns one entry per distinct monitored host:port, sorted by host:port.", "quantifier": "all host lists and map orders", "why_tests_cant": "map iteration order", "anchors": ["healthd/api.go:Hosts", "healthd/healthd.go:memorySafeHosts"]}
{"id": "C56", "title": "HTTP status to completion status", "statement": "healthd's own request jobs complete with Success below 400, ValidationError for 422, Junk for other 4xx, Error from 500 up.", "quantifier": "all status codes", "why_tests_cant": "all codes", "anchors": ["healthd/api.go:HealthMiddleware"]}
{"id": "C57", "title": "End to end: healthd counts what the hosts emitted", "statement": "If every host is polled after its last emission of an interval and healthd recalculates, the event count healthd shows for the interval equals the number of emissions of that event on all hosts in that interval.", "quantifier": "any number of hosts, all emission histories, all earlier polls", "why_tests_cant": "composition of two unbounded systems", "anchors": ["aggregator.go:EmitEvent", "healthd/healthd.go:recalculateIntervals", "json_polling_sink_http.go:ServeHTTP"]}
{"id": "C58", "title": "Librato: every emission is in exactly one flush", "statement": "Counters and measurements posted at a flush are exactly those of the emissions since the previous flush: counter values are the number of emissions, gauges have exact count, min, max of the values; nothing is posted when there was nothing.", "quantifier": "all histories of emissions and flushes", "why_tests_cant": "unbounded histories", "anchors": ["sinks/librato/sink.go:measure", "sinks/librato/sink.go:inc", "sinks/librato/sink.go:purge"]}
{"id": "C59", "title": "Librato names are valid and counters never overwrite measurements", "statement": "Sanitised names contain only A-Za-z0-9.:-_, sanitising is idempotent and keeps valid names, and in a post no counter key equals a measurement key.", "quantifier": "all strings", "why_tests_cant": "all strings", "anchors": ["sinks/librato/sink.go:sanitizeKey", "sinks/librato/sink.go:eventKeys", "sinks/librato/sink.go:send"]}
{"id": "C60", "title": "Bugsnag payload is faithful", "statement": "The payload for an error carries the configured API key, stage and host, the event as error class, the error's message, the job as context, all key/values and one frame per stack frame in order.", "quantifier": "all inputs", "why_tests_cant": "all inputs", "anchors": ["sinks/bugsnag/api.go:newPayload"]}
{"id": "C61", "title": "Stack frame names split without loss", "statement": "Splitting a function's full name into package and name loses nothing but the separating dot: package + '.' + name is the full name whenever the last path element contains a dot, the name part contains no slash, and the package's last element no dot.", "quantifier": "all byte strings", "why_tests_cant": "all strings", "anchors": ["stack/frame.go:packageAndName"]}
{"id": "C62", "title": "Runtime metrics report the enabled gauges", "statement": "Report emits exactly the gauges of the enabled option groups, each once, in a fixed order; none for disabled groups.", "quantifier": "all option settings and readings", "why_tests_cant": "2^6 option settings times all readings", "anchors": ["runtime_metrics/runtime_metrics.go:Report"]}
{"id": "C63", "title": "healthtop name filter", "statement": "With a name filter healthtop shows exactly the jobs whose name contains it, in the order healthd returned them.", "quantifier": "all job lists and names", "why_tests_cant": "all lists", "anchors": ["cmd/healthtop/jobs.go:filterJobsByName"]}
{"id": "C64", "title": "EventErr keeps nil-ness", "statement": "EventErr (and EventErrKv) return nil exactly when they are given a nil error, and otherwise an error with the same message, so `return job.EventErr(name, err)` can replace `return err`.", "quantifier": "all reachable streams, jobs, events, error values and key/values", "why_tests_cant": "all error values and states; nil is a single point that ordinary tests skip", "anchors": ["health.go:wrapErr", "health.go:EventErr"]}
{"id": "C65", "title": "Merged error samples", "statement": "After merging the aggregations of several processes, an error counter shows at most five samples, each really logged by one of the processes, and all of them as long as at most five remain after dropping immediate repeats; merging works as if the later processes' samples had been logged after the first's errors.", "quantifier": "all lists of processes, emissions and events", "why_tests_cant": "ring buffers with arbitrary fill and rotation, any number of merges", "anchors": ["interval_aggregation_merge.go:merge", "interval_aggregation.go:addError"]}
{"id": "C66", "title": "StatsD gauge values read back", "statement": "The gauge text sent is a decimal number that reads back as the gauge value: to within half a hundredth, and exactly (the same float64) for values strictly between -0.1 and 0.1.", "quantifier": "all finite float64 values", "why_tests_cant": "2^64 float values", "anchors": ["statsd_sink.go:processGauge"]}
{"id": "C67", "title": "healthd decodes exactly what a host reports", "statement": "What healthd decodes from a host's /health body is exactly the host's process id, interval duration and metrics: the same start times, serial numbers, jobs, counts, sums, extremes and gauges.", "quantifier": "all metrics, all emission histories, all time zones of host and healthd", "why_tests_cant": "needs a round trip through printing and parsing for every value", "anchors": ["json_polling_sink_http.go:ServeHTTP", "healthd/poll.go:poll", "interval_aggregation.go"]}
{"id": "C68", "title": "Sums of squares are accurate", "statement": "The sum of squares of a job's durations, as emitted by one process and as merged over many, differs from the exact sum by at most the stated relative error times the number of additions; sums and counts are exact.", "quantifier": "all lists of fewer than 2^31 durations in int64 whose sum is in int64, all groupings into processes", "why_tests_cant": "floating-point error accumulates with the number of samples and the order of merging", "anchors": ["interval_aggregation.go:addTiming", "interval_aggregation_merge.go:merge"]}
{"id": "C69", "title": "healthd's answers show its data", "statement": "Each endpoint of healthd's API answers 200 with a JSON document that carries healthd's identifier, the interval duration and exactly the intervals, the overall aggregation, the job rows or the host statuses; /jobs answers 500 exactly if a row has a number that JSON cannot represent.", "quantifier": "all states, sort keys, limits, names without percent signs and in UTF-8, times of years 1-9999, all zones of whole minutes", "why_tests_cant": "needs a round trip through printing and reading for every value", "anchors": ["healthd/api.go:renderJson", "healthd/api.go:filterJobs", "healthd/api.go:Jobs", "healthd/api.go:Hosts", "healthd/api.go:Overall", "healthd/api.go:Aggregations"]}
{"id": "C70", "title": "Error traces start at the caller and show every frame", "statement": "The trace attached by EventErr starts with the function that called it and lists the callers outwards, at most 50 of them; its text has one line per frame.", "quantifier": "all call stacks", "why_tests_cant": "stack depths are unbounded", "anchors": ["stack/stack.go:NewTrace", "health.go:wrapErr", "sinks/bugsnag/sink.go"]}
{"id": "C72", "title": "Runtime metrics stop", "statement": "Once Stop has returned for every Start, no gauge is emitted any more; Stop needs a Start to return; options without a positive interval crash the program at Start.", "quantifier": "all interleavings of starts, ticks and stops", "why_tests_cant": "interleavings of goroutines", "anchors": ["runtime_metrics/runtime_metrics.go:Start", "runtime_metrics/runtime_metrics.go:Stop", "runtime_metrics/runtime_metrics.go:metricsPoller"]}
{"id": "C73", "title": "healthtop asks for what the user asked for", "statement": "healthd receives the sort order given on the command line, whatever characters it contains, and a limit of the rows that fit on the screen (at least three), or none if the rows are to be filtered by name.", "quantifier": "all option texts and screen heights", "why_tests_cant": "all strings", "anchors": ["cmd/healthtop/jobs.go:pollHealthDJobs", "cmd/healthtop/jobs.go:maxRows", "healthd/api.go:getSort", "healthd/api.go:getLimit"]}
{"id": "C74", "title": "healthtop's cells", "statement": "Durations are shown as a whole number of ns, us or ms that is never more than the duration and, for positive ones, more than half of it; counts of failures are red exactly if there are any; the number of runs is green exactly if all succeeded.", "quantifier": "all rows", "why_tests_cant": "all int64", "anchors": ["cmd/healthtop/jobs.go:printCellNanos", "cmd/healthtop/jobs.go:printJob"]}
{"id": "C75", "title": "healthtop's table of hosts", "statement": "healthtop lists every monitored host once, ordered by address, as Success, Failure with the error, or Unknown, exactly by the outcome of healthd's latest poll of it.", "quantifier": "all histories of healthd, all hosts", "why_tests_cant": "composition of healthd's history, its JSON answer and healthtop's decoding", "anchors": ["cmd/healthtop/hosts.go:printHost", "healthd/api.go:Hosts", "healthd/healthd.go:consumePollResponse"]}
{"id": "C76", "title": "healthtop's screen is up to date", "statement": "Every second and with every answer the screen shows the data of the last answer received and, if the clock moves between receipts, a status line with the outcome of the last poll received.", "quantifier": "all interleavings of ticks, results and receipts", "why_tests_cant": "interleavings of concurrent polls", "anchors": ["cmd/healthtop/jobs.go:jobsLoop", "cmd/healthtop/hosts.go:hostsLoop", "cmd/healthtop/main.go:FmtStatus"]}
{"id": "C77", "title": "healthtop shows healthd's errors and never goes back", "statement": "If healthd could not answer, healthtop shows an error; newer data is never replaced by older.", "quantifier": "all answers and interleavings", "why_tests_cant": "status codes and orders of concurrent answers", "anchors": ["cmd/healthtop/jobs.go:pollHealthDJobs", "cmd/healthtop/jobs.go:jobsLoop"]}
{"id": "C71", "title": "Frames of the standard library are recognised", "statement": "A frame counts as a system frame (and is reported as not being in the project) exactly if its file lies below GOROOT.", "quantifier": "all program counters, file names and values of GOROOT", "why_tests_cant": "all strings", "anchors": ["stack/frame.go:isSystemPackage", "stack/frame.go:NewFrame"]}
{"id": "C78", "title": "Sinks with a queue process emissions in order and stop", "statement": "The goroutines of the Librato and Bugsnag sinks process each accepted emission exactly once and in order, can always catch up while running, do nothing after Stop returned; then no other Stop returns and only as many emissions are accepted as fit into the channel.", "quantifier": "all executions: interleavings of emitters, goroutine, ticker and callers of Stop", "why_tests_cant": "interleavings; the channel holds thousands of commands", "anchors": ["sinks/librato/sink.go:start", "sinks/librato/sink.go:Stop", "sinks/bugsnag/sink.go:errorProcessingLoop", "sinks/bugsnag/sink.go:ShutdownServer"]}
{"id": "C79", "title": "Librato: every accepted emission is posted", "statement": "In every execution of a running Librato sink each accepted emission is shown by exactly one post, the one of the first tick after it was processed; while the sink runs, processing the queue and one tick suffice to have everything posted.", "quantifier": "all executions", "why_tests_cant": "interleavings and unbounded histories", "anchors": ["sinks/librato/sink.go:start", "sinks/librato/sink.go:purge", "sinks/librato/sink.go:send"]}
{"id": "C80", "title": "Bugsnag: every error is reported with its key/values", "statement": "In every execution of a program with a Bugsnag sink, the reports sent and waiting are in order exactly those of the errors emitted (not muted, not yet emitted), and each is sent with the key/values the error was emitted with.", "quantifier": "all executions of a program with any number of jobs", "why_tests_cant": "interleavings of the program and the sink's goroutine; shared maps", "anchors": ["sinks/bugsnag/sink.go:EmitEventErr", "sinks/bugsnag/sink.go:errorProcessingLoop", "health.go:mergedKeyValues"]}
{"id": "C81", "title": "healthd monitors the configured hosts and itself", "statement": "The program healthd monitors exactly the addresses listed in HEALTHD_MONITORED_HOSTPORTS and its own health address, and ends if there are none.", "quantifier": "all environments", "why_tests_cant": "all lists of addresses", "anchors": ["cmd/healthd/main.go:main", "cmd/healthd/main.go:getMonitoredHostPorts", "healthd/healthd.go:StartNewHealthD"]}
{"id": "C82", "title": "Processes have different identifiers", "statement": "Two processes with different host names or process ids have different identifiers, so healthd does not take the one's data for the other's.", "quantifier": "all host names and process ids", "why_tests_cant": "all strings and numbers", "anchors": ["identifier.go:getIdentifier"]}
{"id": "C83", "title": "healthd shows the data of the hosts it monitors", "statement": "Whatever interval the monitored hosts (all of them) use, healthd takes up every interval they report.", "quantifier": "all histories of the program healthd", "why_tests_cant": "depends on whose answer is the first", "anchors": ["cmd/healthd/main.go:main", "healthd/healthd.go:consumePollResponse"]}
{"id": "C84", "title": "Immediate repeats of a failure take no second sample", "statement": "The error samples of an event are the last five errors received, where an error that is the same failure (same error, same place) as the one before takes no second place, whatever the timing of program and aggregator.", "quantifier": "all executions of emitting goroutines and the aggregator", "why_tests_cant": "depends on which goroutine is faster by nanoseconds", "anchors": ["health.go:EventErr", "error.go:UnmutedError", "interval_aggregation.go:addError", "stack/stack.go:Frames"]}
{"id": "C85", "title": "The API of healthd works on copies", "statement": "Whatever the handlers of the API do with the aggregations they were given, the goroutine of healthd holds what it would hold without them; what a handler was given stays as it was, however long the goroutine and other handlers go on.", "quantifier": "all executions of the goroutine together with any number of requests that run any code", "why_tests_cant": "interleavings; aliasing of maps and slices is invisible to most tests", "anchors": ["healthd/healthd.go:memorySafeIntervals", "healthd/healthd.go:recalculateIntervals", "healthd/healthd.go:setAggregation", "healthd/healthd.go:consumePollResponse", "healthd/api.go:apiRouter"]}
{"id": "C86", "title": "Everything happens eventually", "statement": "If goroutines that can proceed do, and a select does not pass over the same ready case for ever: every emission shows up in GetMetrics, is sent to StatsD, is part of a Librato flush, every error is reported to Bugsnag; Emit, GetMetrics, Drain, Stop and ShutdownServer return; healthd consumes every poll, recalculates after every response, answers every API request, and its Stop returns.", "quantifier": "all executions without end that are fair in this sense, all interleavings", "why_tests_cant": "liveness: no finite test shows that something never happens", "anchors": ["aggregator.go:startAggregator", "json_polling_sink.go:GetMetrics", "statsd_sink.go:loop", "statsd_sink.go:Drain", "sinks/librato/sink.go:start", "sinks/bugsnag/sink.go:errorProcessingLoop", "healthd/healthd.go:pollAndAggregate", "healthd/debouncer.go:debouncer"]}
{"id": "C87", "title": "The past does not change", "statement": "Once all processes have reported an interval and healthd has recalculated, healthd goes on showing the totals over all processes that ever reported the interval, for as long as it shows the interval at all, whatever it has thrown away since.", "quantifier": "all histories of healthd's loop: any responses, purges and recalculations in any order, any map iteration orders", "why_tests_cant": "needs runs over more than five intervals with processes that keep more intervals than healthd does; the totals shrink only when some of the processes are polled again", "anchors": ["healthd/healthd.go:purge", "healthd/healthd.go:consumePollResponse", "healthd/healthd.go:recalculateIntervals"]}
{"id": "C88", "title": "healthtop and healthd find each other", "statement": "healthtop's requests go to the address given by --source, to paths that healthd serves, and healthd understands their parameters whatever their text; healthd polls \"/health\" of the hosts it was told to monitor; the default addresses and those of the README fit together.", "quantifier": "all texts of the options, all environments, all machines", "why_tests_cant": "the defaults of two programs, which no test starts together", "anchors": ["cmd/healthtop/main.go:main", "cmd/healthtop/jobs.go:pollHealthDJobs", "cmd/healthtop/hosts.go:pollHealthDHosts", "cmd/healthd/main.go:getServerHostPort", "healthd/api.go:apiRouter", "healthd/poll.go:metricsUrl"]}
{"id": "C89", "title": "From the program's calls to the numbers", "statement": "A sink hears exactly the events, errors, timings, gauges and completions that the program states after the sink was added, in order, each under the name of its job; the counts and sums in the polling sink's metrics, added up over the intervals, are those of the program; the StatsD sink sends the lines of these statements and nothing else.", "quantifier": "all programs using a stream, any jobs, key/values and sinks; all clocks; any order in which the worker receives the emissions and any intervals they fall into", "why_tests_cant": "composition of stream, job, sink, worker and aggregator over unbounded programs", "anchors": ["health.go:NewStream", "health.go:AddSink", "health.go:NewJob", "health.go:Event", "health.go:EventErr", "health.go:Complete", "json_polling_sink.go:EmitEvent", "json_polling_sink.go:GetMetrics", "statsd_sink.go:EmitEvent", "aggregator.go:emitEvent"]}
{"id": "C90", "title": "healthd's own numbers", "statement": "healthd's own log and metrics contain one report for every poll, recalculation and API request with its key/values (the host polled, path and code), however these run at the same time; its metrics count every poll as a success exactly if healthd got data from the host and as an error, by stage, otherwise, every recalculation, and every request by endpoint and status.", "quantifier": "all numbers and interleavings of polls, recalculations and requests, all their results; all intervals they fall into", "why_tests_cant": "interleavings of goroutines, composition with the polling sink", "anchors": ["healthd/poll.go:poll", "healthd/healthd.go:recalculateIntervals", "healthd/api.go:HealthMiddleware", "cmd/healthd/main.go:main"]}
{"id": "C91", "title": "From the programs to the screen", "statement": "If programs report to polling sinks, healthd polls these processes (in any order, with failures, purges and recalculations in between), has seen all that they emitted in the intervals it shows and these intervals cover what the programs did, then healthtop shows a row for exactly the jobs that the programs used, with the number of completions, and of those with each status, that the programs made — also after healthd has thrown the processes' reports away; each interval shown has the counters of what all processes emitted in it.", "quantifier": "all programs, fleets of processes, orders of polls, purges and recalculations, job names in UTF-8, sort orders, name filters and screen heights", "why_tests_cant": "composition of all parts of the system", "anchors": ["health.go:Stream", "health.go:Job", "json_polling_sink.go:JsonPollingSink", "healthd/poll.go:poll", "healthd/healthd.go:consumePollResponse", "healthd/healthd.go:recalculateIntervals", "healthd/healthd.go:purge", "healthd/api.go:Jobs", "cmd/healthtop/jobs.go:pollHealthDJobs"]}
{"id": "C92", "title": "A stream may be used by many goroutines", "statement": "After a stream has been set up, goroutines may use it at the same time if none adds sinks or sets the stream's key/values, each sets key/values only of jobs that it made itself, and none reports an error object a second time; emitting from shared jobs (also the stream itself) is allowed. Then, however the goroutines' memory accesses are interleaved: no two accesses race; each goroutine's calls reach each sink in the program's order with exactly the key/values in force by the program's own text; no goroutine ever waits or panics; all end; and a sink has heard the statements of all programs exactly once, so that the metrics, and what healthd and healthtop make of them, are those of all goroutines together. Outside this discipline there are races, and sinks and key/values get lost.", "quantifier": "all setups, numbers of goroutines, programs within the discipline and schedules of single memory accesses", "why_tests_cant": "races show up in few of very many schedules", "anchors": ["health.go:Stream", "health.go:Job", "health.go:mergedKeyValues", "health.go:AddSink", "health.go:KeyValue", "error.go:wrapErr"]}
{"id": "C93", "title": "Answers of the API are atomic", "statement": "Every answer of healthd's API shows the data of one moment while the request was under way: aggregations (or jobs, or hosts) and interval duration belong together, although the handler gets a copy of the former from the aggregation goroutine and afterwards reads the latter by itself. Reading it is free of data races.", "quantifier": "all executions of healthd's goroutines (any interleaving of polls, recalculations, purges, requests, the debouncer and Stop), all responses, all orders of iteration", "why_tests_cant": "a test makes a request while nothing else happens; a handler that is delayed between its two reads while the first host answers does not occur in a test", "anchors": ["healthd/api.go:133-173", "healthd/healthd.go:133-211", "healthd/healthd.go:238-244"]}
{"id": "C94", "title": "Log files can be read back", "statement": "The file that a WriterSink or JsonWriterSink writes, also when many goroutines emit at the same time, is made of whole records, one for each statement of the programs (JSON: each that JSON can express), saying job, event, error, value, status, key/values in force and time; the records of one goroutine are in the order of its program. For text, names, messages and key/values must not contain newlines; for JSON they must be UTF-8.", "quantifier": "all programs of any number of goroutines that keep to the discipline of C92, all interleavings, all clock readings with four-digit years, at every moment of the run", "why_tests_cant": "a test reads back a few lines written by one goroutine; that no interleaving, name or value breaks the file into other records cannot be sampled", "anchors": ["writer_sink.go:24-134", "json_writer_sink.go:13-90", "health.go:101-181"]}
{"id": "C95", "title": "Answers of other versions mean the same to healthd and to healthtop", "statement": "Two answers of a process to healthd, or of healthd to healthtop, that differ only in members that the reader does not know, in the order of members with different names and in the case of names, at any depth and in any number of places, are decoded to the same value (or both refused).", "quantifier": "all pairs of well-formed JSON texts related by any number of such differences at any depth; all local time zones", "why_tests_cant": "field matching, order and case interact in a decoder with nested maps, arrays and embedded structs; tests try a few documents", "anchors": ["healthd/poll.go:51-67", "json_polling_sink_http.go:10-14", "interval_aggregation.go:9-61", "cmd/healthtop/jobs.go:82-86", "cmd/healthtop/hosts.go:57-61", "healthd/api.go:17-57"]}
{"id": "C96", "title": "A Librato series belongs to one event", "statement": "Every series posted to Librato shows the number of the events or errors, or the values of the timings, gauges or completions, of one name: over all jobs, or of one job.", "quantifier": "all prefixes; all lists of emissions between two posts; all job and event names of valid characters without dots", "why_tests_cant": "collisions of names are rare combinations of names chosen by users; tests use a handful of names", "anchors": ["sinks/librato/sink.go:167-255", "sinks/librato/sink.go:314-351"]}
{"id": "C97", "title": "A StatsD server shows the numbers that were emitted", "statement": "A StatsD server that receives the datagrams shows, per event and per job and event: the number of events and of errors, the durations in milliseconds, and the value each gauge was last set to.", "quantifier": "all prefixes, skip options, histories of emissions and flushes; all job and event names of letters, digits and underscores", "why_tests_cant": "the meaning of the lines is the server's; tests compare lines with expected lines and do not see what a server makes of them", "anchors": ["statsd_sink.go:193-285", "statsd_sink.go:287-358"]}
{"id": "C98", "title": "The server of a running process answers from one history", "statement": "There is one history of the sink, consisting of the emissions in the order in which they were made, such that every answer of /health shows the metrics at one point of this history between the arrival of the request and the answer; healthd can take the process for one that is polled at these points. A request that waits can always be answered, until ShutdownServer has returned: then /health accepts requests and never answers.", "quantifier": "all interleavings of emitting goroutines, the worker, other callers of GetMetrics, ShutdownServer and any number of HTTP handlers; all requests and clock readings", "why_tests_cant": "the interleavings of handlers, worker and emitters are unbounded; a test sees one request at a time", "anchors": ["json_polling_sink_http.go:16-38", "json_polling_sink.go:35-80", "aggregator.go:22-79"]}
{"id": "C99", "title": "Requests leave no connections behind", "statement": "However many requests healthd, healthtop and the sinks make, at most two connections to a host are open besides those of requests that are still in progress.", "quantifier": "all runs of any number of requests to any hosts, in every interleaving: refused or broken connections, answers with and without bodies, reads that fail, connections used again or closed by the server", "why_tests_cant": "a leak shows only after hours, when the process runs out of descriptors; the tests make a handful of requests", "anchors": ["sinks/librato/sink.go:296-310", "sinks/bugsnag/api.go:110-121", "healthd/poll.go:36-59", "cmd/healthtop/jobs.go:70-82", "cmd/healthtop/hosts.go:45-57"]}
{"id": "C100", "title": "The requests of the sinks reach the server with their credentials and their data", "statement": "Every flush of the Librato sink that has data is one POST of its JSON to Librato's address, from which the server reads exactly the user and the key the sink was made with; nothing in them can add headers. Every report of the Bugsnag sink is one POST of the notification to the configured endpoint, or Bugsnag's if there is none.", "quantifier": "all users and keys (any bytes), all states of the sink, all configurations and reports", "why_tests_cant": "base64 has three cases by length and the credentials are arbitrary bytes; the tests do not look at the Authorization header", "anchors": ["sinks/librato/sink.go:265-311", "sinks/bugsnag/api.go:98-124", "sinks/bugsnag/sink.go:23-39"]}
{"id": "C101", "title": "Bugsnag's configuration has the defaults its comments promise", "statement": "What is left out of the configuration of the Bugsnag sink is replaced as documented: the endpoint by Bugsnag's, the release stage by production, the host name by the machine's; and the version of the app is reported.", "quantifier": "all configurations and reports", "why_tests_cant": "the tests set every field of the configuration", "anchors": ["sinks/bugsnag/api.go:12-34", "sinks/bugsnag/api.go:126-167", "sinks/bugsnag/sink.go:23-39"]}
{"id": "C102", "title": "A sink that panics disturbs neither the other sinks nor Run", "statement": "If a call of a sink panics, the other sinks hear everything they would hear otherwise, and Run still ends the job exactly once and returns.", "quantifier": "all streams, sinks that panic at any calls (any function of the calls so far), emissions, and functions given to Run", "why_tests_cant": "no test has a sink that panics; the writer sink panics for a nil error", "anchors": ["health.go:103-181", "health.go:223-245", "writer_sink.go:37-50", "error.go:17-23"]}
{"id": "C103", "title": "The settings of a Librato sink take effect", "statement": "A program that sets SanitizationFunc, Source or FlushPeriod of a Librato sink after New and before its first emission gets flushes with that period and posts with those settings, however the sink's goroutine is scheduled.", "quantifier": "every program that sets fields and then emits, every interleaving of its actions with the start, the work and the ticks of the sink's goroutine", "why_tests_cant": "the outcome depends on whether the goroutine started by New has read a field before the caller assigns it, which a test on one machine sees one way only", "anchors": ["sinks/librato/sink.go:16-19", "sinks/librato/sink.go:89-111", "sinks/librato/sink.go:138-165"]}
{"id": "C104", "title": "Recalculation at the end of a round of polls sees all hosts", "statement": "When healthd's aggregation goroutine receives the nil that ends a round of polls, and recalculates, it has received the response of every monitored host in that round, exactly one of each, and nothing of that round comes later.", "quantifier": "every number of hosts and rounds (also overlapping ones), every interleaving of the polls, the goroutines that wait for them, the aggregation loop, the debouncer, API requests and Stop", "why_tests_cant": "depends on the order in which goroutines reach a WaitGroup and a shared channel of bounded capacity", "anchors": ["healthd/healthd.go:108-172", "healthd/poll.go:23-70"]}
{"id": "C105", "title": "Stop leaves no goroutine behind", "statement": "After HealthD.Stop has returned, every goroutine that healthd started (polls, the goroutines that wait for them, the debouncer) comes to an end.", "quantifier": "every execution up to the end of the aggregation loop, every continuation, any number of hosts", "why_tests_cant": "goroutines that wait for ever on a channel are invisible to the callers", "anchors": ["healthd/healthd.go:95-100", "healthd/healthd.go:108-172", "healthd/debouncer.go:8-27", "healthd/poll.go:69"]}
{"id": "C106", "title": "Values stand under their titles", "statement": "The text of healthtop's tables, read cell by cell as the terminal shows it, has the titles in its first line and then one line for every job or host of the answer, in order, with each value under its title.", "quantifier": "all answers of any length, all names, errors and numbers; every way of adding control sequences around a text", "why_tests_cant": "the tests do not look at the output of healthtop; the names and errors are any text", "anchors": ["cmd/healthtop/jobs.go:108-208", "cmd/healthtop/hosts.go:66-115"]}
{"id": "C107", "title": "The times on the screen are right", "statement": "Times on healthtop's screen read as the date and time of day, to the second, on the clock of their zone, with the right day of the week. A time in healthd's answer is shown as on healthd's clock; unless that is the zone of healthtop itself (then its abbreviation is shown), the text tells the instant.", "quantifier": "all instants of years of four digits, all zones of whole minutes, healthd and healthtop in any two zones", "why_tests_cant": "calendar rules have exceptions every 4, 100 and 400 years; zones of the test machine hide mistakes", "anchors": ["cmd/healthtop/main.go:21-33", "cmd/healthtop/hosts.go:70-70", "cmd/healthtop/hosts.go:112-112", "cmd/healthtop/jobs.go:112-112"]}
{"id": "C108", "title": "A lossy network only takes away", "statement": "When datagrams of any number of StatsD sinks are lost or delayed, the server still reads only metrics that were emitted, each at most as often: counters never show more than was emitted, timings are some of those emitted, a gauge shows a value it was set to. If all arrive, in any order, counters are the sums over the processes.", "quantifier": "any number of processes with any histories and flushes, every choice and order of the datagrams that arrive", "why_tests_cant": "the tests use a local socket that loses nothing; what is lost depends on how lines are packed into datagrams", "anchors": ["statsd_sink.go:193-285", "statsd_sink.go:287-358"]}
{"id": "C109", "title": "The end of a round shows what was emitted before it", "statement": "Whenever healthd recalculates, its numbers for an interval count exactly what the processes had emitted in it when they made the last answers that healthd received; at the end of a round of polls these answers are not older than the round, so an interval in which nothing was emitted since the round began is shown complete - if no poll outlasts the time between two rounds.", "quantifier": "all executions of healthd's goroutines with any number of hosts and processes, all interleavings of polls, emissions, purges and recalculations", "why_tests_cant": "the order in which concurrent polls are answered, delivered and consumed decides; the fleets and histories are unbounded", "anchors": ["healthd/healthd.go:pollAndAggregate", "healthd/healthd.go:poll", "healthd/healthd.go:consumePollResponse", "healthd/poll.go:poll", "json_polling_sink_http.go:ServeHTTP"]}
{"id": "C110", "title": "Jobs inside jobs complete once each, innermost first", "statement": "A function given to Run may itself call Run, to any depth, and go on depending on the errors it gets back. Each Run that ends by a return or a panic completes its job once for each sink, with the status that belongs to how its function ended, after everything that the function did and before the caller goes on; it gives back the function's error, or an error with the panic's text. No panic leaves a Run. The completions a sink hears of are those of the runs, in the order in which they end.", "quantifier": "all programs that nest runs to any depth and decide by the errors given back, all streams", "why_tests_cant": "programs of unbounded depth whose continuation depends on results of inner runs", "anchors": ["health.go:Run", "health.go:EventErrKv", "health.go:Complete", "health.go:NewJob"]}
{"id": "C111", "title": "A panic is reported to Bugsnag once", "statement": "A panic stopped by Run is reported by each Bugsnag sink once, even if the error that Run gives back is logged again on every level of the call stack (README: health only sends one error to Bugsnag).", "quantifier": "all functions that panic, at any depth of runs, and everything done afterwards", "why_tests_cant": "the report depends on the identity of error objects across all later calls", "anchors": ["health.go:Run", "error.go:wrapErr", "sinks/bugsnag/sink.go:EmitEventErr"]}
{"id": "C112", "title": "What healthd shows for an interval only grows", "statement": "If healthd shows a number for an aggregation interval at one moment, then at every later moment at which it recalculates it shows at least that number: counts (and sums of non-negative durations that fit in 63 bits) never go down, minima never rise, maxima never fall, no number disappears from an interval, and an interval with numbers stays in the series until the series is full of later intervals. Conditions: no poll outlasts the time between two rounds, the interval is not older than the purge limit, and of every process healthd received some answer that still had the interval with everything healthd has heard of (the process may have forgotten the interval since).", "quantifier": "all processes, hosts, clocks, time zones and interleavings of emissions, polls, deliveries, rounds, purges and recalculations; all pairs of moments of an execution; all counters and summaries", "why_tests_cant": "A graph that dips is only seen when polls of two rounds interleave in a certain way; a test has one interleaving.", "anchors": ["healthd/healthd.go:pollAndAggregate", "healthd/healthd.go:poll", "healthd/healthd.go:consumePollResponse", "healthd/healthd.go:purge", "healthd/healthd.go:recalculateIntervals", "healthd/healthd.go:setAggregation", "healthd/poll.go:poll"]}
{"id": "C113", "title": "Stopping a StatsD sink loses nothing emitted before", "statement": "When Stop of a StatsD sink returns, every metric of the emissions made before the call has been sent to the server in a datagram; emissions made afterwards return at once.", "quantifier": "all options, all sequences of emissions, ticks, drains and stops interleaved with the worker's steps in any way, any number of emissions before and after", "why_tests_cant": "Tests of the sink call Drain before they look at what arrived, and never emit after Stop; the loss depends on where the last datagram boundary fell, the blocking on filling a channel of 8192.", "anchors": ["statsd_sink.go:loop", "statsd_sink.go:Stop", "statsd_sink.go:Drain", "statsd_sink.go:flush"]}
{"id": "C114", "title": "A tick of a StatsD sink sends everything emitted before it", "statement": "Once the worker of a StatsD sink has received the flush of a tick, and is not inside a Drain, the metrics of all the emissions made before the tick have been sent, in order and before those of later emissions.", "quantifier": "all options, all sequences of emissions, ticks, drains and stops interleaved with the worker's steps in any way", "why_tests_cant": "Tests call Drain; that the periodic flush alone suffices, and that no interleaving of a tick with drains and other goroutines' emissions leaves something behind, is a statement about all interleavings.", "anchors": ["statsd_sink.go:loop", "statsd_sink.go:flush", "statsd_sink.go:processCmd", "statsd_sink.go:writeStatsDMetric"]}
{"id": "C115", "title": "healthd's memory stays bounded", "statement": "However long healthd runs and however often processes report, after a purge it keeps at most six reports per process (interval of the purge and the five before), and at most two hours of intervals.", "quantifier": "all histories of responses, purges and recalculations of any length, any number of hosts and processes, any interval duration", "why_tests_cant": "A leak shows after hours or days of operation; no test runs that long, and the bound depends on how starts of intervals, purge times and restarts of processes interleave.", "anchors": ["healthd/healthd.go:purge", "healthd/healthd.go:consumePollResponse", "healthd/healthd.go:setAggregation"]}
{"id": "C116", "title": "A StatsD sink's memory depends on the names only", "statement": "However much is emitted, a StatsD sink keeps one buffer per different series (job, event, suffix) and at most one datagram.", "quantifier": "all options and all sequences of emissions and flushes of any length", "why_tests_cant": "A test sees a handful of emissions; that the cache has exactly one entry per series, and that none is ever given up, is a statement about all histories.", "anchors": ["statsd_sink.go:getPrefixBuffer", "statsd_sink.go:writeStatsDMetric", "statsd_sink.go:processCmd"]}
{"id": "C117", "title": "The memory of the polling sink and of the Librato sink depends on the names only", "statement": "However long a program runs and however much it emits, the polling sink keeps at most retention/interval intervals with one object per different series (and per job and series), and five error samples per error name; the Librato sink keeps one entry per different series since its last flush, and none after a flush, whether the post succeeded or not.", "quantifier": "all intervals and retentions, all histories of emissions, ticks and reads of any length with any clock readings; all Librato options and histories of emissions and flushes", "why_tests_cant": "A leak shows after hours of operation; tests run for milliseconds and do not look at the size of the maps.", "anchors": ["aggregator.go:getIntervalAggregation", "aggregator.go:createIntervalAggregation", "interval_aggregation.go:addError", "sinks/librato/sink.go:purge", "sinks/librato/sink.go:measure", "sinks/librato/sink.go:inc"]}
{"id": "C118", "title": "healthtop's polls do not pile up", "statement": "However long healthtop runs, the number of its polls under way stays bounded; every poll is received at most once and none is lost.", "quantifier": "all interleavings of ticks, results of polls (successes and errors, in any order) and receipts, of any length", "why_tests_cant": "A test does not run for hours against a server that does not answer; that no poll is lost or doubled is a statement about all interleavings.", "anchors": ["cmd/healthtop/jobs.go:jobsLoop", "cmd/healthtop/jobs.go:pollHealthDJobs", "cmd/healthtop/hosts.go:hostsLoop", "cmd/healthtop/hosts.go:pollHealthDHosts"]}
{"id": "C119", "title": "healthd's poll goroutines do not pile up", "statement": "However long healthd runs, the number of goroutines of its polls stays bounded by the number of hosts; every goroutine started sends exactly one message and ends, and none is lost. Also when the aggregation loop has come to a standstill no further goroutines are started.", "quantifier": "all lists of hosts, all interleavings of ticks, polls, deliveries, receipts, requests and the debouncer, of any length, and all continuations of a standstill", "why_tests_cant": "A leak of goroutines shows after hours; the count of goroutines is a statement about all interleavings of an unbounded number of them.", "anchors": ["healthd/healthd.go:pollAndAggregate", "healthd/healthd.go:poll", "healthd/poll.go:poll"]}
{"id": "C120", "title": "num_fds_used is the number of file descriptors in use", "statement": "The gauge num_fds_used of the runtime metrics is the number of file descriptors the program has in use, and it is reported at every interval, also when the descriptors are running out.", "quantifier": "all sets of open descriptors, all limits, all changes by other goroutines while they are counted, both ways ioutil.ReadDir has been implemented", "why_tests_cant": "The number depends on what other goroutines open and close between the system calls, on the limit of the process and on the version of the library; the test of the package only looks for the gauge's name.", "anchors": ["runtime_metrics/fds_linux.go:getFDUsage", "runtime_metrics/fds_darwin.go:getFDUsage", "runtime_metrics/runtime_metrics.go:Report"]}
{"id": "C121", "title": "Stop of healthd may be called more than once", "statement": "Every call of HealthD.Stop returns, also if it is called several times, at the same time or one after the other.", "quantifier": "any number of calls, all interleavings of the calls with each other, with polls, API requests, the debouncer and the aggregation loop", "why_tests_cant": "A call that waits for ever cannot be observed by a finite test, and the tests call Stop once.", "anchors": ["healthd/healthd.go:Stop", "healthd/healthd.go:pollAndAggregate"]}
{"id": "C122", "title": "Every round of polls ends, and what was answered is shown", "statement": "Every round of polls that healthd begins comes to its end: the aggregation goroutine receives a response of every host and then the nil that ends the round, and rounds begin again and again. What a process had emitted when it made an answer that reached the channel is shown at the end of that round and at every later recalculation. Conditions: goroutines are scheduled fairly and polls end, the aggregation goroutine and the debouncer do not come to wait for each other (C50), Stop is not called; for the numbers also that no poll outlasts the time between two rounds and that the interval is not purged.", "quantifier": "all infinite fair executions of healthd's goroutines, any number of hosts, processes and (overlapping) rounds, all interleavings", "why_tests_cant": "A liveness property: a round that never ends cannot be told from a slow one by a finite test, and the interleavings are unbounded.", "anchors": ["healthd/healthd.go:pollAndAggregate", "healthd/healthd.go:poll", "healthd/healthd.go:consumePollResponse", "healthd/poll.go:poll"]}
{"id": "C123", "title": "healthd's goroutines do not race for memory", "statement": "Whenever two goroutines of healthd (the caller of StartNewHealthD and Stop, the aggregation goroutine, the goroutines of the rounds and polls, the HTTP server and the handlers of requests) access the same memory and one of them writes it, one access happens before the other in the sense of the Go memory model.", "quantifier": "all executions of healthd's goroutines with any number of hosts, overlapping rounds and requests, all interleavings; all pairs of accesses", "why_tests_cant": "A race detector sees only the executions that happen; here the order must hold for all schedules.", "anchors": ["healthd/healthd.go:StartNewHealthD", "healthd/healthd.go:Stop", "healthd/healthd.go:pollAndAggregate", "healthd/healthd.go:poll", "healthd/healthd.go:memorySafeIntervals", "healthd/healthd.go:memorySafeHosts", "healthd/healthd.go:consumePollResponse", "healthd/poll.go:poll", "healthd/api.go:startHttpServer", "healthd/api.go:Jobs"]}
