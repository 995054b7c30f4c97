#!/usr/bin/env python3
"""Writes /verif/properties.jsonl (single place where the English statements live)."""
import json
P=[]
def p(id,title,statement,quantifier,why,anchors):
    P.append(dict(id=id,title=title,statement=statement,quantifier=quantifier,why_tests_cant=why,anchors=anchors))

# ---- stream / job / errors
p("C01","Key/value precedence","The key/values delivered to every sink for an emission are the union of the call's, the job's and the stream's key/values; on a key clash the call's value wins over the job's, which wins over the stream's; no other key appears.",
 "all stream, job and call-level maps (any of them nil, empty or overlapping) and all keys",
 "the set of triples of maps is infinite and the code has an aliasing fast path for 0/1 non-empty maps that a test has to hit by luck",
 ["health.go:mergedKeyValues","health.go:EventKv","health.go:KeyValue"])
p("C02","No key/values means no key/value map","A sink receives no (nil) key/value map exactly when the stream, the job and the call all carry no key/values, so log lines show a kvs section iff there is at least one pair.",
 "all stream, job and call-level maps","nil versus empty has to be right for every combination of nil/empty/non-empty maps",
 ["health.go:mergedKeyValues","writer_sink.go:writeMapConsistently"])
p("C03","Fan-out to every sink exactly once, in order","Each Event/EventErr/Timing/Gauge/Complete call (and Kv variants) on a job calls every sink added to the stream exactly once, in AddSink order, with the job's name, the caller's event/payload and the same key/values, and calls nothing else. The duration given with a completion is the time since the job was made, read anew for each sink (cut off at the ends of the int64 range).",
 "all sink lists, all jobs, all sequences of AddSink/KeyValue/emission calls","needs every sequence of calls and every number of sinks",
 ["health.go:Event","health.go:EventErr","health.go:Timing","health.go:Gauge","health.go:Complete","health.go:AddSink","health.go:NewJob"])
p("C04","Run completes the job exactly once with the right status","With sinks that do not panic, Run emits exactly one completion: Success if f returns nil, Error if f returns an error, Panic if f panics; a panic is first reported once as a 'panic' error event carrying a 'stack' key. Run returns f's own error unchanged, and a non-nil error with the panic's text if f panicked; it never re-panics.",
 "all job functions (any mix of nested emissions, return values, panics), all streams","the property is about all possible outcomes of an arbitrary callback",
 ["health.go:Run"])
p("C05","A logged error is wrapped at most once","However many times an error returned by EventErr is logged again, the result is the same error object with the same root error, same message and the stack captured at the first logging; muted errors are returned untouched and never wrapped.",
 "all chains of EventErr/EventErrKv calls of any length, on any jobs/streams","needs chains of unbounded length through arbitrary jobs",
 ["error.go:wrapErr","health.go:EventErr","health.go:EventErrKv"])
p("C06","An error is pushed to Bugsnag exactly once","An unmuted error logged through any number of nested EventErr calls (each passing on the returned error) is reported exactly once to each Bugsnag sink present at the first call, under the first event name; a muted error is never reported.",
 "all call chains of any length, all job/event names, all sink lists","chains of unbounded length",
 ["sinks/bugsnag/sink.go:EmitEventErr","health.go:EventErr","error.go:Mute"])
p("C07","A sink's key/value map is a snapshot of the moment of emission","The map handed to a sink keeps the values it had when the emission was made, even if the stream's or job's key/values are changed afterwards (asynchronous sinks such as Bugsnag read it later).",
 "all histories of KeyValue calls after an emission","requires reasoning about aliasing over every later history",
 ["health.go:mergedKeyValues","health.go:KeyValue","sinks/bugsnag/sink.go:EmitEventErr"])
# ---- polling sink aggregator
p("C08","Event counts are exact","In every retained interval, the count shown for an event equals the number of times that event was emitted while the clock was in that interval, and the count under a job equals the number emitted by that job; events never emitted have no entry.",
 "all histories of emissions of all kinds with all clock readings (including clocks that stand still or jump), all event/job names",
 "histories are unbounded and interleave several maps",
 ["aggregator.go:EmitEvent","interval_aggregation.go:getJobAggregation"])
p("C09","Totals equal the sum over jobs","In every retained interval, every event's (error's, timer's) interval-wide count equals the sum of the per-job counts for it.",
 "all histories, all events","an invariant over unboundedly many jobs and emissions",
 ["aggregator.go:EmitEvent","aggregator.go:EmitEventErr","aggregator.go:EmitTiming"])
p("C10","Timer summaries are exact","For every timer (interval-wide and per job), count, sum, min and max are exactly those of the durations emitted in the interval, and the sum of squares is the left-to-right floating point accumulation of the squares.",
 "all non-empty sequences of int64 durations, negative ones included","first-sample special case and min/max need all sequences",
 ["interval_aggregation.go:TimerAggregation.ingest","aggregator.go:EmitTiming"])
p("C11","A gauge shows the last value set","In every retained interval a gauge equals the last value emitted for it in that interval (interval-wide: from any job; per job: from that job).",
 "all histories","last-writer-wins over all interleavings of jobs",
 ["aggregator.go:EmitGauge"])
p("C12","Job completion counters are exact","For every job in every interval, the count of each completion status equals the number of completions with it, the total count equals the number of completions, and equals the sum of the five status counters when only the five statuses are used; min/max/sum of job durations are exact.",
 "all histories of completions","unbounded histories",
 ["interval_aggregation.go:JobAggregation.ingest","aggregator.go:EmitComplete"])
p("C13","Error counters and error samples","An error counter's count equals the number of error emissions; its samples are the most recent (up to five) of the emitted errors after dropping immediate repeats, never more than five, and never contain two equal adjacent errors in recency order.",
 "all sequences of errors","ring buffer wrap-around for sequences of any length",
 ["interval_aggregation.go:addError","interval_aggregation.go:getErrorSamples"])
p("C14","Retention window","With 0 < interval ≤ retain, the sink never holds more than retain/interval intervals; they are exactly the most recent distinct intervals in which anything (emission or one-second tick) happened; with a clock that does not go backwards their start times are strictly increasing multiples of the interval.",
 "all histories of emissions and ticks, all clock readings, all interval/retain pairs","sliding-window shifting needs all lengths",
 ["aggregator.go:getIntervalAggregation","aggregator.go:createIntervalAggregation","aggregator.go:newAggregator"])
p("C15","A metrics snapshot never changes and is never written concurrently","Whatever GetMetrics returned is never modified afterwards: no later emission, tick or GetMetrics writes to any memory reachable from a returned snapshot (so serialising it concurrently is safe).",
 "all histories before and after the snapshot, including clocks that go backwards","a memory-aliasing property over all later executions; a test sees only one schedule",
 ["aggregator.go:memorySafeIntervals","interval_aggregation_clone.go:Clone","json_polling_sink.go:GetMetrics"])
p("C16","Serial number identifies the contents","Every emission increments the current interval's serial number by exactly one and leaves all other intervals unchanged, so two reports of one interval by one process with equal serial numbers have identical contents.",
 "all histories and all pairs of snapshots; for the contents, those with a clock that does not go backwards","pairs of snapshots over all histories",
 ["aggregator.go:EmitEvent","interval_aggregation.go:SerialNumber","healthd/healthd.go:consumePollResponse"])
p("C17","Metrics reflect a prefix of the emissions, in order","At any time the data served by GetMetrics is the result of applying, in emission order, exactly the first n emissions accepted by the sink for some n; nothing is lost, duplicated or reordered, and a later GetMetrics never reflects fewer emissions.",
 "all interleavings of emitters, the aggregation goroutine, ticks and readers","all schedules of goroutines",
 ["json_polling_sink.go:EmitEvent","aggregator.go:startAggregator"])
p("C18","Emitting blocks only when the buffer is full; after shutdown it eventually blocks for ever","While the polling sink runs, an emission can always eventually proceed; after ShutdownServer at most 4096 further emissions return and the next one blocks for ever, and GetMetrics blocks for ever.",
 "all schedules, all call sequences after shutdown","blocking for ever cannot be observed by a finite test",
 ["json_polling_sink.go:ShutdownServer","json_polling_sink.go:NewJsonPollingSink","aggregator.go:startAggregator"])
p("C19","Configurations that work","NewJsonPollingSink works for every 0 < interval ≤ retain; with interval = 0 its goroutine panics, and with 0 ≤ retain < interval the first emission or tick panics.",
 "all pairs of durations","all pairs of durations",
 ["aggregator.go:newAggregator","aggregator.go:createIntervalAggregation"])
# ---- merge / clone
p("C20","Merge adds counts pointwise","After a.Merge(b) every event, error, timer and job counter is the sum of the two, a key is present iff it was present in a or b, gauges of b override those of a, and a's start time is kept.",
 "all pairs of aggregations","all map overlaps",
 ["interval_aggregation_merge.go:Merge","interval_aggregation_merge.go:merge"])
p("C21","Merged minimum and maximum are those of all samples","After merging, a timer's or job's min/max equals the min/max over both sides' samples.",
 "all pairs of aggregations produced by emissions","needs every combination of empty and non-empty sides; the code mishandles jobs without completions",
 ["interval_aggregation_merge.go:TimerAggregation.merge"])
p("C22","Merging into a new aggregation copies it","Merging an aggregation into a fresh one with the same start time yields the same data in every map.",
 "all aggregations","all contents",
 ["interval_aggregation_merge.go:Merge","healthd/healthd.go:recalculateIntervals"])
p("C23","Merge order does not matter (except gauges)","Merging any list of aggregations into a fresh one gives the same events, error counts, timer and job counts, sums, minima and maxima for every order of the list and every map iteration order; gauges may depend on the order.",
 "all lists of aggregations and all permutations, all map iteration orders","Go randomises map iteration; a test sees a few orders",
 ["healthd/healthd.go:recalculateIntervals","interval_aggregation_merge.go:Merge"])
p("C24","Clone is an equal, independent copy","A clone has the same contents as the original, and no later change made through the original (or the clone) is visible through the other.",
 "all aggregations, all later mutations","aliasing over all later mutations",
 ["interval_aggregation_clone.go:Clone"])
p("C25","Merge leaves its argument alone and shares nothing with it","a.Merge(b) does not modify anything reachable from b, and later changes to a are not visible through b or vice versa.",
 "all heaps in which a and b are disjoint","aliasing over all later mutations",
 ["interval_aggregation_merge.go:Merge","healthd/api.go:combineAggregations"])
p("C26","Splitting traffic over processes and merging is the same as one process","If a stream of emissions for one interval is split in any way over several aggregators, merging their aggregations gives the same event, error and status counts, timer counts, sums as one aggregator that saw all of it.",
 "all histories and all ways of splitting them","all interleavings",
 ["interval_aggregation_merge.go:Merge","aggregator.go:EmitEvent"])
# ---- statsd
p("C27","UDP packets respect the size limit","Every UDP packet sent by the StatsD sink is non-empty and at most 1440 bytes long.",
 "all histories of emissions, flushes and drains, all key lengths, all sanitisers","boundary arithmetic over all lengths and histories",
 ["statsd_sink.go:writeStatsDMetric","statsd_sink.go:flush"])
p("C28","Metrics are neither lost, split, duplicated nor reordered","The packets sent so far followed by the pending buffer are exactly the metric lines of at most 1440 bytes in emission order, and no line is split over two packets; only lines longer than 1440 bytes are dropped.",
 "all histories","all histories and packet boundaries",
 ["statsd_sink.go:writeStatsDMetric","statsd_sink.go:processCmd"])
p("C29","Datagrams parse back to the metrics emitted","With the default sanitiser, whatever bytes are in prefix, job and event names (including ':', '|', newlines), splitting a packet at newlines, ':' and '|' gives back exactly the emitted (key, value, type) triples; names cannot inject or corrupt metrics.",
 "all byte strings for prefix, job, event; all histories","adversarial names range over all byte strings",
 ["statsd_sink.go:sanitizeKey","statsd_sink.go:writeSanitizedKeys"])
p("C30","Cached key buffers are invisible","The bytes produced for an emission depend only on the sink's options and that emission, not on earlier emissions (the prefix-buffer cache never leaks stale bytes).",
 "all histories","stale-cache bugs need particular histories",
 ["statsd_sink.go:getPrefixBuffer"])
p("C31","Drain sends everything emitted before it","When Drain returns, every (not oversized) metric accepted by the sink before the Drain call has been handed to the UDP socket and nothing is left in the buffer.",
 "all schedules and histories with one drainer","all interleavings with emitters and the flush ticker",
 ["statsd_sink.go:Drain","statsd_sink.go:loop"])
p("C32","Stop and Drain always return","A call to Stop or Drain returns.",
 "all schedules with concurrent Stop/Drain callers","a lost wake-up depends on the schedule; the code swallows a Stop that arrives during a Drain",
 ["statsd_sink.go:Stop","statsd_sink.go:Drain","statsd_sink.go:loop"])
p("C33","Which StatsD lines an emission produces","An event, error, timing or gauge produces the top-level line unless SkipTopLevelEvents and the job-nested line unless SkipNestedEvents, in that order, and a completion always produces exactly one line keyed by job and status; empty name components produce no empty dot segments.",
 "all option settings and emissions","all combinations and names",
 ["statsd_sink.go:processEvent","statsd_sink.go:processComplete","statsd_sink.go:writeSanitizedKeys"])
p("C34","StatsD timings are in milliseconds, correctly rounded","The timing value sent is the duration in milliseconds: truncated to an integer from 10 ms up, otherwise rounded to two decimals, off by at most half a hundredth of a millisecond (plus float error).",
 "all int64 durations","2^64 inputs including negative ones",
 ["statsd_sink.go:writeNanosToTimingBuf"])
p("C35","Different events have different StatsD keys","Two different (job, event) emissions of the same kind never share a StatsD key.",
 "all names","needs all pairs of names; false in general because '.' joins and '$' replaces",
 ["statsd_sink.go:writeSanitizedKeys","statsd_sink.go:sanitizeKey"])
# ---- writer sinks
p("C36","One complete log line per emission, deterministic key order","Each emission makes exactly one Write of one newline-terminated record; key/value pairs appear sorted by key whatever the map iteration order, so the record is a function of the arguments and the time.",
 "all arguments and all map iteration orders","Go randomises map iteration",
 ["writer_sink.go:EmitEvent","writer_sink.go:writeMapConsistently"])
p("C37","Human readable durations","The duration shown in a log line is the true one truncated to the unit shown: at most 2 µs in ns, at most 2 ms in µs, above in ms; the shown number is within one unit of the truth.",
 "all int64 durations","2^64 inputs",
 ["writer_sink.go:writeNanoseconds"])
p("C38","JSON log records are lossless","The JSON record written for an emission decodes back to the same job, event, value, status and key/values; an emission whose value JSON cannot represent (NaN, ±Inf) writes nothing.",
 "all arguments with valid UTF-8 strings","all strings needing escapes, all values",
 ["json_writer_sink.go:EmitEvent","json_writer_sink.go:EmitGauge"])
# ---- http
p("C39","/health serves exactly the metrics JSON","A request for /health gets status 200 and a body that is exactly the JSON of the current metrics; any other path gets 404.",
 "all metric contents and paths","all names; the body is passed through a format string, so names containing '%' corrupt it",
 ["json_polling_sink_http.go:ServeHTTP"])
p("C40","No emission can break the metrics endpoint","Whatever was emitted, /health answers 200 with the metrics.",
 "all emission histories","needs all float values; a NaN or Inf gauge makes the JSON encoder fail",
 ["json_polling_sink_http.go:ServeHTTP","aggregator.go:EmitGauge"])
# ---- healthd
p("C41","healthd totals are the sums of the hosts' latest reports","After recalculation, for every interval reported since the last one, each event, error, timer and job count healthd shows equals the sum over (host, process) of the counts in that process's latest report of the interval.",
 "all sequences of poll responses, purges and recalculations, all map orders","unbounded histories of several hosts",
 ["healthd/healthd.go:consumePollResponse","healthd/healthd.go:recalculateIntervals","healthd/healthd.go:setAggregation"])
p("C42","Polling again does not double count","Consuming a response whose intervals were all already consumed with the same serial numbers changes no aggregation and marks no interval for recalculation, however often it is repeated.",
 "all states and responses","all repetitions",
 ["healthd/healthd.go:consumePollResponse"])
p("C43","healthd's time series is sorted, duplicate free and bounded","The aggregations served are in strictly increasing order of start time with no duplicates, at most retain/interval of them, and when truncation happens the newest are kept.",
 "all histories","all histories of out-of-order reports",
 ["healthd/healthd.go:setAggregation","healthd/healthd.go:purge"])
p("C44","Host status is faithful","A host's status always shows the outcome of its last consumed poll; first/last success times are set only by responses with code 200 and no error, the first never changes once set; other hosts are untouched and the set of hosts never changes.",
 "all sequences of responses","all sequences",
 ["healthd/healthd.go:consumePollResponse","healthd/healthd.go:memorySafeHosts"])
p("C45","Failed or incompatible responses contribute no data","A response with an error, a code other than 200 or a different interval duration than the first accepted one changes no aggregation.",
 "all states and responses","all states",
 ["healthd/healthd.go:consumePollResponse"])
p("C46","No response from a monitored host can crash healthd","Whatever a host answers, healthd keeps running.",
 "all responses a host can send","needs all malformed responses; a zero interval_duration divides by zero",
 ["healthd/healthd.go:consumePollResponse"])
p("C47","The same interval from two polls is recognised as the same","Two reports of the same interval instant by the same process are stored under one key.",
 "all time zone configurations of host and healthd","depends on time.Time == comparing location pointers; only fails across zones",
 ["healthd/healthd.go:hostAggregationKey","healthd/healthd.go:consumePollResponse","aggregator.go:getIntervalAggregation"])
p("C48","Purge removes exactly the stale host data","A purge removes exactly the host reports whose interval started more than five intervals ago and keeps the rest, and never changes totals of intervals already computed beyond dropping those over the limit.",
 "all states and clock readings","all states",
 ["healthd/healthd.go:purge"])
p("C49","Debouncer: rate and latency","The debouncer fires only after a request, at most once per threshold, and never later than the first loop iteration whose clock is past the oldest pending request by more than the threshold; a pending request is never forgotten.",
 "all sequences of requests and clock readings","real-time schedules cannot be enumerated",
 ["healthd/debouncer.go:debouncer"])
p("C50","healthd's aggregation loop never deadlocks with its debouncer","The aggregation goroutine and the debouncer can always make progress.",
 "all schedules, any number of hosts","a cyclic wait needs a particular schedule and more than 64 pending responses",
 ["healthd/healthd.go:pollAndAggregate","healthd/debouncer.go:debouncer"])
p("C51","API requests racing with Stop return","An API request (aggregations, hosts) made around Stop returns.",
 "all schedules of requests and Stop","check-then-act race",
 ["healthd/healthd.go:getAggregationSequence","healthd/healthd.go:Stop"])
p("C52","/jobs returns the top jobs","The jobs API returns each job of the overall aggregation at most once, sorted by the requested key (name ascending, everything else descending), and with limit n > 0 the n first of them (so no omitted job precedes a returned one); an unknown sort returns all jobs in some order, limit ≤ 0 means no limit.",
 "all aggregations, sort keys and limits, all map orders and all unstable sorting algorithms","all inputs and tie orders",
 ["healthd/api.go:filterJobs","healthd/api.go:sortJobs","healthd/api.go:getLimit"])
p("C53","Average and standard deviation","The average shown is sum/count and the standard deviation the sample standard deviation of the durations (0 for fewer than two samples), and both are always finite numbers so the response can be rendered.",
 "all sequences of durations","cancellation in floating point; for some inputs the code takes the square root of a negative number",
 ["healthd/api.go:filterJobs"])
p("C54","Overall is the merge of the time series","The overall aggregation has for every counter the sum over the retained intervals, for every gauge the value of the latest interval that has it, and is absent iff there are no intervals.",
 "all time series","all series",
 ["healthd/api.go:combineAggregations","healthd/api.go:Overall"])
p("C55","/hosts lists every monitored host once, sorted","The hosts API returns one entry per distinct monitored host:port, sorted by host:port.",
 "all host lists and map orders","map iteration order",
 ["healthd/api.go:Hosts","healthd/healthd.go:memorySafeHosts"])
p("C56","HTTP status to completion status","healthd's own request jobs complete with Success below 400, ValidationError for 422, Junk for other 4xx, Error from 500 up.",
 "all status codes","all codes",
 ["healthd/api.go:HealthMiddleware"])
p("C57","End to end: healthd counts what the hosts emitted","If every host is polled after its last emission of an interval and healthd recalculates, the event count healthd shows for the interval equals the number of emissions of that event on all hosts in that interval.",
 "any number of hosts, all emission histories, all earlier polls","composition of two unbounded systems",
 ["aggregator.go:EmitEvent","healthd/healthd.go:recalculateIntervals","json_polling_sink_http.go:ServeHTTP"])
# ---- librato
p("C58","Librato: every emission is in exactly one flush","Counters and measurements posted at a flush are exactly those of the emissions since the previous flush: counter values are the number of emissions, gauges have exact count, min, max of the values; nothing is posted when there was nothing.",
 "all histories of emissions and flushes","unbounded histories",
 ["sinks/librato/sink.go:measure","sinks/librato/sink.go:inc","sinks/librato/sink.go:purge"])
p("C59","Librato names are valid and counters never overwrite measurements","Sanitised names contain only A-Za-z0-9.:-_, sanitising is idempotent and keeps valid names, and in a post no counter key equals a measurement key.",
 "all strings","all strings",
 ["sinks/librato/sink.go:sanitizeKey","sinks/librato/sink.go:eventKeys","sinks/librato/sink.go:send"])
# ---- misc
p("C60","Bugsnag payload is faithful","The payload for an error carries the configured API key, stage and host, the event as error class, the error's message, the job as context, all key/values and one frame per stack frame in order.",
 "all inputs","all inputs",
 ["sinks/bugsnag/api.go:newPayload"])
p("C61","Stack frame names split without loss","Splitting a function's full name into package and name loses nothing but the separating dot: package + '.' + name is the full name whenever the last path element contains a dot, the name part contains no slash, and the package's last element no dot.",
 "all byte strings","all strings",
 ["stack/frame.go:packageAndName"])
p("C62","Runtime metrics report the enabled gauges","Report emits exactly the gauges of the enabled option groups, each once, in a fixed order; none for disabled groups.",
 "all option settings and readings","2^6 option settings times all readings",
 ["runtime_metrics/runtime_metrics.go:Report"])
p("C63","healthtop name filter","With a name filter healthtop shows exactly the jobs whose name contains it, in the order healthd returned them.",
 "all job lists and names","all lists",
 ["cmd/healthtop/jobs.go:filterJobsByName"])
p("C64","EventErr keeps nil-ness","EventErr (and EventErrKv) return nil exactly when they are given a nil error, and otherwise an error with the same message, so `return job.EventErr(name, err)` can replace `return err`.",
 "all reachable streams, jobs, events, error values and key/values","all error values and states; nil is a single point that ordinary tests skip",
 ["health.go:wrapErr","health.go:EventErr"])
p("C65","Merged error samples","After merging the aggregations of several processes, an error counter shows at most five samples, each really logged by one of the processes, and all of them as long as at most five remain after dropping immediate repeats; merging works as if the later processes' samples had been logged after the first's errors.",
 "all lists of processes, emissions and events","ring buffers with arbitrary fill and rotation, any number of merges",
 ["interval_aggregation_merge.go:merge","interval_aggregation.go:addError"])
p("C66","StatsD gauge values read back","The gauge text sent is a decimal number that reads back as the gauge value: to within half a hundredth, and exactly (the same float64) for values strictly between -0.1 and 0.1.",
 "all finite float64 values","2^64 float values",
 ["statsd_sink.go:processGauge"])
p("C67","healthd decodes exactly what a host reports","What healthd decodes from a host's /health body is exactly the host's process id, interval duration and metrics: the same start times, serial numbers, jobs, counts, sums, extremes and gauges.",
 "all metrics, all emission histories, all time zones of host and healthd","needs a round trip through printing and parsing for every value",
 ["json_polling_sink_http.go:ServeHTTP","healthd/poll.go:poll","interval_aggregation.go"])
p("C68","Sums of squares are accurate","The sum of squares of a job's durations, as emitted by one process and as merged over many, differs from the exact sum by at most the stated relative error times the number of additions; sums and counts are exact.",
 "all lists of fewer than 2^31 durations in int64 whose sum is in int64, all groupings into processes","floating-point error accumulates with the number of samples and the order of merging",
 ["interval_aggregation.go:addTiming","interval_aggregation_merge.go:merge"])
p("C69","healthd's answers show its data","Each endpoint of healthd's API answers 200 with a JSON document that carries healthd's identifier, the interval duration and exactly the intervals, the overall aggregation, the job rows or the host statuses; /jobs answers 500 exactly if a row has a number that JSON cannot represent.",
 "all states, sort keys, limits, names without percent signs and in UTF-8, times of years 1-9999, all zones of whole minutes","needs a round trip through printing and reading for every value",
 ["healthd/api.go:renderJson","healthd/api.go:filterJobs","healthd/api.go:Jobs","healthd/api.go:Hosts","healthd/api.go:Overall","healthd/api.go:Aggregations"])
p("C70","Error traces start at the caller and show every frame","The trace attached by EventErr starts with the function that called it and lists the callers outwards, at most 50 of them; its text has one line per frame.",
 "all call stacks","stack depths are unbounded",
 ["stack/stack.go:NewTrace","health.go:wrapErr","sinks/bugsnag/sink.go"])
p("C72","Runtime metrics stop","Once Stop has returned for every Start, no gauge is emitted any more; Stop needs a Start to return; options without a positive interval crash the program at Start.",
 "all interleavings of starts, ticks and stops","interleavings of goroutines",
 ["runtime_metrics/runtime_metrics.go:Start","runtime_metrics/runtime_metrics.go:Stop","runtime_metrics/runtime_metrics.go:metricsPoller"])
p("C73","healthtop asks for what the user asked for","healthd receives the sort order given on the command line, whatever characters it contains, and a limit of the rows that fit on the screen (at least three), or none if the rows are to be filtered by name.",
 "all option texts and screen heights","all strings",
 ["cmd/healthtop/jobs.go:pollHealthDJobs","cmd/healthtop/jobs.go:maxRows","healthd/api.go:getSort","healthd/api.go:getLimit"])
p("C74","healthtop's cells","Durations are shown as a whole number of ns, us or ms that is never more than the duration and, for positive ones, more than half of it; counts of failures are red exactly if there are any; the number of runs is green exactly if all succeeded.",
 "all rows","all int64",
 ["cmd/healthtop/jobs.go:printCellNanos","cmd/healthtop/jobs.go:printJob"])
p("C75","healthtop's table of hosts","healthtop lists every monitored host once, ordered by address, as Success, Failure with the error, or Unknown, exactly by the outcome of healthd's latest poll of it.",
 "all histories of healthd, all hosts","composition of healthd's history, its JSON answer and healthtop's decoding",
 ["cmd/healthtop/hosts.go:printHost","healthd/api.go:Hosts","healthd/healthd.go:consumePollResponse"])
p("C76","healthtop's screen is up to date","Every second and with every answer the screen shows the data of the last answer received and, if the clock moves between receipts, a status line with the outcome of the last poll received.",
 "all interleavings of ticks, results and receipts","interleavings of concurrent polls",
 ["cmd/healthtop/jobs.go:jobsLoop","cmd/healthtop/hosts.go:hostsLoop","cmd/healthtop/main.go:FmtStatus"])
p("C77","healthtop shows healthd's errors and never goes back","If healthd could not answer, healthtop shows an error; newer data is never replaced by older.",
 "all answers and interleavings","status codes and orders of concurrent answers",
 ["cmd/healthtop/jobs.go:pollHealthDJobs","cmd/healthtop/jobs.go:jobsLoop"])
p("C71","Frames of the standard library are recognised","A frame counts as a system frame (and is reported as not being in the project) exactly if its file lies below GOROOT.",
 "all program counters, file names and values of GOROOT","all strings",
 ["stack/frame.go:isSystemPackage","stack/frame.go:NewFrame"])
p("C78","Sinks with a queue process emissions in order and stop","The goroutines of the Librato and Bugsnag sinks process each accepted emission exactly once and in order, can always catch up while running, do nothing after Stop returned; then no other Stop returns and only as many emissions are accepted as fit into the channel.",
 "all executions: interleavings of emitters, goroutine, ticker and callers of Stop","interleavings; the channel holds thousands of commands",
 ["sinks/librato/sink.go:start","sinks/librato/sink.go:Stop","sinks/bugsnag/sink.go:errorProcessingLoop","sinks/bugsnag/sink.go:ShutdownServer"])
p("C79","Librato: every accepted emission is posted","In every execution of a running Librato sink each accepted emission is shown by exactly one post, the one of the first tick after it was processed; while the sink runs, processing the queue and one tick suffice to have everything posted.",
 "all executions","interleavings and unbounded histories",
 ["sinks/librato/sink.go:start","sinks/librato/sink.go:purge","sinks/librato/sink.go:send"])
p("C80","Bugsnag: every error is reported with its key/values","In every execution of a program with a Bugsnag sink, the reports sent and waiting are in order exactly those of the errors emitted (not muted, not yet emitted), and each is sent with the key/values the error was emitted with.",
 "all executions of a program with any number of jobs","interleavings of the program and the sink's goroutine; shared maps",
 ["sinks/bugsnag/sink.go:EmitEventErr","sinks/bugsnag/sink.go:errorProcessingLoop","health.go:mergedKeyValues"])
p("C81","healthd monitors the configured hosts and itself","The program healthd monitors exactly the addresses listed in HEALTHD_MONITORED_HOSTPORTS and its own health address, and ends if there are none.",
 "all environments","all lists of addresses",
 ["cmd/healthd/main.go:main","cmd/healthd/main.go:getMonitoredHostPorts","healthd/healthd.go:StartNewHealthD"])
p("C82","Processes have different identifiers","Two processes with different host names or process ids have different identifiers, so healthd does not take the one's data for the other's.",
 "all host names and process ids","all strings and numbers",
 ["identifier.go:getIdentifier"])
p("C83","healthd shows the data of the hosts it monitors","Whatever interval the monitored hosts (all of them) use, healthd takes up every interval they report.",
 "all histories of the program healthd","depends on whose answer is the first",
 ["cmd/healthd/main.go:main","healthd/healthd.go:consumePollResponse"])
p("C84","Immediate repeats of a failure take no second sample","The error samples of an event are the last five errors received, where an error that is the same failure (same error, same place) as the one before takes no second place, whatever the timing of program and aggregator.",
 "all executions of emitting goroutines and the aggregator","depends on which goroutine is faster by nanoseconds",
 ["health.go:EventErr","error.go:UnmutedError","interval_aggregation.go:addError","stack/stack.go:Frames"])
p("C85","The API of healthd works on copies","Whatever the handlers of the API do with the aggregations they were given, the goroutine of healthd holds what it would hold without them; what a handler was given stays as it was, however long the goroutine and other handlers go on.",
 "all executions of the goroutine together with any number of requests that run any code","interleavings; aliasing of maps and slices is invisible to most tests",
 ["healthd/healthd.go:memorySafeIntervals","healthd/healthd.go:recalculateIntervals","healthd/healthd.go:setAggregation","healthd/healthd.go:consumePollResponse","healthd/api.go:apiRouter"])
p("C86","Everything happens eventually","If goroutines that can proceed do, and a select does not pass over the same ready case for ever: every emission shows up in GetMetrics, is sent to StatsD, is part of a Librato flush, every error is reported to Bugsnag; Emit, GetMetrics, Drain, Stop and ShutdownServer return; healthd consumes every poll, recalculates after every response, answers every API request, and its Stop returns.",
 "all executions without end that are fair in this sense, all interleavings","liveness: no finite test shows that something never happens",
 ["aggregator.go:startAggregator","json_polling_sink.go:GetMetrics","statsd_sink.go:loop","statsd_sink.go:Drain","sinks/librato/sink.go:start","sinks/bugsnag/sink.go:errorProcessingLoop","healthd/healthd.go:pollAndAggregate","healthd/debouncer.go:debouncer"])
p("C87","The past does not change","Once all processes have reported an interval and healthd has recalculated, healthd goes on showing the totals over all processes that ever reported the interval, for as long as it shows the interval at all, whatever it has thrown away since.",
 "all histories of healthd's loop: any responses, purges and recalculations in any order, any map iteration orders","needs runs over more than five intervals with processes that keep more intervals than healthd does; the totals shrink only when some of the processes are polled again",
 ["healthd/healthd.go:purge","healthd/healthd.go:consumePollResponse","healthd/healthd.go:recalculateIntervals"])
p("C88","healthtop and healthd find each other","healthtop's requests go to the address given by --source, to paths that healthd serves, and healthd understands their parameters whatever their text; healthd polls \"/health\" of the hosts it was told to monitor; the default addresses and those of the README fit together.",
 "all texts of the options, all environments, all machines","the defaults of two programs, which no test starts together",
 ["cmd/healthtop/main.go:main","cmd/healthtop/jobs.go:pollHealthDJobs","cmd/healthtop/hosts.go:pollHealthDHosts","cmd/healthd/main.go:getServerHostPort","healthd/api.go:apiRouter","healthd/poll.go:metricsUrl"])
p("C89","From the program's calls to the numbers","A sink hears exactly the events, errors, timings, gauges and completions that the program states after the sink was added, in order, each under the name of its job; the counts and sums in the polling sink's metrics, added up over the intervals, are those of the program; the StatsD sink sends the lines of these statements and nothing else.",
 "all programs using a stream, any jobs, key/values and sinks; all clocks; any order in which the worker receives the emissions and any intervals they fall into","composition of stream, job, sink, worker and aggregator over unbounded programs",
 ["health.go:NewStream","health.go:AddSink","health.go:NewJob","health.go:Event","health.go:EventErr","health.go:Complete","json_polling_sink.go:EmitEvent","json_polling_sink.go:GetMetrics","statsd_sink.go:EmitEvent","aggregator.go:emitEvent"])
p("C90","healthd's own numbers","healthd's own log and metrics contain one report for every poll, recalculation and API request with its key/values (the host polled, path and code), however these run at the same time; its metrics count every poll as a success exactly if healthd got data from the host and as an error, by stage, otherwise, every recalculation, and every request by endpoint and status.",
 "all numbers and interleavings of polls, recalculations and requests, all their results; all intervals they fall into","interleavings of goroutines, composition with the polling sink",
 ["healthd/poll.go:poll","healthd/healthd.go:recalculateIntervals","healthd/api.go:HealthMiddleware","cmd/healthd/main.go:main"])
p("C91","From the programs to the screen","If programs report to polling sinks, healthd polls these processes (in any order, with failures, purges and recalculations in between), has seen all that they emitted in the intervals it shows and these intervals cover what the programs did, then healthtop shows a row for exactly the jobs that the programs used, with the number of completions, and of those with each status, that the programs made — also after healthd has thrown the processes' reports away; each interval shown has the counters of what all processes emitted in it.",
 "all programs, fleets of processes, orders of polls, purges and recalculations, job names in UTF-8, sort orders, name filters and screen heights","composition of all parts of the system",
 ["health.go:Stream","health.go:Job","json_polling_sink.go:JsonPollingSink","healthd/poll.go:poll","healthd/healthd.go:consumePollResponse","healthd/healthd.go:recalculateIntervals","healthd/healthd.go:purge","healthd/api.go:Jobs","cmd/healthtop/jobs.go:pollHealthDJobs"])
p("C92","A stream may be used by many goroutines","After a stream has been set up, goroutines may use it at the same time if none adds sinks or sets the stream's key/values, each sets key/values only of jobs that it made itself, and none reports an error object a second time; emitting from shared jobs (also the stream itself) is allowed. Then, however the goroutines' memory accesses are interleaved: no two accesses race; each goroutine's calls reach each sink in the program's order with exactly the key/values in force by the program's own text; no goroutine ever waits or panics; all end; and a sink has heard the statements of all programs exactly once, so that the metrics, and what healthd and healthtop make of them, are those of all goroutines together. Outside this discipline there are races, and sinks and key/values get lost.",
 "all setups, numbers of goroutines, programs within the discipline and schedules of single memory accesses","races show up in few of very many schedules",
 ["health.go:Stream","health.go:Job","health.go:mergedKeyValues","health.go:AddSink","health.go:KeyValue","error.go:wrapErr"])
p("C93","Answers of the API are atomic",
  "Every answer of healthd's API shows the data of one moment while the request was under way: aggregations (or jobs, or hosts) and interval duration belong together, although the handler gets a copy of the former from the aggregation goroutine and afterwards reads the latter by itself. Reading it is free of data races.",
  "all executions of healthd's goroutines (any interleaving of polls, recalculations, purges, requests, the debouncer and Stop), all responses, all orders of iteration",
  "a test makes a request while nothing else happens; a handler that is delayed between its two reads while the first host answers does not occur in a test",
  ["healthd/api.go:133-173","healthd/healthd.go:133-211","healthd/healthd.go:238-244"])
p("C94","Log files can be read back",
  "The file that a WriterSink or JsonWriterSink writes, also when many goroutines emit at the same time, is made of whole records, one for each statement of the programs (JSON: each that JSON can express), saying job, event, error, value, status, key/values in force and time; the records of one goroutine are in the order of its program. For text, names, messages and key/values must not contain newlines; for JSON they must be UTF-8.",
  "all programs of any number of goroutines that keep to the discipline of C92, all interleavings, all clock readings with four-digit years, at every moment of the run",
  "a test reads back a few lines written by one goroutine; that no interleaving, name or value breaks the file into other records cannot be sampled",
  ["writer_sink.go:24-134","json_writer_sink.go:13-90","health.go:101-181"])
p("C95","Answers of other versions mean the same to healthd and to healthtop","Two answers of a process to healthd, or of healthd to healthtop, that differ only in members that the reader does not know, in the order of members with different names and in the case of names, at any depth and in any number of places, are decoded to the same value (or both refused).",
  "all pairs of well-formed JSON texts related by any number of such differences at any depth; all local time zones","field matching, order and case interact in a decoder with nested maps, arrays and embedded structs; tests try a few documents",["healthd/poll.go:51-67","json_polling_sink_http.go:10-14","interval_aggregation.go:9-61","cmd/healthtop/jobs.go:82-86","cmd/healthtop/hosts.go:57-61","healthd/api.go:17-57"])
p("C96","A Librato series belongs to one event","Every series posted to Librato shows the number of the events or errors, or the values of the timings, gauges or completions, of one name: over all jobs, or of one job.",
  "all prefixes; all lists of emissions between two posts; all job and event names of valid characters without dots","collisions of names are rare combinations of names chosen by users; tests use a handful of names",["sinks/librato/sink.go:167-255","sinks/librato/sink.go:314-351"])
p("C97","A StatsD server shows the numbers that were emitted","A StatsD server that receives the datagrams shows, per event and per job and event: the number of events and of errors, the durations in milliseconds, and the value each gauge was last set to.",
  "all prefixes, skip options, histories of emissions and flushes; all job and event names of letters, digits and underscores","the meaning of the lines is the server's; tests compare lines with expected lines and do not see what a server makes of them",["statsd_sink.go:193-285","statsd_sink.go:287-358"])
p("C98","The server of a running process answers from one history","There is one history of the sink, consisting of the emissions in the order in which they were made, such that every answer of /health shows the metrics at one point of this history between the arrival of the request and the answer; healthd can take the process for one that is polled at these points. A request that waits can always be answered, until ShutdownServer has returned: then /health accepts requests and never answers.",
  "all interleavings of emitting goroutines, the worker, other callers of GetMetrics, ShutdownServer and any number of HTTP handlers; all requests and clock readings","the interleavings of handlers, worker and emitters are unbounded; a test sees one request at a time",["json_polling_sink_http.go:16-38","json_polling_sink.go:35-80","aggregator.go:22-79"])
p("C99","Requests leave no connections behind","However many requests healthd, healthtop and the sinks make, at most two connections to a host are open besides those of requests that are still in progress.",
  "all runs of any number of requests to any hosts, in every interleaving: refused or broken connections, answers with and without bodies, reads that fail, connections used again or closed by the server","a leak shows only after hours, when the process runs out of descriptors; the tests make a handful of requests",["sinks/librato/sink.go:296-310","sinks/bugsnag/api.go:110-121","healthd/poll.go:36-59","cmd/healthtop/jobs.go:70-82","cmd/healthtop/hosts.go:45-57"])
p("C100","The requests of the sinks reach the server with their credentials and their data","Every flush of the Librato sink that has data is one POST of its JSON to Librato's address, from which the server reads exactly the user and the key the sink was made with; nothing in them can add headers. Every report of the Bugsnag sink is one POST of the notification to the configured endpoint, or Bugsnag's if there is none.",
  "all users and keys (any bytes), all states of the sink, all configurations and reports","base64 has three cases by length and the credentials are arbitrary bytes; the tests do not look at the Authorization header",["sinks/librato/sink.go:265-311","sinks/bugsnag/api.go:98-124","sinks/bugsnag/sink.go:23-39"])
p("C101","Bugsnag's configuration has the defaults its comments promise","What is left out of the configuration of the Bugsnag sink is replaced as documented: the endpoint by Bugsnag's, the release stage by production, the host name by the machine's; and the version of the app is reported.",
  "all configurations and reports","the tests set every field of the configuration",["sinks/bugsnag/api.go:12-34","sinks/bugsnag/api.go:126-167","sinks/bugsnag/sink.go:23-39"])
p("C102","A sink that panics disturbs neither the other sinks nor Run","If a call of a sink panics, the other sinks hear everything they would hear otherwise, and Run still ends the job exactly once and returns.",
  "all streams, sinks that panic at any calls (any function of the calls so far), emissions, and functions given to Run","no test has a sink that panics; the writer sink panics for a nil error",["health.go:103-181","health.go:223-245","writer_sink.go:37-50","error.go:17-23"])
p("C103","The settings of a Librato sink take effect","A program that sets SanitizationFunc, Source or FlushPeriod of a Librato sink after New and before its first emission gets flushes with that period and posts with those settings, however the sink's goroutine is scheduled.",
  "every program that sets fields and then emits, every interleaving of its actions with the start, the work and the ticks of the sink's goroutine",
  "the outcome depends on whether the goroutine started by New has read a field before the caller assigns it, which a test on one machine sees one way only",
  ["sinks/librato/sink.go:16-19","sinks/librato/sink.go:89-111","sinks/librato/sink.go:138-165"])
p("C104","Recalculation at the end of a round of polls sees all hosts","When healthd's aggregation goroutine receives the nil that ends a round of polls, and recalculates, it has received the response of every monitored host in that round, exactly one of each, and nothing of that round comes later.",
  "every number of hosts and rounds (also overlapping ones), every interleaving of the polls, the goroutines that wait for them, the aggregation loop, the debouncer, API requests and Stop",
  "depends on the order in which goroutines reach a WaitGroup and a shared channel of bounded capacity",
  ["healthd/healthd.go:108-172","healthd/poll.go:23-70"])
p("C105","Stop leaves no goroutine behind","After HealthD.Stop has returned, every goroutine that healthd started (polls, the goroutines that wait for them, the debouncer) comes to an end.",
  "every execution up to the end of the aggregation loop, every continuation, any number of hosts",
  "goroutines that wait for ever on a channel are invisible to the callers",
  ["healthd/healthd.go:95-100","healthd/healthd.go:108-172","healthd/debouncer.go:8-27","healthd/poll.go:69"])
p("C106","Values stand under their titles","The text of healthtop's tables, read cell by cell as the terminal shows it, has the titles in its first line and then one line for every job or host of the answer, in order, with each value under its title.",
  "all answers of any length, all names, errors and numbers; every way of adding control sequences around a text","the tests do not look at the output of healthtop; the names and errors are any text",
  ["cmd/healthtop/jobs.go:108-208","cmd/healthtop/hosts.go:66-115"])
p("C107","The times on the screen are right","Times on healthtop's screen read as the date and time of day, to the second, on the clock of their zone, with the right day of the week. A time in healthd's answer is shown as on healthd's clock; unless that is the zone of healthtop itself (then its abbreviation is shown), the text tells the instant.",
  "all instants of years of four digits, all zones of whole minutes, healthd and healthtop in any two zones","calendar rules have exceptions every 4, 100 and 400 years; zones of the test machine hide mistakes",
  ["cmd/healthtop/main.go:21-33","cmd/healthtop/hosts.go:70-70","cmd/healthtop/hosts.go:112-112","cmd/healthtop/jobs.go:112-112"])
p("C108","A lossy network only takes away","When datagrams of any number of StatsD sinks are lost or delayed, the server still reads only metrics that were emitted, each at most as often: counters never show more than was emitted, timings are some of those emitted, a gauge shows a value it was set to. If all arrive, in any order, counters are the sums over the processes.",
  "any number of processes with any histories and flushes, every choice and order of the datagrams that arrive","the tests use a local socket that loses nothing; what is lost depends on how lines are packed into datagrams",
  ["statsd_sink.go:193-285","statsd_sink.go:287-358"])
p("C109","The end of a round shows what was emitted before it","Whenever healthd recalculates, its numbers for an interval count exactly what the processes had emitted in it when they made the last answers that healthd received; at the end of a round of polls these answers are not older than the round, so an interval in which nothing was emitted since the round began is shown complete - if no poll outlasts the time between two rounds.","all executions of healthd's goroutines with any number of hosts and processes, all interleavings of polls, emissions, purges and recalculations","the order in which concurrent polls are answered, delivered and consumed decides; the fleets and histories are unbounded",["healthd/healthd.go:pollAndAggregate","healthd/healthd.go:poll","healthd/healthd.go:consumePollResponse","healthd/poll.go:poll","json_polling_sink_http.go:ServeHTTP"])
p("C110","Jobs inside jobs complete once each, innermost first","A function given to Run may itself call Run, to any depth, and go on depending on the errors it gets back. Each Run that ends by a return or a panic completes its job once for each sink, with the status that belongs to how its function ended, after everything that the function did and before the caller goes on; it gives back the function's error, or an error with the panic's text. No panic leaves a Run. The completions a sink hears of are those of the runs, in the order in which they end.",
 "all programs that nest runs to any depth and decide by the errors given back, all streams","programs of unbounded depth whose continuation depends on results of inner runs",
 ["health.go:Run","health.go:EventErrKv","health.go:Complete","health.go:NewJob"])
p("C111","A panic is reported to Bugsnag once","A panic stopped by Run is reported by each Bugsnag sink once, even if the error that Run gives back is logged again on every level of the call stack (README: health only sends one error to Bugsnag).",
 "all functions that panic, at any depth of runs, and everything done afterwards","the report depends on the identity of error objects across all later calls",
 ["health.go:Run","error.go:wrapErr","sinks/bugsnag/sink.go:EmitEventErr"])
p("C112","What healthd shows for an interval only grows",
 "If healthd shows a number for an aggregation interval at one moment, then at every later moment at which it recalculates it shows at least that number: counts (and sums of non-negative durations that fit in 63 bits) never go down, minima never rise, maxima never fall, no number disappears from an interval, and an interval with numbers stays in the series until the series is full of later intervals. Conditions: no poll outlasts the time between two rounds, the interval is not older than the purge limit, and of every process healthd received some answer that still had the interval with everything healthd has heard of (the process may have forgotten the interval since).",
 "all processes, hosts, clocks, time zones and interleavings of emissions, polls, deliveries, rounds, purges and recalculations; all pairs of moments of an execution; all counters and summaries",
 "A graph that dips is only seen when polls of two rounds interleave in a certain way; a test has one interleaving.",
 ["healthd/healthd.go:pollAndAggregate","healthd/healthd.go:poll","healthd/healthd.go:consumePollResponse","healthd/healthd.go:purge","healthd/healthd.go:recalculateIntervals","healthd/healthd.go:setAggregation","healthd/poll.go:poll"])
p("C113","Stopping a StatsD sink loses nothing emitted before",
  "When Stop of a StatsD sink returns, every metric of the emissions made before the call has been sent to the server in a datagram; emissions made afterwards return at once.",
  "all options, all sequences of emissions, ticks, drains and stops interleaved with the worker's steps in any way, any number of emissions before and after",
  "Tests of the sink call Drain before they look at what arrived, and never emit after Stop; the loss depends on where the last datagram boundary fell, the blocking on filling a channel of 8192.",
  ["statsd_sink.go:loop","statsd_sink.go:Stop","statsd_sink.go:Drain","statsd_sink.go:flush"])
p("C114","A tick of a StatsD sink sends everything emitted before it",
  "Once the worker of a StatsD sink has received the flush of a tick, and is not inside a Drain, the metrics of all the emissions made before the tick have been sent, in order and before those of later emissions.",
  "all options, all sequences of emissions, ticks, drains and stops interleaved with the worker's steps in any way",
  "Tests call Drain; that the periodic flush alone suffices, and that no interleaving of a tick with drains and other goroutines' emissions leaves something behind, is a statement about all interleavings.",
  ["statsd_sink.go:loop","statsd_sink.go:flush","statsd_sink.go:processCmd","statsd_sink.go:writeStatsDMetric"])
p("C115","healthd's memory stays bounded",
  "However long healthd runs and however often processes report, after a purge it keeps at most six reports per process (interval of the purge and the five before), and at most two hours of intervals.",
  "all histories of responses, purges and recalculations of any length, any number of hosts and processes, any interval duration",
  "A leak shows after hours or days of operation; no test runs that long, and the bound depends on how starts of intervals, purge times and restarts of processes interleave.",
  ["healthd/healthd.go:purge","healthd/healthd.go:consumePollResponse","healthd/healthd.go:setAggregation"])
p("C116","A StatsD sink's memory depends on the names only",
  "However much is emitted, a StatsD sink keeps one buffer per different series (job, event, suffix) and at most one datagram.",
  "all options and all sequences of emissions and flushes of any length",
  "A test sees a handful of emissions; that the cache has exactly one entry per series, and that none is ever given up, is a statement about all histories.",
  ["statsd_sink.go:getPrefixBuffer","statsd_sink.go:writeStatsDMetric","statsd_sink.go:processCmd"])
p("C117","The memory of the polling sink and of the Librato sink depends on the names only",
  "However long a program runs and however much it emits, the polling sink keeps at most retention/interval intervals with one object per different series (and per job and series), and five error samples per error name; the Librato sink keeps one entry per different series since its last flush, and none after a flush, whether the post succeeded or not.",
  "all intervals and retentions, all histories of emissions, ticks and reads of any length with any clock readings; all Librato options and histories of emissions and flushes",
  "A leak shows after hours of operation; tests run for milliseconds and do not look at the size of the maps.",
  ["aggregator.go:getIntervalAggregation","aggregator.go:createIntervalAggregation","interval_aggregation.go:addError","sinks/librato/sink.go:purge","sinks/librato/sink.go:measure","sinks/librato/sink.go:inc"])
p("C118","healthtop's polls do not pile up",
  "However long healthtop runs, the number of its polls under way stays bounded; every poll is received at most once and none is lost.",
  "all interleavings of ticks, results of polls (successes and errors, in any order) and receipts, of any length",
  "A test does not run for hours against a server that does not answer; that no poll is lost or doubled is a statement about all interleavings.",
  ["cmd/healthtop/jobs.go:jobsLoop","cmd/healthtop/jobs.go:pollHealthDJobs","cmd/healthtop/hosts.go:hostsLoop","cmd/healthtop/hosts.go:pollHealthDHosts"])
p("C119","healthd's poll goroutines do not pile up",
  "However long healthd runs, the number of goroutines of its polls stays bounded by the number of hosts; every goroutine started sends exactly one message and ends, and none is lost. Also when the aggregation loop has come to a standstill no further goroutines are started.",
  "all lists of hosts, all interleavings of ticks, polls, deliveries, receipts, requests and the debouncer, of any length, and all continuations of a standstill",
  "A leak of goroutines shows after hours; the count of goroutines is a statement about all interleavings of an unbounded number of them.",
  ["healthd/healthd.go:pollAndAggregate","healthd/healthd.go:poll","healthd/poll.go:poll"])
p("C120","num_fds_used is the number of file descriptors in use",
  "The gauge num_fds_used of the runtime metrics is the number of file descriptors the program has in use, and it is reported at every interval, also when the descriptors are running out.",
  "all sets of open descriptors, all limits, all changes by other goroutines while they are counted, both ways ioutil.ReadDir has been implemented",
  "The number depends on what other goroutines open and close between the system calls, on the limit of the process and on the version of the library; the test of the package only looks for the gauge's name.",
  ["runtime_metrics/fds_linux.go:getFDUsage","runtime_metrics/fds_darwin.go:getFDUsage","runtime_metrics/runtime_metrics.go:Report"])
p("C121","Stop of healthd may be called more than once",
  "Every call of HealthD.Stop returns, also if it is called several times, at the same time or one after the other.",
  "any number of calls, all interleavings of the calls with each other, with polls, API requests, the debouncer and the aggregation loop",
  "A call that waits for ever cannot be observed by a finite test, and the tests call Stop once.",
  ["healthd/healthd.go:Stop","healthd/healthd.go:pollAndAggregate"])
p("C122","Every round of polls ends, and what was answered is shown",
  "Every round of polls that healthd begins comes to its end: the aggregation goroutine receives a response of every host and then the nil that ends the round, and rounds begin again and again. What a process had emitted when it made an answer that reached the channel is shown at the end of that round and at every later recalculation. Conditions: goroutines are scheduled fairly and polls end, the aggregation goroutine and the debouncer do not come to wait for each other (C50), Stop is not called; for the numbers also that no poll outlasts the time between two rounds and that the interval is not purged.",
  "all infinite fair executions of healthd's goroutines, any number of hosts, processes and (overlapping) rounds, all interleavings",
  "A liveness property: a round that never ends cannot be told from a slow one by a finite test, and the interleavings are unbounded.",
  ["healthd/healthd.go:pollAndAggregate","healthd/healthd.go:poll","healthd/healthd.go:consumePollResponse","healthd/poll.go:poll"])
p("C123","healthd's goroutines do not race for memory",
  "Whenever two goroutines of healthd (the caller of StartNewHealthD and Stop, the aggregation goroutine, the goroutines of the rounds and polls, the HTTP server and the handlers of requests) access the same memory and one of them writes it, one access happens before the other in the sense of the Go memory model.",
  "all executions of healthd's goroutines with any number of hosts, overlapping rounds and requests, all interleavings; all pairs of accesses",
  "A race detector sees only the executions that happen; here the order must hold for all schedules.",
  ["healthd/healthd.go:StartNewHealthD","healthd/healthd.go:Stop","healthd/healthd.go:pollAndAggregate","healthd/healthd.go:poll","healthd/healthd.go:memorySafeIntervals","healthd/healthd.go:memorySafeHosts","healthd/healthd.go:consumePollResponse","healthd/poll.go:poll","healthd/api.go:startHttpServer","healthd/api.go:Jobs"])
open('/verif/properties.jsonl','w').write("".join(json.dumps(x,ensure_ascii=False)+"\n" for x in P))
print(len(P))
