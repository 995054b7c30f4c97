# Formal model of gocraft/health in Lean 4 — design

## Technique
The Go sources in /repo are read as text and transcribed function by function into total, computable Lean
functions (`lean/Verif/Model/*`); each definition cites the file and lines it models (checked by `tools/checkcites.py`).
Properties are stated in `lean/Verif/Props/*` against small specifications in `lean/Verif/Spec/*` which do not use the model's
helpers (histories, counts, sums, minima, an independent StatsD parser, an independent JSON reader, reachability in a memory, ...),
and proved for all inputs, histories and schedules. Beside each theorem stand `example`s that show that its hypotheses can be met.
Where the code does not have the property, a theorem `..._false` gives a concrete execution (a witness), and a theorem
`..._partial` says under which condition the property does hold. `MANIFEST.json` lists the theorems of each property.

## Trusted base
* Lean 4.33.0's kernel and the axioms listed at the end of this file (never more than `propext`, `Classical.choice`, `Quot.sound`;
  list produced by `tools/axioms.py`). No axioms of our own, no `sorry`, no `native_decide`, no `bv_decide`.
* The hand transcription of the Go code.
* What the model takes from Go itself and its library, transcribed from their documentation and source rather than from /repo:
  maps, slices, strings as bytes, wrapping `int64`; IEEE 754 `float64`; channels, `select` and mutexes; `strconv`; the parts of `fmt`,
  `encoding/json`, `time`, `net/url`, `unicode/utf8` and `sort` that the code calls (see "What is modelled").

## Modelling conventions
* Go `string`/`[]byte` = `Str := List UInt8` (bytes). `bs "lit"` = UTF-8 bytes of a literal.
* Go `map` = association list (`GoMap`). Where Go iterates over a map in an order it chooses, that order is an argument of the model
  and the theorems quantify over it, or the theorem is stated through look-ups.
* `int64` arithmetic wraps: `i64 x = Int.bmod x (2^64)` around every addition on counters and sums.
* `float64` = `F64`: NaN, ±Inf, -0 or a rational; every operation is exact in ℚ and then rounded once to nearest even.
* `time.Time` = instant in ns plus identity of the `*Location` pointer (because the code compares times with `==`).
* errors inside aggregations = their deep value (what `reflect.DeepEqual` sees).
* panics = `none`; goroutines and channels = labelled transition systems (`step : Label → State → Option State`), a run is any list of
  labels that are enabled one after the other. Liveness is stated as: what is enabled in every reachable state, and a bound on the number
  of steps of the goroutine that suffice; or for infinite executions with weak or strong fairness (`Spec/Fairness`: C86, C122).
* Go values used throughout are in `Model/Base`, decoding of runes in `Model/Utf8`.
* pointer aliasing: references into an explicit heap, where a property is about it (`Model/Stream` for the key/value maps,
  `Model/Heap` for aggregations). The latter comes with a small separation logic (`Lemmas/Sep`).

## What is modelled, and what is not
| Go file | Lean module | left out or simplified |
|---|---|---|
| health.go, error.go | `Model/Stream`, `Model/ErrorObjects`, `Model/Concurrent`, `Model/PanickingSinks`, `Model/Nested` | in `Stream` one goroutine calls, in `Concurrent` many, memory access by memory access; sinks return normally except in `PanickingSinks`; typed nil pointers |
| interval_aggregation*.go, aggregator.go | `Model/Aggregation`, `Model/Aggregator` (values), `Model/Heap` (memory) | in `Heap` error objects are opaque (the aggregator never writes them; but see "Disagreements", C15) |
| json_polling_sink.go, aggregator.go (goroutine) | `Model/PollingSink` | the one-second ticker ticks at any time, with any clock reading |
| json_polling_sink_http.go | `Model/Server` (handlers beside the worker), `Model/Metrics`, `Model/Fprintf`, `Model/Json`, `Model/TimeText` | net/http itself; `ListenAndServe` |
| statsd_sink.go | `Model/StatsD`, `Model/StatsDLoop`, `Model/Format` | address look-up; `WriteToUDP`'s result (ignored by the code); ticks come at any time |
| writer_sink.go, json_writer_sink.go | `Model/Writer`, `Model/LogFile` (the file; a `Write` is atomic) | result of `Write` (ignored by the code) |
| healthd/healthd.go, poll.go | `Model/Healthd` (data), `Model/HeapHealthd` (memory; decoding and consuming are one step), `Model/HealthdLoop` (goroutines), `Model/PollRounds` (rounds of polls, contents of the channel), `Model/HealthdMemory` (memory accessed by each step), `Model/HealthdStops` (several calls of `Stop`), `Model/HealthdRun` (goroutines, data and API handlers together), `Model/Watch` (rounds of polls, data and the polled processes together), `Model/RawJson`, `Model/Unmarshal` (decoding) | healthd's own instrumentation stream except its request jobs (C56); `fmt.Println`; HTTP client errors are a parameter of the response |
| healthd/debouncer.go | `Model/Debouncer`, `Model/HealthdLoop` | — |
| healthd/api.go | `Model/Api`, `Model/Query` | gocraft/web's router; `sort.Sort` is any function that meets its contract |
| sinks/librato/sink.go | `Model/Librato`, `Model/SinkLoop`, `Model/HttpRequest` | TLS and the headers net/http adds; the outcome of the request changes nothing but the connections |
| sinks/bugsnag/*.go | `Model/Bugsnag`, `Model/SinkLoop`, `Model/HttpRequest`, `bugsnagReport` in `Model/Stream` | the answer is a parameter |
| sinks/librato/sink.go `New`, exported fields | `Model/LibratoSettings` | one emitting goroutine, `Stop`, a weak memory model (interleavings are sequentially consistent) |
| what poll.go, healthtop and the sinks do with answers | `Model/Connections` | HTTP/2, redirects, the total limit of unused connections |
| stack/*.go | `Model/Stack` | `runtime.Callers`, `FuncForPC`, `GOROOT` are parameters |
| runtime_metrics/*.go | `Model/RuntimeMetrics`, `Model/Descriptors` (fds_*.go) | the runtime's readings are parameters; of /proc and `ioutil.ReadDir` only which descriptors are listed and looked at |
| cmd/healthtop/*.go | `Model/Healthtop`, `Model/Query`, `Model/TopText` (bytes written, times in RFC 1123) | flag parsing, goterm: control sequences (any, see `Decorates`), layout, width |
| cmd/healthd/main.go, identifier.go | `Model/HealthdMain` | environment, host name and process id are parameters; printing of usage |
| cmd/healthd/main.go:33-46, healthd/poll.go:40-67, healthd.go:281-302, api.go:102-131 (instrumentation) | `Model/OwnHealth` | a call of a job is one step; handlers that panic |
| json_polling_sink.go:56-74, statsd_sink.go:135-153 | `Model/SinkCommands` | what `reflect.DeepEqual` sees of an error is a parameter |
| cmd/healthtop/main.go:41, URLs of healthtop and healthd, paths of the router, listening addresses | `Model/Addresses` | ports and listening hosts compared as text; fragments, percent signs in paths |
| healthd/mock_time.go | — | test helper |

Library models and their simplifications:
* `Model/F64`: fused multiply-add (permitted to Go compilers on some architectures) and NaN payloads are not modelled.
* `Model/Format`: `AppendInt`, `AppendFloat 'f'` with precision 2 and -1, exact; the shortest form is specified as shortest-and-closest.
* `Model/Json`: `Marshal`/`MarshalIndent` for the values used; as in Go ≥ 1.22 (older versions write bytes 8 and 12 as \u0008, \u000c).
* `Model/RawJson`, `Model/Unmarshal`, `Model/Healthtop` (healthd's reading of a process, healthtop's of healthd): encoding/json's scanner (nesting up to 10000, surrogates, ill-formed
  UTF-8 replaced) and decoder: exact and folded field names, merging of repeated maps, elements of slices decoded in place (also
  hidden ones), null, embedded structs, integers judged by their text, sign of -0, times read from the raw text. Left out: error messages
  and the partial value after an error (both drop it).
* `Model/TimeText`: RFC 3339 as `Time.MarshalJSON` writes and `UnmarshalJSON` reads it.
* `Model/Fprintf`: `Fprintf(w, format)` without arguments, `doPrintf` complete.
* `Model/HealthdLoop`, `Model/SinkLoop`: the work between two channel operations is one step.

## Properties: model and proof
| id | how it is modelled and proved |
|----|-------|
| C01, C02 | `mergedKeyValues` on a heap of maps; look-up lemmas; `C01_from_history` derives the maps from the history of KeyValue calls |
| C03 | call log of sinks; induction over the list of sinks |
| C04 | `Run` over all outcomes of a callback (return, error, panic, panic(nil), Goexit) and all nested operations |
| C05, C06 | error objects in a store with identity and `Emitted` flag; induction over chains of calls |
| C07 | heap of maps; false when exactly one of call, job, stream has pairs (`C07_live`: the sinks hold that very map); otherwise proved |
| C08–C13 | refinement: the aggregator's state is a function of the history cut into segments of equal interval |
| C14, C16, C19 | invariants by induction over histories |
| C15, C24, C25 | memory model with separation logic: footprint of every operation, frame rule, then arbitrary client programs on either side |
| C17, C18 | transition system of the polling sink; invariant: processed ++ queue = accepted |
| C20–C23, C26, C65, C68 | look-up lemmas for `Merge`; permutations; float error analysis for sums of squares |
| C27–C30, C33–C35, C66 | StatsD bytes by induction over histories; an independent parser; decimal rounding error bounds |
| C31, C32 | transition system of the StatsD loop; invariants and a measure |
| C36–C38 | log lines; sortedness of keys; JSON read back by the reader of `Spec/Json` |
| C39, C40, C67 | JSON text through `Fprintf`, read back; decoding gives the metrics |
| C41–C48 | healthd's maps refined to "latest report per host, process and interval"; invariants over all consumed responses |
| C49–C51 | debouncer as iterations with clock readings; transition system of loop, debouncer, pollers and API |
| C52–C56, C69 | API functions for every iteration order and every correct sorting function; the answers as JSON |
| C57 | composition of the models of process, endpoint, poll and healthd |
| C58, C59, C79 | Librato: induction over histories; byte and rune lemmas; transition system |
| C60, C80 | Bugsnag payload and its goroutine beside a program that keeps using the stream |
| C61, C70, C71 | functions on names, frames, program counters |
| C62, C72 | runtime metrics: gauges of one report; transition system of start and stop |
| C63, C73–C77 | healthtop: filter, request, cells, hosts table, status line and screen loop |
| C64 | decision logic of `EventErr` for nil |
| C78 | transition system common to the Librato and Bugsnag sinks |
| C84 | error objects with references: transition system of emitting goroutines and aggregator; ring invariant |
| C85 | memory model of healthd's goroutine; simulation of the value model; separation invariant against arbitrary clients |
| C86 | executions without end of the four transition systems with weak and strong fairness (`Spec/Fairness`); leads-to rules, counters and measures |
| C87 | invariant over the history of healthd's loop: purged intervals stay as they were |
| C88 | models of the URLs, the router's paths and the addresses; decision logic |
| C89 | composition of stream, sinks and aggregator over arbitrary programs; statements read off the program |
| C90 | transition system of healthd's activities over the model of the stream; composition with C89's lemmas |
| C91 | composition: C89 (programs), C57 without purges (processes, polls), C87 (purges), C54 (overall), C63/C69 (API, healthtop) |
| C92 | transition system of goroutines with single memory accesses; ownership invariant (who may write which map) and a frame rule; cost function for the end; composition with C89, C91 |
| C93 | product of the goroutine, data and handler models; invariant: what a request holds was true at one moment while it was under way |
| C94 | readers for text and JSON logs; record by record, then composition with C92 |
| C95 | differences as a relation on JSON values, closed to an equivalence; decoding steps of different fields commute |
| C96 | names joined by dots are injective on names without dots; induction over the emissions; composition with C58 |
| C97 | a StatsD server as a function of the datagrams (written after etsy/statsd: signed gauges are changes; trusted); composition of C28, C29, C34, C66 with induction over the emissions |
| C99 | requests and connections as a transition system; invariant: a caller that has not seen the body has still everything to do; connections counted |
| C100, C101 | base64 as in encoding/base64, read back by a decoder after RFC 4648; the notification of C60 |
| C102 | emission with sinks that panic as they like, compared with the emission of C03; Run on top of it |
| C103 | program and goroutine interleaved access by access; posts compared with a sink that had the final settings from the start |
| C104 | rounds with their WaitGroup and the contents of the channel; invariant over everything sent; refinement to `Model/HealthdLoop` and lifting of its deadlock |
| C105 | after the loop has ended, messages in the channel plus goroutines are constant; with rounds one after the other they are at most hosts + 1 |
| C106, C107 | the bytes written to the table read back by a reader of terminal text; RFC 1123 times by a reader with Zeller's congruence |
| C108 | datagrams that arrive are a sub-permutation of those sent (C28, C29 say what they hold); counters are monotone in it |
| C109 | composition of the rounds (C104), the fleet (C57) and the processes' histories; invariant: with polls in time, rounds are answered and received in order, so C57 applies to the fleet cut off at the last answers received |
| C110 | programs as trees whose continuation depends on the errors given back; reduction to sequences of operations (so C01-C07 carry over); induction over the tree |
| C111 | C06 applied to the two loggings; the two error objects have different identities |
| C112 | monotonicity: what healthd knows of a process at one moment is a prefix of what it knows later, what it holds later it held before (a process that still has an interval had it before), and C109 at both moments |
| C113 | invariant of the worker and its queue: for each stop queued or received, what the worker handled and what is queued before it are the emissions made before it was called; after the stop the queue only grows |
| C114 | invariant: the messages received and those queued are those sent; outside drains, what was received before a received flush has been sent; what was sent stays sent |
| C115 | C48 at the purge; the starts kept are different multiples of the interval within five intervals, of which there are six; fibres over processes |
| C116 | invariant: the keys of the cache are exactly the series of the emissions |
| C117 | invariant/counting: the keys of every map are exactly the names emitted; number of intervals by the retention window |
| C118 | invariant: answered polls and polls under way are together exactly those started (a permutation of 0 … n) |
| C119 | invariant: goroutines to come, messages in the channel and messages received are together those of all rounds; `Standstill` of C50 through the refinement C104 |
| C120 | `Model/Descriptors`: the system calls of `ioutil.ReadDir` on /proc/self/fd, with arbitrary changes by other goroutines in between |
| C121 | invariant: at most one call has been received by the loop, and the loop is ending or has ended; until then the rest runs as in `HdLoop` (`going_run`), where C50 says when it can come back to its `select` |
| C122 | leads-to over `Rounds.step`: an execution with rounds is mapped to one of `HdLoop.step` (`coarse`), whose fairness lemmas (C86) empty the channel again and again; a measure of what is left of a round (hosts not yet polled, polls not yet delivered) falls until the nil is sent. Then C109 and C112 give the numbers (`C122_shown`); a concrete infinite fair execution meets the hypotheses (`LivenessRoundsCase`, `WatchLiveCase`). `C122_few`: up to 65 hosts and non-overlapping rounds, the invariant `Few` of C50 excludes the deadlock; `C122_again_iff`, `C122_ends_iff`: from 66 on a run into the deadlock, continued until only the clock moves, is a fair execution |
| C123 | every step of `Model/PollRounds` with the memory it reads and writes (`Model/HealthdMemory`); the happens-before relation of starts, messages and program order (`Spec/Order`); invariants: every goroutine was started, who may access what, a response is sent once and read after its receipt, a copy is passed on before it is used |
| C98 | HTTP handlers, worker and emitters as one transition system; invariant with the history, the calls in progress and the steps at which requests arrived |
| C81–C83 | `main` as a function of the environment; `Healthd` started with its hosts; cutting identifiers at the last dot |

## Disagreements between properties and code
Each has a theorem with a concrete witness (in brackets).
* C04: `panic(nil)` (before Go 1.21) and `runtime.Goexit` inside `Run` complete nothing [`C04_no_completion_cases`].
* C07, C80: with pairs in only one of call, job and stream, sinks are handed the live map: a later `KeyValue` changes what the Bugsnag
  goroutine reports, and is a data race [`C07_snapshot_false`, `C80_live_map_false`, `C80_race_false`].
* C15: a program that writes into a snapshot it was given changes later snapshots, as closed intervals are shared between them
  [`Mem.C15_writers_false`].
* C84 (and C13, whose errors are values): `EventErr` sets `Emitted` on an error after handing it to the sinks (health.go:123-125, 135-137)
  while the aggregator's goroutine compares errors with `reflect.DeepEqual`: a data race, and the number of samples kept depends on who is
  faster [`ErrObj.C84_repeats_false`, `ErrObj.C84_race_false`].
* C16: with a clock that goes backwards the same serial number can stand for different contents [`C16_backwards_clock_witness`].
* C21: a job that has no completions on one side makes the merged minimum or maximum wrong [`C21_job_extremes_false`]; exactly when: `C21_job_iff`.
* C23: gauges and, in the last bits, float sums of squares depend on the order of merging [`C23_gauge_and_squares_order`].
* C31, C32: overlapping `Drain`s share an acknowledgement; a `Stop` or `Drain` queued during a `Drain` is swallowed and never returns; a second `Stop`
  blocks for ever [`C31_two_drains_false`, `C32_stop_during_drain_false`, `C32_drain_during_drain_false`, `C32_after_stop_false`].
  Exactly which calls can return: [`SdRet.C32_stop_iff`, `SdRet.C32_drain_iff`]; what a `Drain` has sent when calls overlap: [`SdStop.C31_received`].
* C86: `Drain` loops until it finds the channel empty; while others keep emitting it need not return, even if nobody is treated unfairly
  [`C86_statsd_drain_false`]. healthd with 66 hosts or more: the wait of C50 is also an execution without end in which every goroutine is treated fairly;
  with at most 65 hosts and rounds that do not overlap, all is answered [`C86_healthd_iff`, `C86_healthd_stop_iff`, `C86_healthd_recalculates_iff`].
* C87: healthd shows intervals for two hours but keeps the reports for five intervals. A process that offers more intervals than that has the old ones polled again;
  they count as news, and the interval is recalculated from the processes polled again so far; the rest is lost, for good if a process has gone [`C87_false`].
* C90: a poll answered with an error status and a JSON body counts as a success in healthd's own metrics, although healthd does not
  count it as a success of the host [`C90_false`].
* C92: outside the discipline stated there, goroutines race; a sink or a key/value can get lost [`Concurrent.Sample.C92_needs_discipline`,
  `Concurrent.Sample.C92_lost`]. (The code promises nothing; the README does not say.)
* C88: healthd listens at `:5031` by default, healthtop asks `localhost:5032` [`C88_default_false`]. With the README's example
  `HEALTHD_SERVER_HOSTPORT=10.18.23.132:5030` the API and healthd's own metrics (default `:5030`) want the same port, and the loser's error is ignored
  [`C88_readme_false`]. The README's paths lack `/healthd` [`C88_paths_false`].
* C35: names with dots collide [`C35_keys_not_injective`]; exactly the names that look alike once disallowed characters are blurred share a key [`SdKeys.C35_iff`].
* C36: a nil error makes the writer sink panic [`C36_panics`]; an argument with a newline makes two lines (stated in `C36_one_line`).
* C39: the metrics JSON is used as a `Fprintf` format: a percent sign in any name corrupts it [`C39_false`]; a percent
  sign always changes the body [`C39_percent_iff`].
* C40: one NaN or infinite gauge and /health answers 500 [`C40_false`]; exactly while an interval of the window has such a value as the last one of a
  gauge, over all jobs or in one job [`C40_history_iff`].
* C43, C47: the same instant in two time zones is two intervals; this happens for zones that are not whole hours [`C43_false`, `C47_false`]; exactly which offsets: `C47_iff`. `Z` and `+00:00` are two zones to Go [`C47_zero`].
* C46: bodies `{}`, with nulls, or with a negative duration crash healthd [`C46_false`, `C46_false_null`, `C46_false_timer`, `C46_false_negative`]; exactly when a step of the loop crashes: `C46_iff` (a negative duration kills at the next purge or recalculation only from -2 h up).
* C50: aggregation loop and debouncer can wait for each other for ever (66 hosts) [`C50_false`]; with fewer hosts they cannot if a round begins when the last one is
  settled [`C50_iff`].
* C51: a request that looked at the stop flag just before `Stop` waits for ever [`C51_false`]; exactly which requests do: [`HdLoop.C51_iff`].
* C52, C53: the variance can come out negative by cancellation: NaN standard deviation, unsortable, and /jobs answers 500 [`C52_false`, `C53_false`].
* C58, C79: a NaN or infinite value loses the whole Librato flush; `Stop` does not flush [`C58_false`, `C79_stop_flushes_false`].
* C64: `EventErr(x, nil)` returns a non-nil error whose `Error()` panics [`C64_nil_error_false`].
* C71: system frames are recognised by a prefix of the text, so `/usr/local/go2/x.go` counts as below `/usr/local/go` [`C71_false`]; the judgement is right for all other files [`C71_iff`].
* C72: a non-positive `Interval` crashes; `Stop` without `Start` blocks [`C72_crash`, `C72_stop_needs_start`].
* C75, C77: healthtop ignores the HTTP status, shows `Failure: ` without a reason, and lets a late answer replace newer data
  [`C75_no_reason`, `C77_error_false`, `C77_stale_false`].
* C78: `Stop`/`ShutdownServer` loses what is still in the channel; a second one blocks for ever [`C78_all_processed_false`, `C78_after_stop`].
* C83: the program healthd monitors itself with an interval of one minute; if its own answer is the first one, all data of hosts with
  another interval are dropped for ever [`C83_interval_false`].
* C94: a newline in a name, message or value forges a line of a text log, and text records can be ambiguous [`LogFile.Sample.C94_text_forged`,
  `LogFile.Sample.C94_text_ambiguous`]; a JSON log has no newlines between the records [`LogFile.C94_json_unseparated`].
* C96: an event called "error" of a job and the errors called like this job are one Librato counter; a timing called "success" is mixed into
  the times of the job's successes; dots in names and sanitising mix others [`Librato.C96_false`].
* C97: gauges are sent as they are, but a StatsD server takes a value with a sign as a change: a gauge set to -5 after 10 shows 5
  [`StatsDServer.C97_false`]; errors and events share counters as in C96.
* C99: the Librato sink throws the answers of its requests away without reading or closing them: every answer with a body leaves a
  connection (and its goroutines) behind for ever, one in every flush period [`C99_false`, `C99_exact`].
* C100: a colon in the Librato user makes the server read another user and key [`C100_colon`].
* C101: `Config` promises defaults for release stage and host name that nobody sets; `AppVersion` is never sent [`C101_false`].
* C102: a sink that panics silences the sinks behind it for that emission [`C102_emit`]; if it panics in a completion, `Run` ends the job twice
  or panics [`C102_false`].  The writer sink panics for nil errors [`C102_nil_error`].
* C103: `FlushPeriod` of the Librato sink is read by the goroutine that `New` starts, unsynchronised with the caller's assignment: the sink may
  flush every 15 s and say `"period":60` [`C103_false`].
* C105: `Stop` ends neither the debouncer [`C105_debouncer`] nor polls whose responses do not fit in the channel [`C105_false`]: from 64 hosts on, if rounds do not overlap [`C105_iff`], else with any number of hosts [`C105_few_false`].
* C106: a tab in a job's name moves its counts under other titles [`C106_false`]. C107: equal abbreviations of zones hide which instant is meant
  [`C107_false`].
* C108: a datagram that UDP delivers twice counts twice [`C108_twice_false`]; delayed ones can set a gauge back [`C108_order_false`].
* C109: nothing compares the serial numbers' order, so a response delayed beyond the next round replaces a newer report (the HTTP timeout of 5 s and the
  period of 10 s make this rare, not impossible) [`C109_late_false`].
* C111: `Run` logs the error of a panic and throws away the wrapped error that the logging gives back (health.go:231-232); what it returns is the plain
  error.  If the caller logs it, as the README recommends, each Bugsnag sink reports the panic a second time, with the caller's stack [`C111_twice`].
* C113: `Stop` of a StatsD sink does not flush: the datagram that was being filled is never sent [`C113_stop_false`; `C113_stopped` says exactly what is lost].
  After `Stop` the channel of 8192 is not read any more, and the application's emissions block for ever once it is full [`C113_blocks`].  A `Drain`
  before the `Stop` saves everything [`C113_drain_first_partial`].  Not modelled: the goroutine that ranges over the ticker's channel and the UDP socket are left behind.
* C115: `purge` compares with the present only: reports of intervals that start in the future stay, any number of them [`C115_ahead_false`].
* C116 (holds, but worth knowing): the cache of key buffers is never emptied, so names with unbounded variety fill the memory [`C116_unbounded`].
* C118: healthtop polls every second with `http.Get`, which has no time limit: a healthd that accepts connections and does not answer makes a goroutine and a connection pile up every second [`C118_false`].
* C119: healthd begins a round of polls at every tick whether or not the last one has ended; in the model, which has no time limit for polls, nothing bounds the goroutines [`C119_false`]. (With the limit of five seconds, poll.go:37, the condition of `C119_in_time_partial` fails only if the channel stays full.)
* C88 (worth knowing): a server whose address has no port or an IPv6 host without brackets (`HEALTHD_SERVER_HOSTPORT=5031`) does not run, and nothing is said about it [`C88_malformed`].
* C120: `getFDUsage` counts the descriptor of the directory it reads [`C120_early_partial`: one too many]; since `ioutil.ReadDir` closes the directory before it looks at the entries, the
* C121: a second call of healthd's `Stop` never returns [`C121_false`].
* C123: handlers read `intervalDuration` while the aggregation goroutine may write it; this is the only race among healthd's goroutines [`C123_race_false`]; requests whose copy is made after the write do not meet it [`C123_when`].
  call fails and the gauge is not reported at all [`C120_late_quiet`, `C120_late_iff`]; nor is it when descriptors have run out [`C120_limit`]; on Darwin it is always 0.
* C98: `ShutdownServer` ends the worker but not the HTTP server: later requests to /health are accepted and never answered
  [`SrvSys.C98_shutdown_hangs`].
* C93: while the first host's answer is consumed, /healthd/hosts can answer with the new interval duration and the old hosts, and reading `intervalDuration`
  (api.go:136,146,159,169) is a data race; neither happens later [`C93_hosts_false`, `C93_race_false`].

## Hypotheses worth knowing
* Counts and sums are exact as `int64` (they wrap like the code's); minima and maxima need fewer than 2^63 samples.
* C08, C10–C14 hold for any clock with intervals taken as segments of the history, and per interval for clocks that do not go backwards.
* C13, C65: exact samples if no nil error was emitted.
* C38, C57, C60, C67, C69: texts are valid UTF-8 (encoding/json replaces anything else); years 1–9999.
* C41, C57: processes use a new serial number when their report changes (C16), whole-hour zones (C47); C57 also: retention not exceeded.
* C86: fairness, which Go's scheduler and the random choice of `select` provide with probability 1, not by specification. Which steps have to be
  fair is stated in each theorem.
* C49: clocks of the two loops in order; threshold below the largest duration.

## Mutation testing
`tools/mutate.py` edits the model in a scratch copy the way a programmer might get it wrong, rebuilds, and records in `seeded/LOG.jsonl`
which theorems fail. Survivors were either equivalent (the entry says why) or led to the theorem named under "tightened".
"(out of memory checking ...)" in the log means that the checker of a file with concrete examples exceeded the memory limit when the
definition no longer reduced to the expected value.

## Axioms of each theorem
From `#print axioms` (tools/axioms.py), grouped by the set of axioms:

* `propext, Classical.choice, Quot.sound` (385): `C01_precedence`, `C01_from_history`, `C02_nil_iff_no_pairs`, `C03_fan_out`, `C03_sinks_in_order`, `C03_durations`, `C04_run`, `C04_stream_run`, `C04_no_completion_cases`, `C05_wrapped_once`, `C06_reported_once`, `C07_snapshot_partial`, `C07_snapshot_false`, `C07_live`, `C08_event_counts`, `C08_event_counts_interval`, `C09_totals`, `C10_timers`, `C10_timers_interval`, `C11_gauges`, `C11_gauges_interval`, `C12_completions`, `C12_completions_interval`, `C13_errors`, `C13_errors_interval`, `C13_no_adjacent_repeats`, `C14_window`, `C14_window_interval`, `Mem.C15_untouched`, `Mem.C15_contents`, `Mem.C15_runs`, `Mem.C15_writers_false`, `C16_serial_counts`, `C16_emission`, `C16_serial_identifies`, `C16_backwards_clock_witness`, `C17_prefix`, `C17_monotone`, `C17_nothing_lost`, `C17_accepted_but_not_yet_visible`, `C18_running_is_live`, `C18_after_shutdown`, `C18_shutdown_returns`, `C19_configurations`, `C19_works`, `C19_panics`, `C20_merge_adds`, `C20_merge_keys`, `C21_timer_extremes`, `C21_job_extremes_partial`, `C21_job_extremes_false`, `C21_job_exact`, `C21_job_iff`, `C22_merge_into_new`, `C23_order_independent`, `C23_merge_all`, `C23_gauge_and_squares_order`, `Mem.C24_clone`, `Mem.C24_independent`, `Mem.C24_stays`, `Mem.C25_merge`, `Mem.C25_independent`, `C26_split_and_merge`, `C27_packet_size`, `C28_nothing_lost`, `C28_after_flush`, `C29_datagrams_parse`, `C30_history_independent`, `C31_drain_sends_everything_partial`, `C31_first_in_first_out`, `C31_two_drains_false`, `SdStop.C31_returned`, `SdStop.C31_received`, `C32_stop_returns_partial`, `C32_drain_returns_partial`, `C32_stop_during_drain_false`, `C32_drain_during_drain_false`, `C32_after_stop_false`, `SdRet.C32_stop_iff`, `SdRet.C32_drain_iff`, `C33_lines_of_emission`, `C33_sanitizer`, `C34_timing_text`, `C35_keys_not_injective`, `SdKeys.C35_iff`, `SdKeys.C35_emissions_iff`, `SdKeys.C35_bytes_iff`, `C36_line`, `C36_order_independent`, `C36_panics`, `C36_one_line`, `C37_duration`, `C38_writes`, `C38_lossless`, `C39_other_path`, `C39_body_partial`, `C39_percent_iff`, `C39_false`, `C40_partial`, `C40_iff`, `C40_history_iff`, `C40_false`, `C41_totals`, `C42_known`, `C43_series`, `C43_strict_partial`, `C43_false`, `C44_status`, `C45_no_data`, `C46_partial`, `C46_false`, `C46_false_null`, `C46_false_timer`, `C46_false_negative`, `C46_iff`, `C47_false`, `C47_zero`, `C48_purge`, `C50_partial`, `C50_false`, `HdLoop.C50_iff`, `HdLoop.C50_hosts_partial`, `HdLoop.C50_state_iff`, `HdLoop.C51_iff`, `C52_jobs_partial`, `C52_limit`, `C52_false`, `C53_average`, `C53_few`, `C53_stddev_partial`, `C53_stddev_exact_partial`, `C53_false`, `C54_overall`, `C54_run`, `C55_hosts`, `C56_emissions`, `C57_end_to_end`, `C57_no_crash`, `C58_flushes_partial`, `C58_false`, `C59_chars`, `C59_disjoint`, `C60_payload`, `C60_ok`, `C62_names`, `C62_values`, `C62_run`, `C63_shows`, `C64_non_nil_partial`, `C64_nil_error_false`, `C65_merged_samples`, `C66_gauge_text`, `C67_decode_partial`, `C67_emitted_partial`, `C68_emitted`, `C68_merged`, `C69_jobs`, `C69_aggregations`, `C69_overall`, `C69_hosts`, `C69_stopped`, `C69_jobs_error`, `C71_below`, `C71_system_partial`, `C71_false`, `C71_iff`, `C72_silent`, `C72_stop_needs_start`, `C72_crash`, `C73_request`, `C74_duration`, `C74_cells`, `C74_convert`, `C75_line`, `C75_hosts`, `C75_no_reason`, `C76_status`, `C76_screen`, `C77_errors_partial`, `C77_error_false`, `C77_stale_false`, `TopPolls.C77_in_time_partial`, `C78_in_order`, `C78_catches_up`, `C78_after_stop`, `C78_all_processed_false`, `C79_posts_partial`, `C79_flushed`, `C79_stop_flushes_false`, `C80_reports`, `C80_contents_partial`, `C80_quiet_partial`, `C80_after_shutdown`, `C80_live_map_false`, `C80_race_false`, `C81_monitors`, `C81_exits`, `C82_identifier`, `C83_interval_false`, `ErrObj.C84_samples_partial`, `ErrObj.C84_settled_partial`, `ErrObj.C84_repeats_false`, `ErrObj.C84_race_false`, `Mem.C85_goroutine`, `Mem.C85_work`, `Mem.C85_answer`, `Mem.C85_request`, `Mem.C85_separate`, `Mem.C85_stays`, `C86_metrics`, `C86_emit_returns`, `C86_get_metrics_returns`, `C86_shutdown_returns`, `C86_statsd_processed`, `C86_statsd_sent`, `C86_statsd_stop`, `C86_statsd_drain_partial`, `C86_statsd_drain_false`, `C86_sink_processed`, `C86_sink_room`, `C86_sink_stop`, `C86_librato_flushed`, `C86_bugsnag_sent`, `C86_healthd_answers`, `C86_healthd_consumed`, `C86_healthd_recalculates`, `C86_healthd_stop`, `C86_healthd_few`, `C86_healthd_false`, `C86_healthd_stop_false`, `C86_healthd_iff`, `C86_healthd_stop_iff`, `C86_healthd_recalculates_iff`, `C87_partial`, `C87_recent_partial`, `C87_false`, `C88_jobs`, `C88_hosts`, `C88_metrics`, `C88_url`, `C88_url_plain`, `C88_configured_partial`, `C88_both`, `C88_malformed`, `C88_default_false`, `C88_readme_false`, `C88_paths_false`, `C89_heard`, `C89_metrics`, `C89_statsd`, `C90_reports`, `C90_numbers_partial`, `C90_false`, `C91_interval`, `C91_overall`, `C91_system`, `Concurrent.C92_no_race`, `Concurrent.C92_calls`, `Concurrent.C92_progress`, `Concurrent.C92_ends`, `Concurrent.C92_heard`, `Concurrent.C92_metrics`, `C92_system`, `Concurrent.Sample.C92_needs_discipline`, `Concurrent.Sample.C92_lost`, `C93_atomic`, `C93_hosts_partial`, `C93_hosts_false`, `C93_race_partial`, `C93_race_false`, `LogFile.C94_text`, `LogFile.C94_json`, `LogFile.C94_json_unseparated`, `LogFile.Sample.C94_text_forged`, `LogFile.Sample.C94_text_ambiguous`, `Unmarshal.C95_same`, `C95_jobs`, `C95_hosts`, `Unmarshal.C95_twice`, `Unmarshal.C95_strict`, `C95_healthtop_strict`, `Librato.C96_post_partial`, `Librato.C96_counters`, `Librato.C96_values`, `Librato.C96_false`, `StatsDServer.C97_server_partial`, `StatsDServer.C97_false`, `SrvSys.C98_answers`, `SrvSys.C98_process_partial`, `SrvSys.C98_progress`, `SrvSys.C98_shutdown_hangs`, `Conns.C99_exact`, `Conns.C99_partial`, `Conns.C99_false`, `ServerAuth.C100_librato_partial`, `ServerAuth.C100_colon`, `ServerAuth.C100_headers`, `Bugsnag.C100_bugsnag`, `Bugsnag.C101_false`, `World.C102_emit`, `World.C102_program`, `World.C102_run_partial`, `World.C102_run`, `World.C102_at_most_two`, `World.C102_nil_error`, `Sample.C102_false`, `LibratoSetup.C103_sent`, `LibratoSetup.C103_ticker_partial`, `LibratoSetup.C103_false`, `LibratoSetup.C103_race`, `LibratoSetup.C103_late`, `Rounds.C104_sentinel`, `Rounds.C104_once`, `Rounds.C104_refines`, `Rounds.C104_deadlock`, `Rounds.C105_polls_partial`, `Rounds.C105_debouncer`, `Rounds.C105_iff`, `Rounds.C105_few_false`, `Rounds.C105_false`, `TopText.C106_jobs_partial`, `TopText.C106_hosts_partial`, `TopText.C106_false`, `TopText.C107_text`, `TopText.C107_answer`, `TopText.C107_first`, `TopText.C107_false`, `StatsDNetwork.C108_lines`, `StatsDNetwork.C108_counters`, `StatsDNetwork.C108_times`, `StatsDNetwork.C108_gauge`, `StatsDNetwork.C108_all`, `StatsDNetwork.C108_twice_false`, `StatsDNetwork.C108_order_false`, `Watch.C109_shown`, `Watch.C109_round`, `Watch.C109_complete`, `Watch.C109_late_false`, `Nested.C110_run`, `Nested.C110_calm`, `Nested.C110_completions`, `Nested.C111_panic_reported_partial`, `Nested.C111_twice`, `Watch.C112_grows`, `SdStop.C113_stopped`, `SdStop.C113_drain_first_partial`, `SdStop.C113_blocks`, `SdStop.C113_stop_false`, `SdStop.C114_tick`, `SdStop.C114_draining`, `Healthd.C115_six_partial`, `Healthd.C115_total_partial`, `Healthd.C115_ahead_false`, `StatsD.C116_buffers`, `StatsD.C116_unbounded`, `SinkMem.C117_polling`, `SinkMem.C117_bound`, `Librato.C117_librato`, `TopPolls.C118_count`, `TopPolls.C118_in_time_partial`, `TopPolls.C118_false`, `Rounds.C119_count`, `Rounds.C119_standstill`, `Rounds.C119_in_time_partial`, `Rounds.C119_false`, `Descriptors.C120_early_partial`, `Descriptors.C120_early_exact`, `Descriptors.C120_late_quiet`, `Descriptors.C120_false`, `Descriptors.C120_limit`, `HdStops.C121_iff`, `HdStops.C121_false`, `Rounds.C122_ends`, `Rounds.C122_again`, `Watch.C122_shown`, `Rounds.C122_few`, `Watch.C122_shown_few`, `Rounds.C122_false`, `Rounds.C122_many_false`, `Rounds.C122_again_iff`, `Rounds.C122_ends_iff`, `HdMem.C123_only_duration_partial`, `HdMem.C123_later`, `HdMem.C123_when`, `HdMem.C123_race_false`
* `propext, Quot.sound` (23): `C06_muted_never`, `C33_key_segments`, `C35_keys_injective_partial`, `C47_partial`, `C47_iff`, `C49_fires_iff`, `C49_rate`, `C51_partial`, `C51_false`, `C56_status`, `C59_valid`, `C59_keeps`, `C59_idempotent`, `C61_parts`, `C61_unique`, `C61_usual`, `C63_filter`, `C70_text`, `C78_stop_returns`, `C83_same_interval_partial`, `C88_split_iff`, `Descriptors.C120_late_iff`, `HdStops.C121_one`
* `propext` (1): `C70_trace`
