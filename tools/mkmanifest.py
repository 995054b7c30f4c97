#!/usr/bin/env python3
"""Generates /verif/MANIFEST.json."""
import json, os
C = []
def c(prop, status, theorems, note=""):
    C.append({"property": prop, "status": status, "theorems": theorems, "note": note})

c("C08", "proved", ["C08_event_counts", "C08_event_counts_interval"], "any clock by segments; per interval for non-decreasing clocks; counts as int64")
c("C09", "proved", ["C09_totals"])
c("C10", "proved", ["C10_timers", "C10_timers_interval"], "min/max for fewer than 2^63 samples; sums as int64")
c("C11", "proved", ["C11_gauges", "C11_gauges_interval"])
c("C12", "proved", ["C12_completions", "C12_completions_interval"])
c("C13", "proved", ["C13_errors", "C13_errors_interval", "C13_no_adjacent_repeats"], "exact samples when no nil error was emitted; bound and membership always")
c("C14", "proved", ["C14_window", "C14_window_interval"])
c("C16", "proved", ["C16_serial_counts", "C16_emission","C16_serial_identifies", "C16_backwards_clock_witness"], "contents claim needs a clock that does not go backwards; witness shows it is needed")
c("C19", "proved", ["C19_configurations", "C19_works", "C19_panics"])
c("C20", "proved", ["C20_merge_adds", "C20_merge_keys"], "counters as int64")
c("C21", "partial", ["C21_timer_extremes", "C21_job_extremes_partial", "C21_job_extremes_false", "C21_job_exact", "C21_job_iff"], "exact condition: C21_job_iff; true for timers; false for job durations when one side has the job without completions (witness), proved otherwise")
c("C22", "proved", ["C22_merge_into_new"])
c("C23", "proved", ["C23_order_independent", "C23_merge_all", "C23_gauge_and_squares_order"], "float sums of squares also depend on the order (witness)")
c("C26", "proved", ["C26_split_and_merge"])
c("C65", "proved", ["C65_merged_samples"], "for error values that are not nil")
c("C01", "proved", ["C01_precedence", "C01_from_history"])
c("C02", "proved", ["C02_nil_iff_no_pairs"])
c("C03", "proved", ["C03_fan_out", "C03_sinks_in_order", "C03_durations"])
c("C04", "proved", ["C04_run", "C04_stream_run", "C04_no_completion_cases"], "panic(nil) and Goexit complete nothing (shown); sinks that panic are not modelled")
c("C05", "proved", ["C05_wrapped_once"])
c("C06", "proved", ["C06_reported_once", "C06_muted_never"], "a sink added n times reports n times")
c("C07", "partial", ["C07_snapshot_partial", "C07_snapshot_false", "C07_live"], "both cases settled: false when exactly one of call, job and stream has pairs: the sink is given the live map (witness)")
c("C64", "partial", ["C64_non_nil_partial", "C64_nil_error_false"], "false for nil: EventErr(x, nil) returns a non-nil error whose Error() panics")
c("C27", "proved", ["C27_packet_size"])
c("C28", "proved", ["C28_nothing_lost", "C28_after_flush"])
c("C29", "proved", ["C29_datagrams_parse"])
c("C30", "proved", ["C30_history_independent"])
c("C33", "proved", ["C33_lines_of_emission", "C33_key_segments", "C33_sanitizer"])
c("C34", "proved", ["C34_timing_text"], "float error bounded by 2^-51 relative")
c("C35", "partial", ["C35_keys_injective_partial", "C35_keys_not_injective", "SdKeys.C35_iff", "SdKeys.C35_emissions_iff", "SdKeys.C35_bytes_iff"], "false in general (witnesses); proved for names of letters, digits and underscores; C35_iff says for all names exactly which share a key")
c("C66", "proved", ["C66_gauge_text"])
c("C17", "proved", ["C17_prefix", "C17_monotone", "C17_nothing_lost", "C17_accepted_but_not_yet_visible"])
c("C18", "proved", ["C18_running_is_live", "C18_after_shutdown", "C18_shutdown_returns"], "liveness as enabledness: the worker can take everything queued without help")
c("C31", "partial", ["C31_drain_sends_everything_partial", "C31_first_in_first_out", "C31_two_drains_false", "SdStop.C31_returned", "SdStop.C31_received"], "proved when calls of Drain do not overlap; false when two overlap (witness)")
c("C32", "partial", ["C32_stop_returns_partial", "C32_drain_returns_partial", "C32_stop_during_drain_false", "C32_drain_during_drain_false", "C32_after_stop_false", "SdRet.C32_stop_iff", "SdRet.C32_drain_iff"], "C32_stop_iff and C32_drain_iff say in which states exactly a call can still return; a Stop or Drain queued during a Drain is swallowed and blocks for ever (proved); otherwise returns after a bounded number of worker steps")
c("C36", "proved", ["C36_line", "C36_order_independent", "C36_panics", "C36_one_line"], "one line only if no argument contains a newline; a nil error makes the call panic (stated)")
c("C37", "proved", ["C37_duration"])
c("C38", "proved", ["C38_writes", "C38_lossless"], "for strings that are valid UTF-8 and years 0-9999; -0 decodes as 0")

c("C39", "partial", ["C39_other_path", "C39_body_partial", "C39_percent_iff", "C39_false"], "false when a name contains a percent sign (the JSON text is used as a Fprintf format): witness C39_false; proved for all other names; C39_percent_iff: every percent sign changes the body")
c("C40", "partial", ["C40_partial", "C40_iff", "C40_history_iff", "C40_false"], "false for NaN/Inf gauges (500): witness C40_false; proved for all histories with finite gauges and clocks in years 1-9999; exact condition on the history: C40_history_iff")
c("C67", "partial", ["C67_decode_partial", "C67_emitted_partial"], "excludes names with a percent sign (see C39_false); error samples are not transmitted by design")
c("C41", "proved", ["C41_totals"], "for processes that use a new serial number when their report changes (C16), five interval durations within int64; decoded reports satisfy `Decoded` (decoded_of_polled)")
c("C42", "proved", ["C42_known"])
c("C43", "partial", ["C43_series", "C43_strict_partial", "C43_false"], "sorted, bounded, newest kept and no start twice as Go time values; the same instant in two time zones appears twice (witness), strict order proved otherwise")
c("C44", "proved", ["C44_status"])
c("C45", "proved", ["C45_no_data"])
c("C46", "partial", ["C46_partial", "C46_false", "C46_false_null", "C46_false_timer", "C46_false_negative", "C46_iff"], "exact condition for a crash: C46_iff; false: `{}`, nulls or a negative interval duration crash healthd (witnesses); proved for positive durations without nulls")
c("C47", "partial", ["C47_partial", "C47_false", "C47_iff", "C47_zero"], "exact condition: C47_iff; false for UTC offsets that are not 0, local or whole hours (witness: double entry)")
c("C48", "proved", ["C48_purge"])
c("C49", "proved", ["C49_fires_iff", "C49_rate"], "the debouncer loop as a list of iterations with their two clock readings; clocks in order, threshold below the largest duration")
c("C50", "partial", ["C50_partial", "C50_false", "HdLoop.C50_iff", "HdLoop.C50_hosts_partial", "HdLoop.C50_state_iff"], "false: with 66 hosts or more the aggregation loop and the debouncer can wait for each other for ever (witness), and with fewer they cannot if the rounds of polls do not overlap (C50_iff); C50_state_iff says from which states the loop cannot go on; proved also while at most 64 more responses were consumed than requests taken")
c("C51", "partial", ["C51_partial", "C51_false", "HdLoop.C51_iff"], "false: a request that looked at the stop flag just before Stop waits for ever (witness); proved while the loop runs; C51_iff says exactly in which states a request can still be answered")

c("C52", "partial", ["C52_jobs_partial", "C52_limit", "C52_false"], "proved for every order of iteration and every algorithm that meets the contract of sort.Sort, when there is no NaN to sort by; false with a NaN standard deviation (witness)")
c("C53", "partial", ["C53_average", "C53_few", "C53_stddev_partial", "C53_stddev_exact_partial", "C53_false"], "the average is accurate; the standard deviation only up to cancellation: error bound proved, NaN and total loss as witnesses")
c("C54", "proved", ["C54_overall", "C54_run"])
c("C55", "proved", ["C55_hosts"])
c("C56", "proved", ["C56_status", "C56_emissions"])
c("C68", "proved", ["C68_emitted", "C68_merged"])

c("C69", "proved", ["C69_jobs", "C69_aggregations", "C69_overall", "C69_hosts", "C69_stopped", "C69_jobs_error"], "hypotheses exclude percent signs (see C39_false) and numbers that JSON lacks")

c("C58", "partial", ["C58_flushes_partial", "C58_false"], "proved while every value of the flush can be written as JSON; false otherwise: one NaN or huge gauge loses the whole flush (witness)")
c("C59", "proved", ["C59_valid", "C59_keeps", "C59_idempotent", "C59_chars", "C59_disjoint"])
c("C60", "proved", ["C60_payload", "C60_ok"], "for texts in UTF-8")
c("C61", "proved", ["C61_parts", "C61_unique", "C61_usual"])
c("C62", "proved", ["C62_names", "C62_values", "C62_run"])
c("C63", "proved", ["C63_filter", "C63_shows"], "C63_shows: from the command line over healthd's answer to the rows shown, under the hypotheses of C69")
c("C70", "proved", ["C70_trace", "C70_text"])
c("C72", "proved", ["C72_silent", "C72_stop_needs_start", "C72_crash"])
c("C73", "proved", ["C73_request"])
c("C74", "proved", ["C74_duration", "C74_cells", "C74_convert"])
c("C75", "proved", ["C75_line", "C75_hosts", "C75_no_reason"])
c("C76", "proved", ["C76_status", "C76_screen"], "if the clock moves between receipts")
c("C77", "partial", ["C77_errors_partial", "C77_error_false", "C77_stale_false","TopPolls.C77_in_time_partial"], "false: the HTTP status is ignored, and concurrent polls can arrive out of order (witnesses); the screen never goes back if polls are answered within a second (C77_in_time_partial)")

c("C71", "partial", ["C71_below", "C71_system_partial", "C71_false", "C71_iff"], "false for files whose name merely begins with GOROOT's text, and for an empty GOROOT (witnesses)")
c("C78", "proved", ["C78_in_order", "C78_catches_up", "C78_stop_returns", "C78_after_stop", "C78_all_processed_false"], "Stop does not wait for what is in the channel: it is lost (witness for every nonempty channel)")
c("C79", "partial", ["C79_posts_partial", "C79_flushed", "C79_stop_flushes_false"], "proved while sums are finite (see C58_false); Stop does not flush (witness)")
c("C80", "partial", ["C80_reports", "C80_contents_partial", "C80_quiet_partial", "C80_after_shutdown", "C80_live_map_false", "C80_race_false"], "which reports are sent: proved; with which key/values: only if the maps are not written in between (witnesses of a wrong report and of a data race)")

c("C57", "proved", ["C57_end_to_end", "C57_no_crash"], "for processes with forward clocks, names in UTF-8 without percent signs, whole-hour zones; job-wide extremes excluded (see C21); retention not exceeded (NeverStale)")
c("C15","proved",["Mem.C15_untouched","Mem.C15_contents","Mem.C15_runs","Mem.C15_writers_false"],
  "Memory model of aggregator.go (Model/Heap.lean): no later operation writes a cell reachable from a snapshot; contents are those of the value model for ever. The error values kept as samples are opaque here. Witness: a program that writes to a snapshot changes later snapshots.")
c("C24","proved",["Mem.C24_clone","Mem.C24_independent","Mem.C24_stays"],
  "Memory model: the clone consists of new objects only and reads the same; two arbitrary programs, one with old pointers, one with the clone, never see each other's writes.")
c("C25","proved",["Mem.C25_merge","Mem.C25_independent"],
  "Memory model: Merge writes only objects of the receiver and new objects; afterwards receiver and argument are separate for ever.")
c("C81","proved",["C81_monitors","C81_exits"])
c("C82","proved",["C82_identifier"],"when the host name can be found (else the identifier says hostname_errored for every host)")
c("C83","partial",["C83_same_interval_partial","C83_interval_false"],
  "false when the hosts' interval is not one minute: healthd monitors itself with one minute, and if its own answer comes first, all data of the hosts are dropped for ever; proved when all have the same interval")
c("C84","partial",["ErrObj.C84_samples_partial","ErrObj.C84_settled_partial","ErrObj.C84_repeats_false","ErrObj.C84_race_false"],
  "false: DeepEqual compares the Emitted flag, which the caller sets after handing the error over, so that the samples depend on who is faster (witness; also a data race); proved: what holds in all executions, and the claim when calls are faster than the aggregator")
c("C85","proved",["Mem.C85_goroutine","Mem.C85_work","Mem.C85_answer","Mem.C85_request","Mem.C85_separate","Mem.C85_stays"],
  "Memory model of the aggregation goroutine (Model/HeapHealthd.lean) with arbitrary code as requests. Host statuses are flat structures copied by value and are not objects in the model.")
c("C86","partial",["C86_metrics","C86_emit_returns","C86_get_metrics_returns","C86_shutdown_returns","C86_statsd_processed","C86_statsd_sent","C86_statsd_stop","C86_statsd_drain_partial","C86_statsd_drain_false","C86_sink_processed","C86_sink_room","C86_sink_stop","C86_librato_flushed","C86_bugsnag_sent","C86_healthd_answers","C86_healthd_consumed","C86_healthd_recalculates","C86_healthd_stop","C86_healthd_few","C86_healthd_false","C86_healthd_stop_false","C86_healthd_iff","C86_healthd_stop_iff","C86_healthd_recalculates_iff"],
  "Partial because it is false of StatsD's Drain and of healthd with many hosts. With emissions that keep coming Drain need not return (C86_statsd_drain_false); C86_statsd_drain_partial proves it when the program falls silent. The other clauses are proved for all fair infinite executions; Stop and ShutdownServer for one caller (C18, C32, C78 for more), healthd as long as the wait of C50 does not occur, which it does not with at most 65 hosts and rounds that do not overlap (C86_healthd_few). With 66 or more, fair executions exist in which a request is never answered, Stop does not return and nothing is recalculated, so that the bound is exact (the three iff theorems).")
c("C87","partial",["C87_partial","C87_recent_partial","C87_false"],
  "False: a process that keeps an interval for longer than five intervals has it polled again after healthd threw the reports away; the interval is then recalculated from the new reports alone (C87_false: 7 becomes 3). Proved if nobody reports an interval after its data were thrown away, and so for processes that report recent intervals only.")
c("C88","partial",["C88_jobs","C88_hosts","C88_metrics","C88_url","C88_url_plain","C88_configured_partial","C88_both","C88_split_iff","C88_malformed","C88_default_false","C88_readme_false","C88_paths_false"],
  "False of the defaults (healthd listens at 5031, healthtop asks at 5032), of the README's first example (both servers of healthd at port 5030) and of the paths the README gives. Proved when the addresses are configured.")
c("C89","proved",["C89_heard","C89_metrics","C89_statsd"],
  "Numbers that the program does not determine (measured durations of jobs) are not claimed here; for the metrics, as long as no interval has dropped out of retention; numbers are 64-bit.")
c("C90","partial",["C90_reports","C90_numbers_partial","C90_false"],
  "False for answers with an error status whose body is JSON: healthd counts the poll as a success (C90_false). Proved: polls count as errors exactly if the answer could not be obtained or read; everything else.")
c("C91","proved",["C91_interval","C91_overall","C91_system"],
  "Composition of C89, C57, C87, C54, C69 and C63. The conditions (up to date, covered) are hypotheses; without them C57, C87 and C44 have counterexamples. The sum of the durations is not in the program and is covered by C91_overall. Job numbers have to be encodable (finite sums of squares, C39).")
c("C92","proved",["Concurrent.C92_no_race","Concurrent.C92_calls","Concurrent.C92_progress","Concurrent.C92_ends","Concurrent.C92_heard","Concurrent.C92_metrics","C92_system","Concurrent.Sample.C92_needs_discipline","Concurrent.Sample.C92_lost"],
  "Memory accesses of health.go one by one, sequentially consistent interleavings (no race: so nothing else can happen in Go). Accesses of the sinks' own goroutines to the map and the error after the call are not part of it: see C80 and C84.")
c("C93","partial",["C93_atomic","C93_hosts_partial","C93_hosts_false","C93_race_partial","C93_race_false"],
  "Atomic for aggregations, overall and jobs in all executions. False of /healthd/hosts: while the first host's answer is consumed, an answer can have the new interval duration and the old hosts (C93_hosts_false); proved once the duration is known. Reading the duration is a data race in the same situation and only then.")
c("C94","proved",["LogFile.C94_text","LogFile.C94_json","LogFile.C94_json_unseparated","LogFile.Sample.C94_text_forged","LogFile.Sample.C94_text_ambiguous"],
  "The conditions are needed: a newline in a name forges a line, and text records can be ambiguous even without newlines (C94_text_forged, C94_text_ambiguous). JSON records are not separated by newlines (C94_json_unseparated).")
c("C95","proved",["Unmarshal.C95_same","C95_jobs","C95_hosts","Unmarshal.C95_twice","Unmarshal.C95_strict","C95_healthtop_strict"],
  "names in ASCII (the letters \u017f and \u212a, which Go folds to s and k, are modelled but not varied); C95_twice, C95_strict: what repeated names and wrong numbers do")
c("C96","partial",["Librato.C96_post_partial","Librato.C96_counters","Librato.C96_values","Librato.C96_false"],
  "proved for plain names; false for names with dots or other characters, events called error, timings called like a status (witnesses); C96_counters and C96_values say exactly what is mixed")
c("C97","partial",["StatsDServer.C97_server_partial","StatsDServer.C97_false"],
  "server as in the reference implementation; false for gauges with a minus sign (taken as a change), events called error, timings called like a status (witnesses), and for other names (C35_keys_not_injective)")
c("C98","partial",["SrvSys.C98_answers","SrvSys.C98_process_partial","SrvSys.C98_progress","SrvSys.C98_shutdown_hangs"],
  "answers, progress and the hanging after the shutdown without restriction; C98_process_partial excludes what C39_false and C40_false exclude and a clock that goes backwards")
c("C99","partial",["Conns.C99_exact","Conns.C99_partial","Conns.C99_false"],
  "false of the Librato sink, which throws the answers away unread: every answer with a body leaves a connection open for ever (C99_false, C99_exact says that these are all); proved for healthd, healthtop and the Bugsnag sink; HTTP/1.1")
c("C100","partial",["ServerAuth.C100_librato_partial","ServerAuth.C100_colon","ServerAuth.C100_headers","Bugsnag.C100_bugsnag"],
  "false for users with a colon in the name (C100_colon says what the server reads then), as in every use of Basic authentication; everything else is proved")
c("C101","partial",["Bugsnag.C100_bugsnag","Bugsnag.C101_false"],
  "only the endpoint has its default (C100_bugsnag); release stage and host name are reported empty, and the version of the app is not reported (C101_false)")
c("C102","partial",["World.C102_emit","World.C102_program","World.C102_run_partial","World.C102_run","World.C102_at_most_two","World.C102_nil_error","Sample.C102_false"],
  "false: sinks behind the one that panics hear nothing (C102_emit says exactly what is heard), and a panic in a completion makes Run end the job twice or panic itself (C102_false); proved for Run if sinks panic only in what f emits, as the writer sink does (C102_nil_error); C102_run says exactly what Run does whenever sinks panic, C102_at_most_two that no sink hears more than two completions")
c("C103","partial",["LibratoSetup.C103_sent","LibratoSetup.C103_ticker_partial","LibratoSetup.C103_false","LibratoSetup.C103_race","LibratoSetup.C103_late"],
  "all posts carry the final settings in every interleaving (C103_sent); false of the period of the flushes: the goroutine may read FlushPeriod before the program sets it (C103_false), exactly which periods are possible is C103_ticker_partial")
c("C104","proved",["Rounds.C104_sentinel","Rounds.C104_once","Rounds.C104_refines","Rounds.C104_deadlock"],
  "C104_refines: the model with rounds and channel contents refines the one of C50, C51, C86, C93, and C104_deadlock: the deadlock of C50_false is one of its executions")
c("C105","partial",["Rounds.C105_polls_partial","Rounds.C105_debouncer","Rounds.C105_iff","Rounds.C105_few_false","Rounds.C105_false"],
  "false: the debouncer never ends (C105_debouncer), and polls whose messages do not fit in the channel wait for ever (C105_false); C105_polls_partial: exactly how many remain at least; C105_iff: if rounds do not overlap and the loop keeps up, polls can be left exactly from 64 hosts on; C105_few_false: otherwise with any number of hosts")
c("C106","partial",["TopText.C106_jobs_partial","TopText.C106_hosts_partial","TopText.C106_false"],
  "proved if no name, error or zone abbreviation has tabs, newlines or escapes; false otherwise: a tab in a job's name moves its counts under other titles (C106_false). Assumes that goterm's Color and Bold put control sequences around a text of one line")
c("C107","proved",["TopText.C107_text","TopText.C107_answer","TopText.C107_first","TopText.C107_false"],
  "C107_false: the abbreviation of a zone does not tell the instant")
c("C108","proved",["StatsDNetwork.C108_lines","StatsDNetwork.C108_counters","StatsDNetwork.C108_times","StatsDNetwork.C108_gauge","StatsDNetwork.C108_all","StatsDNetwork.C108_twice_false","StatsDNetwork.C108_order_false"],
  "lines for all names and settings; numbers for names of letters, digits and underscores (as C97). The limits: datagrams that arrive twice count twice (C108_twice_false), delays can make a gauge show an older value (C108_order_false)")
c("C109","proved",["Watch.C109_shown","Watch.C109_round","Watch.C109_complete","Watch.C109_late_false"],
  "for processes of ordinary kind (as C57) that had the interval in some answer made after their last emission in it (as far as healthd has heard; they may forget it later), and intervals not purged. The condition on the polls is needed: a response that arrives after the end of the next round replaces the newer report and the numbers go down (C109_late_false).")
c("C110", "proved", ["Nested.C110_run", "Nested.C110_calm", "Nested.C110_completions"], "sinks do not panic (C102); panic(nil) before Go 1.21 and Goexit complete nothing, as in C04")
c("C111", "partial", ["Nested.C111_panic_reported_partial", "Nested.C111_twice"], "false whenever the error given back by Run is logged: Run reports a wrapped copy and returns the plain error, so the panic is reported exactly twice (shown for all cases)")
c("C112","proved",["Watch.C112_grows"],"C109_late_false shows that the condition on slow polls is needed.")
c("C113","partial",["SdStop.C113_stopped","SdStop.C113_drain_first_partial","SdStop.C113_blocks","SdStop.C113_stop_false"],"false of Stop alone: the loop does not flush when it is stopped. Shown for all executions: exactly the datagram being filled (at most 1440 bytes) is lost, a Drain before the Stop saves everything, and after 8192 further messages emissions block for ever.")
c("C114","proved",["SdStop.C114_tick","SdStop.C114_draining"],"C114_draining shows that the condition on drains is needed: inside a Drain ticks are ignored.")
c("C115","partial",["Healthd.C115_six_partial","Healthd.C115_total_partial","Healthd.C115_ahead_false"],"proved if reports start at whole intervals, not in the future, and an instant always has the same zone; false otherwise: reports of a process whose clock is ahead stay until their time has come, any number of them (witness). The bound on intervals is C43_series.")
c("C116","proved",["StatsD.C116_buffers","StatsD.C116_unbounded"],"C116_unbounded: with ever new names the memory grows without bound.")
c("C117","proved",["SinkMem.C117_polling","SinkMem.C117_bound","Librato.C117_librato"],"Objects are counted (map entries and places for samples), not bytes.")
c("C118","partial",["TopPolls.C118_count","TopPolls.C118_in_time_partial","TopPolls.C118_false"],"exact number of polls under way: C118_count; at most one if polls are answered within a second; false otherwise: http.Get has no time limit, so that a healthd that does not answer makes a goroutine pile up every second (C118_false)")
c("C119","partial",["Rounds.C119_count","Rounds.C119_standstill","Rounds.C119_in_time_partial","Rounds.C119_false"],"exact number: C119_count; at most hosts + 1 if the goroutines of a round have ended when the next tick comes (a poll has a time limit of five seconds and ticks are ten apart, but times are not in the model and a goroutine also waits for room in the channel); false without that (C119_false); never more after a standstill: C119_standstill, reached by standstill_reached")
c("C120","partial",["Descriptors.C120_early_partial","Descriptors.C120_early_exact","Descriptors.C120_late_quiet","Descriptors.C120_late_iff","Descriptors.C120_false","Descriptors.C120_limit"],"false: the directory that is read counts as well (older ioutil.ReadDir), or has been closed when its entry is looked at, so that nothing is reported (newer one), and nothing is reported when descriptors have run out; what is reported is stated exactly for both versions")
c("C121","partial",["HdStops.C121_one","HdStops.C121_iff","HdStops.C121_false"],"false: at most one call ever returns (C121_one), a second one waits for ever (C121_false); C121_iff: exactly when a call can return")
c("C122","proved",["Rounds.C122_ends","Rounds.C122_again","Watch.C122_shown","Rounds.C122_few","Watch.C122_shown_few","Rounds.C122_false","Rounds.C122_many_false","Rounds.C122_again_iff","Rounds.C122_ends_iff"],"under the stated conditions: weak and strong fairness of the goroutines (Spec.RoundsFair), no deadlock of loop and debouncer (C50_iff says when it can come), no Stop; for the numbers the conditions of C109 and C112. C122_few and C122_shown_few: with at most 65 hosts and rounds that do not overlap the condition on the debouncer holds by itself; C122_false: with 66 hosts it is needed; C122_again_iff and C122_ends_iff: over all fair executions the bound is exact")
c("C123","partial",["HdMem.C123_only_duration_partial","HdMem.C123_later","HdMem.C123_when","HdMem.C123_race_false"],"proved for all memory but the duration of the intervals, which handlers read by themselves (api.go:136 and others): C123_race_false is an execution with that race, C93_race_partial says that it can only occur before the first successful response; C123_later and C123_when: no request whose copy is made after that response meets the write")
C.sort(key=lambda x: int(x["property"][1:]))
out = os.path.join(os.path.dirname(os.path.abspath(__file__)), "..", "MANIFEST.json")
json.dump({"claims": C}, open(out, "w"), indent=1)
print(len(C), "claims")
