{
 "claims": [
  {
   "property": "C01",
   "status": "proved",
   "theorems": [
    "C01_precedence",
    "C01_from_history"
   ],
   "note": ""
  },
  {
   "property": "C02",
   "status": "proved",
   "theorems": [
    "C02_nil_iff_no_pairs"
   ],
   "note": ""
  },
  {
   "property": "C03",
   "status": "proved",
   "theorems": [
    "C03_fan_out",
    "C03_sinks_in_order",
    "C03_durations"
   ],
   "note": ""
  },
  {
   "property": "C04",
   "status": "proved",
   "theorems": [
    "C04_run",
    "C04_stream_run",
    "C04_no_completion_cases"
   ],
   "note": "panic(nil) and Goexit complete nothing (shown); sinks that panic are not modelled"
  },
  {
   "property": "C05",
   "status": "proved",
   "theorems": [
    "C05_wrapped_once"
   ],
   "note": ""
  },
  {
   "property": "C06",
   "status": "proved",
   "theorems": [
    "C06_reported_once",
    "C06_muted_never"
   ],
   "note": "a sink added n times reports n times"
  },
  {
   "property": "C07",
   "status": "partial",
   "theorems": [
    "C07_snapshot_partial",
    "C07_snapshot_false",
    "C07_live"
   ],
   "note": "both cases settled: false when exactly one of call, job and stream has pairs: the sink is given the live map (witness)"
  },
  {
   "property": "C08",
   "status": "proved",
   "theorems": [
    "C08_event_counts",
    "C08_event_counts_interval"
   ],
   "note": "any clock by segments; per interval for non-decreasing clocks; counts as int64"
  },
  {
   "property": "C09",
   "status": "proved",
   "theorems": [
    "C09_totals"
   ],
   "note": ""
  },
  {
   "property": "C10",
   "status": "proved",
   "theorems": [
    "C10_timers",
    "C10_timers_interval"
   ],
   "note": "min/max for fewer than 2^63 samples; sums as int64"
  },
  {
   "property": "C11",
   "status": "proved",
   "theorems": [
    "C11_gauges",
    "C11_gauges_interval"
   ],
   "note": ""
  },
  {
   "property": "C12",
   "status": "proved",
   "theorems": [
    "C12_completions",
    "C12_completions_interval"
   ],
   "note": ""
  },
  {
   "property": "C13",
   "status": "proved",
   "theorems": [
    "C13_errors",
    "C13_errors_interval",
    "C13_no_adjacent_repeats"
   ],
   "note": "exact samples when no nil error was emitted; bound and membership always"
  },
  {
   "property": "C14",
   "status": "proved",
   "theorems": [
    "C14_window",
    "C14_window_interval"
   ],
   "note": ""
  },
  {
   "property": "C15",
   "status": "proved",
   "theorems": [
    "Mem.C15_untouched",
    "Mem.C15_contents",
    "Mem.C15_runs",
    "Mem.C15_writers_false"
   ],
   "note": "Memory model of aggregator.go (Model/Heap.lean): no later operation writes a cell reachable from a snapshot; contents are those of the value model for ever. The error values kept as samples are opaque here. Witness: a program that writes to a snapshot changes later snapshots."
  },
  {
   "property": "C16",
   "status": "proved",
   "theorems": [
    "C16_serial_counts",
    "C16_emission",
    "C16_serial_identifies",
    "C16_backwards_clock_witness"
   ],
   "note": "contents claim needs a clock that does not go backwards; witness shows it is needed"
  },
  {
   "property": "C17",
   "status": "proved",
   "theorems": [
    "C17_prefix",
    "C17_monotone",
    "C17_nothing_lost",
    "C17_accepted_but_not_yet_visible"
   ],
   "note": ""
  },
  {
   "property": "C18",
   "status": "proved",
   "theorems": [
    "C18_running_is_live",
    "C18_after_shutdown",
    "C18_shutdown_returns"
   ],
   "note": "liveness as enabledness: the worker can take everything queued without help"
  },
  {
   "property": "C19",
   "status": "proved",
   "theorems": [
    "C19_configurations",
    "C19_works",
    "C19_panics"
   ],
   "note": ""
  },
  {
   "property": "C20",
   "status": "proved",
   "theorems": [
    "C20_merge_adds",
    "C20_merge_keys"
   ],
   "note": "counters as int64"
  },
  {
   "property": "C21",
   "status": "partial",
   "theorems": [
    "C21_timer_extremes",
    "C21_job_extremes_partial",
    "C21_job_extremes_false",
    "C21_job_exact",
    "C21_job_iff"
   ],
   "note": "exact condition: C21_job_iff; true for timers; false for job durations when one side has the job without completions (witness), proved otherwise"
  },
  {
   "property": "C22",
   "status": "proved",
   "theorems": [
    "C22_merge_into_new"
   ],
   "note": ""
  },
  {
   "property": "C23",
   "status": "proved",
   "theorems": [
    "C23_order_independent",
    "C23_merge_all",
    "C23_gauge_and_squares_order"
   ],
   "note": "float sums of squares also depend on the order (witness)"
  },
  {
   "property": "C24",
   "status": "proved",
   "theorems": [
    "Mem.C24_clone",
    "Mem.C24_independent",
    "Mem.C24_stays"
   ],
   "note": "Memory model: the clone consists of new objects only and reads the same; two arbitrary programs, one with old pointers, one with the clone, never see each other's writes."
  },
  {
   "property": "C25",
   "status": "proved",
   "theorems": [
    "Mem.C25_merge",
    "Mem.C25_independent"
   ],
   "note": "Memory model: Merge writes only objects of the receiver and new objects; afterwards receiver and argument are separate for ever."
  },
  {
   "property": "C26",
   "status": "proved",
   "theorems": [
    "C26_split_and_merge"
   ],
   "note": ""
  },
  {
   "property": "C27",
   "status": "proved",
   "theorems": [
    "C27_packet_size"
   ],
   "note": ""
  },
  {
   "property": "C28",
   "status": "proved",
   "theorems": [
    "C28_nothing_lost",
    "C28_after_flush"
   ],
   "note": ""
  },
  {
   "property": "C29",
   "status": "proved",
   "theorems": [
    "C29_datagrams_parse"
   ],
   "note": ""
  },
  {
   "property": "C30",
   "status": "proved",
   "theorems": [
    "C30_history_independent"
   ],
   "note": ""
  },
  {
   "property": "C31",
   "status": "partial",
   "theorems": [
    "C31_drain_sends_everything_partial",
    "C31_first_in_first_out",
    "C31_two_drains_false",
    "SdStop.C31_returned",
    "SdStop.C31_received"
   ],
   "note": "proved when calls of Drain do not overlap; false when two overlap (witness)"
  },
  {
   "property": "C32",
   "status": "partial",
   "theorems": [
    "C32_stop_returns_partial",
    "C32_drain_returns_partial",
    "C32_stop_during_drain_false",
    "C32_drain_during_drain_false",
    "C32_after_stop_false",
    "SdRet.C32_stop_iff",
    "SdRet.C32_drain_iff"
   ],
   "note": "C32_stop_iff and C32_drain_iff say in which states exactly a call can still return; a Stop or Drain queued during a Drain is swallowed and blocks for ever (proved); otherwise returns after a bounded number of worker steps"
  },
  {
   "property": "C33",
   "status": "proved",
   "theorems": [
    "C33_lines_of_emission",
    "C33_key_segments",
    "C33_sanitizer"
   ],
   "note": ""
  },
  {
   "property": "C34",
   "status": "proved",
   "theorems": [
    "C34_timing_text"
   ],
   "note": "float error bounded by 2^-51 relative"
  },
  {
   "property": "C35",
   "status": "partial",
   "theorems": [
    "C35_keys_injective_partial",
    "C35_keys_not_injective",
    "SdKeys.C35_iff",
    "SdKeys.C35_emissions_iff",
    "SdKeys.C35_bytes_iff"
   ],
   "note": "false in general (witnesses); proved for names of letters, digits and underscores; C35_iff says for all names exactly which share a key"
  },
  {
   "property": "C36",
   "status": "proved",
   "theorems": [
    "C36_line",
    "C36_order_independent",
    "C36_panics",
    "C36_one_line"
   ],
   "note": "one line only if no argument contains a newline; a nil error makes the call panic (stated)"
  },
  {
   "property": "C37",
   "status": "proved",
   "theorems": [
    "C37_duration"
   ],
   "note": ""
  },
  {
   "property": "C38",
   "status": "proved",
   "theorems": [
    "C38_writes",
    "C38_lossless"
   ],
   "note": "for strings that are valid UTF-8 and years 0-9999; -0 decodes as 0"
  },
  {
   "property": "C39",
   "status": "partial",
   "theorems": [
    "C39_other_path",
    "C39_body_partial",
    "C39_percent_iff",
    "C39_false"
   ],
   "note": "false when a name contains a percent sign (the JSON text is used as a Fprintf format): witness C39_false; proved for all other names; C39_percent_iff: every percent sign changes the body"
  },
  {
   "property": "C40",
   "status": "partial",
   "theorems": [
    "C40_partial",
    "C40_iff",
    "C40_history_iff",
    "C40_false"
   ],
   "note": "false for NaN/Inf gauges (500): witness C40_false; proved for all histories with finite gauges and clocks in years 1-9999; exact condition on the history: C40_history_iff"
  },
  {
   "property": "C41",
   "status": "proved",
   "theorems": [
    "C41_totals"
   ],
   "note": "for processes that use a new serial number when their report changes (C16), five interval durations within int64; decoded reports satisfy `Decoded` (decoded_of_polled)"
  },
  {
   "property": "C42",
   "status": "proved",
   "theorems": [
    "C42_known"
   ],
   "note": ""
  },
  {
   "property": "C43",
   "status": "partial",
   "theorems": [
    "C43_series",
    "C43_strict_partial",
    "C43_false"
   ],
   "note": "sorted, bounded, newest kept and no start twice as Go time values; the same instant in two time zones appears twice (witness), strict order proved otherwise"
  },
  {
   "property": "C44",
   "status": "proved",
   "theorems": [
    "C44_status"
   ],
   "note": ""
  },
  {
   "property": "C45",
   "status": "proved",
   "theorems": [
    "C45_no_data"
   ],
   "note": ""
  },
  {
   "property": "C46",
   "status": "partial",
   "theorems": [
    "C46_partial",
    "C46_false",
    "C46_false_null",
    "C46_false_timer",
    "C46_false_negative",
    "C46_iff"
   ],
   "note": "exact condition for a crash: C46_iff; false: `{}`, nulls or a negative interval duration crash healthd (witnesses); proved for positive durations without nulls"
  },
  {
   "property": "C47",
   "status": "partial",
   "theorems": [
    "C47_partial",
    "C47_false",
    "C47_iff",
    "C47_zero"
   ],
   "note": "exact condition: C47_iff; false for UTC offsets that are not 0, local or whole hours (witness: double entry)"
  },
  {
   "property": "C48",
   "status": "proved",
   "theorems": [
    "C48_purge"
   ],
   "note": ""
  },
  {
   "property": "C49",
   "status": "proved",
   "theorems": [
    "C49_fires_iff",
    "C49_rate"
   ],
   "note": "the debouncer loop as a list of iterations with their two clock readings; clocks in order, threshold below the largest duration"
  },
  {
   "property": "C50",
   "status": "partial",
   "theorems": [
    "C50_partial",
    "C50_false",
    "HdLoop.C50_iff",
    "HdLoop.C50_hosts_partial",
    "HdLoop.C50_state_iff"
   ],
   "note": "false: with 66 hosts or more the aggregation loop and the debouncer can wait for each other for ever (witness), and with fewer they cannot if the rounds of polls do not overlap (C50_iff); C50_state_iff says from which states the loop cannot go on; proved also while at most 64 more responses were consumed than requests taken"
  },
  {
   "property": "C51",
   "status": "partial",
   "theorems": [
    "C51_partial",
    "C51_false",
    "HdLoop.C51_iff"
   ],
   "note": "false: a request that looked at the stop flag just before Stop waits for ever (witness); proved while the loop runs; C51_iff says exactly in which states a request can still be answered"
  },
  {
   "property": "C52",
   "status": "partial",
   "theorems": [
    "C52_jobs_partial",
    "C52_limit",
    "C52_false"
   ],
   "note": "proved for every order of iteration and every algorithm that meets the contract of sort.Sort, when there is no NaN to sort by; false with a NaN standard deviation (witness)"
  },
  {
   "property": "C53",
   "status": "partial",
   "theorems": [
    "C53_average",
    "C53_few",
    "C53_stddev_partial",
    "C53_stddev_exact_partial",
    "C53_false"
   ],
   "note": "the average is accurate; the standard deviation only up to cancellation: error bound proved, NaN and total loss as witnesses"
  },
  {
   "property": "C54",
   "status": "proved",
   "theorems": [
    "C54_overall",
    "C54_run"
   ],
   "note": ""
  },
  {
   "property": "C55",
   "status": "proved",
   "theorems": [
    "C55_hosts"
   ],
   "note": ""
  },
  {
   "property": "C56",
   "status": "proved",
   "theorems": [
    "C56_status",
    "C56_emissions"
   ],
   "note": ""
  },
  {
   "property": "C57",
   "status": "proved",
   "theorems": [
    "C57_end_to_end",
    "C57_no_crash"
   ],
   "note": "for processes with forward clocks, names in UTF-8 without percent signs, whole-hour zones; job-wide extremes excluded (see C21); retention not exceeded (NeverStale)"
  },
  {
   "property": "C58",
   "status": "partial",
   "theorems": [
    "C58_flushes_partial",
    "C58_false"
   ],
   "note": "proved while every value of the flush can be written as JSON; false otherwise: one NaN or huge gauge loses the whole flush (witness)"
  },
  {
   "property": "C59",
   "status": "proved",
   "theorems": [
    "C59_valid",
    "C59_keeps",
    "C59_idempotent",
    "C59_chars",
    "C59_disjoint"
   ],
   "note": ""
  },
  {
   "property": "C60",
   "status": "proved",
   "theorems": [
    "C60_payload",
    "C60_ok"
   ],
   "note": "for texts in UTF-8"
  },
  {
   "property": "C61",
   "status": "proved",
   "theorems": [
    "C61_parts",
    "C61_unique",
    "C61_usual"
   ],
   "note": ""
  },
  {
   "property": "C62",
   "status": "proved",
   "theorems": [
    "C62_names",
    "C62_values",
    "C62_run"
   ],
   "note": ""
  },
  {
   "property": "C63",
   "status": "proved",
   "theorems": [
    "C63_filter",
    "C63_shows"
   ],
   "note": "C63_shows: from the command line over healthd's answer to the rows shown, under the hypotheses of C69"
  },
  {
   "property": "C64",
   "status": "partial",
   "theorems": [
    "C64_non_nil_partial",
    "C64_nil_error_false"
   ],
   "note": "false for nil: EventErr(x, nil) returns a non-nil error whose Error() panics"
  },
  {
   "property": "C65",
   "status": "proved",
   "theorems": [
    "C65_merged_samples"
   ],
   "note": "for error values that are not nil"
  },
  {
   "property": "C66",
   "status": "proved",
   "theorems": [
    "C66_gauge_text"
   ],
   "note": ""
  },
  {
   "property": "C67",
   "status": "partial",
   "theorems": [
    "C67_decode_partial",
    "C67_emitted_partial"
   ],
   "note": "excludes names with a percent sign (see C39_false); error samples are not transmitted by design"
  },
  {
   "property": "C68",
   "status": "proved",
   "theorems": [
    "C68_emitted",
    "C68_merged"
   ],
   "note": ""
  },
  {
   "property": "C69",
   "status": "proved",
   "theorems": [
    "C69_jobs",
    "C69_aggregations",
    "C69_overall",
    "C69_hosts",
    "C69_stopped",
    "C69_jobs_error"
   ],
   "note": "hypotheses exclude percent signs (see C39_false) and numbers that JSON lacks"
  },
  {
   "property": "C70",
   "status": "proved",
   "theorems": [
    "C70_trace",
    "C70_text"
   ],
   "note": ""
  },
  {
   "property": "C71",
   "status": "partial",
   "theorems": [
    "C71_below",
    "C71_system_partial",
    "C71_false",
    "C71_iff"
   ],
   "note": "false for files whose name merely begins with GOROOT's text, and for an empty GOROOT (witnesses)"
  },
  {
   "property": "C72",
   "status": "proved",
   "theorems": [
    "C72_silent",
    "C72_stop_needs_start",
    "C72_crash"
   ],
   "note": ""
  },
  {
   "property": "C73",
   "status": "proved",
   "theorems": [
    "C73_request"
   ],
   "note": ""
  },
  {
   "property": "C74",
   "status": "proved",
   "theorems": [
    "C74_duration",
    "C74_cells",
    "C74_convert"
   ],
   "note": ""
  },
  {
   "property": "C75",
   "status": "proved",
   "theorems": [
    "C75_line",
    "C75_hosts",
    "C75_no_reason"
   ],
   "note": ""
  },
  {
   "property": "C76",
   "status": "proved",
   "theorems": [
    "C76_status",
    "C76_screen"
   ],
   "note": "if the clock moves between receipts"
  },
  {
   "property": "C77",
   "status": "partial",
   "theorems": [
    "C77_errors_partial",
    "C77_error_false",
    "C77_stale_false",
    "TopPolls.C77_in_time_partial"
   ],
   "note": "false: the HTTP status is ignored, and concurrent polls can arrive out of order (witnesses); the screen never goes back if polls are answered within a second (C77_in_time_partial)"
  },
  {
   "property": "C78",
   "status": "proved",
   "theorems": [
    "C78_in_order",
    "C78_catches_up",
    "C78_stop_returns",
    "C78_after_stop",
    "C78_all_processed_false"
   ],
   "note": "Stop does not wait for what is in the channel: it is lost (witness for every nonempty channel)"
  },
  {
   "property": "C79",
   "status": "partial",
   "theorems": [
    "C79_posts_partial",
    "C79_flushed",
    "C79_stop_flushes_false"
   ],
   "note": "proved while sums are finite (see C58_false); Stop does not flush (witness)"
  },
  {
   "property": "C80",
   "status": "partial",
   "theorems": [
    "C80_reports",
    "C80_contents_partial",
    "C80_quiet_partial",
    "C80_after_shutdown",
    "C80_live_map_false",
    "C80_race_false"
   ],
   "note": "which reports are sent: proved; with which key/values: only if the maps are not written in between (witnesses of a wrong report and of a data race)"
  },
  {
   "property": "C81",
   "status": "proved",
   "theorems": [
    "C81_monitors",
    "C81_exits"
   ],
   "note": ""
  },
  {
   "property": "C82",
   "status": "proved",
   "theorems": [
    "C82_identifier"
   ],
   "note": "when the host name can be found (else the identifier says hostname_errored for every host)"
  },
  {
   "property": "C83",
   "status": "partial",
   "theorems": [
    "C83_same_interval_partial",
    "C83_interval_false"
   ],
   "note": "false when the hosts' interval is not one minute: healthd monitors itself with one minute, and if its own answer comes first, all data of the hosts are dropped for ever; proved when all have the same interval"
  },
  {
   "property": "C84",
   "status": "partial",
   "theorems": [
    "ErrObj.C84_samples_partial",
    "ErrObj.C84_settled_partial",
    "ErrObj.C84_repeats_false",
    "ErrObj.C84_race_false"
   ],
   "note": "false: DeepEqual compares the Emitted flag, which the caller sets after handing the error over, so that the samples depend on who is faster (witness; also a data race); proved: what holds in all executions, and the claim when calls are faster than the aggregator"
  },
  {
   "property": "C85",
   "status": "proved",
   "theorems": [
    "Mem.C85_goroutine",
    "Mem.C85_work",
    "Mem.C85_answer",
    "Mem.C85_request",
    "Mem.C85_separate",
    "Mem.C85_stays"
   ],
   "note": "Memory model of the aggregation goroutine (Model/HeapHealthd.lean) with arbitrary code as requests. Host statuses are flat structures copied by value and are not objects in the model."
  },
  {
   "property": "C86",
   "status": "partial",
   "theorems": [
    "C86_metrics",
    "C86_emit_returns",
    "C86_get_metrics_returns",
    "C86_shutdown_returns",
    "C86_statsd_processed",
    "C86_statsd_sent",
    "C86_statsd_stop",
    "C86_statsd_drain_partial",
    "C86_statsd_drain_false",
    "C86_sink_processed",
    "C86_sink_room",
    "C86_sink_stop",
    "C86_librato_flushed",
    "C86_bugsnag_sent",
    "C86_healthd_answers",
    "C86_healthd_consumed",
    "C86_healthd_recalculates",
    "C86_healthd_stop",
    "C86_healthd_few",
    "C86_healthd_false",
    "C86_healthd_stop_false",
    "C86_healthd_iff",
    "C86_healthd_stop_iff",
    "C86_healthd_recalculates_iff"
   ],
   "note": "Partial because it is false of StatsD's Drain and of healthd with many hosts. With emissions that keep coming Drain need not return (C86_statsd_drain_false); C86_statsd_drain_partial proves it when the program falls silent. The other clauses are proved for all fair infinite executions; Stop and ShutdownServer for one caller (C18, C32, C78 for more), healthd as long as the wait of C50 does not occur, which it does not with at most 65 hosts and rounds that do not overlap (C86_healthd_few). With 66 or more, fair executions exist in which a request is never answered, Stop does not return and nothing is recalculated, so that the bound is exact (the three iff theorems)."
  },
  {
   "property": "C87",
   "status": "partial",
   "theorems": [
    "C87_partial",
    "C87_recent_partial",
    "C87_false"
   ],
   "note": "False: a process that keeps an interval for longer than five intervals has it polled again after healthd threw the reports away; the interval is then recalculated from the new reports alone (C87_false: 7 becomes 3). Proved if nobody reports an interval after its data were thrown away, and so for processes that report recent intervals only."
  },
  {
   "property": "C88",
   "status": "partial",
   "theorems": [
    "C88_jobs",
    "C88_hosts",
    "C88_metrics",
    "C88_url",
    "C88_url_plain",
    "C88_configured_partial",
    "C88_both",
    "C88_split_iff",
    "C88_malformed",
    "C88_default_false",
    "C88_readme_false",
    "C88_paths_false"
   ],
   "note": "False of the defaults (healthd listens at 5031, healthtop asks at 5032), of the README's first example (both servers of healthd at port 5030) and of the paths the README gives. Proved when the addresses are configured."
  },
  {
   "property": "C89",
   "status": "proved",
   "theorems": [
    "C89_heard",
    "C89_metrics",
    "C89_statsd"
   ],
   "note": "Numbers that the program does not determine (measured durations of jobs) are not claimed here; for the metrics, as long as no interval has dropped out of retention; numbers are 64-bit."
  },
  {
   "property": "C90",
   "status": "partial",
   "theorems": [
    "C90_reports",
    "C90_numbers_partial",
    "C90_false"
   ],
   "note": "False for answers with an error status whose body is JSON: healthd counts the poll as a success (C90_false). Proved: polls count as errors exactly if the answer could not be obtained or read; everything else."
  },
  {
   "property": "C91",
   "status": "proved",
   "theorems": [
    "C91_interval",
    "C91_overall",
    "C91_system"
   ],
   "note": "Composition of C89, C57, C87, C54, C69 and C63. The conditions (up to date, covered) are hypotheses; without them C57, C87 and C44 have counterexamples. The sum of the durations is not in the program and is covered by C91_overall. Job numbers have to be encodable (finite sums of squares, C39)."
  },
  {
   "property": "C92",
   "status": "proved",
   "theorems": [
    "Concurrent.C92_no_race",
    "Concurrent.C92_calls",
    "Concurrent.C92_progress",
    "Concurrent.C92_ends",
    "Concurrent.C92_heard",
    "Concurrent.C92_metrics",
    "C92_system",
    "Concurrent.Sample.C92_needs_discipline",
    "Concurrent.Sample.C92_lost"
   ],
   "note": "Memory accesses of health.go one by one, sequentially consistent interleavings (no race: so nothing else can happen in Go). Accesses of the sinks' own goroutines to the map and the error after the call are not part of it: see C80 and C84."
  },
  {
   "property": "C93",
   "status": "partial",
   "theorems": [
    "C93_atomic",
    "C93_hosts_partial",
    "C93_hosts_false",
    "C93_race_partial",
    "C93_race_false"
   ],
   "note": "Atomic for aggregations, overall and jobs in all executions. False of /healthd/hosts: while the first host's answer is consumed, an answer can have the new interval duration and the old hosts (C93_hosts_false); proved once the duration is known. Reading the duration is a data race in the same situation and only then."
  },
  {
   "property": "C94",
   "status": "proved",
   "theorems": [
    "LogFile.C94_text",
    "LogFile.C94_json",
    "LogFile.C94_json_unseparated",
    "LogFile.Sample.C94_text_forged",
    "LogFile.Sample.C94_text_ambiguous"
   ],
   "note": "The conditions are needed: a newline in a name forges a line, and text records can be ambiguous even without newlines (C94_text_forged, C94_text_ambiguous). JSON records are not separated by newlines (C94_json_unseparated)."
  },
  {
   "property": "C95",
   "status": "proved",
   "theorems": [
    "Unmarshal.C95_same",
    "C95_jobs",
    "C95_hosts",
    "Unmarshal.C95_twice",
    "Unmarshal.C95_strict",
    "C95_healthtop_strict"
   ],
   "note": "names in ASCII (the letters \u017f and \u212a, which Go folds to s and k, are modelled but not varied); C95_twice, C95_strict: what repeated names and wrong numbers do"
  },
  {
   "property": "C96",
   "status": "partial",
   "theorems": [
    "Librato.C96_post_partial",
    "Librato.C96_counters",
    "Librato.C96_values",
    "Librato.C96_false"
   ],
   "note": "proved for plain names; false for names with dots or other characters, events called error, timings called like a status (witnesses); C96_counters and C96_values say exactly what is mixed"
  },
  {
   "property": "C97",
   "status": "partial",
   "theorems": [
    "StatsDServer.C97_server_partial",
    "StatsDServer.C97_false"
   ],
   "note": "server as in the reference implementation; false for gauges with a minus sign (taken as a change), events called error, timings called like a status (witnesses), and for other names (C35_keys_not_injective)"
  },
  {
   "property": "C98",
   "status": "partial",
   "theorems": [
    "SrvSys.C98_answers",
    "SrvSys.C98_process_partial",
    "SrvSys.C98_progress",
    "SrvSys.C98_shutdown_hangs"
   ],
   "note": "answers, progress and the hanging after the shutdown without restriction; C98_process_partial excludes what C39_false and C40_false exclude and a clock that goes backwards"
  },
  {
   "property": "C99",
   "status": "partial",
   "theorems": [
    "Conns.C99_exact",
    "Conns.C99_partial",
    "Conns.C99_false"
   ],
   "note": "false of the Librato sink, which throws the answers away unread: every answer with a body leaves a connection open for ever (C99_false, C99_exact says that these are all); proved for healthd, healthtop and the Bugsnag sink; HTTP/1.1"
  },
  {
   "property": "C100",
   "status": "partial",
   "theorems": [
    "ServerAuth.C100_librato_partial",
    "ServerAuth.C100_colon",
    "ServerAuth.C100_headers",
    "Bugsnag.C100_bugsnag"
   ],
   "note": "false for users with a colon in the name (C100_colon says what the server reads then), as in every use of Basic authentication; everything else is proved"
  },
  {
   "property": "C101",
   "status": "partial",
   "theorems": [
    "Bugsnag.C100_bugsnag",
    "Bugsnag.C101_false"
   ],
   "note": "only the endpoint has its default (C100_bugsnag); release stage and host name are reported empty, and the version of the app is not reported (C101_false)"
  },
  {
   "property": "C102",
   "status": "partial",
   "theorems": [
    "World.C102_emit",
    "World.C102_program",
    "World.C102_run_partial",
    "World.C102_run",
    "World.C102_at_most_two",
    "World.C102_nil_error",
    "Sample.C102_false"
   ],
   "note": "false: sinks behind the one that panics hear nothing (C102_emit says exactly what is heard), and a panic in a completion makes Run end the job twice or panic itself (C102_false); proved for Run if sinks panic only in what f emits, as the writer sink does (C102_nil_error); C102_run says exactly what Run does whenever sinks panic, C102_at_most_two that no sink hears more than two completions"
  },
  {
   "property": "C103",
   "status": "partial",
   "theorems": [
    "LibratoSetup.C103_sent",
    "LibratoSetup.C103_ticker_partial",
    "LibratoSetup.C103_false",
    "LibratoSetup.C103_race",
    "LibratoSetup.C103_late"
   ],
   "note": "all posts carry the final settings in every interleaving (C103_sent); false of the period of the flushes: the goroutine may read FlushPeriod before the program sets it (C103_false), exactly which periods are possible is C103_ticker_partial"
  },
  {
   "property": "C104",
   "status": "proved",
   "theorems": [
    "Rounds.C104_sentinel",
    "Rounds.C104_once",
    "Rounds.C104_refines",
    "Rounds.C104_deadlock"
   ],
   "note": "C104_refines: the model with rounds and channel contents refines the one of C50, C51, C86, C93, and C104_deadlock: the deadlock of C50_false is one of its executions"
  },
  {
   "property": "C105",
   "status": "partial",
   "theorems": [
    "Rounds.C105_polls_partial",
    "Rounds.C105_debouncer",
    "Rounds.C105_iff",
    "Rounds.C105_few_false",
    "Rounds.C105_false"
   ],
   "note": "false: the debouncer never ends (C105_debouncer), and polls whose messages do not fit in the channel wait for ever (C105_false); C105_polls_partial: exactly how many remain at least; C105_iff: if rounds do not overlap and the loop keeps up, polls can be left exactly from 64 hosts on; C105_few_false: otherwise with any number of hosts"
  },
  {
   "property": "C106",
   "status": "partial",
   "theorems": [
    "TopText.C106_jobs_partial",
    "TopText.C106_hosts_partial",
    "TopText.C106_false"
   ],
   "note": "proved if no name, error or zone abbreviation has tabs, newlines or escapes; false otherwise: a tab in a job's name moves its counts under other titles (C106_false). Assumes that goterm's Color and Bold put control sequences around a text of one line"
  },
  {
   "property": "C107",
   "status": "proved",
   "theorems": [
    "TopText.C107_text",
    "TopText.C107_answer",
    "TopText.C107_first",
    "TopText.C107_false"
   ],
   "note": "C107_false: the abbreviation of a zone does not tell the instant"
  },
  {
   "property": "C108",
   "status": "proved",
   "theorems": [
    "StatsDNetwork.C108_lines",
    "StatsDNetwork.C108_counters",
    "StatsDNetwork.C108_times",
    "StatsDNetwork.C108_gauge",
    "StatsDNetwork.C108_all",
    "StatsDNetwork.C108_twice_false",
    "StatsDNetwork.C108_order_false"
   ],
   "note": "lines for all names and settings; numbers for names of letters, digits and underscores (as C97). The limits: datagrams that arrive twice count twice (C108_twice_false), delays can make a gauge show an older value (C108_order_false)"
  },
  {
   "property": "C109",
   "status": "proved",
   "theorems": [
    "Watch.C109_shown",
    "Watch.C109_round",
    "Watch.C109_complete",
    "Watch.C109_late_false"
   ],
   "note": "for processes of ordinary kind (as C57) that had the interval in some answer made after their last emission in it (as far as healthd has heard; they may forget it later), and intervals not purged. The condition on the polls is needed: a response that arrives after the end of the next round replaces the newer report and the numbers go down (C109_late_false)."
  },
  {
   "property": "C110",
   "status": "proved",
   "theorems": [
    "Nested.C110_run",
    "Nested.C110_calm",
    "Nested.C110_completions"
   ],
   "note": "sinks do not panic (C102); panic(nil) before Go 1.21 and Goexit complete nothing, as in C04"
  },
  {
   "property": "C111",
   "status": "partial",
   "theorems": [
    "Nested.C111_panic_reported_partial",
    "Nested.C111_twice"
   ],
   "note": "false whenever the error given back by Run is logged: Run reports a wrapped copy and returns the plain error, so the panic is reported exactly twice (shown for all cases)"
  },
  {
   "property": "C112",
   "status": "proved",
   "theorems": [
    "Watch.C112_grows"
   ],
   "note": "C109_late_false shows that the condition on slow polls is needed."
  },
  {
   "property": "C113",
   "status": "partial",
   "theorems": [
    "SdStop.C113_stopped",
    "SdStop.C113_drain_first_partial",
    "SdStop.C113_blocks",
    "SdStop.C113_stop_false"
   ],
   "note": "false of Stop alone: the loop does not flush when it is stopped. Shown for all executions: exactly the datagram being filled (at most 1440 bytes) is lost, a Drain before the Stop saves everything, and after 8192 further messages emissions block for ever."
  },
  {
   "property": "C114",
   "status": "proved",
   "theorems": [
    "SdStop.C114_tick",
    "SdStop.C114_draining"
   ],
   "note": "C114_draining shows that the condition on drains is needed: inside a Drain ticks are ignored."
  },
  {
   "property": "C115",
   "status": "partial",
   "theorems": [
    "Healthd.C115_six_partial",
    "Healthd.C115_total_partial",
    "Healthd.C115_ahead_false"
   ],
   "note": "proved if reports start at whole intervals, not in the future, and an instant always has the same zone; false otherwise: reports of a process whose clock is ahead stay until their time has come, any number of them (witness). The bound on intervals is C43_series."
  },
  {
   "property": "C116",
   "status": "proved",
   "theorems": [
    "StatsD.C116_buffers",
    "StatsD.C116_unbounded"
   ],
   "note": "C116_unbounded: with ever new names the memory grows without bound."
  },
  {
   "property": "C117",
   "status": "proved",
   "theorems": [
    "SinkMem.C117_polling",
    "SinkMem.C117_bound",
    "Librato.C117_librato"
   ],
   "note": "Objects are counted (map entries and places for samples), not bytes."
  },
  {
   "property": "C118",
   "status": "partial",
   "theorems": [
    "TopPolls.C118_count",
    "TopPolls.C118_in_time_partial",
    "TopPolls.C118_false"
   ],
   "note": "exact number of polls under way: C118_count; at most one if polls are answered within a second; false otherwise: http.Get has no time limit, so that a healthd that does not answer makes a goroutine pile up every second (C118_false)"
  },
  {
   "property": "C119",
   "status": "partial",
   "theorems": [
    "Rounds.C119_count",
    "Rounds.C119_standstill",
    "Rounds.C119_in_time_partial",
    "Rounds.C119_false"
   ],
   "note": "exact number: C119_count; at most hosts + 1 if the goroutines of a round have ended when the next tick comes (a poll has a time limit of five seconds and ticks are ten apart, but times are not in the model and a goroutine also waits for room in the channel); false without that (C119_false); never more after a standstill: C119_standstill, reached by standstill_reached"
  },
  {
   "property": "C120",
   "status": "partial",
   "theorems": [
    "Descriptors.C120_early_partial",
    "Descriptors.C120_early_exact",
    "Descriptors.C120_late_quiet",
    "Descriptors.C120_late_iff",
    "Descriptors.C120_false",
    "Descriptors.C120_limit"
   ],
   "note": "false: the directory that is read counts as well (older ioutil.ReadDir), or has been closed when its entry is looked at, so that nothing is reported (newer one), and nothing is reported when descriptors have run out; what is reported is stated exactly for both versions"
  },
  {
   "property": "C121",
   "status": "partial",
   "theorems": [
    "HdStops.C121_one",
    "HdStops.C121_iff",
    "HdStops.C121_false"
   ],
   "note": "false: at most one call ever returns (C121_one), a second one waits for ever (C121_false); C121_iff: exactly when a call can return"
  },
  {
   "property": "C122",
   "status": "proved",
   "theorems": [
    "Rounds.C122_ends",
    "Rounds.C122_again",
    "Watch.C122_shown",
    "Rounds.C122_few",
    "Watch.C122_shown_few",
    "Rounds.C122_false",
    "Rounds.C122_many_false",
    "Rounds.C122_again_iff",
    "Rounds.C122_ends_iff"
   ],
   "note": "under the stated conditions: weak and strong fairness of the goroutines (Spec.RoundsFair), no deadlock of loop and debouncer (C50_iff says when it can come), no Stop; for the numbers the conditions of C109 and C112. C122_few and C122_shown_few: with at most 65 hosts and rounds that do not overlap the condition on the debouncer holds by itself; C122_false: with 66 hosts it is needed; C122_again_iff and C122_ends_iff: over all fair executions the bound is exact"
  },
  {
   "property": "C123",
   "status": "partial",
   "theorems": [
    "HdMem.C123_only_duration_partial",
    "HdMem.C123_later",
    "HdMem.C123_when",
    "HdMem.C123_race_false"
   ],
   "note": "proved for all memory but the duration of the intervals, which handlers read by themselves (api.go:136 and others): C123_race_false is an execution with that race, C93_race_partial says that it can only occur before the first successful response; C123_later and C123_when: no request whose copy is made after that response meets the write"
  }
 ]
}