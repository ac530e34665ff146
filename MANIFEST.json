{
 "claims": [
  {
   "property": "C01",
   "status": "proved",
   "theorems": [
    "Motan.Props.buffer_roundtrip",
    "Motan.Props.buffer_roundtrip_context",
    "Motan.Props.write_preserves_earlier",
    "Motan.Props.readByte_past_wpos_counterexample",
    "Motan.Props.read_exactly",
    "Motan.Props.read_some"
   ],
   "note": ""
  },
  {
   "property": "C02",
   "status": "proved",
   "theorems": [
    "Motan.Props.varint_roundtrip",
    "Motan.Props.readVarint_total",
    "Motan.Props.varint_read",
    "Motan.Props.varint_overflow",
    "Motan.Props.varint_short",
    "Motan.Props.varint_written"
   ],
   "note": ""
  },
  {
   "property": "C03",
   "status": "proved",
   "theorems": [
    "Motan.Props.zigzag32_roundtrip",
    "Motan.Props.zigzag64_roundtrip",
    "Motan.Props.zigzag32_value",
    "Motan.Props.zigzag64_value"
   ],
   "note": ""
  },
  {
   "property": "C04",
   "status": "proved",
   "theorems": [
    "Motan.Props.header_setter",
    "Motan.Props.header_setters",
    "Motan.Props.buildHeader_view",
    "Motan.Props.negative_version_counterexample"
   ],
   "note": ""
  },
  {
   "property": "C05",
   "status": "proved",
   "theorems": [
    "Motan.Props.motan2_roundtrip",
    "Motan.Props.motan2_stream_roundtrip",
    "Motan.Props.encode_paths_agree",
    "Motan.Props.metaSize_formula"
   ],
   "note": ""
  },
  {
   "property": "C06",
   "status": "proved",
   "theorems": [
    "Motan.Props.decode_sound",
    "Motan.Props.decode_contained",
    "Motan.Props.decode_oversize_meta",
    "Motan.Props.decode_extend",
    "Motan.Props.decode_prefix_error",
    "Motan.Props.checkVersion_encode",
    "Motan.Props.decode_accepts",
    "Motan.Props.decode_only",
    "Motan.Props.decode_refused_iff"
   ],
   "note": ""
  },
  {
   "property": "C07",
   "status": "proved",
   "theorems": [
    "Motan.Props.metadata_integrity",
    "Motan.Props.metadata_order_irrelevant"
   ],
   "note": ""
  },
  {
   "property": "C08",
   "status": "proved",
   "theorems": [
    "Motan.Props.simple_roundtrip",
    "Motan.Props.simple_unsupported",
    "Motan.Props.simple_typed_target",
    "Motan.Props.simple_string_as_bytes",
    "Motan.Props.simple_empty_target_counterexample",
    "Motan.Props.simple_int_keys_counterexample"
   ],
   "note": "serialized size below 2^32; int comes back as int64; nil nested in a generic container is refused; empty containers do not reach a typed target (counterexample)"
  },
  {
   "property": "C09",
   "status": "proved",
   "theorems": [
    "Motan.Props.simple_decode_iff",
    "Motan.Props.simple_decode_total",
    "Motan.Props.simple_decode_panic",
    "Motan.Props.simple_decode_panic_counterexample"
   ],
   "note": "the decoder accepts exactly the grammar Wire; the panic on unhashable map keys is characterised and exhibited"
  },
  {
   "property": "C10",
   "status": "proved",
   "theorems": [
    "Motan.Props.simple_multi_roundtrip",
    "Motan.Props.simple_multi_roundtrip_hints",
    "Motan.Props.simple_multi_truncated_counterexample"
   ],
   "note": ""
  },
  {
   "property": "C100",
   "status": "proved",
   "theorems": [
    "Motan.Props.connection_count",
    "Motan.Props.goes_on",
    "Motan.Props.takes_no_more",
    "Motan.Props.destroy_once",
    "Motan.Props.loop_ends",
    "Motan.Props.connections_stay",
    "Motan.Props.spins_violated"
   ],
   "note": "Accept and Close of the listener are modelled by their contract: a closed listener gives no connection, and closing it again is an error. One server; the counter of the code is shared by all servers of the process."
  },
  {
   "property": "C101",
   "status": "proved",
   "theorems": [
    "Motan.Props.change_answer",
    "Motan.Props.shows_answer",
    "Motan.Props.unknown_answer",
    "Motan.Props.runtime_page",
    "Motan.Props.runtime_given",
    "Motan.Props.runtime_other",
    "Motan.Props.query_violated",
    "Motan.Props.answered_ok_violated",
    "Motan.Props.runtime_space_violated"
   ],
   "note": "One request at a time (concurrent ones: C41). The text of error messages and the marshalling to JSON are left out; what the parts of the agent say about themselves is C104."
  },
  {
   "property": "C102",
   "status": "proved",
   "theorems": [
    "Motan.Props.local_bound",
    "Motan.Props.local_call",
    "Motan.Props.local_client_error",
    "Motan.Props.local_refused",
    "Motan.Props.local_only",
    "Motan.Props.grpc_invokes",
    "Motan.Props.grpc_answers",
    "Motan.Props.grpc_relayed",
    "Motan.Props.grpc_refused",
    "Motan.Props.grpc_retried",
    "Motan.Props.local_reply_violated",
    "Motan.Props.local_late_violated",
    "Motan.Props.local_gap_violated",
    "Motan.Props.local_url_violated",
    "Motan.Props.grpc_kind_violated",
    "Motan.Props.grpc_no_argument_violated"
   ],
   "note": "The arguments of a local call are the caller's own values (serialized ones: C58). Reflection accepts a call exactly if the method accepts the arguments and none is nil. The gRPC library and the lower-casing of names are parameters; that metadata.New appends values of equal names is its documented behaviour. A gRPC call has no deadline, which a model of its result cannot show."
  },
  {
   "property": "C103",
   "status": "proved",
   "theorems": [
    "Motan.Props.parents_created",
    "Motan.Props.parents_refused_violated",
    "Motan.Props.command_node_created",
    "Motan.Props.command_of_group",
    "Motan.Props.command_of_application",
    "Motan.Props.command_place",
    "Motan.Props.command_found"
   ],
   "note": "The tree is changed by this client only; whether the client library accepts a path and whether the server refuses a node are parameters."
  },
  {
   "property": "C104",
   "status": "proved",
   "theorems": [
    "Motan.Props.page_fails",
    "Motan.Props.page_clusters",
    "Motan.Props.cluster_refers",
    "Motan.Props.cluster_size",
    "Motan.Props.cluster_rest",
    "Motan.Props.page_exporters",
    "Motan.Props.page_servers",
    "Motan.Props.page_others",
    "Motan.Props.page_misconfigured_violated",
    "Motan.Props.page_start_violated",
    "Motan.Props.page_registries_violated"
   ],
   "note": "What a single endpoint or registry says of itself (name and counters) is a parameter. The marshalling to JSON is left out. Clusters are asked one after the other, each at its own moment."
  },
  {
   "property": "C105",
   "status": "proved",
   "theorems": [
    "Motan.Props.client_context_once",
    "Motan.Props.client_context_made",
    "Motan.Props.server_context_once",
    "Motan.Props.server_context_made",
    "Motan.Props.contexts_distinct",
    "Motan.Props.started_clients",
    "Motan.Props.clients_after_start",
    "Motan.Props.context_switchers",
    "Motan.Props.server_context_lost_violated",
    "Motan.Props.client_placeholders_violated",
    "Motan.Props.start_again_violated",
    "Motan.Props.switcher_types_violated"
   ],
   "note": "What the sections of references become is a parameter (C65 says what), and so is what a file says at each call. The operations hold locks and are taken one at a time; the command-line flags are left out."
  },
  {
   "property": "C106",
   "status": "proved",
   "theorems": [
    "Motan.Props.retry_relayed",
    "Motan.Props.retry_client",
    "Motan.Props.retry_end_to_end",
    "Motan.Props.failover_end_to_end",
    "Motan.Props.failover_all_fail",
    "Motan.Props.retry_keeps_group_violated",
    "Motan.Props.failover_group"
   ],
   "note": "Requests received as motan1 are left out, and so is a relayed request given to an endpoint that is no proxy. The backup strategy gives each endpoint a copy of its own (C48). The end-to-end theorems make the assumptions of C62 for every server and take an endpoint to be found in every round (C27 has the other case)."
  },
  {
   "property": "C107",
   "status": "proved",
   "theorems": [
    "Motan.Props.delay_latency",
    "Motan.Props.delay_alike_plain",
    "Motan.Props.delay_of_backup",
    "Motan.Props.delay_other_application_violated",
    "Motan.Props.delay_other_service_violated",
    "Motan.Props.delay_other_group_violated"
   ],
   "note": "Sequential: an event is counted before the next operation starts; the bus and its workers are C45. The percentile is a parameter (the library keeps at most 1024 values of an interval, drawn at random). Only the metrics filter of endpoints writes to the items."
  },
  {
   "property": "C108",
   "status": "proved",
   "theorems": [
    "Motan.Props.rr_failover_passes",
    "Motan.Props.rr_failover_announced",
    "Motan.Props.ring_finds",
    "Motan.Props.failover_first",
    "Motan.Props.rr_failover_shared_violated",
    "Motan.Props.rr_failover_wrap_violated"
   ],
   "note": "The list of endpoints does not change during the call. `others` counts the selections of other calls between two rounds; the positive theorem needs none. Servers are those of C62/C106 (Callable). The two _violated theorems show where the claim fails without these conditions."
  },
  {
   "property": "C109",
   "status": "proved",
   "theorems": [
    "Motan.Props.client_reply",
    "Motan.Props.client_reply_fails",
    "Motan.Props.hedged_reply",
    "Motan.Props.hedged_reply_single",
    "Motan.Props.hedged_reply_stable",
    "Motan.Props.exchange_answer",
    "Motan.Props.simple_readInto",
    "Motan.Props.assign_readInto",
    "Motan.Props.client_reply_type_violated",
    "Motan.Props.hedged_reply_other_violated",
    "Motan.Props.hedged_reply_late_violated",
    "Motan.Props.hedged_reply_error_violated"
   ],
   "note": "The simple serialization, and replies that are pointers to its types. The filters of the cluster are left out. In the model of backup requests what an answer leaves in the variable is a parameter (`write`); the four _violated theorems are findings."
  },
  {
   "property": "C11",
   "status": "proved",
   "theorems": [
    "Motan.Props.request_convertible_iff",
    "Motan.Props.request_over_wire",
    "Motan.Props.simple_call_over_wire",
    "Motan.Props.proxy_keeps_id",
    "Motan.Props.malformed_rid_counterexample",
    "Motan.Props.relay_preserves",
    "Motan.Props.response_over_wire",
    "Motan.Props.exception_answer",
    "Motan.Props.request_relay_protocol",
    "Motan.Props.answer_process_time",
    "Motan.Props.recorded_sizes"
   ],
   "note": "gzip and JSON are uninterpreted with a round-trip law; a malformed M_rid gives id 0 (shown)"
  },
  {
   "property": "C110",
   "status": "proved",
   "theorems": [
    "Motan.Props.breaker_leaves_alone",
    "Motan.Props.breaker_serves",
    "Motan.Props.breaker_goes_past",
    "Motan.Props.breaker_rate",
    "Motan.Props.breaker_cost",
    "Motan.Props.breaker_failed_calls",
    "Motan.Props.weighted_cost",
    "Motan.Props.weighted_failed_calls",
    "Motan.Props.breaker_tries_again",
    "Motan.Props.breaker_select",
    "Motan.Props.breaker_page_violated",
    "Motan.Props.breaker_down_violated",
    "Motan.Props.breaker_business_violated",
    "Motan.Props.breaker_array_violated",
    "Motan.Props.breaker_window_violated",
    "Motan.Props.breaker_untouched",
    "Motan.Props.weighted_leaves_alone",
    "Motan.Props.weighted_serves",
    "Motan.Props.weighted_goes_past",
    "Motan.Props.weighted_rate",
    "Motan.Props.weighted_tries_again",
    "Motan.Props.weighted_select",
    "Motan.Props.random_leaves_alone",
    "Motan.Props.random_serves",
    "Motan.Props.random_goes_past",
    "Motan.Props.random_rate",
    "Motan.Props.random_failed_calls",
    "Motan.Props.random_tries_again",
    "Motan.Props.hash_leaves_alone",
    "Motan.Props.hash_serves",
    "Motan.Props.hash_goes_past",
    "Motan.Props.hash_rate",
    "Motan.Props.hash_failed_calls",
    "Motan.Props.hash_tries_again",
    "Motan.Props.breaker_load",
    "Motan.Props.weighted_load",
    "Motan.Props.random_load",
    "Motan.Props.hash_load",
    "Motan.Props.hash_single_violated"
   ],
   "note": "Each selection, result and question is atomic here (the interleavings inside the filter are C29), and the clock stands still during one selection. The filter is the only one with a status and every endpoint has an address of its own. For the weighted load balancer the weights do not change. The six _violated theorems are findings."
  },
  {
   "property": "C111",
   "status": "proved",
   "theorems": [
    "Motan.Props.attachments_linearizable",
    "Motan.Props.attachments_no_panic",
    "Motan.Props.attachments_progress"
   ],
   "note": "Linearizable is the definition used for C20. The operations of the string map are one step each, which C94 justifies (string_map_sections). Reset is left out: a recycled request is taken to be in use no more. GetAttachment reads the pointer without sync/atomic, a race by Go's memory model (attachment_race_violated, C94); here the pointer is read in one piece."
  },
  {
   "property": "C112",
   "status": "proved",
   "theorems": [
    "Motan.Props.machine_net_names",
    "Motan.Props.machine_net",
    "Motan.Props.machine_net_total",
    "Motan.Props.machine_shown",
    "Motan.Props.process_connections",
    "Motan.Props.process_connection_list",
    "Motan.Props.process_connection_shown",
    "Motan.Props.process_io",
    "Motan.Props.machine_new_violated",
    "Motan.Props.machine_restart_violated",
    "Motan.Props.machine_all_violated",
    "Motan.Props.machine_panic_violated"
   ],
   "note": "What the operating system says is a parameter, each reading may fail. Percentages, loads, times and texts are passed on by the code and left out, as is the JSON; that a failed reading of memory, swap space, load or host gives a nil pointer is the behaviour of gopsutil and a parameter."
  },
  {
   "property": "C12",
   "status": "proved",
   "theorems": [
    "Motan.Props.block_writer_spec",
    "Motan.Props.block_roundtrip",
    "Motan.Props.block_reader_overrun_violated"
   ],
   "note": ""
  },
  {
   "property": "C13",
   "status": "proved",
   "theorems": [
    "Motan.Props.frame_accepted_iff",
    "Motan.Props.frame_reader_contained",
    "Motan.Props.request_wire_decodes",
    "Motan.Props.reencode_faithful",
    "Motan.Props.reencode_separate_block_counterexample",
    "Motan.Props.request_block_boundary_counterexample",
    "Motan.Props.long_string_violated"
   ],
   "note": "re-encoding is proved outside the exhibited exceptions, which appear as hypotheses"
  },
  {
   "property": "C14",
   "status": "proved",
   "theorems": [
    "Motan.Props.exception_response_wellformed",
    "Motan.Props.heartbeat_request_wellformed",
    "Motan.Props.heartbeat_response_wellformed",
    "Motan.Props.exception_text_readable",
    "Motan.Props.exception_object_form",
    "Motan.Props.exception_text_too_long_counterexample",
    "Motan.Props.exception_response_empty_counterexample"
   ],
   "note": ""
  },
  {
   "property": "C15",
   "status": "proved",
   "theorems": [
    "Motan.Props.extinfo_roundtrip",
    "Motan.Props.extinfo_order_independent",
    "Motan.Props.extinfo_path_slash_counterexample",
    "Motan.Props.extinfo_equals_counterexample"
   ],
   "note": "Round-trip for every separator-free URL; limits exhibited."
  },
  {
   "property": "C16",
   "status": "proved",
   "theorems": [
    "Motan.Props.int_param_coherent",
    "Motan.Props.merge_int_stale_counterexample"
   ],
   "note": "All histories of method calls; the MergeParams exception is exhibited."
  },
  {
   "property": "C17",
   "status": "proved",
   "theorems": [
    "Motan.Props.method_param_precedence",
    "Motan.Props.positive_variants",
    "Motan.Props.merge_method_param_unseen_counterexample"
   ],
   "note": "All histories of method calls; the MergeParams exception is exhibited."
  },
  {
   "property": "C18",
   "status": "proved",
   "theorems": [
    "Motan.Props.find_cluster_spec",
    "Motan.Props.find_cluster_error",
    "Motan.Props.agent_target_spec"
   ],
   "note": ""
  },
  {
   "property": "C19",
   "status": "proved",
   "theorems": [
    "Motan.Props.merge_precedence",
    "Motan.Props.merge_keeps_keys",
    "Motan.Props.merge_order_independent"
   ],
   "note": ""
  },
  {
   "property": "C20",
   "status": "proved",
   "theorems": [
    "Motan.Props.cowmap_linearizable",
    "Motan.Props.cowmap_progress"
   ],
   "note": "Linearizability over every schedule at the granularity of single pointer, mutex and map-entry accesses."
  },
  {
   "property": "C21",
   "status": "proved",
   "theorems": [
    "Motan.Props.switcher_last_value",
    "Motan.Props.switcher_notifications",
    "Motan.Props.switcher_register_ignored",
    "Motan.Props.switcher_panic_iff",
    "Motan.Props.switcher_order_counterexample",
    "Motan.Props.switcher_concurrent_final_value_announced",
    "Motan.Props.switcher_concurrent_twice_counterexample"
   ],
   "note": "Sequential histories exactly; concurrent sets: the final value is announced, order and double announcement are exhibited."
  },
  {
   "property": "C22",
   "status": "proved",
   "theorems": [
    "Motan.Props.group_ring_proportional",
    "Motan.Props.group_refresh_panics",
    "Motan.Props.group_window",
    "Motan.Props.clamp_weight",
    "Motan.Props.clamp_weight_range",
    "Motan.Props.weights_parsed",
    "Motan.Props.findGcd_spec",
    "Motan.Props.group_window_wrap_counterexample"
   ],
   "note": "The wrap of the 32-bit counter is exhibited and excluded by hypothesis."
  },
  {
   "property": "C23",
   "status": "proved",
   "theorems": [
    "Motan.Props.wrr_ring_proportional",
    "Motan.Props.wrr_ring_mode",
    "Motan.Props.ring_window",
    "Motan.Props.wrr_equal_weights",
    "Motan.Props.getNonNegative_eq"
   ],
   "note": ""
  },
  {
   "property": "C24",
   "status": "proved",
   "theorems": [
    "Motan.Props.swrr_fair",
    "Motan.Props.swrr_balanced",
    "Motan.Props.window_size"
   ],
   "note": "Selections one at a time; all endpoints available; window covering all (which the code uses up to 50 endpoints)."
  },
  {
   "property": "C25",
   "status": "proved",
   "theorems": [
    "Motan.Props.random_select_good",
    "Motan.Props.rr_select_good",
    "Motan.Props.roundRobin_select_good",
    "Motan.Props.ring_select_good",
    "Motan.Props.hash_select_good",
    "Motan.Props.hash_select_sticky",
    "Motan.Props.hash_single_unavailable_counterexample",
    "Motan.Props.window_select_available",
    "Motan.Props.window_select_finds",
    "Motan.Props.window_select_misses_counterexample"
   ],
   "note": "Exceptions (single endpoint in consistent hash, sliding-window fallback) exhibited."
  },
  {
   "property": "C26",
   "status": "proved",
   "theorems": [
    "Motan.Props.select_array_spec",
    "Motan.Props.select_array_distinct_available",
    "Motan.Props.random_array_good",
    "Motan.Props.rr_array_good",
    "Motan.Props.hash_array_good",
    "Motan.Props.hash_array_empty_counterexample",
    "Motan.Props.wrr_array_empty_counterexample"
   ],
   "note": "Two balancers return empty arrays; exhibited."
  },
  {
   "property": "C27",
   "status": "proved",
   "theorems": [
    "Motan.Props.failover_retries_setting",
    "Motan.Props.failover_spec"
   ],
   "note": ""
  },
  {
   "property": "C28",
   "status": "proved",
   "theorems": [
    "Motan.Props.backup_calls_bounded",
    "Motan.Props.backup_answer_real",
    "Motan.Props.backup_end_to_end",
    "Motan.Props.backup_good_response_waits",
    "Motan.Props.backup_progress",
    "Motan.Props.backup_plan",
    "Motan.Props.backup_direct_answer",
    "Motan.Props.backup_budget",
    "Motan.Props.backup_waits_for_deadline_counterexample",
    "Motan.Props.backup_budget_share_counterexample"
   ],
   "note": "backup_end_to_end joins it with the path of C62: the answer is the one a handler gave to the caller's request. The budget is a fixed number of permits per counting round; that it is not a share of the calls made so far, and the wait for the deadline after all calls failed, are exhibited."
  },
  {
   "property": "C29",
   "status": "proved",
   "theorems": [
    "Motan.Props.failfast_available_iff",
    "Motan.Props.failfast_one_probe",
    "Motan.Props.failfast_heals",
    "Motan.Props.failfast_shared",
    "Motan.Props.failfast_unavailable_only_after_ten",
    "Motan.Props.failfast_probes_spaced",
    "Motan.Props.failfast_success_lost_counterexample"
   ],
   "note": "All interleavings of the atomic accesses; racing calls can leave a success unrecorded (exhibited)."
  },
  {
   "property": "C30",
   "status": "proved",
   "theorems": [
    "Motan.Props.cluster_filters_nested",
    "Motan.Props.endpoint_filters_nested",
    "Motan.Props.provider_filters_nested"
   ],
   "note": "For every result sort.Sort may give; a filter named twice runs twice. NewFilter is taken to return a new object."
  },
  {
   "property": "C31",
   "status": "proved",
   "theorems": [
    "Motan.Props.request_timeout_spec",
    "Motan.Props.request_timeout_positive",
    "Motan.Props.request_timeout_v2_spec",
    "Motan.Props.request_timeout_zero_counterexample",
    "Motan.Props.request_timeout_v2_zero_counterexample"
   ],
   "note": "Below 2^43 ms; a configured timeout of 1 ms allows a zero timeout (exhibited)."
  },
  {
   "property": "C32",
   "status": "proved",
   "theorems": [
    "Motan.Props.keepalive_single",
    "Motan.Props.keepalive_not_started_after_destroy",
    "Motan.Props.available_only_after_success",
    "Motan.Props.success_makes_available",
    "Motan.Props.success_only_by_attempt",
    "Motan.Props.unavailable_only_after_errors",
    "Motan.Props.no_threshold_no_disabling",
    "Motan.Props.errors_disable_exactly_at_threshold",
    "Motan.Props.disabling_makes_unavailable",
    "Motan.Props.available_after_destroy_counterexample",
    "Motan.Props.connecting_after_destroy_counterexample"
   ],
   "note": "All interleavings. Thresholds below 2^32 (the code compares as uint32). An endpoint destroyed while connecting can become available again, and its connecting goroutine can be left running (both exhibited)."
  },
  {
   "property": "C33",
   "status": "proved",
   "theorems": [
    "Motan.Props.response_is_own",
    "Motan.Props.wire_ids_distinct",
    "Motan.Props.response_delivered_once",
    "Motan.Props.stream_private",
    "Motan.Props.stream_pooled_once",
    "Motan.Props.delivery_never_stuck",
    "Motan.Props.notified_has_response",
    "Motan.Props.table_entries",
    "Motan.Props.failed_send_leaks_counterexample",
    "Motan.Props.unsolicited_response_counterexample"
   ],
   "note": "All interleavings, for servers that answer only ids they were sent (duplicates, late answers, any order allowed) and for distinct generated ids (C34). A call whose Send fails leaves a stale table entry; with a server that sends an id it was not sent, another call gets the message (both exhibited)."
  },
  {
   "property": "C34",
   "status": "proved",
   "theorems": [
    "Motan.Props.request_ids_distinct",
    "Motan.Props.request_ids_equal_iff"
   ],
   "note": ""
  },
  {
   "property": "C35",
   "status": "proved",
   "theorems": [
    "Motan.Props.can_serve_iff",
    "Motan.Props.cluster_endpoints",
    "Motan.Props.cluster_endpoints_unfiltered",
    "Motan.Props.cluster_single_registry",
    "Motan.Props.in_use_not_destroyed",
    "Motan.Props.endpoints_accounted",
    "Motan.Props.endpoint_kept",
    "Motan.Props.endpoint_removed",
    "Motan.Props.cluster_never_emptied",
    "Motan.Props.empty_notification_ignored",
    "Motan.Props.notification_weight",
    "Motan.Props.cluster_destroy",
    "Motan.Props.new_endpoint_params",
    "Motan.Props.duplicate_server_leaks_counterexample",
    "Motan.Props.destroy_leaks_filtered_counterexample",
    "Motan.Props.notify_after_destroy_counterexample",
    "Motan.Props.kept_endpoint_ignores_parameters_counterexample"
   ],
   "note": "For histories in which a notification does not name the same server twice; the leaks outside that and after Destroy are exhibited."
  },
  {
   "property": "C36",
   "status": "proved",
   "theorems": [
    "Motan.Props.refers_filter_exists",
    "Motan.Props.refers_filter_exact",
    "Motan.Props.refers_filter_use",
    "Motan.Props.refers_filter_nonempty",
    "Motan.Props.refers_filter_withdrawn"
   ],
   "note": "CIDR parsing and containment are parameters."
  },
  {
   "property": "C37",
   "status": "proved",
   "theorems": [
    "Motan.Props.static_command",
    "Motan.Props.traffic_command_chosen",
    "Motan.Props.degrade_and_switcher_chosen",
    "Motan.Props.commands_in_force",
    "Motan.Props.repeated_command_ignored",
    "Motan.Props.degraded_iff",
    "Motan.Props.pattern_covers",
    "Motan.Props.routes_exact",
    "Motan.Props.told_right",
    "Motan.Props.told_current",
    "Motan.Props.other_group_recorded",
    "Motan.Props.subscriptions_exact",
    "Motan.Props.subscribed_only",
    "Motan.Props.routes_remove_all_counterexample",
    "Motan.Props.blind_counterexample",
    "Motan.Props.duplicate_group_leaks_counterexample",
    "Motan.Props.degraded_after_unsubscribe_counterexample",
    "Motan.Props.mixed_groups_ignored_violated"
   ],
   "note": "With a registry that has no commands, the further groups of the configuration are left out until the own group is announced again (exhibited, in general). JSON decoding, regular expressions, sorting and the local address are parameters. The fallback to the own group never fires when routes remove all nodes (exhibited)."
  },
  {
   "property": "C38",
   "status": "proved",
   "theorems": [
    "Motan.Props.switcher_commands_undone",
    "Motan.Props.switcher_command_withdrawn",
    "Motan.Props.nothing_saved",
    "Motan.Props.saved_registered",
    "Motan.Props.clusters_interfere_counterexample"
   ],
   "note": "For one cluster; saved values are shared by all clusters, and their interference is exhibited."
  },
  {
   "property": "C39",
   "status": "proved",
   "theorems": [
    "Motan.Props.v2_request_answered",
    "Motan.Props.v2_heartbeat_answered",
    "Motan.Props.v2_failure_reported",
    "Motan.Props.v2_result_delivered",
    "Motan.Props.v2_relayed_answer",
    "Motan.Props.v2_exception_delivered",
    "Motan.Props.builtin_handlers_answer",
    "Motan.Props.v1_request_answered",
    "Motan.Props.v1_heartbeat_answered",
    "Motan.Props.answered_at_most_once",
    "Motan.Props.no_request_lost",
    "Motan.Props.v1_undecodable_unanswered_violated",
    "Motan.Props.v1_plain_response_unanswered_violated"
   ],
   "note": "Every motan2 request gets exactly one answer with its id, for every content, provider behaviour and interleaving on the connection, unless the goroutine pool refuses it or the connection breaks. The two motan1 exceptions (undecodable request; normal response not received over motan1) are exhibited as theorems."
  },
  {
   "property": "C40",
   "status": "proved",
   "theorems": [
    "Motan.Props.default_routing",
    "Motan.Props.agent_routing",
    "Motan.Props.removal_exact",
    "Motan.Props.framework_requests_separate",
    "Motan.Props.agent_key_collision_counterexample",
    "Motan.Props.agent_stale_removal_counterexample",
    "Motan.Props.framework_requests_served"
   ],
   "note": "For every history of additions and removals. For the agent under the condition that groups contain no underscore; the collision and the stale removal are exhibited."
  },
  {
   "property": "C41",
   "status": "proved",
   "theorems": [
    "Motan.Props.tables_of_history",
    "Motan.Props.crash_recovers",
    "Motan.Props.crash_when_idle_loses_nothing",
    "Motan.Props.completed_subscription_survives",
    "Motan.Props.registered_of_history",
    "Motan.Props.completed_registration_survives",
    "Motan.Props.completed_unregistration_survives",
    "Motan.Props.recovered_nodes_exported",
    "Motan.Props.unregister_keeps_exporter_violated",
    "Motan.Props.suffix_unregister_violated",
    "Motan.Props.crash_while_saving_violated",
    "Motan.Props.placeholder_recovery_violated"
   ],
   "note": "For all interleavings of requests, saves and a crash at any step, in an environment whose own settings leave identities alone and groups without placeholders. A crash during a save (the file is truncated before it is written), unregistration under a group suffix, the exporter left by unregister and groups with placeholders break it, each exhibited."
  },
  {
   "property": "C42",
   "status": "partial",
   "theorems": [
    "Motan.Props.status_survives_partial",
    "Motan.Props.status_after_restart",
    "Motan.Props.status_running",
    "Motan.Props.status_survives_violated"
   ],
   "note": "The property is false of the code: the status file always says 200. What a restart gives is characterised exactly; the status survives when the last one set was available."
  },
  {
   "property": "C43",
   "status": "proved",
   "theorems": [
    "Motan.Props.nodes_follow_calls",
    "Motan.Props.session_restores",
    "Motan.Props.one_node",
    "Motan.Props.discover_exact",
    "Motan.Props.statements_in_turn",
    "Motan.Props.session_available_again_counterexample",
    "Motan.Props.session_revives_unregistered_counterexample",
    "Motan.Props.session_nil_left_counterexample",
    "Motan.Props.agent_node_stays_counterexample",
    "Motan.Props.both_nodes_counterexample",
    "Motan.Props.discover_panics_counterexample"
   ],
   "note": "For all histories of calls (of one service or of all), disconnections and expired sessions, all range orders, with clean URLs of one protocol, calls to zookeeper succeeding. Restoring needs the conditions of Spec.Restorable; the histories outside it and concurrent availability calls are exhibited to be restored wrongly."
  },
  {
   "property": "C44",
   "status": "proved",
   "theorems": [
    "Motan.Props.location_picked",
    "Motan.Props.location_none",
    "Motan.Props.location_total",
    "Motan.Props.service_of_path",
    "Motan.Props.empty_prefix_counterexample"
   ],
   "note": "For all location lists and paths; regular expressions are an uninterpreted parameter. A location with an empty prefix never matches (exhibited)."
  },
  {
   "property": "C45",
   "status": "proved",
   "theorems": [
    "Motan.Props.events_conserved",
    "Motan.Props.counts_conserved",
    "Motan.Props.submitted_exact",
    "Motan.Props.drop_needs_full_bus",
    "Motan.Props.failure_needs_clash",
    "Motan.Props.call_counted_once",
    "Motan.Props.call_metrics_apart",
    "Motan.Props.call_events_never_fail",
    "Motan.Props.quiet_snapshot_exact",
    "Motan.Props.late_event_lost_violated",
    "Motan.Props.names_run_together_violated",
    "Motan.Props.escaped_alike_violated",
    "Motan.Props.kinds_clash_violated"
   ],
   "note": "For all schedules of callers, any number of workers, snapshots and readers, every step of a worker separate. Values as the snapshots hold them; a value that was read before a late worker added to it stays as read (exhibited), and quiet_snapshot_exact says when that cannot happen."
  },
  {
   "property": "C46",
   "status": "proved",
   "theorems": [
    "Motan.Props.records_latest",
    "Motan.Props.recorder_size_zero",
    "Motan.Props.lone_reader",
    "Motan.Props.concurrent_readers_violated"
   ],
   "note": "For all histories and sizes. The result of GetRecords is a map whose keys begin with the position, so oldest first is the order of the positions. Two concurrent readers share the key buffer under a read lock and can return mixed keys (exhibited)."
  },
  {
   "property": "C47",
   "status": "proved",
   "theorems": [
    "Motan.Props.acquired_request_clean",
    "Motan.Props.acquired_response_clean",
    "Motan.Props.acquired_http_response_clean",
    "Motan.Props.acquired_message_clean",
    "Motan.Props.unsent_message_kept",
    "Motan.Props.pool_gets_clean",
    "Motan.Props.async_flag_survives_violated",
    "Motan.Props.encoding_survives_violated"
   ],
   "note": "For all histories of acquiring, changing and releasing. The AsyncCall flag and the encoded bytes of a message survive (exhibited)."
  },
  {
   "property": "C48",
   "status": "proved",
   "theorems": [
    "Motan.Props.clones_isolated",
    "Motan.Props.clone_equal",
    "Motan.Props.clone_arguments_overwritten_violated",
    "Motan.Props.clone_handler_overwritten_violated",
    "Motan.Props.clone_attachment_not_sent_violated",
    "Motan.Props.clone_drops_fields_violated"
   ],
   "note": "Requests live in a heap of maps and arrays, so sharing is visible; all histories of making, receiving, cloning, changing, forwarding and releasing. The shared argument and handler arrays can be overwritten (exhibited)."
  },
  {
   "property": "C49",
   "status": "proved",
   "theorems": [
    "Motan.Props.request_panics_exactly",
    "Motan.Props.response_panics_exactly",
    "Motan.Props.decode_panics_not",
    "Motan.Props.request_decode_panic_counterexample",
    "Motan.Props.response_decode_panic_counterexample"
   ],
   "note": "the frames that make the decoder panic are described by relations between byte strings, in both directions; frames of the described shapes that a connection accepts are exhibited; gzip is given from outside"
  },
  {
   "property": "C50",
   "status": "proved",
   "theorems": [
    "Motan.Props.identity_coherent",
    "Motan.Props.identity_injective",
    "Motan.Props.direct_identity_stale_counterexample"
   ],
   "note": ""
  },
  {
   "property": "C51",
   "status": "proved",
   "theorems": [
    "Motan.Props.placeholders_replaced"
   ],
   "note": ""
  },
  {
   "property": "C52",
   "status": "proved",
   "theorems": [
    "Motan.Props.pool_file_wins",
    "Motan.Props.application_file_wins",
    "Motan.Props.service_file_wins",
    "Motan.Props.basic_file_weakest",
    "Motan.Props.locations_once",
    "Motan.Props.location_over_service_counterexample"
   ],
   "note": "Termination is the well-foundedness of the model's importLocations; the exception is exhibited."
  },
  {
   "property": "C53",
   "status": "partial",
   "theorems": [
    "Motan.Props.recovery_pending_partial",
    "Motan.Props.keepalive_gave_way",
    "Motan.Props.recovery_lost_counterexample"
   ],
   "note": "False in general: a keepalive that gives way to one which has just finished leaves the endpoint unavailable for good (exhibited). Proved for executions in which that does not happen."
  },
  {
   "property": "C54",
   "status": "proved",
   "theorems": [
    "Motan.Props.request_groups",
    "Motan.Props.request_node",
    "Motan.Props.request_refused",
    "Motan.Props.request_good",
    "Motan.Props.request_inverse",
    "Motan.Props.request_filters",
    "Motan.Props.group_parameter_ignored_violated"
   ],
   "note": "JSON decoding and URL unescaping are parameters; protocols without colon and white space."
  },
  {
   "property": "C55",
   "status": "proved",
   "theorems": [
    "Motan.Props.path_rewritten",
    "Motan.Props.path_kept",
    "Motan.Props.variables_filled",
    "Motan.Props.provider_path",
    "Motan.Props.rule_fields",
    "Motan.Props.variable_in_value_counterexample",
    "Motan.Props.rule_trailing_space_counterexample"
   ],
   "note": "Regular expressions and query parsing are uninterpreted parameters. variables_filled assumes that neither the text of the path nor the values have opening braces; the counterexample shows why."
  },
  {
   "property": "C56",
   "status": "proved",
   "theorems": [
    "Motan.Props.frames_written_whole",
    "Motan.Props.frames_keep_boundaries",
    "Motan.Props.frames_written_whole_settled",
    "Motan.Props.retry_rewrites_frame_violated",
    "Motan.Props.retry_loses_body_violated",
    "Motan.Props.retry_mixes_requests_violated"
   ],
   "note": "For all schedules. Proved if each request is attempted at most once (the default), and with any number of attempts if none starts, and no answer is given, while an earlier one still waits to be written; three schedules with retries violate it. A write to the connection is one step."
  },
  {
   "property": "C57",
   "status": "proved",
   "theorems": [
    "Motan.Props.pb_roundtrip",
    "Motan.Props.pb_serializes",
    "Motan.Props.pb_signed_wire",
    "Motan.Props.pb_unsigned_wire",
    "Motan.Props.pb_contained",
    "Motan.Props.grpc_roundtrip",
    "Motan.Props.grpc_one_target",
    "Motan.Props.grpc_only_one",
    "Motan.Props.pb_int_pointer_untouched_violated",
    "Motan.Props.pb_array_refused_violated",
    "Motan.Props.pb_array_aliased_violated",
    "Motan.Props.pb_array_read_violated",
    "Motan.Props.pb_array_cut_unnoticed_violated",
    "Motan.Props.pb_array_parameter_panics_violated"
   ],
   "note": "For all values, targets and byte strings. golang/protobuf 1.3.2 is not in /repo: its varints, zigzags, fixed integers and length-delimited bytes are modelled from the documentation; a message is abstract with marshal and merge that are inverse on what marshals."
  },
  {
   "property": "C58",
   "status": "proved",
   "theorems": [
    "Motan.Props.provider_called",
    "Motan.Props.provider_typed",
    "Motan.Props.provider_faithful",
    "Motan.Props.handler_serves",
    "Motan.Props.handler_answers",
    "Motan.Props.provider_int_never_runs_violated",
    "Motan.Props.provider_nil_panics_violated",
    "Motan.Props.provider_no_name_panics_violated",
    "Motan.Props.handler_paths_shared_violated"
   ],
   "note": "For all services, names, arguments, bytes and histories, with the protobuf serialization of C57. Go's reflective call is modelled by its checks (arity, nil, assignability)."
  },
  {
   "property": "C59",
   "status": "proved",
   "theorems": [
    "Motan.Props.pool_bounded",
    "Motan.Props.pool_closed_clean",
    "Motan.Props.pool_failed_clean",
    "Motan.Props.pool_progress",
    "Motan.Props.pool_gets_open",
    "Motan.Props.pool_get_panics_violated"
   ],
   "note": "For all schedules, any number of goroutines and connections. Every shared access of Get and Close is a step of its own. A dialled connection whose configuration is refused is not modelled."
  },
  {
   "property": "C60",
   "status": "proved",
   "theorems": [
    "Motan.Props.http_headers",
    "Motan.Props.http_headers_only",
    "Motan.Props.http_method",
    "Motan.Props.http_body",
    "Motan.Props.http_form",
    "Motan.Props.http_refused",
    "Motan.Props.http_query",
    "Motan.Props.http_params",
    "Motan.Props.http_url",
    "Motan.Props.http_settled",
    "Motan.Props.http_cut_reported",
    "Motan.Props.http_transparent",
    "Motan.Props.http_forwarded_for",
    "Motan.Props.http_proxied",
    "Motan.Props.http_header_clash_violated",
    "Motan.Props.http_form_name_injected_violated",
    "Motan.Props.http_no_argument_panics_violated",
    "Motan.Props.http_failure_as_biz_violated",
    "Motan.Props.http_rewrite_misses_arguments_violated",
    "Motan.Props.http_plain_headers"
   ],
   "note": "For all requests, orders of iteration, configurations and upstreams. net/url's escaping and parsing are written out; fasthttp's header canonicalisation, header reading and writing, and query arguments of a GET through a proxy are parameters. The path rewriting is that of C55 and a parameter here."
  },
  {
   "property": "C61",
   "status": "proved",
   "theorems": [
    "Motan.Props.reload_known",
    "Motan.Props.reload_items",
    "Motan.Props.reload_settings",
    "Motan.Props.start_settings",
    "Motan.Props.reload_serves",
    "Motan.Props.reload_keeps",
    "Motan.Props.reload_destroys",
    "Motan.Props.reload_no_leak",
    "Motan.Props.reload_twice",
    "Motan.Props.subscription_stays",
    "Motan.Props.subscription_served",
    "Motan.Props.reload_interrupted",
    "Motan.Props.routed_alive",
    "Motan.Props.stays_of",
    "Motan.Props.ext_path",
    "Motan.Props.reload_zookeeper_violated",
    "Motan.Props.reload_placeholder_violated",
    "Motan.Props.reload_refused_subscription_violated",
    "Motan.Props.reload_lost_subscription_violated",
    "Motan.Props.reload_leak_violated"
   ],
   "note": "routed_alive holds of every interleaving. The other theorems about one reload, but for reload_interrupted, assume that nothing interrupts it. A reference is unchanged if its ext-info string is; stays_of says when building a cluster leaves it so. The violated theorems show the cases outside: zookeeper registries and ${idc} groups are rebuilt at each reload, and a subscription during a reload is lost or leaked."
  },
  {
   "property": "C62",
   "status": "proved",
   "theorems": [
    "Motan.Props.call_end_to_end",
    "Motan.Props.call_keeps_id",
    "Motan.Props.call_accounts",
    "Motan.Props.call_value_ready",
    "Motan.Props.call_failure_codes",
    "Motan.Props.request_arrives",
    "Motan.Props.answer_arrives",
    "Motan.Props.failure_arrives",
    "Motan.Props.fitGroup_facts",
    "Motan.Props.call_v1_answer"
   ],
   "note": "call_end_to_end composes the endpoint, the wire format, the server and the wire format back, for the simple serialization and an endpoint and server that do not relay. gzip and the JSON of exceptions are assumed to be inverted by their readers. One call on a connection: the assignment of answers to calls among many is C33. call_keeps_id and call_accounts hold for motan1 and relaying endpoints as well."
  },
  {
   "property": "C63",
   "status": "proved",
   "theorems": [
    "Motan.Props.relayed_end_to_end",
    "Motan.Props.chain_process",
    "Motan.Props.agent_fills_gaps",
    "Motan.Props.agent_fills_message"
   ],
   "note": "For any list of agents, by induction over it. Simple serialization, gzip and the JSON of exceptions as in C62. Each agent's cluster has one endpoint, tried once: the choice of cluster and endpoint and retries are the subject of other properties. The messages with what the agents add to them, and the body with its compression, must be within a bound L that all allow."
  },
  {
   "property": "C64",
   "status": "proved",
   "theorems": [
    "Motan.Props.weights_always_valid",
    "Motan.Props.weights_settle",
    "Motan.Props.weights_kept",
    "Motan.Props.asked_before_use",
    "Motan.Props.static_weight",
    "Motan.Props.answered_weight",
    "Motan.Props.weight_decimal",
    "Motan.Props.refresh_period_ok",
    "Motan.Props.late_weight_never_used_violated",
    "Motan.Props.late_answer_crashes_violated",
    "Motan.Props.unsupported_for_ever_violated",
    "Motan.Props.refresh_period_panics_violated"
   ],
   "note": "weights_always_valid holds of all schedules, weights_settle of all without a timeout and with distinct endpoints in each list. OnRefresh is called by one goroutine at a time, as the cluster does. The selector is represented by the endpoints and weights it is made from; how it selects is the subject of C23 and C24."
  },
  {
   "property": "C65",
   "status": "proved",
   "theorems": [
    "Motan.Props.services_configured",
    "Motan.Props.references_configured",
    "Motan.Props.http_clients_configured",
    "Motan.Props.entry_converted_iff",
    "Motan.Props.suffix_never_doubles",
    "Motan.Props.pool_parameter",
    "Motan.Props.agent_placeholders",
    "Motan.Props.pool_configuration",
    "Motan.Props.empty_port_violated",
    "Motan.Props.no_group_violated",
    "Motan.Props.service_lost_violated",
    "Motan.Props.subscription_lost_violated",
    "Motan.Props.stale_identity_violated",
    "Motan.Props.pattern_choice_violated",
    "Motan.Props.pattern_hides_violated"
   ],
   "note": "Sections are given as the YAML library gives them, with string keys. services_configured and references_configured assume that generated names (a name with a number, auto_ names) are not names of other entries, and that no list of groups is empty; the violated theorems show what happens otherwise. Regular expressions are a parameter."
  },
  {
   "property": "C66",
   "status": "proved",
   "theorems": [
    "Motan.Props.log_complete",
    "Motan.Props.log_bounded",
    "Motan.Props.oversize_refused",
    "Motan.Props.write_fits",
    "Motan.Props.write_rotates",
    "Motan.Props.cleanup_choice",
    "Motan.Props.same_hour_violated",
    "Motan.Props.default_size_violated",
    "Motan.Props.stat_failure_violated",
    "Motan.Props.odd_name_violated",
    "Motan.Props.local_time_violated"
   ],
   "note": "log_complete assumes that no file moved aside gets a name used before and that stat does not fail for a log file that exists; the violated theorems show what happens otherwise. One process writes the log. The format of times and gzip are parameters. cleanup_choice is about what the goroutine decides when it has read the directory."
  },
  {
   "property": "C67",
   "status": "proved",
   "theorems": [
    "Motan.Props.subscribers_current",
    "Motan.Props.subscribers_catch_up",
    "Motan.Props.unsubscribe_returns",
    "Motan.Props.told_only_written",
    "Motan.Props.unsubscribed_silent",
    "Motan.Props.late_server_violated",
    "Motan.Props.session_gap_violated",
    "Motan.Props.resubscribe_violated",
    "Motan.Props.read_failure_violated",
    "Motan.Props.node_deleted_violated",
    "Motan.Props.discovery_race_violated",
    "Motan.Props.unsubscribe_hangs_violated",
    "Motan.Props.destroy_hangs_violated"
   ],
   "note": "subscribers_current, subscribers_catch_up and unsubscribe_returns assume Spec.Smooth, which lists what has to go well; the violated theorems show what happens otherwise. told_only_written and unsubscribed_silent hold of all histories. Zookeeper's watches (one event per watch, for the first change after the read) are modelled as its documentation and client library describe them."
  },
  {
   "property": "C68",
   "status": "proved",
   "theorems": [
    "Motan.Props.mesh_rpc_served",
    "Motan.Props.agent_rpc_served",
    "Motan.Props.mesh_answer",
    "Motan.Props.mesh_http_host",
    "Motan.Props.mesh_at_most_once",
    "Motan.Props.mesh_self_rejected",
    "Motan.Props.mesh_refresh",
    "Motan.Props.agent_http",
    "Motan.Props.agent_answer",
    "Motan.Props.client_http",
    "Motan.Props.client_http_failure",
    "Motan.Props.client_http_body_violated",
    "Motan.Props.mesh_one_cluster",
    "Motan.Props.mesh_repeated_violated",
    "Motan.Props.mesh_self_violated",
    "Motan.Props.mesh_clash_violated",
    "Motan.Props.mesh_destroy_violated"
   ],
   "note": "mesh_rpc_served and agent_rpc_served assume that no two groups share a key of the cache, mesh_one_cluster that nothing is destroyed, mesh_at_most_once that there are no retries; the violated theorems show what happens otherwise. Locations, calls of clusters, the HTTP client and SplitHostPort are parameters. The operations of the cache are modelled as steps that are not interleaved. client_http_body_violated: FasthttpResponseToMotanResponse keeps the body only for its own type of response, and the mesh client gives it another."
  },
  {
   "property": "C69",
   "status": "proved",
   "theorems": [
    "Motan.Props.ring_current",
    "Motan.Props.ring_home",
    "Motan.Props.ring_agree",
    "Motan.Props.ring_partitions",
    "Motan.Props.ring_settled",
    "Motan.Props.ring_not_stale",
    "Motan.Props.ring_no_panic",
    "Motan.Props.ring_history_violated",
    "Motan.Props.ring_panic_violated"
   ],
   "note": "The hashing library is a parameter; Spec.RingLib, Spec.OrderFree and Spec.Makes say what is assumed of it, theorem by theorem. ring_agree assumes configured partitions and replicas, ring_no_panic that no list has exactly one endpoint; the violated theorems show what happens otherwise. Assignments of fields are taken to be atomic."
  },
  {
   "property": "C70",
   "status": "proved",
   "theorems": [
    "Motan.Props.register_service",
    "Motan.Props.register_nil_violated",
    "Motan.Props.export_served",
    "Motan.Props.export_registered",
    "Motan.Props.export_served_only",
    "Motan.Props.export_registered_only",
    "Motan.Props.export_callable",
    "Motan.Props.export_busy_violated",
    "Motan.Props.export_zero_violated",
    "Motan.Props.export_path_violated",
    "Motan.Props.export_proxyHost_violated",
    "Motan.Props.export_parts_violated"
   ],
   "note": "export_served and export_registered assume Spec.Exportable of the service and Spec.Apart of every other one, export_callable that of all of them; the violated theorems show what happens otherwise. Registering with a registry is taken to record the URL there (see C43 for zookeeper). Filters around the provider and the environment's meta parameters are left out."
  },
  {
   "property": "C71",
   "status": "proved",
   "theorems": [
    "Motan.Props.limit_config_methods",
    "Motan.Props.limit_config_service",
    "Motan.Props.limit_default_capacity",
    "Motan.Props.limit_service_total",
    "Motan.Props.limit_method_total",
    "Motan.Props.limit_service_window",
    "Motan.Props.limit_method_window",
    "Motan.Props.limit_refused",
    "Motan.Props.limit_free",
    "Motan.Props.limit_off",
    "Motan.Props.limit_wait",
    "Motan.Props.limit_wait_config",
    "Motan.Props.wait_wraps",
    "Motan.Props.limit_shared_violated",
    "Motan.Props.limit_timeout_violated",
    "Motan.Props.limit_wait_violated"
   ],
   "note": "The token buckets are those of github.com/juju/ratelimit, whose source is not in the repository: they are modelled from its documented behaviour, and its choice of quantum and interval for a rate is a parameter assumed to be positive (Spec.LimOk). Rates NaN and Inf are left out."
  },
  {
   "property": "C72",
   "status": "proved",
   "theorems": [
    "Motan.Props.observe_set_up",
    "Motan.Props.observe_called",
    "Motan.Props.observe_answer",
    "Motan.Props.observe_passes",
    "Motan.Props.observe_metrics",
    "Motan.Props.observe_log",
    "Motan.Props.observe_served",
    "Motan.Props.observe_spans",
    "Motan.Props.observe_failfast",
    "Motan.Props.observe_panic",
    "Motan.Props.observe_recovered",
    "Motan.Props.observe_breaker_config",
    "Motan.Props.observe_biz_violated",
    "Motan.Props.observe_trace_violated",
    "Motan.Props.observe_unseen_violated",
    "Motan.Props.observe_convert_violated",
    "Motan.Props.observe_crash_violated"
   ],
   "note": "hystrix, rate limiter, tracer and clocks are given from outside; a function a circuit breaker gave up waiting for is run to its end in the model"
  },
  {
   "property": "C73",
   "status": "proved",
   "theorems": [
    "Motan.Props.direct_addresses",
    "Motan.Props.direct_single",
    "Motan.Props.direct_nothing",
    "Motan.Props.direct_dial",
    "Motan.Props.direct_env_entry",
    "Motan.Props.direct_env_none",
    "Motan.Props.direct_env_unset",
    "Motan.Props.direct_client",
    "Motan.Props.direct_ambiguous_violated",
    "Motan.Props.direct_socket_violated",
    "Motan.Props.direct_ipv6_violated",
    "Motan.Props.direct_port_violated",
    "Motan.Props.direct_at_violated"
   ],
   "note": "strings.TrimSpace is modelled for ASCII white space; direct_client assumes that the client's protocol has an endpoint and is not the pseudo protocol rule; for several applying entries only direct_ambiguous_violated is proved"
  },
  {
   "property": "C74",
   "status": "proved",
   "theorems": [
    "Motan.Props.mesh_registered",
    "Motan.Props.mesh_subscribed",
    "Motan.Props.mesh_returns",
    "Motan.Props.mesh_unknown",
    "Motan.Props.mesh_discover",
    "Motan.Props.mesh_client",
    "Motan.Props.mesh_unheard_violated",
    "Motan.Props.mesh_restart_violated",
    "Motan.Props.mesh_shared_violated",
    "Motan.Props.mesh_no_port_violated"
   ],
   "note": "the histories leave out restarts of the agent and lost answers to UnRegister, for which the property is refuted; JSON is assumed to give back the URL that was written; requests of other processes to the same agent are left out"
  },
  {
   "property": "C75",
   "status": "proved",
   "theorems": [
    "Motan.Props.graphite_report",
    "Motan.Props.graphite_readable",
    "Motan.Props.graphite_clean",
    "Motan.Props.graphite_calls",
    "Motan.Props.graphite_totals",
    "Motan.Props.graphite_write",
    "Motan.Props.graphite_write_fails",
    "Motan.Props.graphite_host",
    "Motan.Props.graphite_servers",
    "Motan.Props.graphite_single_name_violated",
    "Motan.Props.graphite_ipv6_violated",
    "Motan.Props.graphite_server_names_violated"
   ],
   "note": "percentiles and means are given from outside; snapshots are read at rest (see C45 for what a snapshot holds); UDP is taken to lose nothing that was written without error"
  },
  {
   "property": "C76",
   "status": "proved",
   "theorems": [
    "Motan.Props.services_follow_the_last_switch",
    "Motan.Props.server_status_follows",
    "Motan.Props.agent_status_follows",
    "Motan.Props.failback_keeps_the_settled",
    "Motan.Props.failback_repairs",
    "Motan.Props.summary_says",
    "Motan.Props.page_is_right",
    "Motan.Props.agent_status_violated",
    "Motan.Props.late_services_wait",
    "Motan.Props.failback_round",
    "Motan.Props.failback_does_nothing_violated"
   ],
   "note": "Registries with a status per service are taken from the interface (the implementations are not in the repository). agent_status_violated: overlapping /200 and /503 calls leave the agent's status against its registries (a finding). late_services_wait: a service registered after the switch is never picked up by the failback. failback_does_nothing_violated (a finding): no registry type of the repository implements the status interface, so with them the failback repeats nothing and /registry/status always reports success."
  },
  {
   "property": "C77",
   "status": "proved",
   "theorems": [
    "Motan.Props.cgi_environment",
    "Motan.Props.cgi_address",
    "Motan.Props.cgi_parameters",
    "Motan.Props.cgi_answer",
    "Motan.Props.cgi_headers",
    "Motan.Props.cgi_status",
    "Motan.Props.cgi_failed",
    "Motan.Props.cgi_panics_exactly",
    "Motan.Props.cgi_no_argument",
    "Motan.Props.cgi_status_lost_violated",
    "Motan.Props.cgi_status_panics_violated"
   ],
   "note": "The FastCGI client is a parameter. Two findings: the status of the program is lost (cgi_status_lost_violated) and a Status line without a space panics (cgi_status_panics_violated). Parameter names must be free of &;=%+ (they are not escaped, see C60)."
  },
  {
   "property": "C78",
   "status": "proved",
   "theorems": [
    "Motan.Props.httpx_settled",
    "Motan.Props.httpx_headers",
    "Motan.Props.httpx_params",
    "Motan.Props.httpx_url",
    "Motan.Props.httpx_status_lost_violated",
    "Motan.Props.door_calls",
    "Motan.Props.door_answers",
    "Motan.Props.door_header_wins_violated",
    "Motan.Props.door_no_value_violated"
   ],
   "note": "The HTTP library is a parameter, as in C60. httpx_params needs argument names free of &;=%+ (not escaped, see C60). Findings: httpx_status_lost_violated, door_header_wins_violated, door_no_value_violated."
  },
  {
   "property": "C79",
   "status": "proved",
   "theorems": [
    "Motan.Props.access_conserved",
    "Motan.Props.access_nothing_lost",
    "Motan.Props.access_order",
    "Motan.Props.access_sync",
    "Motan.Props.access_never_waits",
    "Motan.Props.access_discarded",
    "Motan.Props.access_switch",
    "Motan.Props.access_line_fields",
    "Motan.Props.access_structured_fields",
    "Motan.Props.access_structured_readable",
    "Motan.Props.access_line_readable",
    "Motan.Props.access_file_readable",
    "Motan.Props.access_twice_violated",
    "Motan.Props.access_line_violated"
   ],
   "note": "Unsynchronised accesses are taken as atomic steps; of structured (JSON) lines the fields are modelled, not how zap writes them. Two findings: switching asynchronous logging on twice can lose entries (access_twice_violated); a field with the separator makes lines ambiguous (access_line_violated), so the reading theorems ask for fields without it (the exception may contain it)."
  },
  {
   "property": "C80",
   "status": "proved",
   "theorems": [
    "Motan.Props.params_precedence",
    "Motan.Props.params_mport",
    "Motan.Props.params_log",
    "Motan.Props.params_starts",
    "Motan.Props.agent_url",
    "Motan.Props.manage_port",
    "Motan.Props.manage_range",
    "Motan.Props.manage_plain",
    "Motan.Props.conf_bool",
    "Motan.Props.conf_accessors",
    "Motan.Props.log_levels",
    "Motan.Props.params_mport_violated",
    "Motan.Props.params_logdir_violated",
    "Motan.Props.agent_mport_violated",
    "Motan.Props.agent_application_violated",
    "Motan.Props.conf_bool_violated"
   ],
   "note": "The command line is what the flag package found. Findings: a mport in the environment that is no number hides the configured one; -log_dir=x is ignored; the agent registers with the configured management port even if the command line gives another; without application and group the process has no application although the agent's URL has; the numbers 0 and 1 are not booleans although the comment says so."
  },
  {
   "property": "C81",
   "status": "proved",
   "theorems": [
    "Motan.Props.manage_override",
    "Motan.Props.manage_imported",
    "Motan.Props.manage_unknown",
    "Motan.Props.manage_denied",
    "Motan.Props.manage_permission_violated",
    "Motan.Props.switcher_last",
    "Motan.Props.switcher_kept",
    "Motan.Props.switcher_unknown",
    "Motan.Props.switcher_all",
    "Motan.Props.log_level",
    "Motan.Props.log_level_refused",
    "Motan.Props.log_access",
    "Motan.Props.log_metrics",
    "Motan.Props.log_kept",
    "Motan.Props.pages_last",
    "Motan.Props.pages_start",
    "Motan.Props.meta_last",
    "Motan.Props.meta_deleted",
    "Motan.Props.meta_kept",
    "Motan.Props.meta_all",
    "Motan.Props.filter_last",
    "Motan.Props.filter_refused",
    "Motan.Props.filter_invalid_violated",
    "Motan.Props.filter_later_violated",
    "Motan.Props.form_value"
   ],
   "note": "Handlers are atomic; pages and JSON are not spelled out. Three findings: manage_permission_violated (net/http/pprof registers its patterns first, so its pages bypass the permission check and the switch), filter_invalid_violated (missing return after Verify), filter_later_violated."
  },
  {
   "property": "C82",
   "status": "proved",
   "theorems": [
    "Motan.Props.trace_wants",
    "Motan.Props.trace_fixed",
    "Motan.Props.trace_only_wanted",
    "Motan.Props.trace_taken_once",
    "Motan.Props.trace_bounded",
    "Motan.Props.trace_recorded",
    "Motan.Props.trace_complete",
    "Motan.Props.trace_restores",
    "Motan.Props.trace_in_force",
    "Motan.Props.trace_overlap_violated",
    "Motan.Props.trace_lost_violated",
    "Motan.Props.trace_request_spans",
    "Motan.Props.trace_response_spans",
    "Motan.Props.trace_times"
   ],
   "note": "GetTraceContexts reads and replaces the holder in one step; times are positive integers without overflow. Two findings: trace_overlap_violated, trace_lost_violated."
  },
  {
   "property": "C83",
   "status": "proved",
   "theorems": [
    "Motan.Props.idc_plain",
    "Motan.Props.idc_first",
    "Motan.Props.idc_unlisted",
    "Motan.Props.idc_match",
    "Motan.Props.idc_best",
    "Motan.Props.idc_fallback",
    "Motan.Props.idc_unmatched",
    "Motan.Props.idc_form",
    "Motan.Props.idc_fill",
    "Motan.Props.filled_unique",
    "Motan.Props.mean_trimmed",
    "Motan.Props.idc_registries",
    "Motan.Props.idc_unknown_name",
    "Motan.Props.idc_first_pick",
    "Motan.Props.groups_cache",
    "Motan.Props.idc_zero_violated",
    "Motan.Props.idc_second_registry_violated"
   ],
   "note": "A registry's answers do not change while one group is picked; compiling a regular expression, changes of case and round-trip times are parameters; durations do not overflow; group names are not empty. Two findings: idc_zero_violated (the test minRtt == 0 for the first figure also holds for a measured zero), idc_second_registry_violated (the group picked with the first registry is written into the cluster's URL, so later registries see no placeholder)."
  },
  {
   "property": "C84",
   "status": "proved",
   "theorems": [
    "Motan.Props.ping_sent",
    "Motan.Props.ping_rtts",
    "Motan.Props.ping_result",
    "Motan.Props.ping_broken",
    "Motan.Props.ping_no_panic",
    "Motan.Props.ping_can_return",
    "Motan.Props.ping_stuck",
    "Motan.Props.ping_hang_violated",
    "Motan.Props.ping_panic_violated",
    "Motan.Props.ping_foreign_violated",
    "Motan.Props.ping_spoilt_violated"
   ],
   "note": "One call of Ping per pinger, after the socket has been opened; what icmp.ParseMessage makes of a packet is a parameter; sending is one step. Four findings: ping_hang_violated, ping_panic_violated, ping_foreign_violated, ping_spoilt_violated."
  },
  {
   "property": "C85",
   "status": "proved",
   "theorems": [
    "Motan.Props.filter_copies",
    "Motan.Props.filter_own_room",
    "Motan.Props.filter_replaced",
    "Motan.Props.filter_log_never_waits",
    "Motan.Props.filter_offers_all",
    "Motan.Props.filter_bounded",
    "Motan.Props.filter_format",
    "Motan.Props.filter_empty_format",
    "Motan.Props.filter_print",
    "Motan.Props.filter_levels"
   ],
   "note": "A filter's GetChannel gives the same channel every time; the look at the number of filters and the send are one step; the caller recorded in an item is left out; fmt and encoding/json are parameters. The notices about dropped items are log calls of the schedule."
  },
  {
   "property": "C86",
   "status": "proved",
   "theorems": [
    "Motan.Props.agent_command_repeated",
    "Motan.Props.agent_command_subscribed",
    "Motan.Props.agent_command_told",
    "Motan.Props.agent_command_history",
    "Motan.Props.agent_command_handled",
    "Motan.Props.agent_command_told_iff",
    "Motan.Props.agent_command_again_violated",
    "Motan.Props.agent_command_lost_violated",
    "Motan.Props.agent_command_stale_violated"
   ],
   "note": "Notifications of one listener one after another; handlers without a state of their own; the clusters do not change meanwhile. Three findings: agent_command_again_violated, agent_command_lost_violated (a panic is recovered and the command stored as current), agent_command_stale_violated (registerAgent reads the first command after subscribing and delivers it later)."
  },
  {
   "property": "C87",
   "status": "proved",
   "theorems": [
    "Motan.Props.startup_file",
    "Motan.Props.startup_single",
    "Motan.Props.startup_directory",
    "Motan.Props.startup_names",
    "Motan.Props.startup_refused",
    "Motan.Props.startup_given",
    "Motan.Props.hot_reload_reads",
    "Motan.Props.hot_reload_unreadable_violated",
    "Motan.Props.hot_reload_given_violated"
   ],
   "note": "What a file or directory gives as configuration and what its sections become are parameters here (C51, C52, C65); of a context the references and registries are kept. Two findings: hot_reload_unreadable_violated (ServeHTTP does not look at ctx.Config after Initialize), hot_reload_given_violated (only ConfigFile is handed on)."
  },
  {
   "property": "C88",
   "status": "proved",
   "theorems": [
    "Motan.Props.client_request",
    "Motan.Props.client_call_error",
    "Motan.Props.async_once",
    "Motan.Props.async_kept",
    "Motan.Props.async_channel",
    "Motan.Props.async_go_never_waits",
    "Motan.Props.async_send",
    "Motan.Props.async_drains",
    "Motan.Props.async_unbuffered_violated"
   ],
   "note": "What the cluster answers is a parameter of the step (C62, C72); the reply object and the arguments are left out. One finding: async_unbuffered_violated (BaseGo replaces a done channel without buffer)."
  },
  {
   "property": "C89",
   "status": "proved",
   "theorems": [
    "Motan.Props.snapshot_files",
    "Motan.Props.snapshot_keys",
    "Motan.Props.snapshot_service",
    "Motan.Props.snapshot_collision_violated"
   ],
   "note": "Keys without slash; the JSON encoding is a parameter; a flush is one step (it holds the lock throughout); a failed write may leave anything. One finding: snapshot_collision_violated (GetNodeKey joins group and path with an underscore)."
  },
  {
   "property": "C90",
   "status": "proved",
   "theorems": [
    "Motan.Props.meta_fresh",
    "Motan.Props.meta_addresses",
    "Motan.Props.meta_not_asked",
    "Motan.Props.meta_marked",
    "Motan.Props.meta_asks_again",
    "Motan.Props.meta_supports",
    "Motan.Props.meta_asked_only",
    "Motan.Props.meta_answered",
    "Motan.Props.meta_server_end",
    "Motan.Props.env_meta",
    "Motan.Props.env_value_cut_violated",
    "Motan.Props.meta_expire",
    "Motan.Props.meta_expire_number_violated",
    "Motan.Props.meta_merged",
    "Motan.Props.meta_spread_violated"
   ],
   "note": "go-cache is modelled by its documented expiry; Breeze is a parameter; the answer of the endpoint is a parameter of the step. meta.Initialize is called by the agent only (agent.go:208), so a server started without an agent has no environment metadata. Findings: meta_spread_violated (marks go by host:port), env_value_cut_violated (strings.Split without a limit; an entry without the sign panics), meta_expire_number_violated (GetStringWithDefault of a YAML number gives the default)."
  },
  {
   "property": "C91",
   "status": "proved",
   "theorems": [
    "Motan.Props.endpoint_settings",
    "Motan.Props.endpoint_dials",
    "Motan.Props.connecting_goes_on",
    "Motan.Props.zero_interval_violated",
    "Motan.Props.reverse_proxy_url",
    "Motan.Props.reverse_proxy_of_registered",
    "Motan.Props.reverse_proxy_not_disabled",
    "Motan.Props.reverse_proxy_call",
    "Motan.Props.reverse_proxy_set_up",
    "Motan.Props.reverse_proxy_three_parts_violated",
    "Motan.Props.reverse_proxy_destroy_violated",
    "Motan.Props.mesh_client_settings",
    "Motan.Props.mesh_timeout_violated",
    "Motan.Props.mesh_address"
   ],
   "note": "The loop around the ticker is given by the outcomes of its attempts (C32 has the concurrent machine); the endpoint's own answer is C62. Findings: zero_interval_violated (time.NewTicker panics and the panic is recovered), reverse_proxy_three_parts_violated (ParseExportInfo falls back to port 9982, the agent's own), reverse_proxy_destroy_violated (nil endpoint), mesh_timeout_violated (0 ms is not positive, so the default of the endpoint applies)."
  },
  {
   "property": "C92",
   "status": "proved",
   "theorems": [
    "Motan.Props.operations_finish",
    "Motan.Props.operations_go_on",
    "Motan.Props.operations_end",
    "Motan.Props.destroy_command_violated",
    "Motan.Props.group_change_violated",
    "Motan.Props.reload_command_violated",
    "Motan.Props.listener_watch_violated"
   ],
   "note": "The code of each operation is reduced to what it locks and unlocks, in order, with every branch that decides about it a parameter of the operation. sync.RWMutex and sync.Mutex are modelled by their documented rules, with a writer that waits keeping new readers out; the handing over of a path to its watcher (an unbuffered channel) is a lock that the watcher holds while it handles an event. Zookeeper and network calls return. Findings: the four _violated theorems, each for any other operations running beside them."
  },
  {
   "property": "C93",
   "status": "proved",
   "theorems": [
    "Motan.Props.nginx_parsed",
    "Motan.Props.nginx_translated",
    "Motan.Props.nginx_read_again",
    "Motan.Props.nginx_served",
    "Motan.Props.nginx_rewrite",
    "Motan.Props.nginx_if_rewrite",
    "Motan.Props.nginx_unbalanced",
    "Motan.Props.nginx_no_panic",
    "Motan.Props.nginx_unfinished_violated",
    "Motan.Props.nginx_unclosed_quote_violated",
    "Motan.Props.nginx_single_quotes_violated",
    "Motan.Props.nginx_leading_variable_violated",
    "Motan.Props.nginx_https_violated",
    "Motan.Props.nginx_nested_violated",
    "Motan.Props.nginx_condition_violated",
    "Motan.Props.nginx_space_violated",
    "Motan.Props.nginx_modifier_violated"
   ],
   "note": "Properly written is Spec.ngxGood: as nginx reads it, but without single quotes and without a variable in braces at the beginning of a word. YAML is taken to be read as it was written (yaml.v2 is not modelled). Which location nginx picks is Spec.LocPicks, the rule of C44. Findings: an unfinished last directive and everything after an open quote are dropped without an error; single quotes do not quote; a word that begins with a braced variable is cut; an https server gets a name with a slash; nested locations are left out; an if on anything but the address of the request is left out with what it guards; a rule whose expression contains a space is ignored by agents; ^~ makes the tool panic. Several rewrites of one location: nginx applies one after another, an agent only the first that applies (C55)."
  },
  {
   "property": "C94",
   "status": "proved",
   "theorems": [
    "Motan.Props.synchronized",
    "Motan.Props.synced_no_race",
    "Motan.Props.sections",
    "Motan.Props.string_map_synced",
    "Motan.Props.string_map_sections",
    "Motan.Props.attachments_synced",
    "Motan.Props.cow_map_synced",
    "Motan.Props.switchers_synced",
    "Motan.Props.switchers_sections",
    "Motan.Props.sampler_table_synced",
    "Motan.Props.sampler_table_sections",
    "Motan.Props.backup_synced",
    "Motan.Props.backup_sections",
    "Motan.Props.weighted_lb_synced",
    "Motan.Props.weighted_lb_sections",
    "Motan.Props.plain_lb_synced",
    "Motan.Props.http_cluster_synced",
    "Motan.Props.http_cluster_sections",
    "Motan.Props.command_synced",
    "Motan.Props.command_sections",
    "Motan.Props.cluster_synced",
    "Motan.Props.cluster_sections",
    "Motan.Props.metrics_synced",
    "Motan.Props.metrics_sections",
    "Motan.Props.node_snapshot_synced",
    "Motan.Props.node_snapshot_sections",
    "Motan.Props.mesh_registry_synced",
    "Motan.Props.mesh_registry_sections",
    "Motan.Props.dynamic_synced",
    "Motan.Props.dynamic_sections",
    "Motan.Props.exporter_synced",
    "Motan.Props.exporter_sections",
    "Motan.Props.connection_synced",
    "Motan.Props.connection_sections",
    "Motan.Props.core_synced",
    "Motan.Props.core_sections",
    "Motan.Props.trace_calls_synced",
    "Motan.Props.switcher_value_violated",
    "Motan.Props.switcher_listeners_violated",
    "Motan.Props.trace_spans_violated",
    "Motan.Props.trace_holder_violated",
    "Motan.Props.log_filters_violated",
    "Motan.Props.dynamic_weight_violated",
    "Motan.Props.support_dynamic_violated",
    "Motan.Props.lb_endpoints_violated",
    "Motan.Props.lb_refers_violated",
    "Motan.Props.lb_weight_violated",
    "Motan.Props.holder_initialized_violated",
    "Motan.Props.command_own_urls_violated",
    "Motan.Props.command_tc_violated",
    "Motan.Props.command_info_violated",
    "Motan.Props.command_available_violated",
    "Motan.Props.old_switchers_violated",
    "Motan.Props.cluster_refers_violated",
    "Motan.Props.cluster_closed_violated",
    "Motan.Props.report_writers_violated",
    "Motan.Props.snapshot_table_violated",
    "Motan.Props.snapshot_conf_violated",
    "Motan.Props.zk_available_violated",
    "Motan.Props.zk_registered_violated",
    "Motan.Props.zk_subscribed_violated",
    "Motan.Props.zk_subscribed_commands_violated",
    "Motan.Props.zk_watch_marks_violated",
    "Motan.Props.zk_url_params_violated",
    "Motan.Props.exporter_available_violated",
    "Motan.Props.exporter_providers_violated",
    "Motan.Props.connection_shutdown_violated",
    "Motan.Props.pool_closed_violated",
    "Motan.Props.endpoint_channels_violated",
    "Motan.Props.heartbeat_version_violated",
    "Motan.Props.record_keys_violated",
    "Motan.Props.attachment_race_violated",
    "Motan.Props.status_race_violated"
   ],
   "note": "Locks and accesses of each object are transcribed with conditions left open; a verified check (kept, guarded) is sound for all executions of any number of goroutines, and the kernel evaluates it on each object. The _violated theorems exhibit executions that race. Ordering by channels and go statements is not modelled."
  },
  {
   "property": "C95",
   "status": "proved",
   "theorems": [
    "Motan.Props.ext_lookup",
    "Motan.Props.asked_total",
    "Motan.Props.asked_provider_total",
    "Motan.Props.serialization_lookup",
    "Motan.Props.registry_shared",
    "Motan.Props.registry_apart",
    "Motan.Props.registry_made",
    "Motan.Props.registry_missing",
    "Motan.Props.registries_distinct",
    "Motan.Props.default_tables",
    "Motan.Props.serialization_numbers",
    "Motan.Props.backup_request_metrics",
    "Motan.Props.registry_parameters_ignored_violated",
    "Motan.Props.serialization_number_shadowed_violated",
    "Motan.Props.blank_names_violated"
   ],
   "note": "Constructors are names; what they construct is the subject of the other models. Findings: parameters of a registry's URL are not part of its identity, so that of two registries configured at one address only the first one's parameters count; a serialization registered under a name that is a number takes the place of that number; blanks around the name of a strategy or load balance are not ignored although those around filters are."
  },
  {
   "property": "C96",
   "status": "proved",
   "theorems": [
    "Motan.Props.status_services",
    "Motan.Props.status_methods",
    "Motan.Props.status_total",
    "Motan.Props.status_calls",
    "Motan.Props.status_snapshot_exact",
    "Motan.Props.status_exported_twice_violated",
    "Motan.Props.status_client_calls_violated",
    "Motan.Props.status_first_period_violated"
   ],
   "note": "The JSON text and the status code are not modelled. That a snapshot shows what went into it needs that nobody read it while a worker was still at it (C45). Findings: a service exported under two protocols is listed and counted twice; calls made as a client of a service of the same group and name are counted as served; in the first period nothing is listed."
  },
  {
   "property": "C97",
   "status": "proved",
   "theorems": [
    "Motan.Props.hourly_never_early",
    "Motan.Props.hourly_prompt",
    "Motan.Props.hourly_each",
    "Motan.Props.hourly_once",
    "Motan.Props.hourly_clock_set_violated",
    "Motan.Props.hourly_exact_violated"
   ],
   "note": "A fixed offset of the local time (no daylight saving changes); Rotate is modelled in C66 and taken not to panic here; the end of Rotate and the reading of the clock after it are one step. Finding: the sleep after an early wake-up is computed from the time read before the first sleep (line 506), so a clock set back by a millisecond delays the rotation by up to an hour."
  },
  {
   "property": "C98",
   "status": "proved",
   "theorems": [
    "Motan.Props.start_waits",
    "Motan.Props.start_serves",
    "Motan.Props.start_told",
    "Motan.Props.reload_agree",
    "Motan.Props.start_page",
    "Motan.Props.cluster_key_iff",
    "Motan.Props.start_shared_key_violated",
    "Motan.Props.cluster_key_underscore_violated",
    "Motan.Props.start_reload_violated",
    "Motan.Props.start_leak_violated",
    "Motan.Props.start_wrong_group_violated",
    "Motan.Props.start_order_violated"
   ],
   "note": "Building a cluster up to its entry in the table of requests is one step; the two maps of a reload are swapped in one step; that a cluster is told once after a reload is not claimed. The effects of building on the URL are those of C61."
  },
  {
   "property": "C99",
   "status": "proved",
   "theorems": [
    "Motan.Props.request_once",
    "Motan.Props.none_dropped",
    "Motan.Props.all_handled",
    "Motan.Props.workers_bounded",
    "Motan.Props.pool_size",
    "Motan.Props.taken_up",
    "Motan.Props.dropped_violated"
   ],
   "note": "The library of the pool (ants 2.9.0) is not in the repository: Submit is modelled by its documented behaviour (worker free: runs; too many waiting: error; else waits). That a waiting caller is woken when a worker becomes free is the library's promise and not modelled. motan1 requests get a goroutine each and are outside."
  }
 ]
}