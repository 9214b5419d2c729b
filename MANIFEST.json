{
 "claims": [
  {
   "property": "C01",
   "status": "proved",
   "theorems": [
    "Verif.Msg.C01_wire_round_trip"
   ],
   "note": "round trip for every clean field and payload"
  },
  {
   "property": "C02",
   "status": "partial",
   "theorems": [
    "Verif.Msg.C02_accepts_iff_wire_form_partial",
    "Verif.Msg.C02_reported_fields",
    "Verif.Msg.C02_wire_form_unique",
    "Verif.Msg.C02_nonempty_address_violated"
   ],
   "note": "acceptance iff wire grammar, reported fields, unambiguity proved; non-empty address is false of the code"
  },
  {
   "property": "C03",
   "status": "partial",
   "theorems": [
    "Verif.Msg.C03_valid_string_matches_fields",
    "Verif.Msg.C03_parse_back_partial",
    "Verif.Msg.C03_parse_back_violated",
    "Verif.Msg.C03_attribute_delimiter_violated"
   ],
   "note": "serialisation part proved for all histories; parse-back holds when no call passes a delimiter, false otherwise"
  },
  {
   "property": "C04",
   "status": "partial",
   "theorems": [
    "Verif.Msg.C04_two_part_round_trip_partial",
    "Verif.Msg.C04_one_byte_violated"
   ],
   "note": "holds for payloads of at least two bytes, false for every one-byte payload"
  },
  {
   "property": "C05",
   "status": "proved",
   "theorems": [
    "Verif.Msg.C05_split_inverse_of_join",
    "Verif.Msg.C05_split_limited",
    "Verif.Msg.C05_split_zero_limit_ub",
    "Verif.Msg.C05_split_limited_append"
   ],
   "note": "unique inverse of join, limited variant, and the undefined behaviour at limit zero"
  },
  {
   "property": "C06",
   "status": "partial",
   "theorems": [
    "Verif.Sentinel.C06_round_trip_any_chunking_partial",
    "Verif.Sentinel.C06_leading_marker_violated",
    "Verif.Sentinel.C06_inner_terminator_violated"
   ],
   "note": "proved for all framable payload sequences and all chunkings; payloads beginning with #@ or containing the terminator are lost"
  },
  {
   "property": "C07",
   "status": "proved",
   "theorems": [
    "Verif.Sentinel.C07_resynchronises"
   ],
   "note": ""
  },
  {
   "property": "C08",
   "status": "proved",
   "theorems": [
    "Verif.Sentinel.C08_delivered_payload_is_checked",
    "Verif.Sentinel.C08_every_history",
    "Verif.Sentinel.C08_altered_byte_not_delivered",
    "Verif.Sentinel.C08_swapped_bytes_delivered"
   ],
   "note": "one call, every history, altered byte (altered payload assumed sentinel free); reordering is not detected"
  },
  {
   "property": "C09",
   "status": "partial",
   "theorems": [
    "Verif.Sentinel.C09_empty_number_violated",
    "Verif.Sentinel.C09_large_sum_violated",
    "Verif.Sentinel.C09_throws_only_on_bad_number_partial"
   ],
   "note": "false of the code (empty numbers, sums of 2^31 and more); exact cause of exceptions proved"
  },
  {
   "property": "C10",
   "status": "partial",
   "theorems": [
    "Verif.Sentinel.C10_drain_terminates",
    "Verif.Sentinel.C10_complete_frame_left_violated",
    "Verif.Sentinel.C10_drain_delivers_all_partial"
   ],
   "note": "termination proved; completeness false behind a corrupted frame, proved for intact frames"
  },
  {
   "property": "C11",
   "status": "partial",
   "theorems": [
    "Verif.Net.C11_message_ids_distinct",
    "Verif.Net.C11_client_ids_distinct_partial",
    "Verif.Net.C11_client_id_violated",
    "Verif.Net.C11_wrap_violated"
   ],
   "note": "Message ids never repeat. Client ids: distinct unless a client is constructed directly after an id was reserved (then both get the same id, violated), or the 32 bit counter wraps."
  },
  {
   "property": "C12",
   "status": "partial",
   "theorems": [
    "Verif.Net.C12_prefix_partial",
    "Verif.Net.C12_complete_partial",
    "Verif.Net.C12_delimiter_violated"
   ],
   "note": "Exactly the subscribed, foreign messages, in order, for all histories of messages with clean fields; messages in the name of service 1 are dropped by the hub and delimiters in fields garble messages in single-part mode (violated)."
  },
  {
   "property": "C13",
   "status": "partial",
   "theorems": [
    "Verif.Net.C13_never_returns_violated",
    "Verif.Net.C13_returns_partial"
   ],
   "note": "Violated for every non-empty set: the loop never removes anything."
  },
  {
   "property": "C14",
   "status": "partial",
   "theorems": [
    "Verif.Net.C14_delivered",
    "Verif.Net.C14_only_addressee_partial",
    "Verif.Net.C14_prefix_violated"
   ],
   "note": "Delivered to the addressee for all ids; not delivered to others unless the id is an initial part of the addressed id (then delivered too, violated for all such pairs)."
  },
  {
   "property": "C15",
   "status": "partial",
   "theorems": [
    "Verif.Bridge.C15_export",
    "Verif.Bridge.C15_import",
    "Verif.Bridge.C15_invalid_dropped_partial",
    "Verif.Bridge.C15_impact",
    "Verif.Bridge.C15_tcp_invalid_violated"
   ],
   "note": "Export and import rules hold for all bridges and messages; invalid messages are dropped except by the TCP bridge with ConsiderSelfGenerated, which dereferences a null pointer."
  },
  {
   "property": "C16",
   "status": "partial",
   "theorems": [
    "Verif.Bridge.C16_finitely_many_crossings_partial",
    "Verif.Bridge.C16_tcp_violated",
    "Verif.Bridge.C16_ring_violated",
    "Verif.Bridge.C16_same_entity_violated"
   ],
   "note": "Bounded for networks where each bridge either replaces the source and is the only one of its entity or keeps the source behind a source check; false for TCP bridges keeping the source, rings with ConsiderSelfGenerated and bridges connected to the own entity."
  },
  {
   "property": "C17",
   "status": "partial",
   "theorems": [
    "Verif.Bridge.C17_each_matching_peer_once_partial",
    "Verif.Bridge.C17_missing_id_violated",
    "Verif.Bridge.C17_large_id_violated"
   ],
   "note": "Holds for all histories of peers with decimal entity numbers below 2^31; other headers end the event thread."
  },
  {
   "property": "C18",
   "status": "partial",
   "theorems": [
    "Verif.Net.C18_lmcp_loop",
    "Verif.Net.C18_serialized_loop_partial",
    "Verif.Net.C18_exception_violated",
    "Verif.Net.C18_foreign_kill_violated",
    "Verif.Net.C18_given_id_service",
    "Verif.Net.C18_given_id_bridge_violated"
   ],
   "note": "Holds for the loop of deserialised messages; the loop of serialised messages dies on exceptions and drops foreign KillService messages; bridges with given ids compare with the old id (violated)."
  },
  {
   "property": "C19",
   "status": "partial",
   "theorems": [
    "Verif.Net.C19_never_aborts_violated",
    "Verif.Net.C19_waits_forever_violated",
    "Verif.Net.C19_warns_partial"
   ],
   "note": "Warnings as stated; the loop never aborts when the warn limit is not above the abort limit, as by default (violated)."
  },
  {
   "property": "C20",
   "status": "partial",
   "theorems": [
    "Verif.Manager.C20_unique_ids",
    "Verif.Manager.C20_tracked_until_gone_partial",
    "Verif.Manager.C20_only_created",
    "Verif.Manager.C20_create_result",
    "Verif.Manager.C20_kill_all",
    "Verif.Manager.C20_collision_violated",
    "Verif.Manager.C20_wide_id_violated",
    "Verif.Manager.C20_kill_manager_violated",
    "Verif.Manager.C20_ends_only_when_asked"
   ],
   "note": "Unique ids, tracking until ended and cleaned up, exact set of kills for -1 hold for all histories. Missing: a successful request implies a tracked service only when its id (mod 2^32) is free; witnesses: an id drawn for a task is given to another new service, ids beyond 32 bits, KillService to the manager's own id stops no service."
  },
  {
   "property": "C21",
   "status": "partial",
   "theorems": [
    "Verif.Validator.C21_one_distinct_in_flight",
    "Verif.Validator.C21_one_in_flight_partial",
    "Verif.Validator.C21_arrival_order",
    "Verif.Validator.C21_published_twice_violated",
    "Verif.Validator.C21_no_second_timeout_violated"
   ],
   "note": "At most one request in flight for all histories up to re-publication of the same request; strict form when no timer handler publishes; publication order for all histories. Negations proved: a request published by a timer handler is published again and has no timeout."
  },
  {
   "property": "C22",
   "status": "partial",
   "theorems": [
    "Verif.Validator.C22_answers_match_requests_partial",
    "Verif.Validator.C22_exactly_once_partial",
    "Verif.Validator.C22_plan_belongs_to_request",
    "Verif.Validator.C22_response_answered_partial",
    "Verif.Validator.C22_task_timeout_violated",
    "Verif.Validator.C22_answered_twice_violated",
    "Verif.Validator.C22_id_collision_violated"
   ],
   "note": "Exact counting of answers per kind for histories with distinct ids and without errors of the task timer; origin of every planned answer for all histories. Negations proved for task timeouts and colliding ids."
  },
  {
   "property": "C23",
   "status": "partial",
   "theorems": [
    "Verif.Validator.C23_admission_sound",
    "Verif.Validator.C23_removed_task_violated"
   ],
   "note": "Sound at the time of admission for all histories; at the time of publication a task may have been removed (negation proved)."
  },
  {
   "property": "C24",
   "status": "partial",
   "theorems": [
    "Verif.Manager.C24_old_killed_before_new",
    "Verif.Manager.C24_kills_created",
    "Verif.Manager.C24_fresh_ids_partial",
    "Verif.Manager.C24_task_partial",
    "Verif.Manager.C24_remove_partial",
    "Verif.Manager.C24_silent",
    "Verif.Manager.C24_two_alive_violated"
   ],
   "note": "Order, counts and exact replies hold; the last two and the freshness of ids need that the 32 bit counter does not wrap. Missing: at most one thread alive per task - kill is asynchronous (witness with both managers)."
  },
  {
   "property": "C25",
   "status": "partial",
   "theorems": [
    "Verif.Routes.C25_every_route_once",
    "Verif.Routes.C25_ids_distinct",
    "Verif.Routes.C25_asked_partial",
    "Verif.Routes.C25_repeated_violated"
   ],
   "note": "For all histories without fast planning: each time plan requests are sent they contain exactly the needed routes, all ids are distinct over the whole history, and requests are asked for when their options are known. The claim as stated is false: routes are asked for again, with new ids, whenever another request or options message arrives. Options must be named properly (distinct ids, own task id, task id not 0)."
  },
  {
   "property": "C26",
   "status": "partial",
   "theorems": [
    "Verif.Routes.C26_matrix_partial",
    "Verif.Routes.C26_once_partial",
    "Verif.Routes.C26_no_delay_partial",
    "Verif.Routes.C26_options_lost_violated",
    "Verif.Routes.C26_no_routes_violated",
    "Verif.Routes.C26_stale_options_violated",
    "Verif.Routes.C26_clash_violated",
    "Verif.Routes.C26_fast_violated"
   ],
   "note": "Proved without fast planning; promptness if no route request uses route ids of the aggregator. False as stated: options of other requests are dropped when a matrix is sent, a request without routes is never answered, options are not tied to requests, route ids may clash, and with fast planning the request is erased during the loop over the requests."
  },
  {
   "property": "C27",
   "status": "partial",
   "theorems": [
    "Verif.Routes.C27_answer_partial",
    "Verif.Routes.C27_asks",
    "Verif.Routes.C27_exact_partial",
    "Verif.Routes.C27_once_partial",
    "Verif.Routes.C27_no_delay_partial",
    "Verif.Routes.C27_same_id_violated",
    "Verif.Routes.C27_no_vehicles_violated",
    "Verif.Routes.C27_fast_violated"
   ],
   "note": "Proved without fast planning and for route requests with different ids (answers are exact and prompt). False as stated: requests with the same id are merged, a request without vehicles is never answered, and with fast planning the answer contains no routes."
  },
  {
   "property": "C28",
   "status": "proved",
   "theorems": [
    "Verif.Algebra.C28_language",
    "Verif.Algebra.C28_complete_orders",
    "Verif.Algebra.C28_empty_operator_violated",
    "Verif.Algebra.C28_repeated_objective_violated"
   ],
   "note": "Words of the expression are an independent inductive specification. Two extra theorems show that the restrictions (distinct objectives, no empty operator) are needed."
  },
  {
   "property": "C29",
   "status": "proved",
   "theorems": [
    "Verif.Algebra.C29_offers_sound",
    "Verif.Algebra.C29_run_bounded"
   ],
   "note": "For every expression, also with repeated objectives or empty operators."
  },
  {
   "property": "C30",
   "status": "proved",
   "theorems": [
    "Verif.Algebra.C30_parse_written",
    "Verif.Algebra.C30_text_unambiguous"
   ],
   "note": "Every way of writing a tree (any blanks) parses back to it."
  },
  {
   "property": "C31",
   "status": "partial",
   "theorems": [
    "Verif.Algebra.C31_parser_safe_violated",
    "Verif.Algebra.C31_written_exact_partial",
    "Verif.Algebra.C31_no_exception_partial",
    "Verif.Algebra.C31_only_known"
   ],
   "note": "False of the code: unknown objective below an operator dereferences null, a lone operator throws. Proved: exact outcome on every well-written text, no exception when operators are followed by a parenthesis, only declared objectives in any result."
  },
  {
   "property": "C32",
   "status": "partial",
   "theorems": [
    "Verif.Assign.C32_roundtrip_partial",
    "Verif.Assign.C32_distinct_partial",
    "Verif.Assign.C32_reencode",
    "Verif.Assign.C32_violated"
   ],
   "note": "Task and option ids are recovered from the combined id for 0 <= option < 100000 and no overflow; outside that range distinct pairs collide (C32_violated)."
  },
  {
   "property": "C33",
   "status": "partial",
   "theorems": [
    "Verif.Assign.C33_composition_partial",
    "Verif.Assign.C33_composition_reported",
    "Verif.Assign.C33_malformed_composition_violated",
    "Verif.Assign.C33_single_option_refused",
    "Verif.Assign.C33_relationship_partial",
    "Verif.Assign.C33_malformed_relationship_violated",
    "Verif.Assign.C33_all_tasks_in_parallel",
    "Verif.Assign.C33_relationships_respected"
   ],
   "note": "Well-formed texts are rewritten exactly and undefined references reported; malformed texts are silently mangled (violated theorems)."
  },
  {
   "property": "C34",
   "status": "partial",
   "theorems": [
    "Verif.Assign.C34_feasible_partial",
    "Verif.Assign.C34_violated",
    "Verif.Assign.C34_open_option_cost_ignored"
   ],
   "note": "Published summaries are feasible when the cost matrix has legs only to options the vehicle is eligible for; the service does not check this itself."
  },
  {
   "property": "C35",
   "status": "partial",
   "theorems": [
    "Verif.Assign.C35_optimal_partial",
    "Verif.Assign.C35_violated"
   ],
   "note": "Optimal for non-negative costs and matrices restricted to eligible vehicles; negative costs break pruning (C35_violated)."
  },
  {
   "property": "C36",
   "status": "proved",
   "theorems": [
    "Verif.Assign.C36_best_visited",
    "Verif.Assign.C36_visited_feasible",
    "Verif.Assign.C36_limited_search_finds",
    "Verif.Assign.C36_limited_search_finds_partial",
    "Verif.Assign.C36_more_nodes_never_worse"
   ],
   "note": "For every limit and every request: what is published is the least of the complete assignments visited (C36_best_visited), these are feasible as the cost matrix states it (C36_visited_feasible), there is one whenever a feasible schedule exists whose times stay below 2^63 - 1 (C36_limited_search_finds), and more nodes never make it worse.  Times are unbounded integers in the model."
  },
  {
   "property": "C37",
   "status": "partial",
   "theorems": [
    "Verif.Assign.C37_minmax_partial",
    "Verif.Assign.C37_setting_ignored",
    "Verif.Assign.C37_cumulative_violated"
   ],
   "note": "MINMAX is honoured; the setting is never read, CUMULATIVE is not honoured."
  },
  {
   "property": "C38",
   "status": "proved",
   "theorems": [
    "Verif.Assign.C38_one_calculation_per_batch",
    "Verif.Assign.C38_once_when_last_arrives",
    "Verif.Assign.C38_empty_request_ignored"
   ],
   "note": "All histories of any number of requests."
  },
  {
   "property": "C39",
   "status": "partial",
   "theorems": [
    "Verif.PlanBuilder.C39_begins",
    "Verif.PlanBuilder.C39_defined",
    "Verif.PlanBuilder.C39_order",
    "Verif.PlanBuilder.C39_once",
    "Verif.PlanBuilder.C39_plan_partial",
    "Verif.PlanBuilder.C39_published_partial",
    "Verif.PlanBuilder.C39_stalls_violated",
    "Verif.PlanBuilder.C39_empty_violated",
    "Verif.PlanBuilder.C39_stale_violated",
    "Verif.PlanBuilder.C39_status"
   ],
   "note": "Order of requests and at most one plan for all histories; content of the plan and its being sent when the tasks answer in turn and their vehicles take part. Violated: stalls silently for a vehicle outside the request, undefined behaviour for an empty plan with loiters, uses responses of an earlier assignment of the request; repeated responses see C40."
  },
  {
   "property": "C40",
   "status": "partial",
   "theorems": [
    "Verif.PlanBuilder.C40_unknown",
    "Verif.PlanBuilder.C40_after_partial",
    "Verif.PlanBuilder.C40_repeat_violated"
   ],
   "note": "Unknown ids are ignored always, and all responses once the plan is sent. Violated for repeated responses before that."
  },
  {
   "property": "C41",
   "status": "partial",
   "theorems": [
    "Verif.Task.C41_chain",
    "Verif.Task.C41_numbers",
    "Verif.Task.C41_ends_partial",
    "Verif.Task.C41_violated"
   ],
   "note": "The numbering holds for all histories (hypothesis: the override of the task keeps the numbering). The end of the list is as claimed if every route ends in two waypoints apart, the last leading nowhere; with two co-located last waypoints it fails."
  },
  {
   "property": "C42",
   "status": "partial",
   "theorems": [
    "Verif.Waypoint.C42_segments_partial",
    "Verif.Waypoint.C42_exact_partial",
    "Verif.Waypoint.C42_decorations_partial",
    "Verif.Waypoint.C42_covers_partial",
    "Verif.Waypoint.C42_no_waypoint_lost_partial",
    "Verif.Waypoint.C42_overlap_configured",
    "Verif.Waypoint.C42_overlap_violated",
    "Verif.Waypoint.C42_lost_waypoint_violated",
    "Verif.Waypoint.C42_negative_number_violated"
   ],
   "note": "Proved for settings with overlap+2 <= waypoints to serve (cover) and 2*overlap+1 <= waypoints to serve (exact closed form); false outside, witnesses given."
  },
  {
   "property": "C43",
   "status": "partial",
   "theorems": [
    "Verif.Waypoint.C43_served_partial",
    "Verif.Waypoint.C43_in_order_partial",
    "Verif.Waypoint.C43_sent_once",
    "Verif.Waypoint.C43_stuck_violated"
   ],
   "note": "Proved for overlap >= 2 and overlap+3 <= waypoints to serve, distinct waypoint numbers; false for larger overlaps, witness given."
  },
  {
   "property": "C44",
   "status": "partial",
   "theorems": [
    "Verif.Timer.C44_independent_partial",
    "Verif.Timer.C44_violated",
    "Verif.Timer.C44_restart_violated"
   ],
   "note": "Independence holds unless another timer named by the call has the same callback time; with equal times disabling, destroying or restarting one timer removes the other (violated)."
  },
  {
   "property": "C45",
   "status": "partial",
   "theorems": [
    "Verif.Timer.C45_phases_partial",
    "Verif.Timer.C45_expiry_order",
    "Verif.Timer.C45_nothing_overdue",
    "Verif.Timer.C45_single_shot_once_partial",
    "Verif.Timer.C45_periodic_count_partial",
    "Verif.Timer.C45_cancelled_silent_partial",
    "Verif.Timer.C45_defined_partial",
    "Verif.Timer.C45_start_never_waits",
    "Verif.Timer.C45_gone_answers",
    "Verif.Timer.C45_destroyMany_count",
    "Verif.Timer.C45_disable_violated",
    "Verif.Timer.C45_restart_in_handler_violated",
    "Verif.Timer.C45_destroy_in_handler_violated",
    "Verif.Timer.C45_destroyMany_unknown_violated"
   ],
   "note": "Refinement of every timer to its specified phases, firing counts for single-shot and periodic timers, expiry order, nothing overdue, cancelled timers stay silent, answers for missing timers, no undefined behaviour; missing: histories with equal callback times (counts) and starts of a timer by another thread during its own handler, where the claims are violated."
  },
  {
   "property": "C46",
   "status": "proved",
   "theorems": [
    "Verif.Region.C46_region",
    "Verif.Region.C46_none",
    "Verif.Region.C46_order",
    "Verif.Region.C46_padding"
   ],
   "note": "The region last sent lists the zones whose latest message is a creation, each once; before the first region no zone is active; the order and the padding are as in the code."
  },
  {
   "property": "C47",
   "status": "partial",
   "theorems": [
    "Verif.Serial.C47_order",
    "Verif.Serial.C47_one",
    "Verif.Serial.C47_serial",
    "Verif.Serial.C47_outstanding",
    "Verif.Serial.C47_idle",
    "Verif.Serial.C47_violated"
   ],
   "note": "Order, no loss, no duplication and a response or timeout between two forwards are proved; that the response belongs to the outstanding request is not checked by the code, C47_violated is the witness. The timer's thread has no lock in the code; its firing is modelled between messages only."
  },
  {
   "property": "C48",
   "status": "partial",
   "theorems": [
    "Verif.Coord.C48_released",
    "Verif.Coord.C48_not_before",
    "Verif.Coord.C48_once_partial",
    "Verif.Coord.C48_twice",
    "Verif.Coord.C48_contents_request",
    "Verif.Coord.C48_contents",
    "Verif.Coord.C48_own",
    "Verif.Coord.C48_violated_late",
    "Verif.Coord.C48_violated_default",
    "Verif.Coord.C48_violated_zero"
   ],
   "note": "Released exactly when all are known or the time has passed; contents; never more than twice; once if no coordination comes after the release. Witnesses for a second release, with and without the contents of the request, and for id 0."
  },
  {
   "property": "C49",
   "status": "partial",
   "theorems": [
    "Verif.Sender.C49_at_most",
    "Verif.Sender.C49_sent_partial",
    "Verif.Sender.C49_only",
    "Verif.Sender.C49_finished",
    "Verif.Sender.C49_violated_empty",
    "Verif.Sender.C49_violated_zero",
    "Verif.Sender.C49_violated_wrap"
   ],
   "note": "At most the number, when exactly each is sent (for due times below 2^32 ms), only the messages, and the end exactly when all are sent. Witnesses: number 0 sends once, wrap-around of the due time, no end without messages."
  },
  {
   "property": "C50",
   "status": "partial",
   "theorems": [
    "Verif.Task.C50_active",
    "Verif.Task.C50_complete",
    "Verif.Task.C50_began",
    "Verif.Task.C50_alternates_partial",
    "Verif.Task.C50_violated"
   ],
   "note": "Exact conditions for both reports, for all histories. Alternation fails when a vehicle on the task is given a new mission: proved otherwise."
  },
  {
   "property": "C51",
   "status": "partial",
   "theorems": [
    "Verif.Task.C51_once_partial",
    "Verif.Task.C51_violated_twice",
    "Verif.Task.C51_violated_never"
   ],
   "note": "Proved for options with pairwise different ids and routes, asked for together, and answers with exactly the routes asked for, in all orders. Fails for answers with other routes."
  },
  {
   "property": "C52",
   "status": "proved",
   "theorems": [
    "Verif.Algebra.C52_search_pred",
    "Verif.Algebra.C52_predecessor_first",
    "Verif.Algebra.C52_unknown_objective_violated"
   ],
   "note": "Also shown: an undeclared objective is undefined behaviour."
  },
  {
   "property": "C53",
   "status": "proved",
   "theorems": [
    "Verif.Algebra.C53_shuffle_words"
   ],
   "note": ""
  },
  {
   "property": "C54",
   "status": "partial",
   "theorems": [
    "Verif.Validator.C54_admission_complete_partial",
    "Verif.Validator.C54_refused_with_error",
    "Verif.Validator.C54_planning_states_violated"
   ],
   "note": "Complete once a configuration and a state of some entity are known; refused otherwise even with planning states (negation proved)."
  },
  {
   "property": "C55",
   "status": "partial",
   "theorems": [
    "Verif.Validator.C55_some_vehicle_partial",
    "Verif.Validator.C55_no_complete_vehicle_violated"
   ],
   "note": "Only a configuration and a state of possibly different vehicles are required (negation proved)."
  },
  {
   "property": "C56",
   "status": "partial",
   "theorems": [
    "Verif.Validator.C56_task_timer_partial",
    "Verif.Validator.C56_response_timer_partial",
    "Verif.Validator.C56_second_wait_violated",
    "Verif.Validator.C21_no_second_timeout_violated"
   ],
   "note": "Holds up to the first expiration; a timer cannot be started from a handler, so requests published or left waiting by a handler have no timeout (negations proved)."
  },
  {
   "property": "C57",
   "status": "partial",
   "theorems": [
    "Verif.Validator.C57_not_idle_partial",
    "Verif.Validator.C57_all_answered_partial",
    "Verif.Validator.C57_blocked_violated"
   ],
   "note": "For histories with distinct ids and without errors of the task timer; the negation is proved for the latter."
  },
  {
   "property": "C58",
   "status": "partial",
   "theorems": [
    "Verif.Waypoint.C58_last_waypoint_partial",
    "Verif.Waypoint.C58_segment_ends",
    "Verif.Waypoint.C42_decorations_partial",
    "Verif.Waypoint.C58_loiter_speed_violated"
   ],
   "note": "Holds except that the loiter action of the last waypoint keeps its speed when speed 0 is configured (missing else); witness given."
  },
  {
   "property": "C59",
   "status": "partial",
   "theorems": [
    "Verif.Net.C59_requests_take_effect_partial",
    "Verif.Net.C59_lost_request_violated"
   ],
   "note": "Holds for requests before initializeNetworkClient and after the start; requests in between are lost (violated)."
  },
  {
   "property": "C60",
   "status": "partial",
   "theorems": [
    "Verif.Bridge.C60_tcp_end_to_end_partial",
    "Verif.Bridge.C60_chunk_violated",
    "Verif.Bridge.C60_exception_violated"
   ],
   "note": "All chunkings without ConsiderSelfGenerated; with it only chunks that complete a message."
  },
  {
   "property": "C61",
   "status": "proved",
   "theorems": [
    "Verif.Bridge.C61_server_sends_to_connected",
    "Verif.Bridge.C61_data_handed_on"
   ],
   "note": "For all packet histories; relies on the stream socket reporting each connection and disconnection by one empty packet."
  },
  {
   "property": "C62",
   "status": "partial",
   "theorems": [
    "Verif.Bridge.C62_subscriptions_partial",
    "Verif.Bridge.C62_kill_service_violated"
   ],
   "note": "Holds unless a peer advertises an address the bridge subscribed to at the start: its departure removes that subscription."
  },
  {
   "property": "C63",
   "status": "proved",
   "theorems": [
    "Verif.Manager.C63_knowledge"
   ],
   "note": "For all histories."
  },
  {
   "property": "C64",
   "status": "proved",
   "theorems": [
    "Verif.Manager.C64_escape_round_trip",
    "Verif.Manager.C64_escaped",
    "Verif.Manager.C64_service_text",
    "Verif.Manager.C64_round_trip_violated",
    "Verif.Manager.C64_empty_pattern_violated"
   ],
   "note": "Exact condition for the round trip; a text with &lt; is changed (witness)."
  },
  {
   "property": "C65",
   "status": "partial",
   "theorems": [
    "Verif.Manager.C65_options_partial",
    "Verif.Manager.C65_id_zero_violated",
    "Verif.Manager.C65_entry_zero_violated"
   ],
   "note": "For tasks and entries with an id other than 0. Task id 0 gets the general options twice, entries with id 0 apply to all tasks (witnesses)."
  },
  {
   "property": "C66",
   "status": "partial",
   "theorems": [
    "Verif.Routes.C66_speed_ignored_violated",
    "Verif.Routes.C66_cost_partial"
   ],
   "note": "False: the speed is assigned to a shadowing variable and the speed used is always 1. Holds only if no usable speed is known or it is 1."
  },
  {
   "property": "C67",
   "status": "partial",
   "theorems": [
    "Verif.PlanBuilder.C67_start_partial",
    "Verif.PlanBuilder.C67_neighbours_partial",
    "Verif.PlanBuilder.C67_final_partial",
    "Verif.PlanBuilder.C67_twice_violated"
   ],
   "note": "For histories in which the tasks answer in turn, as quantified; the list of other vehicles for requests that list their vehicles once each, and a witness for a request that lists one twice."
  },
  {
   "property": "C68",
   "status": "partial",
   "theorems": [
    "Verif.PlanBuilder.C68_linked_partial",
    "Verif.PlanBuilder.C68_numbers_partial",
    "Verif.PlanBuilder.C68_repeat_violated"
   ],
   "note": "For histories in which the tasks answer in turn; a witness for a task that answers twice."
  },
  {
   "property": "C69",
   "status": "partial",
   "theorems": [
    "Verif.PlanBuilder.C69_first_partial",
    "Verif.PlanBuilder.C69_second_violated",
    "Verif.PlanBuilder.C69_other_violated",
    "Verif.PlanBuilder.C69_cleared_partial"
   ],
   "note": "The waypoints of the first task of a vehicle with a single override. Violated for later tasks of the vehicle, and overrides of another request are applied too."
  },
  {
   "property": "C70",
   "status": "partial",
   "theorems": [
    "Verif.PlanBuilder.C70_turn",
    "Verif.PlanBuilder.C70_loiter_partial",
    "Verif.PlanBuilder.C70_several_violated"
   ],
   "note": "Turn types in full; loiters for plans of one vehicle. Violated for several vehicles, and undefined behaviour for an empty plan."
  },
  {
   "property": "C71",
   "status": "proved",
   "theorems": [
    "Verif.PlanBuilder.C71_commands"
   ],
   "note": ""
  },
  {
   "property": "C72",
   "status": "proved",
   "theorems": [
    "Verif.PlanBuilder.C72_assignment",
    "Verif.PlanBuilder.C72_empty"
   ],
   "note": ""
  },
  {
   "property": "C73",
   "status": "partial",
   "theorems": [
    "Verif.Task.C73_time_partial",
    "Verif.Task.C73_violated"
   ],
   "note": "Proved for the first implementation of an option. Fails for the second, which counts the way to the task twice."
  },
  {
   "property": "C74",
   "status": "proved",
   "theorems": [
    "Verif.Task.C74_cost",
    "Verif.Task.C74_sent"
   ],
   "note": "For the requests of C51."
  },
  {
   "property": "C75",
   "status": "partial",
   "theorems": [
    "Verif.Task.C75_once",
    "Verif.Task.C73_time_partial",
    "Verif.Task.C75_violated"
   ],
   "note": "At most one for all histories; an answer is proved for the histories of C73; it fails when another request has been answered in between."
  },
  {
   "property": "C76",
   "status": "partial",
   "theorems": [
    "Verif.Task.C76_nominal_partial",
    "Verif.Task.C76_violated"
   ],
   "note": "For tasks that do not change the waypoints in their own function; the first configuration is meant, later ones are ignored."
  },
  {
   "property": "C77",
   "status": "proved",
   "theorems": [
    "Verif.Task.C77_only"
   ],
   "note": "For tasks that do not change the waypoints in their own function."
  },
  {
   "property": "C78",
   "status": "partial",
   "theorems": [
    "Verif.Task.C78_resume",
    "Verif.Task.C78_violated"
   ],
   "note": "The option is as claimed for all histories. Not every request is answered: if the waypoint last seen is not of the first route of the task there is no answer."
  },
  {
   "property": "C79",
   "status": "partial",
   "theorems": [
    "Verif.Tracker.C79_exact_partial",
    "Verif.Tracker.C79_left_partial",
    "Verif.Tracker.C79_violated_twice",
    "Verif.Tracker.C79_violated_lost"
   ],
   "note": "Proved for missions whose waypoint numbers are below 10000 and whose task ids are positive; violated otherwise (reported twice, or another task in its place)."
  },
  {
   "property": "C80",
   "status": "partial",
   "theorems": [
    "Verif.Tracker.C80_only_partial",
    "Verif.Tracker.C80_violated_other",
    "Verif.Tracker.C80_violated_stale"
   ],
   "note": "Proved for missions whose waypoint numbers are below 10000 and whose task ids are positive; violated otherwise (task of another vehicle's mission; stale waypoint counter)."
  },
  {
   "property": "C81",
   "status": "partial",
   "theorems": [
    "Verif.Tracker.C81_end",
    "Verif.Tracker.C81_stays_partial",
    "Verif.Tracker.C81_violated_repeat"
   ],
   "note": "The first report at the end is proved for all missions; that the message is not repeated is proved for waypoint numbers below 10000 and violated otherwise."
  },
  {
   "property": "C82",
   "status": "proved",
   "theorems": [
    "Verif.Tracker.C82_eligible"
   ],
   "note": ""
  },
  {
   "property": "C83",
   "status": "proved",
   "theorems": [
    "Verif.CallTimer.C83_not_early",
    "Verif.CallTimer.C83_expires"
   ],
   "note": ""
  },
  {
   "property": "C84",
   "status": "partial",
   "theorems": [
    "Verif.CallTimer.C84_once",
    "Verif.CallTimer.C84_periodic",
    "Verif.CallTimer.C84_violated_restart",
    "Verif.CallTimer.C84_violated_lost"
   ],
   "note": "At most one callback per start, of that start, is proved for all interleavings; the documented restart is violated and a start can be lost."
  },
  {
   "property": "C85",
   "status": "partial",
   "theorems": [
    "Verif.CallTimer.C85_kill_partial",
    "Verif.CallTimer.C85_cancel_partial",
    "Verif.CallTimer.C85_reset_partial",
    "Verif.CallTimer.C85_violated_stale",
    "Verif.CallTimer.C85_violated_kill",
    "Verif.CallTimer.C85_violated_overwritten",
    "Verif.CallTimer.C85_kill_call_partial",
    "Verif.CallTimer.C85_cancel_call_partial",
    "Verif.CallTimer.C85_reset_call_partial"
   ],
   "note": "Proved when the timer's thread finds the command before the expiration; violated by races (stale, erased and overwritten commands)."
  },
  {
   "property": "C86",
   "status": "partial",
   "theorems": [
    "Verif.CallTimer.C86_extend_partial",
    "Verif.CallTimer.C86_violated_period",
    "Verif.CallTimer.C86_violated_wrap",
    "Verif.CallTimer.C86_extend_call_partial"
   ],
   "note": "The expiration after an extension is proved when the command is found in time; the period of a periodic timer is changed for good, and a restart's time is cut to 32 bits."
  },
  {
   "property": "C87",
   "status": "partial",
   "theorems": [
    "Verif.CallTimer.C87_ends_partial",
    "Verif.CallTimer.C87_violated_hang"
   ],
   "note": "Proved when the kill is found in time; a periodic timer with a time that is not positive never ends."
  },
  {
   "property": "C88",
   "status": "partial",
   "theorems": [
    "Verif.Leash.C88_confirmed",
    "Verif.Leash.C88_released",
    "Verif.Leash.C88_violated_foreign"
   ],
   "note": "Proved for all histories, where a response is identified by its number. C88_violated_foreign: the vehicle of the response is not looked at, so a response to another service's request with the same number releases the command."
  },
  {
   "property": "C89",
   "status": "partial",
   "theorems": [
    "Verif.Leash.C89_contents_partial",
    "Verif.Leash.C89_request",
    "Verif.Leash.C89_violated_altitude",
    "Verif.Leash.C89_violated_rate"
   ],
   "note": "Proved for the request, and for the command without an altitude of its own and without heading rate. With UseAltitude the altitude is overwritten by the code of its type; with UseHeadingRate the loiter is at 0/0 (witnesses)."
  },
  {
   "property": "C90",
   "status": "proved",
   "theorems": [
    "Verif.SimpleWp.C90_forward",
    "Verif.SimpleWp.C90_only",
    "Verif.SimpleWp.C90_linked"
   ],
   "note": "All histories and responses."
  },
  {
   "property": "C91",
   "status": "proved",
   "theorems": [
    "Verif.Permute.C91_every",
    "Verif.Permute.C91_once",
    "Verif.Permute.C91_combinations"
   ],
   "note": "Visitors that always continue (the only use in the code base); an early exit of the visitor is not modelled."
  },
  {
   "property": "C92",
   "status": "partial",
   "theorems": [
    "Verif.Options.C92_exact",
    "Verif.Options.C92_once_partial",
    "Verif.Options.C92_group",
    "Verif.Options.C92_violated"
   ],
   "note": "exact set, and once under the hypothesis that no vehicle reports a second speed and altitude; a reconfigured vehicle is listed in both groups (witness)"
  },
  {
   "property": "C93",
   "status": "partial",
   "theorems": [
    "Verif.Options.C93_loiter",
    "Verif.Options.C93_mustFly",
    "Verif.Options.C93_dynamic",
    "Verif.Options.C93_cmasiPoint",
    "Verif.Options.C93_impactPoint",
    "Verif.Options.C93_impactPoint_any",
    "Verif.Options.C93_violated_loiter"
   ],
   "note": "proved for all five tasks; loiter and must-fly tasks use the vehicles of the task instead of those of the request (witness)"
  },
  {
   "property": "C94",
   "status": "partial",
   "theorems": [
    "Verif.Options.C94_area",
    "Verif.Options.C94_area_once",
    "Verif.Options.C94_pattern_partial",
    "Verif.Options.C94_pattern",
    "Verif.Options.C94_violated_pattern",
    "Verif.Options.C94_angled"
   ],
   "note": "area and angled searches complete; a pattern search offers only the first vehicle of each group (witness)"
  },
  {
   "property": "C95",
   "status": "partial",
   "theorems": [
    "Verif.Options.C95_area_partial",
    "Verif.Options.C95_violated_area",
    "Verif.Options.C95_pattern",
    "Verif.Options.C95_angled"
   ],
   "note": "pattern and angled searches complete; an area search asks for the first vehicle of the group (witness), right for groups of one vehicle"
  },
  {
   "property": "C96",
   "status": "partial",
   "theorems": [
    "Verif.Options.C96_cmasi",
    "Verif.Options.C96_cmasi_partial",
    "Verif.Options.C96_violated_cmasi",
    "Verif.Options.C96_impact_partial",
    "Verif.Options.C96_violated_impact"
   ],
   "note": "exact description of what is published and allowed; violated by options without their place in the composition and by unwanted reverse plans being required (witnesses)"
  },
  {
   "property": "C97",
   "status": "partial",
   "theorems": [
    "Verif.Options.C97_partial",
    "Verif.Options.C97_violated",
    "Verif.Options.C97_violated_fewer",
    "Verif.Options.C97_unknown"
   ],
   "note": "exact description; the wanted number is not used (witnesses)"
  },
  {
   "property": "C98",
   "status": "partial",
   "theorems": [
    "Verif.Options.C98_wedge_covered",
    "Verif.Options.C98_wedge_only",
    "Verif.Options.C98_no_wedge",
    "Verif.Options.C98_once_partial",
    "Verif.Options.C98_violated_circle",
    "Verif.Options.C98_line_elevations",
    "Verif.Options.C98_line_nonempty",
    "Verif.Options.C98_area_elevations",
    "Verif.Options.C98_area_none",
    "Verif.Options.C98_violated_horizon",
    "Verif.Options.C98_elevations_limits"
   ],
   "note": "coverage and containment; a full-turn wedge tries its first heading twice and a wedge at the horizon gives no look in an area search (witnesses)"
  },
  {
   "property": "C99",
   "status": "partial",
   "theorems": [
    "Verif.Options.C99_cmasi",
    "Verif.Options.C99_violated"
   ],
   "note": "proved for the CMASI point search; the impact point search gives whole seconds (witness)"
  },
  {
   "property": "C100",
   "status": "partial",
   "theorems": [
    "Verif.Options.C100_partial",
    "Verif.Options.C100_violated_second",
    "Verif.Options.C100_violated_all",
    "Verif.Options.C100_violated_ineligible",
    "Verif.Options.C100_violated_again"
   ],
   "note": "proved for the first request with eligible vehicles listed; four violations otherwise (witnesses)"
  },
  {
   "property": "C101",
   "status": "partial",
   "theorems": [
    "Verif.Options.C101_choice_partial",
    "Verif.Options.C101_all",
    "Verif.Options.C101_violated_throws",
    "Verif.Options.C101_violated_order",
    "Verif.Options.C101_violated_fewer",
    "Verif.Options.C101_violated_limit"
   ],
   "note": "proved under the conditions stated; violated by an exception for fewer vehicles than available at one state, by the order of a hash table, by too few vehicles and by a limit of 64 (witnesses)"
  },
  {
   "property": "C102",
   "status": "partial",
   "theorems": [
    "Verif.Options.C102_allowed",
    "Verif.Options.C102_chosen_partial",
    "Verif.Options.C102_assignment_partial",
    "Verif.Options.C102_single_partial",
    "Verif.Options.C102_once_single",
    "Verif.Options.C102_once_area",
    "Verif.Options.C102_once_line",
    "Verif.Options.C102_once_together",
    "Verif.Options.C102_first_only",
    "Verif.Options.C102_cordon_partial",
    "Verif.Options.C102_violated_cordon",
    "Verif.Options.C102_violated_rendezvous"
   ],
   "note": "Proved for tasks that name each option once (loiter, must-fly, dynamic, point, area, pattern, angled and line searches, blockade, watch: C102_once_*). Violated by cordon (assignments with the same first option as an earlier alternative are lost, so the published one need not be the best) and by rendezvous (the search mixes alternatives and publishes three vehicles for a meeting of two). C102_cordon_partial says exactly what is lost for cordon."
  },
  {
   "property": "C103",
   "status": "proved",
   "theorems": [
    "Verif.Batch.C103_last",
    "Verif.Batch.C103_at_once",
    "Verif.Batch.C103_only",
    "Verif.Batch.C103_once",
    "Verif.Batch.C103_complete"
   ],
   "note": "For all histories: answered with the last outstanding response (or at once), only then, only once, and always when all responses are in."
  },
  {
   "property": "C104",
   "status": "partial",
   "theorems": [
    "Verif.Batch.C104_pairs",
    "Verif.Batch.C104_orders",
    "Verif.Batch.C104_distinct",
    "Verif.Batch.C104_sent",
    "Verif.Batch.C104_violated_region",
    "Verif.Batch.C104_violated_single"
   ],
   "note": "Pairs, ordered pairs, texts, distinctness and fresh ids are proved. The operating region is not passed on, and a single task with relationships is not planned at all; both shown."
  },
  {
   "property": "C105",
   "status": "partial",
   "theorems": [
    "Verif.Batch.C105_legs",
    "Verif.Batch.C105_times",
    "Verif.Batch.C105_summaries",
    "Verif.Batch.C105_planned_partial",
    "Verif.Batch.C105_violated_repeated",
    "Verif.Batch.C105_violated_merged",
    "Verif.Batch.C105_violated_large"
   ],
   "note": "Proved: which legs each summary reports, how a mission splits into legs, the two times, and the whole claim for requests without relationships, tasks and vehicles listed once, ids in 32 bits. False with relationships of three tasks, tasks without a waypoint between, and ids beyond 32 bits; shown. Flying times are parameters."
  },
  {
   "property": "C106",
   "status": "partial",
   "theorems": [
    "Verif.Batch.C106_range_partial",
    "Verif.Batch.C106_energy",
    "Verif.Batch.C106_clear_partial",
    "Verif.Batch.C106_violated_unknown",
    "Verif.Batch.C106_violated_tower",
    "Verif.Batch.C106_violated_energy",
    "Verif.Batch.C106_violated_stale"
   ],
   "note": "Proved: the exact condition for BeyondCommRange, the energy, and no conflict reported means none. False when the vehicle's state or the tower's range is not known, for energy without a plan, and for zones that change; shown. Distances and the touching of zones are parameters."
  },
  {
   "property": "C107",
   "status": "partial",
   "theorems": [
    "Verif.Visibility.C107_straight",
    "Verif.Visibility.C107_shortest",
    "Verif.Visibility.C107_found",
    "Verif.Visibility.tables_shortest",
    "Verif.Visibility.C107_unreachable_violated",
    "Verif.Visibility.C107_apart_violated",
    "Verif.Visibility.C107_complete",
    "Verif.Visibility.C107_admissible"
   ],
   "note": "Coordinates rational instead of double and leg lengths natural numbers, as PlanCost_t. boost::dijkstra_shortest_paths is replaced by tables with the property Shortest, which tables_shortest proves of Dijkstra's algorithm. C107_shortest needs a length below the largest 32-bit integer. C107_complete: no admissible way over corners is shorter, for corners that are all different. That an unreachable place is reported as such is false (C107_unreachable_violated), as is that the search always ends (C107_apart_violated)."
  },
  {
   "property": "C108",
   "status": "partial",
   "theorems": [
    "Verif.Visibility.C108_keeps_out",
    "Verif.Visibility.C108_boundary_violated",
    "Verif.Visibility.C108_end_violated",
    "Verif.Visibility.C108_keeps_in",
    "Verif.Visibility.C108_leave_violated"
   ],
   "note": "For convex zones (either orientation) that no side of another zone enters; Apart is needed (C108_boundary_violated) and so are ends outside (C108_end_violated). C108_keeps_in: one convex keep-in zone that holds both ends is not left; an end outside is reached over a corner (C108_leave_violated). Before smoothing."
  },
  {
   "property": "C109",
   "status": "partial",
   "theorems": [
    "Verif.Visibility.C109_intersects_partial",
    "Verif.Visibility.C109_overlap_violated",
    "Verif.Visibility.C109_point_partial",
    "Verif.Visibility.C109_point_violated"
   ],
   "note": "The test is right for segments that are not parallel (C109_intersects_partial says exactly when it answers yes); overlapping segments are missed and the point is off by half a metre, which the other theorems state."
  },
  {
   "property": "C110",
   "status": "proved",
   "theorems": [
    "Verif.Visibility.C110_convex"
   ],
   "note": "Coordinates are rational instead of double."
  },
  {
   "property": "C111",
   "status": "partial",
   "theorems": [
    "Verif.Visibility.C111_answer",
    "Verif.Visibility.C111_silent",
    "Verif.Visibility.C111_shortest",
    "Verif.Visibility.C111_unreachable_violated",
    "Verif.Visibility.C111_surface_violated",
    "Verif.Visibility.C111_changed_violated",
    "Verif.Visibility.C111_late_zone_violated",
    "Verif.Visibility.C111_wide_ids_violated"
   ],
   "note": "Merging of zones and smoothing are parameters. The expected behaviour is false for unreachable places, surface vehicles, zones that change or come late and wide zone ids, each shown by a violated theorem."
  },
  {
   "property": "C112",
   "status": "partial",
   "theorems": [
    "Verif.RoutePlanner.C112_answer",
    "Verif.RoutePlanner.C112_silent",
    "Verif.RoutePlanner.C112_answers",
    "Verif.RoutePlanner.C112_unreached_violated"
   ],
   "note": "The way within an environment, its length and point location are taken from VisiLibity (Lib); times beyond 64 bits are undefined and excluded by a stated hypothesis, and so are ways that are not found: C112_unreached_violated, the length of an empty path is undefined."
  },
  {
   "property": "C113",
   "status": "partial",
   "theorems": [
    "Verif.RoutePlanner.C113_current_partial",
    "Verif.RoutePlanner.C113_unknown",
    "Verif.RoutePlanner.C113_total",
    "Verif.RoutePlanner.C113_surface_violated"
   ],
   "note": "Proved for vehicles in the air while zones and regions are not changed and zones come before their regions; the negations for changed and late zones are the C114 violated theorems. A surface vehicle with another kind of configuration is undefined behaviour (C113_surface_violated); without one there is none (C113_total)."
  },
  {
   "property": "C114",
   "status": "partial",
   "theorems": [
    "Verif.RoutePlanner.C114_keeps_zones_partial",
    "Verif.RoutePlanner.C114_library_partial",
    "Verif.RoutePlanner.C114_changed_zone_violated",
    "Verif.RoutePlanner.C114_late_zone_violated",
    "Verif.RoutePlanner.C114_changed_region_violated",
    "Verif.RoutePlanner.C114_other_vehicle_violated",
    "Verif.RoutePlanner.C114_padding_violated",
    "Verif.RoutePlanner.C114_derived_violated",
    "Verif.RoutePlanner.C114_dense_violated"
   ],
   "note": "Under the conditions of C113, when an environment is built. C114_keeps_zones_partial: for every library that meets Contract; C114_library_partial: for the geometry and the shortest path search of VisiLibity as modelled, assuming only that merging grows and shrinks zones as it should, that places in sight of each other have the environment between them, and that the distance is a metric (Open; met by a computable instance in LibraryCases), for zones whose corners stand out by more than a metre, to a tenth of a millimetre. Negations with concrete histories: changed zone, late zone, changed region, zones of other vehicles, mixed padding, derived configurations; any zone given by dense corners is passed over (C114_dense_violated)."
  },
  {
   "property": "C115",
   "status": "proved",
   "theorems": [
    "Verif.Visilib.C115_nearest",
    "Verif.Visilib.C115_boundary",
    "Verif.Visilib.C115_defined"
   ],
   "note": "Exact arithmetic; distances compared by their squares."
  },
  {
   "property": "C116",
   "status": "proved",
   "theorems": [
    "Verif.Visilib.C116_defined",
    "Verif.Visilib.C116_convex",
    "Verif.Visilib.C116_convex_exact",
    "Verif.Visilib.C116_same",
    "Verif.Visilib.C116_outside",
    "Verif.Visilib.C116_cross"
   ],
   "note": "Exact arithmetic. Convex polygons are characterised exactly; polygons of any shape by the three facts that determine which points are inside."
  },
  {
   "property": "C117",
   "status": "proved",
   "theorems": [
    "Verif.Visilib.C117_proper",
    "Verif.Visilib.C117_distance",
    "Verif.Visilib.C117_intersect",
    "Verif.Visilib.C117_meet"
   ],
   "note": "Exact arithmetic; distances compared by their squares."
  },
  {
   "property": "C118",
   "status": "proved",
   "theorems": [
    "Verif.Visilib.C118_reversed",
    "Verif.Visilib.C118_standard",
    "Verif.Visilib.C118_same",
    "Verif.Visilib.C118_area",
    "Verif.Visilib.C118_recognised",
    "Verif.Visilib.C118_orientation"
   ],
   "note": "Exact arithmetic."
  },
  {
   "property": "C119",
   "status": "partial",
   "theorems": [
    "Verif.Visilib.C119_clear_partial",
    "Verif.Visilib.C119_kept_partial",
    "Verif.Visilib.C119_same_partial",
    "Verif.Visilib.C119_few",
    "Verif.Visilib.C119_lost_violated"
   ],
   "note": "False in general: every polygon has an equivalent one, with corners closer together than epsilon, that is reduced to nothing (C119_lost_violated). Proved for polygons whose corners are on the sides they are left out from, or stand out by more than epsilon (C119_clear_partial), and for those of less than four corners."
  },
  {
   "property": "C120",
   "status": "proved",
   "theorems": [
    "Verif.Visilib.C120_in",
    "Verif.Visilib.C120_defined"
   ],
   "note": "Exact arithmetic."
  },
  {
   "property": "C121",
   "status": "partial",
   "theorems": [
    "Verif.Visilib.C121_valid",
    "Verif.Visilib.C121_defined",
    "Verif.Visilib.C121_within",
    "Verif.Visilib.C121_no_hole",
    "Verif.Visilib.C121_distance",
    "Verif.Visilib.C121_simple_partial",
    "Verif.Visilib.C121_closing_violated"
   ],
   "note": "Proved with is_simple as it is; is_simple never compares the last side with others than its neighbours, so a polygon that crosses itself can be found simple and valid (C121_closing_violated); what it does check is characterised exactly (C121_simple_partial)."
  },
  {
   "property": "C122",
   "status": "proved",
   "theorems": [
    "Verif.Visilib.Graph.C122_ends",
    "Verif.Visilib.Graph.C122_none",
    "Verif.Visilib.Graph.C122_path",
    "Verif.Visilib.Graph.C122_start_violated"
   ],
   "note": "Over exact numbers, with a distance that is a metric and a visibility relation given; the sweep that computes visibility polygons is not modelled. C122_start_violated: the start itself is left out of the path if it is within epsilon of the next corner."
  },
  {
   "property": "C123",
   "status": "partial",
   "theorems": [
    "Verif.Sensor.C123_answer",
    "Verif.Sensor.C123_count",
    "Verif.Sensor.C123_reconfigured_violated"
   ],
   "note": "Proved: the answer to each message after any history, and the number of footprints. The configuration used is the first one received for the vehicle: C123_reconfigured_violated shows that later ones are ignored, so the part of the claim about the vehicle's current configuration fails."
  },
  {
   "property": "C124",
   "status": "partial",
   "theorems": [
    "Verif.Sensor.C124_closest",
    "Verif.Sensor.C124_none",
    "Verif.Sensor.C124_largest",
    "Verif.Sensor.C124_limits_partial",
    "Verif.Sensor.C124_no_elevation_violated",
    "Verif.Sensor.C124_degrees_violated",
    "Verif.Sensor.C124_highest_violated",
    "Verif.Sensor.C124_horizon_violated",
    "Verif.Sensor.C124_empty_list_violated"
   ],
   "note": "Proved: the setting found is one offered and is closest, one is found exactly if one is offered, the coarsest is taken when no distance is given, elevations are within the lower limits. Violated by the code: an elevation above the gimbal's maximum is used, a horizontal look counts as looking at the ground, angles documented in degrees are taken as radians, and a missing elevation angle means elevation 0, not all elevations."
  },
  {
   "property": "C125",
   "status": "partial",
   "theorems": [
    "Verif.Sensor.C125_order_partial",
    "Verif.Sensor.C125_triangle",
    "Verif.Sensor.C125_width",
    "Verif.Sensor.C125_width_nonneg",
    "Verif.Sensor.C125_horizon_violated"
   ],
   "note": "Proved over the reals (Mathlib): the order of the edges if both are below the horizon, the right triangle and the width. When the upper edge of the image reaches the horizon the leading edge is reported at distance 0, nearer than the centre (C125_horizon_violated)."
  },
  {
   "property": "C126",
   "status": "partial",
   "theorems": [
    "Verif.Status.C126_contents",
    "Verif.Status.C126_stale",
    "Verif.Status.C126_authorised",
    "Verif.Status.C126_fresh_partial",
    "Verif.Status.C126_period_partial",
    "Verif.Status.C126_configure",
    "Verif.Status.C126_restart_violated",
    "Verif.Status.C126_fresh_violated"
   ],
   "note": "Proved for all interleavings: contents, validity and authorisations are never reported for longer than configured, the number of reports over time while the timer queue is in order, and the limits of the configuration. Violated by the code: a state that arrives while the handler of the stale timer waits is reported invalid (C126_fresh_violated), and a state that arrives while a report is sent puts the report timer into the queue twice (C126_restart_violated)."
  },
  {
   "property": "C127",
   "status": "partial",
   "theorems": [
    "Verif.Earth.C127_origin",
    "Verif.Earth.C127_ellipsoid",
    "Verif.Earth.C127_inverse",
    "Verif.Earth.C127_units_partial",
    "Verif.Earth.C127_unset",
    "Verif.Earth.C127_metric",
    "Verif.Earth.C127_degrees_violated",
    "Verif.Earth.C127_history_violated",
    "Verif.Earth.C127_antimeridian_violated"
   ],
   "note": "Exact in radians and metres; in degrees and feet up to parts in 10^12, because the constants are not exact inverses (negation proved). Distances depend on the origin and ignore the antimeridian (negations proved). Real numbers, no rounding."
  },
  {
   "property": "C128",
   "status": "partial",
   "theorems": [
    "Verif.Earth.C128_turns",
    "Verif.Earth.C128_range_partial",
    "Verif.Earth.C128_exact",
    "Verif.Earth.C128_reference",
    "Verif.Earth.C128_direction",
    "Verif.Earth.C128_range_violated",
    "Verif.Earth.C128_idempotent_violated"
   ],
   "note": "Holds outside a band of 10^-9 at the end of the range; inside it the range is missed and normalising is not idempotent (negations proved)."
  },
  {
   "property": "C129",
   "status": "partial",
   "theorems": [
    "Verif.Earth.C129_integer_partial",
    "Verif.Earth.C129_negative",
    "Verif.Earth.C129_integer_violated",
    "Verif.Earth.C129_place"
   ],
   "note": "Decimal places: proved. Integers: proved from -1/2 upwards, false below (negation proved)."
  },
  {
   "property": "C130",
   "status": "partial",
   "theorems": [
    "Verif.Extend.C130_path",
    "Verif.Extend.C130_near",
    "Verif.Extend.C130_required",
    "Verif.Extend.C130_answer",
    "Verif.Extend.C130_zero_violated",
    "Verif.Extend.C130_negative_violated"
   ],
   "note": "real arithmetic; violated for a turn radius of 0 and for negative lengths"
  },
  {
   "property": "C131",
   "status": "partial",
   "theorems": [
    "Verif.Extend.C131_extend",
    "Verif.Extend.C131_legs",
    "Verif.Extend.C131_refused",
    "Verif.Extend.C131_answer",
    "Verif.Extend.C131_actions_violated",
    "Verif.Extend.C131_loop_violated",
    "Verif.Extend.C131_zero_violated"
   ],
   "note": "real arithmetic; violated: actions of a waypoint are repeated on the inserted ones, a route that leads back is cut, discretisation distance 0 is undefined"
  },
  {
   "property": "C132",
   "status": "partial",
   "theorems": [
    "Verif.Steering.C132_report",
    "Verif.Steering.C132_route",
    "Verif.Steering.C132_forward",
    "Verif.Steering.C132_patrol",
    "Verif.Steering.C132_loiter",
    "Verif.Steering.C132_first",
    "Verif.Steering.C132_patrol_violated",
    "Verif.Steering.C132_passed_violated"
   ],
   "note": "Proved over all histories; the loop over waypoints always ends. Violated in two cases, with witnesses: when waypoints are accepted from a distance a closed route can be given up for good, and a first waypoint without a predecessor is not accepted when it is flown over. Reals instead of doubles."
  },
  {
   "property": "C133",
   "status": "partial",
   "theorems": [
    "Verif.Steering.C133_range",
    "Verif.Steering.C133_line",
    "Verif.Steering.C133_settles",
    "Verif.Steering.C133_slope",
    "Verif.Steering.C133_straight",
    "Verif.Steering.C133_orbit",
    "Verif.Steering.C133_point",
    "Verif.Steering.C133_command",
    "Verif.Steering.C133_radius_violated",
    "Verif.Steering.C133_jump_violated"
   ],
   "note": "The law is proved for all positions, legs and orbits of radius at least 0, and that commands carry it over all histories. Violated for a negative radius (the heading leads away) and in the first command after a loiter whose centre is not at its waypoint (the leg jumps). Reals instead of doubles."
  },
  {
   "property": "C134",
   "status": "partial",
   "theorems": [
    "Verif.Steering.C134_region_partial",
    "Verif.Steering.C134_request_partial",
    "Verif.Steering.C134_sandbox_violated"
   ],
   "note": "Proved: the region is that of the request answered last for the vehicle. Violated by sandbox requests, whose answers reset the region although their missions are not flown."
  },
  {
   "property": "C135",
   "status": "partial",
   "theorems": [
    "Verif.Rendezvous.C135_start",
    "Verif.Rendezvous.C135_start_fixed",
    "Verif.Rendezvous.C135_route",
    "Verif.Rendezvous.C135_linked",
    "Verif.Rendezvous.C135_answer_partial",
    "Verif.Rendezvous.C135_on_time",
    "Verif.Rendezvous.C135_asked",
    "Verif.Rendezvous.C135_unknown",
    "Verif.Rendezvous.C135_total",
    "Verif.Rendezvous.C135_zero_violated",
    "Verif.Rendezvous.C135_circle_violated",
    "Verif.Rendezvous.C135_speed_violated",
    "Verif.Rendezvous.C135_same_violated"
   ],
   "note": "Start times for every history; the latest arrival for every assignment, in any order of the maps; the answer is last/enough/speed/extended/circle/short as described, and with a straight piece of six turn radii every vehicle but the last arrives within a second before the latest arrival or is late anyway. Violated: on short routes a vehicle arrives early; with speed adjustment preferred the route is kept although the smallest speed does not suffice; vehicles asked before another's earlier task was answered are planned for different times; speed 0 is undefined behaviour."
  },
  {
   "property": "C136",
   "status": "partial",
   "theorems": [
    "Verif.Rendezvous.C136_limits",
    "Verif.Rendezvous.C136_direction",
    "Verif.Rendezvous.C136_coast",
    "Verif.Rendezvous.C136_window",
    "Verif.Rendezvous.C136_active",
    "Verif.Rendezvous.C136_best",
    "Verif.Rendezvous.C136_agree",
    "Verif.Rendezvous.C136_centre_violated",
    "Verif.Rendezvous.C136_unknown_violated",
    "Verif.Rendezvous.C136_followed_violated"
   ],
   "note": "Limits, direction, the window, the best time and the agreement of vehicles that know the same new distances. Violated: without a common window the time chosen is after all of them; a known distance of a vehicle without configuration is undefined behaviour; the commands are sent in a form the steering service does not look at, so they never have an effect."
  },
  {
   "property": "C137",
   "status": "proved",
   "theorems": [
    "Verif.Rendezvous.C137_distance",
    "Verif.Rendezvous.C137_none",
    "Verif.Rendezvous.C137_mission",
    "Verif.Rendezvous.C137_straight"
   ],
   "note": "Exact waypoints ahead (unique), length and termination for every mission; straight missions spelled out."
  },
  {
   "property": "C138",
   "status": "proved",
   "theorems": [
    "Verif.Search.C138_ends",
    "Verif.Search.C138_lanes",
    "Verif.Search.C138_succeeds",
    "Verif.Search.C138_corners",
    "Verif.Search.C138_area"
   ],
   "note": "Ends, lanes, directions, success and starting corners for every area; a case beside them in Search/Tips."
  },
  {
   "property": "C139",
   "status": "partial",
   "theorems": [
    "Verif.Search.C139_joined",
    "Verif.Search.C139_ids",
    "Verif.Search.C139_legs",
    "Verif.Search.C139_spacing",
    "Verif.Search.C139_sent",
    "Verif.Search.C139_other_violated",
    "Verif.Search.C139_headings"
   ],
   "note": "Joined, numbered, true headings, spacing, when sent: all proved; the claim is false of areas of unknown kind (witness)."
  },
  {
   "property": "C140",
   "status": "partial",
   "theorems": [
    "Verif.Search.C140_across_partial",
    "Verif.Search.C140_beneath",
    "Verif.Search.C140_rectangle_partial",
    "Verif.Search.C140_cmasi_rectangle_partial",
    "Verif.Search.C140_far_side_violated",
    "Verif.Search.C140_middle_lane_violated",
    "Verif.Search.C140_rotation_violated",
    "Verif.Search.C140_corner_violated",
    "Verif.Search.C140_tip_violated"
   ],
   "note": "The full claim is false (five witnesses). Proved: distance to the lanes, points beneath lanes, whole rectangles that fit."
  },
  {
   "property": "C141",
   "status": "partial",
   "theorems": [
    "Verif.Pattern.C141_ends",
    "Verif.Pattern.C141_legs",
    "Verif.Pattern.C141_request",
    "Verif.Pattern.C141_sent",
    "Verif.Pattern.C141_seen_partial",
    "Verif.Pattern.C141_wedge_violated",
    "Verif.Pattern.C141_large_violated"
   ],
   "note": "Proved: termination, the legs with their headings, the request and when it is sent, coverage by three quarters of a lane spacing, and by the footprint when the lanes fit half a turn. Missing: coverage by the footprint for every extent, which is false (C141_wedge_violated, C141_large_violated)."
  },
  {
   "property": "C142",
   "status": "partial",
   "theorems": [
    "Verif.Pattern.C142_ends",
    "Verif.Pattern.C142_points",
    "Verif.Pattern.C142_option",
    "Verif.Pattern.C142_near_partial",
    "Verif.Pattern.C142_hole_violated",
    "Verif.Pattern.C142_cost_violated",
    "Verif.Pattern.C142_negative_violated"
   ],
   "note": "Proved: termination, the points of the spiral, the option, nearness outside of 1.1 lane spacings from the centre. Missing: the centre and the cost as flight time, both false (C142_hole_violated, C142_cost_violated); negative extents (C142_negative_violated)."
  },
  {
   "property": "C143",
   "status": "proved",
   "theorems": [
    "Verif.Escort.C143_closest"
   ],
   "note": "exact real arithmetic in place of doubles"
  },
  {
   "property": "C144",
   "status": "proved",
   "theorems": [
    "Verif.Escort.C144_place",
    "Verif.Escort.C144_lost",
    "Verif.Escort.C144_none",
    "Verif.Escort.C144_total"
   ],
   "note": "exact real arithmetic in the plane, to within 1 cm (the threshold of the code); segments at least 1e-6 m long; standoff distances between 9 and 11 cm are covered by C144_total only"
  },
  {
   "property": "C145",
   "status": "partial",
   "theorems": [
    "Verif.Escort.C145_order",
    "Verif.Escort.C145_distance",
    "Verif.Escort.C145_nearest_partial",
    "Verif.Escort.C145_flip_partial",
    "Verif.Escort.C145_against_violated",
    "Verif.Escort.C145_ahead_violated",
    "Verif.Escort.C145_rest_violated",
    "Verif.Escort.C145_on_line_violated"
   ],
   "note": "Proved: the order of precedence, the nearest line among those the vehicle is not exactly on, and when a line is reversed for a moving vehicle. False in the code and witnessed: a vehicle on a line is taken to follow none; a line drawn against the vehicle throughout is never reversed, which puts the escort ahead instead of behind; a straight line is always reversed for a vehicle at rest."
  },
  {
   "property": "C146",
   "status": "partial",
   "theorems": [
    "Verif.Blockade.C146_meet_partial",
    "Verif.Blockade.C146_close",
    "Verif.Blockade.C146_lateral",
    "Verif.Blockade.C146_apart",
    "Verif.Blockade.C146_mission",
    "Verif.Blockade.C146_alone_violated",
    "Verif.Blockade.C146_mean_violated",
    "Verif.Blockade.C146_first_violated",
    "Verif.Blockade.C146_radius_violated",
    "Verif.Blockade.C146_circles"
   ],
   "note": "Proved: the place on the line of approach is equidistant to within 0.04 % of the distance of the vehicle from the base (for a point in front of the enemy at most 90 km from the base), the cases in which it is the base or the point itself, the lateral offsets, the separation of vehicles on the task, and the mission. False in the code and witnessed: the wall is off centre by half the standoff distance; a vehicle is placed before it is counted, which can put two into the same place; the circle of an air vehicle has a radius of 300 m at any speed. Exact real arithmetic in the plane."
  },
  {
   "property": "C147",
   "status": "proved",
   "theorems": [
    "Verif.Dynamic.C147_pace",
    "Verif.Dynamic.C147_first"
   ],
   "note": "for every history; the three clock readings of one call are taken to be equal"
  },
  {
   "property": "C148",
   "status": "partial",
   "theorems": [
    "Verif.Dynamic.C148_request",
    "Verif.Dynamic.C148_sent",
    "Verif.Dynamic.C148_quiet",
    "Verif.Dynamic.C148_no_failure_partial",
    "Verif.Dynamic.C148_null_violated",
    "Verif.Dynamic.C148_stuck_violated"
   ],
   "note": "content of requests and when they are sent are proved; violated: a target that is lost leads to a null dereference, and a vehicle near its target at first is never sent to it again until the target moves"
  },
  {
   "property": "C149",
   "status": "proved",
   "theorems": [
    "Verif.Dynamic.C149_mission",
    "Verif.Dynamic.C149_others",
    "Verif.Dynamic.C149_stares",
    "Verif.Dynamic.C149_loiter",
    "Verif.Dynamic.C149_radius",
    "Verif.Dynamic.C150_known"
   ],
   "note": "exact real arithmetic"
  },
  {
   "property": "C150",
   "status": "partial",
   "theorems": [
    "Verif.Dynamic.C150_inside",
    "Verif.Dynamic.C150_near",
    "Verif.Dynamic.C150_free",
    "Verif.Dynamic.C150_second_violated",
    "Verif.Dynamic.C150_edge_violated",
    "Verif.Dynamic.C150_region_violated",
    "Verif.Dynamic.C150_within_violated",
    "Verif.Dynamic.C150_first",
    "Verif.Dynamic.C150_inside_any",
    "Verif.Dynamic.C150_known"
   ],
   "note": "proved for one convex zone, with ideal projection; violated: several zones, places on a boundary, other operating regions than 0, zones inside the polygon"
  },
  {
   "property": "C151",
   "status": "partial",
   "theorems": [
    "Verif.Dynamic.C151_options",
    "Verif.Dynamic.C151_total",
    "Verif.Dynamic.C151_null_violated"
   ],
   "note": "violated when no target is computed for a vehicle: null dereference"
  },
  {
   "property": "C152",
   "status": "partial",
   "theorems": [
    "Verif.Dynamic.C152_window",
    "Verif.Dynamic.C152_none",
    "Verif.Dynamic.C152_recent",
    "Verif.Dynamic.C152_east_partial",
    "Verif.Dynamic.C152_north_violated"
   ],
   "note": "right for motion east or west; otherwise the east component is wrong by the north component"
  },
  {
   "property": "C153",
   "status": "proved",
   "theorems": [
    "Verif.Dynamic.C153_between",
    "Verif.Dynamic.C153_best",
    "Verif.Dynamic.C153_stays",
    "Verif.Dynamic.C153_supported"
   ],
   "note": "plane positions"
  },
  {
   "property": "C154",
   "status": "partial",
   "theorems": [
    "Verif.Roads.C154_planning",
    "Verif.Roads.C154_piece",
    "Verif.Roads.C154_all",
    "Verif.Roads.C154_made",
    "Verif.Roads.C154_missing_violated",
    "Verif.Roads.C154_second_violated"
   ],
   "note": "Which points are used for planning, that every kept piece is a stretch of road with its true length, that every stretch has a piece both ways and that complete files are read are proved. Not true: of two roads between the same crossings only one is kept (C154_second_violated); a point missing in the file is undefined (C154_missing_violated)."
  },
  {
   "property": "C155",
   "status": "partial",
   "theorems": [
    "Verif.Roads.C155_edges",
    "Verif.Roads.C155_length_partial",
    "Verif.Roads.C155_exact_partial",
    "Verif.Roads.C155_length_violated"
   ],
   "note": "The edges are given exactly; their lengths are never too short and exact for the first stretch of a road. Not true in general: the running length is not reset after points that are not used for planning, so later edges are too long (C155_length_violated)."
  },
  {
   "property": "C156",
   "status": "partial",
   "theorems": [
    "Verif.Roads.C156_none",
    "Verif.Roads.C156_found",
    "Verif.Roads.C156_near_partial",
    "Verif.Roads.C156_nearest_violated"
   ],
   "note": "The point found is one of the points, with its distance; only points more than 100 m away can be nearer and it is at most 3 sqrt 2 times as far as the nearest; if none is found there is none. Not true: the nearest one is not always found (C156_nearest_violated)."
  },
  {
   "property": "C157",
   "status": "partial",
   "theorems": [
    "Verif.Roads.C157_route",
    "Verif.Roads.C157_short_partial",
    "Verif.Roads.C157_none_partial",
    "Verif.Roads.C157_defined",
    "Verif.Roads.C157_shortest",
    "Verif.Roads.C157_length_violated"
   ],
   "note": "Routes follow the roads; their length in the graph is longer than that of any other by at most a metre per piece; none is found only if there is none within the range of lengths; the search is defined. Not true: lengths are cut to whole metres, so a longer route can be given (C157_length_violated)."
  },
  {
   "property": "C158",
   "status": "partial",
   "theorems": [
    "Verif.Roads.C158_ids",
    "Verif.Roads.C158_numbers",
    "Verif.Roads.C158_places",
    "Verif.Roads.C158_cost_partial",
    "Verif.Roads.C158_answered",
    "Verif.Roads.C158_cost_violated",
    "Verif.Roads.C158_single_violated"
   ],
   "note": "Ids, order, numbering, speeds, failed plans, the places of the waypoints and that requests are answered are proved; the cost is bounded from below. Not true: the cost can be that of another road than the waypoints (C158_cost_violated); a road with a single point makes the search undefined (C158_single_violated)."
  },
  {
   "property": "C159",
   "status": "partial",
   "theorems": [
    "Verif.Roads.C159_places",
    "Verif.Roads.C159_found_partial",
    "Verif.Roads.C159_missed_violated"
   ],
   "note": "All places given are such points, each once. All are found on kept pieces with an end in the square around the circle; on other pieces they are missed (C159_missed_violated)."
  },
  {
   "property": "C160",
   "status": "partial",
   "theorems": [
    "Verif.Roads.C160_order",
    "Verif.Roads.C160_near",
    "Verif.Roads.C160_line",
    "Verif.Roads.C160_ends_partial",
    "Verif.Roads.C160_same_partial",
    "Verif.Roads.C160_end_violated",
    "Verif.Roads.C160_back_violated"
   ],
   "note": "Order of the lines, that they follow roads and which places need a road nearby are proved; the ends of the lines up to two exceptions: they can go on past a crossing (C160_end_violated) or begin at the second point and lead away (C160_back_violated)."
  },
  {
   "property": "C161",
   "status": "partial",
   "theorems": [
    "Verif.Stare.C161_near",
    "Verif.Stare.C161_first",
    "Verif.Stare.C161_unknown",
    "Verif.Stare.C161_coinciding_violated",
    "Verif.Stare.C161_point_road_violated",
    "Verif.Stare.C161_altitude_violated"
   ],
   "note": "Proved for waypoints in a row at different places and a road of some length; otherwise undefined behaviour, or latitude 0 and longitude 0 (witnesses for all such ways and roads)."
  },
  {
   "property": "C162",
   "status": "partial",
   "theorems": [
    "Verif.Stare.C162_segment",
    "Verif.Stare.C162_start",
    "Verif.Stare.C162_spiral_inner",
    "Verif.Stare.C162_spiral_outer",
    "Verif.Stare.C162_spiral_whole",
    "Verif.Stare.C162_same_start_violated"
   ],
   "note": "Proved for segments with increasing first waypoints and for all spirals; a segment with the same first waypoint as another replaces it."
  },
  {
   "property": "C163",
   "status": "partial",
   "theorems": [
    "Verif.Stare.C163_first_gimbal",
    "Verif.Stare.C163_point",
    "Verif.Stare.C163_command",
    "Verif.Stare.C163_stream_once",
    "Verif.Stare.C163_look",
    "Verif.Stare.C163_first_plan",
    "Verif.Stare.C163_later_config_violated",
    "Verif.Stare.C163_stream_missed_violated",
    "Verif.Stare.C163_replanned_violated",
    "Verif.Stare.C163_left_over_violated",
    "Verif.Stare.C163_nowhere_violated",
    "Verif.Stare.C163_area",
    "Verif.Stare.C163_stream_camera",
    "Verif.Stare.C163_stream_shown"
   ],
   "note": "Proved for the configuration first heard and the way first planned; a later configuration or plan is ignored, the stream is chosen once for all vehicles, an option without steering keeps the old one, and unknown numbers look at latitude 0 and longitude 0."
  },
  {
   "property": "C164",
   "status": "partial",
   "theorems": [
    "Verif.Stare.C164_command",
    "Verif.Stare.C164_silent",
    "Verif.Stare.C164_options",
    "Verif.Stare.C164_number_violated"
   ],
   "note": "Proved but for the number of vehicles, which is ignored; the configuration is the one first heard."
  },
  {
   "property": "C165",
   "status": "partial",
   "theorems": [
    "Verif.Dpss.C165_points",
    "Verif.Dpss.C165_near_partial",
    "Verif.Dpss.C165_greedy",
    "Verif.Dpss.C165_plan",
    "Verif.Dpss.C165_number",
    "Verif.Dpss.C165_metre_violated",
    "Verif.Dpss.C165_again_violated"
   ],
   "note": "Order, first and last point, greedy choice, kept points and number are proved in full. That the road stays within a metre is violated: every point of the road is within k metres of what is left, k the number of points left out (C165_near_partial), and a road can drift by more than a metre; simplifying twice leaves out more than simplifying once."
  },
  {
   "property": "C166",
   "status": "partial",
   "theorems": [
    "Verif.Dpss.C166_removed_partial",
    "Verif.Dpss.C166_twice_violated",
    "Verif.Dpss.C166_far_violated",
    "Verif.Dpss.C166_plan_violated"
   ],
   "note": "The order, the first point and what the removal actually tests are proved. Violated: the test subtracts the second coordinate of the point before from the first coordinate, so coinciding points stay and distant ones go, and a plan can lose its second waypoint."
  },
  {
   "property": "C167",
   "status": "partial",
   "theorems": [
    "Verif.Dpss.C167_clean",
    "Verif.Dpss.C167_total",
    "Verif.Dpss.C167_all",
    "Verif.Dpss.C167_segment_partial",
    "Verif.Dpss.C167_bend_partial",
    "Verif.Dpss.C167_ends_partial",
    "Verif.Dpss.C167_reverse_partial",
    "Verif.Dpss.C167_side_violated",
    "Verif.Dpss.C167_parallel_violated",
    "Verif.Dpss.C167_undefined"
   ],
   "note": "Directions and distances are proved for plans whose points and waypoints pass the test of C166 and whose looks do not cross; putting together is proved to end with two waypoints or without crossings and to keep the last waypoint. Violated: with north first and east second, as the tasks hand the points over, right is left; parallel looks count as crossing when the origin is between road and plan, which moves the first waypoint; in a bend the distance is less by the cosine of half the turn (C167_bend_partial)."
  },
  {
   "property": "C168",
   "status": "partial",
   "theorems": [
    "Verif.Dpss.C168_share_partial",
    "Verif.Dpss.C168_set",
    "Verif.Dpss.C168_twice_violated"
   ],
   "note": "Proved for routes in one direction, of any length and shape, and all positions: the point looked at is at the same share of the line as a nearest point of the route, with explicit tolerances. False as stated: the place on the route is looked for among all of it and the first nearest segment is taken, so that a route that passes a place twice looks at the wrong part the second time (witness: more than 199 m off)."
  },
  {
   "property": "C169",
   "status": "partial",
   "theorems": [
    "Verif.Dpss.C169_says_partial",
    "Verif.Dpss.C169_some",
    "Verif.Dpss.C169_cmasi",
    "Verif.Dpss.C169_straight_violated",
    "Verif.Dpss.C169_east_violated"
   ],
   "note": "Proved for all plans of the CMASI line search, and of the Impact one with three waypoints or more. False as stated: for a task of two points the Impact line search always publishes an end heading of 0 (the test for the last leg is an else branch of the test for the first), proved for all such tasks with a concrete line to the east."
  },
  {
   "property": "C170",
   "status": "partial",
   "theorems": [
    "Verif.Dpss.C170_one",
    "Verif.Dpss.C170_silent",
    "Verif.Dpss.C170_unknown",
    "Verif.Dpss.C170_looks_partial",
    "Verif.Dpss.C170_last",
    "Verif.Dpss.C170_again_violated",
    "Verif.Dpss.C170_switch_violated"
   ],
   "note": "Holds where one option was made under the id (C170_looks_partial, one request to plan). Planned again, the entries of the earlier request stay in the unordered_multimap and which one is found the standard leaves open: with the first found the vehicle is told to look 499 m or more from where it should (C170_again_violated); with the last found, as in the GNU library, the last request counts (C170_last). One place per task is kept for all vehicles, so giving out another option changes what a vehicle on the first looks at (C170_switch_violated)."
  },
  {
   "property": "C171",
   "status": "partial",
   "theorems": [
    "Verif.Dubins.C171_straight",
    "Verif.Dubins.C171_turns",
    "Verif.Dubins.C171_route_partial",
    "Verif.Dubins.C171_arrives",
    "Verif.Dubins.C171_direct",
    "Verif.Dubins.C171_back_violated"
   ],
   "note": "Proved if no turning circle beside the beginning has its centre within half a metre of one beside the end; that an answer exists and where it ends is proved without that. Without it the property is false of the code: C171_back_violated (a vehicle that is to turn back on the spot gets a route of one waypoint, where it is)."
  },
  {
   "property": "C172",
   "status": "partial",
   "theorems": [
    "Verif.Dubins.C172_same_partial",
    "Verif.Dubins.C172_turn_violated"
   ],
   "note": "Proved for paths whose two turns go the same way, again for circles at different places. False of the code otherwise: C172_turn_violated (a right turn of 106 m is answered with more than 500 m)."
  },
  {
   "property": "C173",
   "status": "proved",
   "theorems": [
    "Verif.Dubins.C173_turn",
    "Verif.Dubins.C173_undefined",
    "Verif.Dubins.C173_length"
   ],
   "note": ""
  },
  {
   "property": "C174",
   "status": "partial",
   "theorems": [
    "Verif.Clock.C174_set",
    "Verif.Clock.C174_weeks",
    "Verif.Clock.C174_refused",
    "Verif.Clock.C174_far_violated",
    "Verif.Clock.C174_day_violated",
    "Verif.Clock.C174_discrete_violated"
   ],
   "note": "Proved with weeks and with a time of day, and exactly what is refused; fails for days a month does not have, from 2262 on and on simulated time (witnesses)."
  },
  {
   "property": "C175",
   "status": "partial",
   "theorems": [
    "Verif.Clock.C175_units_partial",
    "Verif.Clock.C175_simulated_partial",
    "Verif.Clock.C175_since_partial",
    "Verif.Clock.C175_ahead_violated",
    "Verif.Clock.C175_behind_violated",
    "Verif.Clock.C175_since_violated",
    "Verif.Clock.C175_started_partial"
   ],
   "note": "Proved up to one unit, and exactly without a calibration or with one by whole units; fails otherwise (witnesses)."
  },
  {
   "property": "C176",
   "status": "partial",
   "theorems": [
    "Verif.Clock.C176_states",
    "Verif.Clock.C176_real",
    "Verif.Clock.C176_chosen",
    "Verif.Clock.C176_back_violated"
   ],
   "note": "Proved for all sequences of events; that time does not run backwards fails (witness)."
  },
  {
   "property": "C177",
   "status": "partial",
   "theorems": [
    "Verif.Config.C177_enabled",
    "Verif.Config.C177_unloaded",
    "Verif.Config.C177_stale_violated",
    "Verif.Config.C177_first"
   ],
   "note": "Proved for all histories that end with a load with success or an unload; fails after a load that fails (witness)."
  },
  {
   "property": "C178",
   "status": "partial",
   "theorems": [
    "Verif.Config.C178_load",
    "Verif.Config.C178_without_violated",
    "Verif.Config.C178_kept_violated",
    "Verif.Config.C178_half_violated"
   ],
   "note": "Exactly what is set, as a function of document and state before; fails for documents without a UxAS element, for values left out and for documents without a type (witnesses)."
  },
  {
   "property": "C179",
   "status": "partial",
   "theorems": [
    "Verif.Config.C179_default",
    "Verif.Config.C179_bridges",
    "Verif.Config.C179_all_violated"
   ],
   "note": "Proved for requests with a type and for the bridges; a request without a type gives the first service only (witness)."
  },
  {
   "property": "C180",
   "status": "partial",
   "theorems": [
    "Verif.Task.C180_loiter_partial",
    "Verif.Task.C180_unknown",
    "Verif.Task.C180_chain",
    "Verif.Task.C180_twice_violated",
    "Verif.Task.C180_empty_violated"
   ],
   "note": "Holds except that the action is given twice and that empty routes are undefined behaviour (witnesses)."
  },
  {
   "property": "C181",
   "status": "proved",
   "theorems": [
    "Verif.Task.C181_altitude",
    "Verif.Task.C181_chain"
   ],
   "note": ""
  },
  {
   "property": "C182",
   "status": "partial",
   "theorems": [
    "Verif.Task.C182_point_partial",
    "Verif.Task.C182_chain",
    "Verif.Task.C182_surface_violated",
    "Verif.Task.C182_twice_violated"
   ],
   "note": "For vehicles that are not surface vehicles; fails for surface vehicles with an action (theorem for all answers), and the action is given twice (witness)."
  },
  {
   "property": "C183",
   "status": "partial",
   "theorems": [
    "Verif.Dpss.C183_point",
    "Verif.Dpss.C183_short",
    "Verif.Dpss.C183_object_partial",
    "Verif.Dpss.C183_object_violated",
    "Verif.Dpss.C183_empty_violated"
   ],
   "note": "Proved for the function with a plan and a road (C183_point, C183_short); for a map made beforehand only on the first segment of the road, false elsewhere. The third coordinate is left out."
  },
  {
   "property": "C184",
   "status": "partial",
   "theorems": [
    "Verif.Log.C184_entry",
    "Verif.Log.C184_loggers",
    "Verif.Log.C184_thread_violated"
   ],
   "note": "Proved for all histories. Exception (witness): a message that begins with an empty token."
  },
  {
   "property": "C185",
   "status": "partial",
   "theorems": [
    "Verif.Log.C185_files",
    "Verif.Log.C185_complete",
    "Verif.Log.C185_names",
    "Verif.Log.C185_lost_violated"
   ],
   "note": "Proved as long as files can be opened. Exception (witness): lines written while a file cannot be opened."
  },
  {
   "property": "C186",
   "status": "partial",
   "theorems": [
    "Verif.Log.C186_exact",
    "Verif.Log.C186_messages",
    "Verif.Log.C186_row",
    "Verif.Log.C186_log",
    "Verif.Log.C186_lost_violated",
    "Verif.Log.C186_forged_violated",
    "Verif.Log.C186_reopen_violated",
    "Verif.Log.C186_own_id_violated"
   ],
   "note": "Proved: exactly the texts without apostrophes and zero bytes are stored as they are; sequences of messages; log entries. Exceptions (witnesses): messages with apostrophes; a database that cannot be opened again."
  },
  {
   "property": "C187",
   "status": "partial",
   "theorems": [
    "Verif.Log.C187_escape",
    "Verif.Log.C187_clean",
    "Verif.Log.C187_back",
    "Verif.Log.C187_ampersand_violated",
    "Verif.Log.C187_back_violated"
   ],
   "note": "Proved for all texts; unescaping for texts without the entities. Exceptions (witnesses): entities in the text; ampersands are escaped for ever."
  },
  {
   "property": "C188",
   "status": "partial",
   "theorems": [
    "Verif.Diagram.C188_directories",
    "Verif.Diagram.C188_distinct",
    "Verif.Diagram.C188_files",
    "Verif.Diagram.C188_sub",
    "Verif.Diagram.C188_overflow_violated",
    "Verif.Diagram.C188_removed_violated",
    "Verif.Diagram.C188_slash_violated",
    "Verif.Diagram.C188_limit_violated",
    "Verif.Diagram.C188_success_violated",
    "Verif.Diagram.C188_reported",
    "Verif.Diagram.C188_file_violated"
   ],
   "note": "Proved for all sequences of calls up to the number 9999. Exceptions (witnesses): numbers from 10000 on, removed files, paths without a slash, success without a directory."
  },
  {
   "property": "C189",
   "status": "partial",
   "theorems": [
    "Verif.Diagram.C189_response",
    "Verif.Diagram.C189_unknown",
    "Verif.Diagram.C189_run",
    "Verif.Diagram.C189_saved",
    "Verif.Diagram.C189_second_violated"
   ],
   "note": "Proved for first responses after all histories, up to the number 9999. Exception (witness): a second response to a request without entities."
  },
  {
   "property": "C190",
   "status": "partial",
   "theorems": [
    "Verif.Bridge.C190_peers",
    "Verif.Bridge.C190_received",
    "Verif.Bridge.C190_sent",
    "Verif.Bridge.C190_end_to_end",
    "Verif.Bridge.C190_interleaved_violated",
    "Verif.Bridge.C190_gone_violated",
    "Verif.Bridge.C190_empty_violated",
    "Verif.Bridge.C190_only_valid"
   ],
   "note": "Proved for streams whose concatenated packets are framed messages, and for sending while every remembered peer is connected. False in the code for interleaved pieces of two peers (one buffer), after any remembered peer is gone (frames out of step on the socket; peers are never forgotten), and behind a refused message. The stream socket of ZeroMQ is modelled by its behaviour."
  },
  {
   "property": "C191",
   "status": "partial",
   "theorems": [
    "Verif.Dubins.C191_short",
    "Verif.Dubins.C191_heading",
    "Verif.Dubins.C191_first",
    "Verif.Dubins.C191_route_partial",
    "Verif.Dubins.C191_straight",
    "Verif.Dubins.C191_only",
    "Verif.Dubins.C191_only_violated",
    "Verif.Dubins.C191_leg_violated",
    "Verif.Dubins.C191_straight_only",
    "Verif.Dubins.C191_at_violated"
   ],
   "note": "False for a vehicle that is at the first corner already (C191_at_violated), with an only corner (the route after it begins northwards, C191_only_violated) and after a last leg of ten metres or less (C191_leg_violated). Proved for two corners or more that are a metre apart with a last leg above ten metres. Missing: between the corners the route is the straight lines (the smoothing code is never run), so it is not flyable there; roundings to nine places are left out."
  },
  {
   "property": "C192",
   "status": "partial",
   "theorems": [
    "Verif.Visibility.Boundary.C192_circle_partial",
    "Verif.Visibility.Boundary.C192_circle_near",
    "Verif.Visibility.Boundary.C192_circle_violated",
    "Verif.Visibility.Boundary.C192_padding",
    "Verif.Visibility.Boundary.C192_polygon",
    "Verif.Visibility.Boundary.C192_rectangle",
    "Verif.Visibility.Boundary.C192_unknown"
   ],
   "note": "False of the code for circles: between two of the twenty points the zone reaches beyond the polygon (C192_circle_violated), by at most 1.3 % of the radius (C192_circle_near), which only a padding makes up for (C192_padding).  Rectangles and polygons are exact.  The offsetting of the polygons by the padding and their merging (Clipper) are not modelled; real numbers stand for doubles."
  },
  {
   "property": "C193",
   "status": "partial",
   "theorems": [
    "Verif.Grid.C193_in_polygon_partial",
    "Verif.Grid.C193_attempt_ends",
    "Verif.Grid.C193_on_line_violated",
    "Verif.Grid.C193_on_way_violated",
    "Verif.Grid.C193_upper_edge_violated",
    "Verif.Grid.C193_flat_violated",
    "Verif.Grid.C193_close_corners_violated"
   ],
   "note": "Proved for polygons and points in general position to the lines of the grid (no corner and not the point on a line, no corner on the way from the lower corner of the cell to the point) and a grid that is made: the answer is that of the even-odd rule, or the point is near an edge; and in general position every attempt at the grid ends without reading outside the arrays. False in general, with witnesses: a corner on a line of the grid or on that way (a point inside is found outside), a point on the upper edge of the box (std::out_of_range), a polygon without extent (undefined), and two corners less than a nanometre apart (no end). Missing: which pieces are refused in general; rounding."
  },
  {
   "property": "C194",
   "status": "partial",
   "theorems": [
    "Verif.System.C194_traceable_partial",
    "Verif.System.C194_feasible_partial",
    "Verif.System.C194_answered_partial",
    "Verif.System.C194_late_violated"
   ],
   "note": "Composition of the models of C22-C23, C25-C26, C33-C36 and C39-C43 over a bus with causality only. Requests with the same id, whose ids tasks choose, are mixed up (C194_late_violated); that a plan is sent at all depends on tasks and planners outside the four services; fast planning of the aggregator is left out; feasibility needs tasks whose options do not change and list their vehicles."
  },
  {
   "property": "C195",
   "status": "partial",
   "theorems": [
    "Verif.Bridge.C195_header_partial",
    "Verif.Bridge.C195_end_to_end_partial",
    "Verif.Bridge.C195_announced_partial",
    "Verif.Bridge.C195_semicolon_violated",
    "Verif.Bridge.C195_behind_violated",
    "Verif.Bridge.C195_configured_partial"
   ],
   "note": "Proved for addresses without semicolons, messages that the framing carries and entity numbers below 2^31. False otherwise: a configured address ending in a semicolon asks for everything (C195_semicolon_violated); after one payload that contains the terminator of the framing, every later message is published one message late, because the handler takes only one payload per whisper (C195_behind_violated). The Zyre library is assumed to deliver whispers in order and once."
  },
  {
   "property": "C196",
   "status": "partial",
   "theorems": [
    "Verif.Visilib.Merge.C196_kept_partial",
    "Verif.Visilib.Merge.C196_three_partial",
    "Verif.Visilib.Merge.C196_three",
    "Verif.Visilib.Merge.C196_apart",
    "Verif.Visilib.Merge.C196_clique",
    "Verif.Visilib.Merge.C196_lost_violated",
    "Verif.Visilib.Merge.C196_outside_violated",
    "Verif.Visilib.Merge.C196_forever_violated"
   ],
   "note": "Proved in general when the numbers of the merged polygons fall in every pass, for any three polygons, for polygons apart and for polygons that all share a place; false in general: a fifth zone is lost, an element behind the end is erased with four, and zones touching at corners keep the loop going for ever."
  },
  {
   "property": "C197",
   "status": "proved",
   "theorems": [
    "Verif.Visilib.Padding.C197_covered",
    "Verif.Visilib.Padding.C197_not_far",
    "Verif.Visilib.Padding.C197_zones",
    "Verif.Visilib.Padding.C197_zones_only"
   ],
   "note": "Over the reals, up to the merge (see C196). Corners at which the edges turn back on themselves or are parallel up to the tolerance get a triangle only, and are excluded."
  },
  {
   "property": "C198",
   "status": "partial",
   "theorems": [
    "Verif.Visilib.Zones.C198_order_violated",
    "Verif.Visilib.Zones.C198_region_violated",
    "Verif.Visilib.Zones.C198_swapped_violated",
    "Verif.Visilib.Zones.C198_taken_partial",
    "Verif.Visilib.Zones.C198_padded_partial"
   ],
   "note": "False: a padded zone before an unpadded one makes the region be refused for any library, so that the planner goes on with the zones sent before or does not answer; the same zones the other way round are taken up. Proved when the unpadded zones come first, and the cover of zones and paddings by what is kept, up to the elimination of redundant corners."
  },
  {
   "property": "C199",
   "status": "partial",
   "theorems": [
    "Verif.Loiter.C199_apart_partial",
    "Verif.Loiter.C199_first_partial",
    "Verif.Loiter.C199_boundary_violated",
    "Verif.Loiter.C199_between_violated",
    "Verif.Loiter.C199_circle_partial",
    "Verif.Loiter.C199_polygon_violated",
    "Verif.Loiter.C199_depth_partial"
   ],
   "note": "False between two zones near each other (the loiter is moved to and fro from one into the other) and for a point on the boundary of a zone (never moved). Proved for convex zones further than two and a half radii from each other, and for any zones that the loiter gets clear of the first zone it was in or at."
  },
  {
   "property": "C200",
   "status": "partial",
   "theorems": [
    "Verif.Visilib.PaddingMerge.C200_apart_partial",
    "Verif.Visilib.PaddingMerge.C200_near_violated",
    "Verif.Visilib.PaddingMerge.C200_squares_violated"
   ],
   "note": "Proved for zones whose padded places are apart (any single zone of any shape included); false in general: a zone that reaches into the padding of another, away from its first edge, has an element behind the end of the list erased. snap_near is taken as changing nothing."
  },
  {
   "property": "C201",
   "status": "partial",
   "theorems": [
    "Verif.Assign.C201_same",
    "Verif.Assign.C201_ends_partial",
    "Verif.Assign.C201_all_kept_violated",
    "Verif.Assign.C201_dead_end_violated",
    "Verif.Assign.C201_bounded_violated",
    "Verif.Assign.C201_factorial_violated"
   ],
   "note": "Which nodes are kept has no influence on the result; complete assignments, and all that costs as much as the assignment found, are given up. False: a node without children is a leaf for the pruning even if tasks are left, so dead ends and beginnings that cannot be completed for less stay; without a complete assignment every node ever added is kept, whatever the limit."
  },
  {
   "property": "C202",
   "status": "partial",
   "theorems": [
    "Verif.Main.C202_runs",
    "Verif.Main.C202_path",
    "Verif.Main.C202_unknown",
    "Verif.Main.C202_fails",
    "Verif.Main.C202_no_value_violated",
    "Verif.Main.C202_negative_violated",
    "Verif.Main.C202_no_number_violated",
    "Verif.Main.C202_freed_running_violated"
   ],
   "note": "Proved for every list of options with proper values, for unknown arguments anywhere, and for each failing step. False: an option without value at the end of the command line is undefined behaviour; a negative time is one of many years and a time that is not a number is ignored; when a step fails after the server was started, the server is freed while its thread runs and the services are not ended."
  },
  {
   "property": "C203",
   "status": "partial",
   "theorems": [
    "Verif.Assign.C203_limited_partial",
    "Verif.Assign.C203_relative_partial",
    "Verif.Assign.C203_unreachable_violated"
   ],
   "note": "Proved for instances in which every option is within reach of some vehicle, and relative to the search with the limit 0 in general. False otherwise: the limit is not looked at before a complete assignment exists."
  },
  {
   "property": "C204",
   "status": "partial",
   "theorems": [
    "Verif.Manager.C204_started_partial",
    "Verif.Manager.C204_nothing",
    "Verif.Manager.C204_left_running_violated",
    "Verif.Manager.C204_empty_violated"
   ],
   "note": "Which services are started, their order and ids, the outcome and the message are proved for all documents (C204_started_partial, C204_nothing). That nothing goes on running after a failed start is false: the other services stay in the table, running (C204_left_running_violated); and a configuration without services starts with success (C204_empty_violated)."
  },
  {
   "property": "C205",
   "status": "partial",
   "theorems": [
    "Verif.Manager.C205_returns",
    "Verif.Manager.C205_not_early",
    "Verif.Manager.C205_time_over_partial",
    "Verif.Manager.C205_stopped",
    "Verif.Manager.C205_not_waited_violated",
    "Verif.Manager.C205_left_violated",
    "Verif.Manager.C205_bridges"
   ],
   "note": "That the run ends within 41 looks after the time is over, that it does not end earlier without being asked, which services are asked to stop, and that none is left if their threads end within 20 looks or if the run ends before its time, are proved for all interleavings. That none is left in every case is false: a service that does not end in ten seconds is left (C205_left_violated), and if a stop was asked for just before the time is over nothing is waited for (C205_not_waited_violated)."
  },
  {
   "property": "C206",
   "status": "partial",
   "theorems": [
    "Verif.Manager.C206_asked_partial",
    "Verif.Manager.C206_passes_partial",
    "Verif.Manager.C206_only_then_partial",
    "Verif.Manager.C206_race_violated",
    "Verif.Manager.C206_race_later_violated"
   ],
   "note": "Proved for all tables and interleavings without a pass of the main thread during the loop (C206_asked_partial), and with passes as long as none comes while the loop is at a bridge that has ended (C206_passes_partial, C206_only_then_partial). Otherwise it is false: the loop runs without the mutex and goes on with an entry that was erased (C206_race_violated, C206_race_later_violated)."
  },
  {
   "property": "C207",
   "status": "partial",
   "theorems": [
    "Verif.Net.C207_addresses_partial",
    "Verif.Net.C207_other_entity_violated",
    "Verif.Net.C207_lost_violated"
   ],
   "note": "Exactly which addresses a started service listens to is proved for all inputs. False: a service created for another entity does not listen to the address of all services of that entity (C207_other_entity_violated), and an address asked for that equals the address before an id was passed in is lost (C207_lost_violated)."
  }
 ]
}