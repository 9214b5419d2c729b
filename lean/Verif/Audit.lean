import Lean.Util.CollectAxioms
import Lean.Elab.Command
import Verif.Msg.Props
import Verif.Sentinel.Props
import Verif.Algebra.Props
import Verif.Assign.Props
import Verif.Assign.SearchProps
import Verif.Assign.ReadyProps
import Verif.Timer.Props
import Verif.Validator.LiveProps
import Verif.Waypoint.Props
import Verif.Net.Props
import Verif.Bridge.Props
import Verif.Manager.Props
import Verif.Routes.Props
import Verif.PlanBuilder.Props
import Verif.Task.Model
import Verif.Task.Spec
import Verif.Task.Activity
import Verif.Task.Reports
import Verif.Task.Waypoints
import Verif.Task.Implement
import Verif.Task.Answers
import Verif.Task.Options
import Verif.Task.Phases
import Verif.Task.Timing
import Verif.Task.Resume
import Verif.Task.Props
import Verif.Services.Region
import Verif.Services.Serial
import Verif.Services.Sender
import Verif.Services.Coord
import Verif.Services.Tracker
import Verif.Services.CallTimer
import Verif.Services.Leash
import Verif.Services.SimpleWp
import Verif.Permute.Model
import Verif.Permute.Props
import Verif.Options.Model
import Verif.Options.Groups
import Verif.Options.Text
import Verif.Options.Single
import Verif.Options.Search
import Verif.Options.CordonProps
import Verif.Options.Rendezvous
import Verif.Options.NextPerm
import Verif.Options.RendezvousProps
import Verif.Options.EndToEnd
import Verif.Options.OnceProps
import Verif.Batch.Flags
import Verif.Visibility.Model
import Verif.Visibility.Segment
import Verif.Visibility.Convex
import Verif.Visibility.Build
import Verif.Visibility.Search
import Verif.Visibility.Dijkstra
import Verif.Visibility.Classify
import Verif.Visibility.Props
import Verif.Visibility.Examples
import Verif.Visibility.Service
import Verif.Visibility.ServiceProps
import Verif.Visibility.Complete
import Verif.Visibility.KeepIn
import Verif.Visibility.Sound
import Verif.RoutePlanner.Model
import Verif.RoutePlanner.Lemmas
import Verif.RoutePlanner.Props
import Verif.RoutePlanner.Zones
import Verif.RoutePlanner.Cases
import Verif.RoutePlanner.Total
import Verif.Visilib.Model
import Verif.Visilib.Segment
import Verif.Visilib.Inside
import Verif.Visilib.Parity
import Verif.Visilib.Props
import Verif.Visilib.Distance
import Verif.Visilib.Standard
import Verif.Visilib.Reduce
import Verif.Visilib.ReduceClear
import Verif.Visilib.EnvModel
import Verif.Visilib.Environment
import Verif.Visilib.Valid
import Verif.Visilib.Simple
import Verif.RoutePlanner.Library
import Verif.RoutePlanner.LibraryCases
import Verif.Visilib.Path
import Verif.Sensor.Cases
import Verif.Sensor.GroundProps
import Verif.Services.StatusCases
import Verif.Earth.Props
import Verif.Earth.AngleProps
import Verif.Extend.Answer
import Verif.Steering.Cases
import Verif.Rendezvous.Times
import Verif.Rendezvous.PlanCases
import Verif.Rendezvous.SpeedCases
import Verif.Search.Tips
import Verif.Pattern.SectorCases
import Verif.Pattern.SpiralCases
import Verif.Escort.Cases
import Verif.Blockade.Cases
import Verif.Dynamic.Cases
import Verif.Roads.Cases
import Verif.Stare.Cases
import Verif.Dpss.Cases
import Verif.Stare.More
import Verif.Dpss.SteerNear
import Verif.Dpss.OfferCases
import Verif.Dpss.Active
import Verif.Dubins.Cases
import Verif.Clock.Cases
import Verif.Config.Cases
import Verif.PlanBuilder.Witness
import Verif.Task.Finish
import Verif.Dpss.SegMap
import Verif.Log.Manager
import Verif.Log.Files
import Verif.Log.Xml
import Verif.Log.Sql
import Verif.Diagram.Props
import Verif.Bridge.Stream
import Verif.Dubins.Round
import Verif.Visibility.Boundary
import Verif.Assign.Dive
import Verif.Grid.Cases
import Verif.System.Cases
import Verif.Bridge.ZyreLink
import Verif.Visilib.MergeProps
import Verif.Visilib.PaddingProps
import Verif.Visilib.ZonesProps
import Verif.Loiter.Props
import Verif.Visilib.PaddingMerge
import Verif.Assign.Kept
import Verif.Assign.Factorial
import Verif.Main.Props
import Verif.Assign.Limit
import Verif.Assign.LimitProps
import Verif.Loiter.Ring
import Verif.Loiter.Depth
import Verif.Manager.Start
import Verif.Manager.StartProps
import Verif.Manager.Run
import Verif.Manager.RunProps
import Verif.Manager.Sweep
import Verif.Manager.SweepProps
import Verif.Net.Setup
import Verif.Net.SetupProps

/-!
The axioms of the theorems of `MANIFEST.json`.  The command fails if one of them depends on an axiom other than `propext`,
`Classical.choice` and `Quot.sound`.
-/

/-- The theorems of `MANIFEST.json`. -/
def Verif.Audit.audited : List Lean.Name :=
  [``Verif.Algebra.C28_complete_orders,
   ``Verif.Algebra.C28_empty_operator_violated,
   ``Verif.Algebra.C28_language,
   ``Verif.Algebra.C28_repeated_objective_violated,
   ``Verif.Algebra.C29_offers_sound,
   ``Verif.Algebra.C29_run_bounded,
   ``Verif.Algebra.C30_parse_written,
   ``Verif.Algebra.C30_text_unambiguous,
   ``Verif.Algebra.C31_no_exception_partial,
   ``Verif.Algebra.C31_only_known,
   ``Verif.Algebra.C31_parser_safe_violated,
   ``Verif.Algebra.C31_written_exact_partial,
   ``Verif.Algebra.C52_predecessor_first,
   ``Verif.Algebra.C52_search_pred,
   ``Verif.Algebra.C52_unknown_objective_violated,
   ``Verif.Algebra.C53_shuffle_words,
   ``Verif.Assign.C201_all_kept_violated,
   ``Verif.Assign.C201_bounded_violated,
   ``Verif.Assign.C201_dead_end_violated,
   ``Verif.Assign.C201_ends_partial,
   ``Verif.Assign.C201_factorial_violated,
   ``Verif.Assign.C201_same,
   ``Verif.Assign.C203_limited_partial,
   ``Verif.Assign.C203_relative_partial,
   ``Verif.Assign.C203_unreachable_violated,
   ``Verif.Assign.C32_distinct_partial,
   ``Verif.Assign.C32_reencode,
   ``Verif.Assign.C32_roundtrip_partial,
   ``Verif.Assign.C32_violated,
   ``Verif.Assign.C33_all_tasks_in_parallel,
   ``Verif.Assign.C33_composition_partial,
   ``Verif.Assign.C33_composition_reported,
   ``Verif.Assign.C33_malformed_composition_violated,
   ``Verif.Assign.C33_malformed_relationship_violated,
   ``Verif.Assign.C33_relationship_partial,
   ``Verif.Assign.C33_relationships_respected,
   ``Verif.Assign.C33_single_option_refused,
   ``Verif.Assign.C34_feasible_partial,
   ``Verif.Assign.C34_open_option_cost_ignored,
   ``Verif.Assign.C34_violated,
   ``Verif.Assign.C35_optimal_partial,
   ``Verif.Assign.C35_violated,
   ``Verif.Assign.C36_best_visited,
   ``Verif.Assign.C36_limited_search_finds,
   ``Verif.Assign.C36_limited_search_finds_partial,
   ``Verif.Assign.C36_more_nodes_never_worse,
   ``Verif.Assign.C36_visited_feasible,
   ``Verif.Assign.C37_cumulative_violated,
   ``Verif.Assign.C37_minmax_partial,
   ``Verif.Assign.C37_setting_ignored,
   ``Verif.Assign.C38_empty_request_ignored,
   ``Verif.Assign.C38_once_when_last_arrives,
   ``Verif.Assign.C38_one_calculation_per_batch,
   ``Verif.Batch.C103_at_once,
   ``Verif.Batch.C103_complete,
   ``Verif.Batch.C103_last,
   ``Verif.Batch.C103_once,
   ``Verif.Batch.C103_only,
   ``Verif.Batch.C104_distinct,
   ``Verif.Batch.C104_orders,
   ``Verif.Batch.C104_pairs,
   ``Verif.Batch.C104_sent,
   ``Verif.Batch.C104_violated_region,
   ``Verif.Batch.C104_violated_single,
   ``Verif.Batch.C105_legs,
   ``Verif.Batch.C105_planned_partial,
   ``Verif.Batch.C105_summaries,
   ``Verif.Batch.C105_times,
   ``Verif.Batch.C105_violated_large,
   ``Verif.Batch.C105_violated_merged,
   ``Verif.Batch.C105_violated_repeated,
   ``Verif.Batch.C106_clear_partial,
   ``Verif.Batch.C106_energy,
   ``Verif.Batch.C106_range_partial,
   ``Verif.Batch.C106_violated_energy,
   ``Verif.Batch.C106_violated_stale,
   ``Verif.Batch.C106_violated_tower,
   ``Verif.Batch.C106_violated_unknown,
   ``Verif.Blockade.C146_alone_violated,
   ``Verif.Blockade.C146_apart,
   ``Verif.Blockade.C146_circles,
   ``Verif.Blockade.C146_close,
   ``Verif.Blockade.C146_first_violated,
   ``Verif.Blockade.C146_lateral,
   ``Verif.Blockade.C146_mean_violated,
   ``Verif.Blockade.C146_meet_partial,
   ``Verif.Blockade.C146_mission,
   ``Verif.Blockade.C146_radius_violated,
   ``Verif.Bridge.C15_export,
   ``Verif.Bridge.C15_impact,
   ``Verif.Bridge.C15_import,
   ``Verif.Bridge.C15_invalid_dropped_partial,
   ``Verif.Bridge.C15_tcp_invalid_violated,
   ``Verif.Bridge.C16_finitely_many_crossings_partial,
   ``Verif.Bridge.C16_ring_violated,
   ``Verif.Bridge.C16_same_entity_violated,
   ``Verif.Bridge.C16_tcp_violated,
   ``Verif.Bridge.C17_each_matching_peer_once_partial,
   ``Verif.Bridge.C17_large_id_violated,
   ``Verif.Bridge.C17_missing_id_violated,
   ``Verif.Bridge.C190_empty_violated,
   ``Verif.Bridge.C190_end_to_end,
   ``Verif.Bridge.C190_gone_violated,
   ``Verif.Bridge.C190_interleaved_violated,
   ``Verif.Bridge.C190_only_valid,
   ``Verif.Bridge.C190_peers,
   ``Verif.Bridge.C190_received,
   ``Verif.Bridge.C190_sent,
   ``Verif.Bridge.C195_announced_partial,
   ``Verif.Bridge.C195_behind_violated,
   ``Verif.Bridge.C195_configured_partial,
   ``Verif.Bridge.C195_end_to_end_partial,
   ``Verif.Bridge.C195_header_partial,
   ``Verif.Bridge.C195_semicolon_violated,
   ``Verif.Bridge.C60_chunk_violated,
   ``Verif.Bridge.C60_exception_violated,
   ``Verif.Bridge.C60_tcp_end_to_end_partial,
   ``Verif.Bridge.C61_data_handed_on,
   ``Verif.Bridge.C61_server_sends_to_connected,
   ``Verif.Bridge.C62_kill_service_violated,
   ``Verif.Bridge.C62_subscriptions_partial,
   ``Verif.CallTimer.C83_expires,
   ``Verif.CallTimer.C83_not_early,
   ``Verif.CallTimer.C84_once,
   ``Verif.CallTimer.C84_periodic,
   ``Verif.CallTimer.C84_violated_lost,
   ``Verif.CallTimer.C84_violated_restart,
   ``Verif.CallTimer.C85_cancel_call_partial,
   ``Verif.CallTimer.C85_cancel_partial,
   ``Verif.CallTimer.C85_kill_call_partial,
   ``Verif.CallTimer.C85_kill_partial,
   ``Verif.CallTimer.C85_reset_call_partial,
   ``Verif.CallTimer.C85_reset_partial,
   ``Verif.CallTimer.C85_violated_kill,
   ``Verif.CallTimer.C85_violated_overwritten,
   ``Verif.CallTimer.C85_violated_stale,
   ``Verif.CallTimer.C86_extend_call_partial,
   ``Verif.CallTimer.C86_extend_partial,
   ``Verif.CallTimer.C86_violated_period,
   ``Verif.CallTimer.C86_violated_wrap,
   ``Verif.CallTimer.C87_ends_partial,
   ``Verif.CallTimer.C87_violated_hang,
   ``Verif.Clock.C174_day_violated,
   ``Verif.Clock.C174_discrete_violated,
   ``Verif.Clock.C174_far_violated,
   ``Verif.Clock.C174_refused,
   ``Verif.Clock.C174_set,
   ``Verif.Clock.C174_weeks,
   ``Verif.Clock.C175_ahead_violated,
   ``Verif.Clock.C175_behind_violated,
   ``Verif.Clock.C175_simulated_partial,
   ``Verif.Clock.C175_since_partial,
   ``Verif.Clock.C175_since_violated,
   ``Verif.Clock.C175_started_partial,
   ``Verif.Clock.C175_units_partial,
   ``Verif.Clock.C176_back_violated,
   ``Verif.Clock.C176_chosen,
   ``Verif.Clock.C176_real,
   ``Verif.Clock.C176_states,
   ``Verif.Config.C177_enabled,
   ``Verif.Config.C177_first,
   ``Verif.Config.C177_stale_violated,
   ``Verif.Config.C177_unloaded,
   ``Verif.Config.C178_half_violated,
   ``Verif.Config.C178_kept_violated,
   ``Verif.Config.C178_load,
   ``Verif.Config.C178_without_violated,
   ``Verif.Config.C179_all_violated,
   ``Verif.Config.C179_bridges,
   ``Verif.Config.C179_default,
   ``Verif.Coord.C48_contents,
   ``Verif.Coord.C48_contents_request,
   ``Verif.Coord.C48_not_before,
   ``Verif.Coord.C48_once_partial,
   ``Verif.Coord.C48_own,
   ``Verif.Coord.C48_released,
   ``Verif.Coord.C48_twice,
   ``Verif.Coord.C48_violated_default,
   ``Verif.Coord.C48_violated_late,
   ``Verif.Coord.C48_violated_zero,
   ``Verif.Diagram.C188_directories,
   ``Verif.Diagram.C188_distinct,
   ``Verif.Diagram.C188_file_violated,
   ``Verif.Diagram.C188_files,
   ``Verif.Diagram.C188_limit_violated,
   ``Verif.Diagram.C188_overflow_violated,
   ``Verif.Diagram.C188_removed_violated,
   ``Verif.Diagram.C188_reported,
   ``Verif.Diagram.C188_slash_violated,
   ``Verif.Diagram.C188_sub,
   ``Verif.Diagram.C188_success_violated,
   ``Verif.Diagram.C189_response,
   ``Verif.Diagram.C189_run,
   ``Verif.Diagram.C189_saved,
   ``Verif.Diagram.C189_second_violated,
   ``Verif.Diagram.C189_unknown,
   ``Verif.Dpss.C165_again_violated,
   ``Verif.Dpss.C165_greedy,
   ``Verif.Dpss.C165_metre_violated,
   ``Verif.Dpss.C165_near_partial,
   ``Verif.Dpss.C165_number,
   ``Verif.Dpss.C165_plan,
   ``Verif.Dpss.C165_points,
   ``Verif.Dpss.C166_far_violated,
   ``Verif.Dpss.C166_plan_violated,
   ``Verif.Dpss.C166_removed_partial,
   ``Verif.Dpss.C166_twice_violated,
   ``Verif.Dpss.C167_all,
   ``Verif.Dpss.C167_bend_partial,
   ``Verif.Dpss.C167_clean,
   ``Verif.Dpss.C167_ends_partial,
   ``Verif.Dpss.C167_parallel_violated,
   ``Verif.Dpss.C167_reverse_partial,
   ``Verif.Dpss.C167_segment_partial,
   ``Verif.Dpss.C167_side_violated,
   ``Verif.Dpss.C167_total,
   ``Verif.Dpss.C167_undefined,
   ``Verif.Dpss.C168_set,
   ``Verif.Dpss.C168_share_partial,
   ``Verif.Dpss.C168_twice_violated,
   ``Verif.Dpss.C169_cmasi,
   ``Verif.Dpss.C169_east_violated,
   ``Verif.Dpss.C169_says_partial,
   ``Verif.Dpss.C169_some,
   ``Verif.Dpss.C169_straight_violated,
   ``Verif.Dpss.C170_again_violated,
   ``Verif.Dpss.C170_last,
   ``Verif.Dpss.C170_looks_partial,
   ``Verif.Dpss.C170_one,
   ``Verif.Dpss.C170_silent,
   ``Verif.Dpss.C170_switch_violated,
   ``Verif.Dpss.C170_unknown,
   ``Verif.Dpss.C183_empty_violated,
   ``Verif.Dpss.C183_object_partial,
   ``Verif.Dpss.C183_object_violated,
   ``Verif.Dpss.C183_point,
   ``Verif.Dpss.C183_short,
   ``Verif.Dubins.C171_arrives,
   ``Verif.Dubins.C171_back_violated,
   ``Verif.Dubins.C171_direct,
   ``Verif.Dubins.C171_route_partial,
   ``Verif.Dubins.C171_straight,
   ``Verif.Dubins.C171_turns,
   ``Verif.Dubins.C172_same_partial,
   ``Verif.Dubins.C172_turn_violated,
   ``Verif.Dubins.C173_length,
   ``Verif.Dubins.C173_turn,
   ``Verif.Dubins.C173_undefined,
   ``Verif.Dubins.C191_at_violated,
   ``Verif.Dubins.C191_first,
   ``Verif.Dubins.C191_heading,
   ``Verif.Dubins.C191_leg_violated,
   ``Verif.Dubins.C191_only,
   ``Verif.Dubins.C191_only_violated,
   ``Verif.Dubins.C191_route_partial,
   ``Verif.Dubins.C191_short,
   ``Verif.Dubins.C191_straight,
   ``Verif.Dubins.C191_straight_only,
   ``Verif.Dynamic.C147_first,
   ``Verif.Dynamic.C147_pace,
   ``Verif.Dynamic.C148_no_failure_partial,
   ``Verif.Dynamic.C148_null_violated,
   ``Verif.Dynamic.C148_quiet,
   ``Verif.Dynamic.C148_request,
   ``Verif.Dynamic.C148_sent,
   ``Verif.Dynamic.C148_stuck_violated,
   ``Verif.Dynamic.C149_loiter,
   ``Verif.Dynamic.C149_mission,
   ``Verif.Dynamic.C149_others,
   ``Verif.Dynamic.C149_radius,
   ``Verif.Dynamic.C149_stares,
   ``Verif.Dynamic.C150_edge_violated,
   ``Verif.Dynamic.C150_first,
   ``Verif.Dynamic.C150_free,
   ``Verif.Dynamic.C150_inside,
   ``Verif.Dynamic.C150_inside_any,
   ``Verif.Dynamic.C150_known,
   ``Verif.Dynamic.C150_near,
   ``Verif.Dynamic.C150_region_violated,
   ``Verif.Dynamic.C150_second_violated,
   ``Verif.Dynamic.C150_within_violated,
   ``Verif.Dynamic.C151_null_violated,
   ``Verif.Dynamic.C151_options,
   ``Verif.Dynamic.C151_total,
   ``Verif.Dynamic.C152_east_partial,
   ``Verif.Dynamic.C152_none,
   ``Verif.Dynamic.C152_north_violated,
   ``Verif.Dynamic.C152_recent,
   ``Verif.Dynamic.C152_window,
   ``Verif.Dynamic.C153_best,
   ``Verif.Dynamic.C153_between,
   ``Verif.Dynamic.C153_stays,
   ``Verif.Dynamic.C153_supported,
   ``Verif.Earth.C127_antimeridian_violated,
   ``Verif.Earth.C127_degrees_violated,
   ``Verif.Earth.C127_ellipsoid,
   ``Verif.Earth.C127_history_violated,
   ``Verif.Earth.C127_inverse,
   ``Verif.Earth.C127_metric,
   ``Verif.Earth.C127_origin,
   ``Verif.Earth.C127_units_partial,
   ``Verif.Earth.C127_unset,
   ``Verif.Earth.C128_direction,
   ``Verif.Earth.C128_exact,
   ``Verif.Earth.C128_idempotent_violated,
   ``Verif.Earth.C128_range_partial,
   ``Verif.Earth.C128_range_violated,
   ``Verif.Earth.C128_reference,
   ``Verif.Earth.C128_turns,
   ``Verif.Earth.C129_integer_partial,
   ``Verif.Earth.C129_integer_violated,
   ``Verif.Earth.C129_negative,
   ``Verif.Earth.C129_place,
   ``Verif.Escort.C143_closest,
   ``Verif.Escort.C144_lost,
   ``Verif.Escort.C144_none,
   ``Verif.Escort.C144_place,
   ``Verif.Escort.C144_total,
   ``Verif.Escort.C145_against_violated,
   ``Verif.Escort.C145_ahead_violated,
   ``Verif.Escort.C145_distance,
   ``Verif.Escort.C145_flip_partial,
   ``Verif.Escort.C145_nearest_partial,
   ``Verif.Escort.C145_on_line_violated,
   ``Verif.Escort.C145_order,
   ``Verif.Escort.C145_rest_violated,
   ``Verif.Extend.C130_answer,
   ``Verif.Extend.C130_near,
   ``Verif.Extend.C130_negative_violated,
   ``Verif.Extend.C130_path,
   ``Verif.Extend.C130_required,
   ``Verif.Extend.C130_zero_violated,
   ``Verif.Extend.C131_actions_violated,
   ``Verif.Extend.C131_answer,
   ``Verif.Extend.C131_extend,
   ``Verif.Extend.C131_legs,
   ``Verif.Extend.C131_loop_violated,
   ``Verif.Extend.C131_refused,
   ``Verif.Extend.C131_zero_violated,
   ``Verif.Grid.C193_attempt_ends,
   ``Verif.Grid.C193_close_corners_violated,
   ``Verif.Grid.C193_flat_violated,
   ``Verif.Grid.C193_in_polygon_partial,
   ``Verif.Grid.C193_on_line_violated,
   ``Verif.Grid.C193_on_way_violated,
   ``Verif.Grid.C193_upper_edge_violated,
   ``Verif.Leash.C88_confirmed,
   ``Verif.Leash.C88_released,
   ``Verif.Leash.C88_violated_foreign,
   ``Verif.Leash.C89_contents_partial,
   ``Verif.Leash.C89_request,
   ``Verif.Leash.C89_violated_altitude,
   ``Verif.Leash.C89_violated_rate,
   ``Verif.Log.C184_entry,
   ``Verif.Log.C184_loggers,
   ``Verif.Log.C184_thread_violated,
   ``Verif.Log.C185_complete,
   ``Verif.Log.C185_files,
   ``Verif.Log.C185_lost_violated,
   ``Verif.Log.C185_names,
   ``Verif.Log.C186_exact,
   ``Verif.Log.C186_forged_violated,
   ``Verif.Log.C186_log,
   ``Verif.Log.C186_lost_violated,
   ``Verif.Log.C186_messages,
   ``Verif.Log.C186_own_id_violated,
   ``Verif.Log.C186_reopen_violated,
   ``Verif.Log.C186_row,
   ``Verif.Log.C187_ampersand_violated,
   ``Verif.Log.C187_back,
   ``Verif.Log.C187_back_violated,
   ``Verif.Log.C187_clean,
   ``Verif.Log.C187_escape,
   ``Verif.Loiter.C199_apart_partial,
   ``Verif.Loiter.C199_between_violated,
   ``Verif.Loiter.C199_boundary_violated,
   ``Verif.Loiter.C199_circle_partial,
   ``Verif.Loiter.C199_depth_partial,
   ``Verif.Loiter.C199_first_partial,
   ``Verif.Loiter.C199_polygon_violated,
   ``Verif.Main.C202_fails,
   ``Verif.Main.C202_freed_running_violated,
   ``Verif.Main.C202_negative_violated,
   ``Verif.Main.C202_no_number_violated,
   ``Verif.Main.C202_no_value_violated,
   ``Verif.Main.C202_path,
   ``Verif.Main.C202_runs,
   ``Verif.Main.C202_unknown,
   ``Verif.Manager.C204_empty_violated,
   ``Verif.Manager.C204_left_running_violated,
   ``Verif.Manager.C204_nothing,
   ``Verif.Manager.C204_started_partial,
   ``Verif.Manager.C205_bridges,
   ``Verif.Manager.C205_left_violated,
   ``Verif.Manager.C205_not_early,
   ``Verif.Manager.C205_not_waited_violated,
   ``Verif.Manager.C205_returns,
   ``Verif.Manager.C205_stopped,
   ``Verif.Manager.C205_time_over_partial,
   ``Verif.Manager.C206_asked_partial,
   ``Verif.Manager.C206_only_then_partial,
   ``Verif.Manager.C206_passes_partial,
   ``Verif.Manager.C206_race_later_violated,
   ``Verif.Manager.C206_race_violated,
   ``Verif.Manager.C20_collision_violated,
   ``Verif.Manager.C20_create_result,
   ``Verif.Manager.C20_ends_only_when_asked,
   ``Verif.Manager.C20_kill_all,
   ``Verif.Manager.C20_kill_manager_violated,
   ``Verif.Manager.C20_only_created,
   ``Verif.Manager.C20_tracked_until_gone_partial,
   ``Verif.Manager.C20_unique_ids,
   ``Verif.Manager.C20_wide_id_violated,
   ``Verif.Manager.C24_fresh_ids_partial,
   ``Verif.Manager.C24_kills_created,
   ``Verif.Manager.C24_old_killed_before_new,
   ``Verif.Manager.C24_remove_partial,
   ``Verif.Manager.C24_silent,
   ``Verif.Manager.C24_task_partial,
   ``Verif.Manager.C24_two_alive_violated,
   ``Verif.Manager.C63_knowledge,
   ``Verif.Manager.C64_empty_pattern_violated,
   ``Verif.Manager.C64_escape_round_trip,
   ``Verif.Manager.C64_escaped,
   ``Verif.Manager.C64_round_trip_violated,
   ``Verif.Manager.C64_service_text,
   ``Verif.Manager.C65_entry_zero_violated,
   ``Verif.Manager.C65_id_zero_violated,
   ``Verif.Manager.C65_options_partial,
   ``Verif.Msg.C01_wire_round_trip,
   ``Verif.Msg.C02_accepts_iff_wire_form_partial,
   ``Verif.Msg.C02_nonempty_address_violated,
   ``Verif.Msg.C02_reported_fields,
   ``Verif.Msg.C02_wire_form_unique,
   ``Verif.Msg.C03_attribute_delimiter_violated,
   ``Verif.Msg.C03_parse_back_partial,
   ``Verif.Msg.C03_parse_back_violated,
   ``Verif.Msg.C03_valid_string_matches_fields,
   ``Verif.Msg.C04_one_byte_violated,
   ``Verif.Msg.C04_two_part_round_trip_partial,
   ``Verif.Msg.C05_split_inverse_of_join,
   ``Verif.Msg.C05_split_limited,
   ``Verif.Msg.C05_split_limited_append,
   ``Verif.Msg.C05_split_zero_limit_ub,
   ``Verif.Net.C11_client_id_violated,
   ``Verif.Net.C11_client_ids_distinct_partial,
   ``Verif.Net.C11_message_ids_distinct,
   ``Verif.Net.C11_wrap_violated,
   ``Verif.Net.C12_complete_partial,
   ``Verif.Net.C12_delimiter_violated,
   ``Verif.Net.C12_prefix_partial,
   ``Verif.Net.C13_never_returns_violated,
   ``Verif.Net.C13_returns_partial,
   ``Verif.Net.C14_delivered,
   ``Verif.Net.C14_only_addressee_partial,
   ``Verif.Net.C14_prefix_violated,
   ``Verif.Net.C18_exception_violated,
   ``Verif.Net.C18_foreign_kill_violated,
   ``Verif.Net.C18_given_id_bridge_violated,
   ``Verif.Net.C18_given_id_service,
   ``Verif.Net.C18_lmcp_loop,
   ``Verif.Net.C18_serialized_loop_partial,
   ``Verif.Net.C19_never_aborts_violated,
   ``Verif.Net.C19_waits_forever_violated,
   ``Verif.Net.C19_warns_partial,
   ``Verif.Net.C207_addresses_partial,
   ``Verif.Net.C207_lost_violated,
   ``Verif.Net.C207_other_entity_violated,
   ``Verif.Net.C59_lost_request_violated,
   ``Verif.Net.C59_requests_take_effect_partial,
   ``Verif.Options.C100_partial,
   ``Verif.Options.C100_violated_again,
   ``Verif.Options.C100_violated_all,
   ``Verif.Options.C100_violated_ineligible,
   ``Verif.Options.C100_violated_second,
   ``Verif.Options.C101_all,
   ``Verif.Options.C101_choice_partial,
   ``Verif.Options.C101_violated_fewer,
   ``Verif.Options.C101_violated_limit,
   ``Verif.Options.C101_violated_order,
   ``Verif.Options.C101_violated_throws,
   ``Verif.Options.C102_allowed,
   ``Verif.Options.C102_assignment_partial,
   ``Verif.Options.C102_chosen_partial,
   ``Verif.Options.C102_cordon_partial,
   ``Verif.Options.C102_first_only,
   ``Verif.Options.C102_once_area,
   ``Verif.Options.C102_once_line,
   ``Verif.Options.C102_once_single,
   ``Verif.Options.C102_once_together,
   ``Verif.Options.C102_single_partial,
   ``Verif.Options.C102_violated_cordon,
   ``Verif.Options.C102_violated_rendezvous,
   ``Verif.Options.C92_exact,
   ``Verif.Options.C92_group,
   ``Verif.Options.C92_once_partial,
   ``Verif.Options.C92_violated,
   ``Verif.Options.C93_cmasiPoint,
   ``Verif.Options.C93_dynamic,
   ``Verif.Options.C93_impactPoint,
   ``Verif.Options.C93_impactPoint_any,
   ``Verif.Options.C93_loiter,
   ``Verif.Options.C93_mustFly,
   ``Verif.Options.C93_violated_loiter,
   ``Verif.Options.C94_angled,
   ``Verif.Options.C94_area,
   ``Verif.Options.C94_area_once,
   ``Verif.Options.C94_pattern,
   ``Verif.Options.C94_pattern_partial,
   ``Verif.Options.C94_violated_pattern,
   ``Verif.Options.C95_angled,
   ``Verif.Options.C95_area_partial,
   ``Verif.Options.C95_pattern,
   ``Verif.Options.C95_violated_area,
   ``Verif.Options.C96_cmasi,
   ``Verif.Options.C96_cmasi_partial,
   ``Verif.Options.C96_impact_partial,
   ``Verif.Options.C96_violated_cmasi,
   ``Verif.Options.C96_violated_impact,
   ``Verif.Options.C97_partial,
   ``Verif.Options.C97_unknown,
   ``Verif.Options.C97_violated,
   ``Verif.Options.C97_violated_fewer,
   ``Verif.Options.C98_area_elevations,
   ``Verif.Options.C98_area_none,
   ``Verif.Options.C98_elevations_limits,
   ``Verif.Options.C98_line_elevations,
   ``Verif.Options.C98_line_nonempty,
   ``Verif.Options.C98_no_wedge,
   ``Verif.Options.C98_once_partial,
   ``Verif.Options.C98_violated_circle,
   ``Verif.Options.C98_violated_horizon,
   ``Verif.Options.C98_wedge_covered,
   ``Verif.Options.C98_wedge_only,
   ``Verif.Options.C99_cmasi,
   ``Verif.Options.C99_violated,
   ``Verif.Pattern.C141_ends,
   ``Verif.Pattern.C141_large_violated,
   ``Verif.Pattern.C141_legs,
   ``Verif.Pattern.C141_request,
   ``Verif.Pattern.C141_seen_partial,
   ``Verif.Pattern.C141_sent,
   ``Verif.Pattern.C141_wedge_violated,
   ``Verif.Pattern.C142_cost_violated,
   ``Verif.Pattern.C142_ends,
   ``Verif.Pattern.C142_hole_violated,
   ``Verif.Pattern.C142_near_partial,
   ``Verif.Pattern.C142_negative_violated,
   ``Verif.Pattern.C142_option,
   ``Verif.Pattern.C142_points,
   ``Verif.Permute.C91_combinations,
   ``Verif.Permute.C91_every,
   ``Verif.Permute.C91_once,
   ``Verif.PlanBuilder.C39_begins,
   ``Verif.PlanBuilder.C39_defined,
   ``Verif.PlanBuilder.C39_empty_violated,
   ``Verif.PlanBuilder.C39_once,
   ``Verif.PlanBuilder.C39_order,
   ``Verif.PlanBuilder.C39_plan_partial,
   ``Verif.PlanBuilder.C39_published_partial,
   ``Verif.PlanBuilder.C39_stale_violated,
   ``Verif.PlanBuilder.C39_stalls_violated,
   ``Verif.PlanBuilder.C39_status,
   ``Verif.PlanBuilder.C40_after_partial,
   ``Verif.PlanBuilder.C40_repeat_violated,
   ``Verif.PlanBuilder.C40_unknown,
   ``Verif.PlanBuilder.C67_final_partial,
   ``Verif.PlanBuilder.C67_neighbours_partial,
   ``Verif.PlanBuilder.C67_start_partial,
   ``Verif.PlanBuilder.C67_twice_violated,
   ``Verif.PlanBuilder.C68_linked_partial,
   ``Verif.PlanBuilder.C68_numbers_partial,
   ``Verif.PlanBuilder.C68_repeat_violated,
   ``Verif.PlanBuilder.C69_cleared_partial,
   ``Verif.PlanBuilder.C69_first_partial,
   ``Verif.PlanBuilder.C69_other_violated,
   ``Verif.PlanBuilder.C69_second_violated,
   ``Verif.PlanBuilder.C70_loiter_partial,
   ``Verif.PlanBuilder.C70_several_violated,
   ``Verif.PlanBuilder.C70_turn,
   ``Verif.PlanBuilder.C71_commands,
   ``Verif.PlanBuilder.C72_assignment,
   ``Verif.PlanBuilder.C72_empty,
   ``Verif.Region.C46_none,
   ``Verif.Region.C46_order,
   ``Verif.Region.C46_padding,
   ``Verif.Region.C46_region,
   ``Verif.Rendezvous.C135_answer_partial,
   ``Verif.Rendezvous.C135_asked,
   ``Verif.Rendezvous.C135_circle_violated,
   ``Verif.Rendezvous.C135_linked,
   ``Verif.Rendezvous.C135_on_time,
   ``Verif.Rendezvous.C135_route,
   ``Verif.Rendezvous.C135_same_violated,
   ``Verif.Rendezvous.C135_speed_violated,
   ``Verif.Rendezvous.C135_start,
   ``Verif.Rendezvous.C135_start_fixed,
   ``Verif.Rendezvous.C135_total,
   ``Verif.Rendezvous.C135_unknown,
   ``Verif.Rendezvous.C135_zero_violated,
   ``Verif.Rendezvous.C136_active,
   ``Verif.Rendezvous.C136_agree,
   ``Verif.Rendezvous.C136_best,
   ``Verif.Rendezvous.C136_centre_violated,
   ``Verif.Rendezvous.C136_coast,
   ``Verif.Rendezvous.C136_direction,
   ``Verif.Rendezvous.C136_followed_violated,
   ``Verif.Rendezvous.C136_limits,
   ``Verif.Rendezvous.C136_unknown_violated,
   ``Verif.Rendezvous.C136_window,
   ``Verif.Rendezvous.C137_distance,
   ``Verif.Rendezvous.C137_mission,
   ``Verif.Rendezvous.C137_none,
   ``Verif.Rendezvous.C137_straight,
   ``Verif.Roads.C154_all,
   ``Verif.Roads.C154_made,
   ``Verif.Roads.C154_missing_violated,
   ``Verif.Roads.C154_piece,
   ``Verif.Roads.C154_planning,
   ``Verif.Roads.C154_second_violated,
   ``Verif.Roads.C155_edges,
   ``Verif.Roads.C155_exact_partial,
   ``Verif.Roads.C155_length_partial,
   ``Verif.Roads.C155_length_violated,
   ``Verif.Roads.C156_found,
   ``Verif.Roads.C156_near_partial,
   ``Verif.Roads.C156_nearest_violated,
   ``Verif.Roads.C156_none,
   ``Verif.Roads.C157_defined,
   ``Verif.Roads.C157_length_violated,
   ``Verif.Roads.C157_none_partial,
   ``Verif.Roads.C157_route,
   ``Verif.Roads.C157_short_partial,
   ``Verif.Roads.C157_shortest,
   ``Verif.Roads.C158_answered,
   ``Verif.Roads.C158_cost_partial,
   ``Verif.Roads.C158_cost_violated,
   ``Verif.Roads.C158_ids,
   ``Verif.Roads.C158_numbers,
   ``Verif.Roads.C158_places,
   ``Verif.Roads.C158_single_violated,
   ``Verif.Roads.C159_found_partial,
   ``Verif.Roads.C159_missed_violated,
   ``Verif.Roads.C159_places,
   ``Verif.Roads.C160_back_violated,
   ``Verif.Roads.C160_end_violated,
   ``Verif.Roads.C160_ends_partial,
   ``Verif.Roads.C160_line,
   ``Verif.Roads.C160_near,
   ``Verif.Roads.C160_order,
   ``Verif.Roads.C160_same_partial,
   ``Verif.RoutePlanner.C112_answer,
   ``Verif.RoutePlanner.C112_answers,
   ``Verif.RoutePlanner.C112_silent,
   ``Verif.RoutePlanner.C112_unreached_violated,
   ``Verif.RoutePlanner.C113_current_partial,
   ``Verif.RoutePlanner.C113_surface_violated,
   ``Verif.RoutePlanner.C113_total,
   ``Verif.RoutePlanner.C113_unknown,
   ``Verif.RoutePlanner.C114_changed_region_violated,
   ``Verif.RoutePlanner.C114_changed_zone_violated,
   ``Verif.RoutePlanner.C114_dense_violated,
   ``Verif.RoutePlanner.C114_derived_violated,
   ``Verif.RoutePlanner.C114_keeps_zones_partial,
   ``Verif.RoutePlanner.C114_late_zone_violated,
   ``Verif.RoutePlanner.C114_library_partial,
   ``Verif.RoutePlanner.C114_other_vehicle_violated,
   ``Verif.RoutePlanner.C114_padding_violated,
   ``Verif.Routes.C25_asked_partial,
   ``Verif.Routes.C25_every_route_once,
   ``Verif.Routes.C25_ids_distinct,
   ``Verif.Routes.C25_repeated_violated,
   ``Verif.Routes.C26_clash_violated,
   ``Verif.Routes.C26_fast_violated,
   ``Verif.Routes.C26_matrix_partial,
   ``Verif.Routes.C26_no_delay_partial,
   ``Verif.Routes.C26_no_routes_violated,
   ``Verif.Routes.C26_once_partial,
   ``Verif.Routes.C26_options_lost_violated,
   ``Verif.Routes.C26_stale_options_violated,
   ``Verif.Routes.C27_answer_partial,
   ``Verif.Routes.C27_asks,
   ``Verif.Routes.C27_exact_partial,
   ``Verif.Routes.C27_fast_violated,
   ``Verif.Routes.C27_no_delay_partial,
   ``Verif.Routes.C27_no_vehicles_violated,
   ``Verif.Routes.C27_once_partial,
   ``Verif.Routes.C27_same_id_violated,
   ``Verif.Routes.C66_cost_partial,
   ``Verif.Routes.C66_speed_ignored_violated,
   ``Verif.Search.C138_area,
   ``Verif.Search.C138_corners,
   ``Verif.Search.C138_ends,
   ``Verif.Search.C138_lanes,
   ``Verif.Search.C138_succeeds,
   ``Verif.Search.C139_headings,
   ``Verif.Search.C139_ids,
   ``Verif.Search.C139_joined,
   ``Verif.Search.C139_legs,
   ``Verif.Search.C139_other_violated,
   ``Verif.Search.C139_sent,
   ``Verif.Search.C139_spacing,
   ``Verif.Search.C140_across_partial,
   ``Verif.Search.C140_beneath,
   ``Verif.Search.C140_cmasi_rectangle_partial,
   ``Verif.Search.C140_corner_violated,
   ``Verif.Search.C140_far_side_violated,
   ``Verif.Search.C140_middle_lane_violated,
   ``Verif.Search.C140_rectangle_partial,
   ``Verif.Search.C140_rotation_violated,
   ``Verif.Search.C140_tip_violated,
   ``Verif.Sender.C49_at_most,
   ``Verif.Sender.C49_finished,
   ``Verif.Sender.C49_only,
   ``Verif.Sender.C49_sent_partial,
   ``Verif.Sender.C49_violated_empty,
   ``Verif.Sender.C49_violated_wrap,
   ``Verif.Sender.C49_violated_zero,
   ``Verif.Sensor.C123_answer,
   ``Verif.Sensor.C123_count,
   ``Verif.Sensor.C123_reconfigured_violated,
   ``Verif.Sensor.C124_closest,
   ``Verif.Sensor.C124_degrees_violated,
   ``Verif.Sensor.C124_empty_list_violated,
   ``Verif.Sensor.C124_highest_violated,
   ``Verif.Sensor.C124_horizon_violated,
   ``Verif.Sensor.C124_largest,
   ``Verif.Sensor.C124_limits_partial,
   ``Verif.Sensor.C124_no_elevation_violated,
   ``Verif.Sensor.C124_none,
   ``Verif.Sensor.C125_horizon_violated,
   ``Verif.Sensor.C125_order_partial,
   ``Verif.Sensor.C125_triangle,
   ``Verif.Sensor.C125_width,
   ``Verif.Sensor.C125_width_nonneg,
   ``Verif.Sentinel.C06_inner_terminator_violated,
   ``Verif.Sentinel.C06_leading_marker_violated,
   ``Verif.Sentinel.C06_round_trip_any_chunking_partial,
   ``Verif.Sentinel.C07_resynchronises,
   ``Verif.Sentinel.C08_altered_byte_not_delivered,
   ``Verif.Sentinel.C08_delivered_payload_is_checked,
   ``Verif.Sentinel.C08_every_history,
   ``Verif.Sentinel.C08_swapped_bytes_delivered,
   ``Verif.Sentinel.C09_empty_number_violated,
   ``Verif.Sentinel.C09_large_sum_violated,
   ``Verif.Sentinel.C09_throws_only_on_bad_number_partial,
   ``Verif.Sentinel.C10_complete_frame_left_violated,
   ``Verif.Sentinel.C10_drain_delivers_all_partial,
   ``Verif.Sentinel.C10_drain_terminates,
   ``Verif.Serial.C47_idle,
   ``Verif.Serial.C47_one,
   ``Verif.Serial.C47_order,
   ``Verif.Serial.C47_outstanding,
   ``Verif.Serial.C47_serial,
   ``Verif.Serial.C47_violated,
   ``Verif.SimpleWp.C90_forward,
   ``Verif.SimpleWp.C90_linked,
   ``Verif.SimpleWp.C90_only,
   ``Verif.Stare.C161_altitude_violated,
   ``Verif.Stare.C161_coinciding_violated,
   ``Verif.Stare.C161_first,
   ``Verif.Stare.C161_near,
   ``Verif.Stare.C161_point_road_violated,
   ``Verif.Stare.C161_unknown,
   ``Verif.Stare.C162_same_start_violated,
   ``Verif.Stare.C162_segment,
   ``Verif.Stare.C162_spiral_inner,
   ``Verif.Stare.C162_spiral_outer,
   ``Verif.Stare.C162_spiral_whole,
   ``Verif.Stare.C162_start,
   ``Verif.Stare.C163_area,
   ``Verif.Stare.C163_command,
   ``Verif.Stare.C163_first_gimbal,
   ``Verif.Stare.C163_first_plan,
   ``Verif.Stare.C163_later_config_violated,
   ``Verif.Stare.C163_left_over_violated,
   ``Verif.Stare.C163_look,
   ``Verif.Stare.C163_nowhere_violated,
   ``Verif.Stare.C163_point,
   ``Verif.Stare.C163_replanned_violated,
   ``Verif.Stare.C163_stream_camera,
   ``Verif.Stare.C163_stream_missed_violated,
   ``Verif.Stare.C163_stream_once,
   ``Verif.Stare.C163_stream_shown,
   ``Verif.Stare.C164_command,
   ``Verif.Stare.C164_number_violated,
   ``Verif.Stare.C164_options,
   ``Verif.Stare.C164_silent,
   ``Verif.Status.C126_authorised,
   ``Verif.Status.C126_configure,
   ``Verif.Status.C126_contents,
   ``Verif.Status.C126_fresh_partial,
   ``Verif.Status.C126_fresh_violated,
   ``Verif.Status.C126_period_partial,
   ``Verif.Status.C126_restart_violated,
   ``Verif.Status.C126_stale,
   ``Verif.Steering.C132_first,
   ``Verif.Steering.C132_forward,
   ``Verif.Steering.C132_loiter,
   ``Verif.Steering.C132_passed_violated,
   ``Verif.Steering.C132_patrol,
   ``Verif.Steering.C132_patrol_violated,
   ``Verif.Steering.C132_report,
   ``Verif.Steering.C132_route,
   ``Verif.Steering.C133_command,
   ``Verif.Steering.C133_jump_violated,
   ``Verif.Steering.C133_line,
   ``Verif.Steering.C133_orbit,
   ``Verif.Steering.C133_point,
   ``Verif.Steering.C133_radius_violated,
   ``Verif.Steering.C133_range,
   ``Verif.Steering.C133_settles,
   ``Verif.Steering.C133_slope,
   ``Verif.Steering.C133_straight,
   ``Verif.Steering.C134_region_partial,
   ``Verif.Steering.C134_request_partial,
   ``Verif.Steering.C134_sandbox_violated,
   ``Verif.System.C194_answered_partial,
   ``Verif.System.C194_feasible_partial,
   ``Verif.System.C194_late_violated,
   ``Verif.System.C194_traceable_partial,
   ``Verif.Task.C180_chain,
   ``Verif.Task.C180_empty_violated,
   ``Verif.Task.C180_loiter_partial,
   ``Verif.Task.C180_twice_violated,
   ``Verif.Task.C180_unknown,
   ``Verif.Task.C181_altitude,
   ``Verif.Task.C181_chain,
   ``Verif.Task.C182_chain,
   ``Verif.Task.C182_point_partial,
   ``Verif.Task.C182_surface_violated,
   ``Verif.Task.C182_twice_violated,
   ``Verif.Task.C41_chain,
   ``Verif.Task.C41_ends_partial,
   ``Verif.Task.C41_numbers,
   ``Verif.Task.C41_violated,
   ``Verif.Task.C50_active,
   ``Verif.Task.C50_alternates_partial,
   ``Verif.Task.C50_began,
   ``Verif.Task.C50_complete,
   ``Verif.Task.C50_violated,
   ``Verif.Task.C51_once_partial,
   ``Verif.Task.C51_violated_never,
   ``Verif.Task.C51_violated_twice,
   ``Verif.Task.C73_time_partial,
   ``Verif.Task.C73_violated,
   ``Verif.Task.C74_cost,
   ``Verif.Task.C74_sent,
   ``Verif.Task.C75_once,
   ``Verif.Task.C75_violated,
   ``Verif.Task.C76_nominal_partial,
   ``Verif.Task.C76_violated,
   ``Verif.Task.C77_only,
   ``Verif.Task.C78_resume,
   ``Verif.Task.C78_violated,
   ``Verif.Timer.C44_independent_partial,
   ``Verif.Timer.C44_restart_violated,
   ``Verif.Timer.C44_violated,
   ``Verif.Timer.C45_cancelled_silent_partial,
   ``Verif.Timer.C45_defined_partial,
   ``Verif.Timer.C45_destroyMany_count,
   ``Verif.Timer.C45_destroyMany_unknown_violated,
   ``Verif.Timer.C45_destroy_in_handler_violated,
   ``Verif.Timer.C45_disable_violated,
   ``Verif.Timer.C45_expiry_order,
   ``Verif.Timer.C45_gone_answers,
   ``Verif.Timer.C45_nothing_overdue,
   ``Verif.Timer.C45_periodic_count_partial,
   ``Verif.Timer.C45_phases_partial,
   ``Verif.Timer.C45_restart_in_handler_violated,
   ``Verif.Timer.C45_single_shot_once_partial,
   ``Verif.Timer.C45_start_never_waits,
   ``Verif.Tracker.C79_exact_partial,
   ``Verif.Tracker.C79_left_partial,
   ``Verif.Tracker.C79_violated_lost,
   ``Verif.Tracker.C79_violated_twice,
   ``Verif.Tracker.C80_only_partial,
   ``Verif.Tracker.C80_violated_other,
   ``Verif.Tracker.C80_violated_stale,
   ``Verif.Tracker.C81_end,
   ``Verif.Tracker.C81_stays_partial,
   ``Verif.Tracker.C81_violated_repeat,
   ``Verif.Tracker.C82_eligible,
   ``Verif.Validator.C21_arrival_order,
   ``Verif.Validator.C21_no_second_timeout_violated,
   ``Verif.Validator.C21_one_distinct_in_flight,
   ``Verif.Validator.C21_one_in_flight_partial,
   ``Verif.Validator.C21_published_twice_violated,
   ``Verif.Validator.C22_answered_twice_violated,
   ``Verif.Validator.C22_answers_match_requests_partial,
   ``Verif.Validator.C22_exactly_once_partial,
   ``Verif.Validator.C22_id_collision_violated,
   ``Verif.Validator.C22_plan_belongs_to_request,
   ``Verif.Validator.C22_response_answered_partial,
   ``Verif.Validator.C22_task_timeout_violated,
   ``Verif.Validator.C23_admission_sound,
   ``Verif.Validator.C23_removed_task_violated,
   ``Verif.Validator.C54_admission_complete_partial,
   ``Verif.Validator.C54_planning_states_violated,
   ``Verif.Validator.C54_refused_with_error,
   ``Verif.Validator.C55_no_complete_vehicle_violated,
   ``Verif.Validator.C55_some_vehicle_partial,
   ``Verif.Validator.C56_response_timer_partial,
   ``Verif.Validator.C56_second_wait_violated,
   ``Verif.Validator.C56_task_timer_partial,
   ``Verif.Validator.C57_all_answered_partial,
   ``Verif.Validator.C57_blocked_violated,
   ``Verif.Validator.C57_not_idle_partial,
   ``Verif.Visibility.Boundary.C192_circle_near,
   ``Verif.Visibility.Boundary.C192_circle_partial,
   ``Verif.Visibility.Boundary.C192_circle_violated,
   ``Verif.Visibility.Boundary.C192_padding,
   ``Verif.Visibility.Boundary.C192_polygon,
   ``Verif.Visibility.Boundary.C192_rectangle,
   ``Verif.Visibility.Boundary.C192_unknown,
   ``Verif.Visibility.C107_admissible,
   ``Verif.Visibility.C107_apart_violated,
   ``Verif.Visibility.C107_complete,
   ``Verif.Visibility.C107_found,
   ``Verif.Visibility.C107_shortest,
   ``Verif.Visibility.C107_straight,
   ``Verif.Visibility.C107_unreachable_violated,
   ``Verif.Visibility.C108_boundary_violated,
   ``Verif.Visibility.C108_end_violated,
   ``Verif.Visibility.C108_keeps_in,
   ``Verif.Visibility.C108_keeps_out,
   ``Verif.Visibility.C108_leave_violated,
   ``Verif.Visibility.C109_intersects_partial,
   ``Verif.Visibility.C109_overlap_violated,
   ``Verif.Visibility.C109_point_partial,
   ``Verif.Visibility.C109_point_violated,
   ``Verif.Visibility.C110_convex,
   ``Verif.Visibility.C111_answer,
   ``Verif.Visibility.C111_changed_violated,
   ``Verif.Visibility.C111_late_zone_violated,
   ``Verif.Visibility.C111_shortest,
   ``Verif.Visibility.C111_silent,
   ``Verif.Visibility.C111_surface_violated,
   ``Verif.Visibility.C111_unreachable_violated,
   ``Verif.Visibility.C111_wide_ids_violated,
   ``Verif.Visibility.tables_shortest,
   ``Verif.Visilib.C115_boundary,
   ``Verif.Visilib.C115_defined,
   ``Verif.Visilib.C115_nearest,
   ``Verif.Visilib.C116_convex,
   ``Verif.Visilib.C116_convex_exact,
   ``Verif.Visilib.C116_cross,
   ``Verif.Visilib.C116_defined,
   ``Verif.Visilib.C116_outside,
   ``Verif.Visilib.C116_same,
   ``Verif.Visilib.C117_distance,
   ``Verif.Visilib.C117_intersect,
   ``Verif.Visilib.C117_meet,
   ``Verif.Visilib.C117_proper,
   ``Verif.Visilib.C118_area,
   ``Verif.Visilib.C118_orientation,
   ``Verif.Visilib.C118_recognised,
   ``Verif.Visilib.C118_reversed,
   ``Verif.Visilib.C118_same,
   ``Verif.Visilib.C118_standard,
   ``Verif.Visilib.C119_clear_partial,
   ``Verif.Visilib.C119_few,
   ``Verif.Visilib.C119_kept_partial,
   ``Verif.Visilib.C119_lost_violated,
   ``Verif.Visilib.C119_same_partial,
   ``Verif.Visilib.C120_defined,
   ``Verif.Visilib.C120_in,
   ``Verif.Visilib.C121_closing_violated,
   ``Verif.Visilib.C121_defined,
   ``Verif.Visilib.C121_distance,
   ``Verif.Visilib.C121_no_hole,
   ``Verif.Visilib.C121_simple_partial,
   ``Verif.Visilib.C121_valid,
   ``Verif.Visilib.C121_within,
   ``Verif.Visilib.Graph.C122_ends,
   ``Verif.Visilib.Graph.C122_none,
   ``Verif.Visilib.Graph.C122_path,
   ``Verif.Visilib.Graph.C122_start_violated,
   ``Verif.Visilib.Merge.C196_apart,
   ``Verif.Visilib.Merge.C196_clique,
   ``Verif.Visilib.Merge.C196_forever_violated,
   ``Verif.Visilib.Merge.C196_kept_partial,
   ``Verif.Visilib.Merge.C196_lost_violated,
   ``Verif.Visilib.Merge.C196_outside_violated,
   ``Verif.Visilib.Merge.C196_three,
   ``Verif.Visilib.Merge.C196_three_partial,
   ``Verif.Visilib.Padding.C197_covered,
   ``Verif.Visilib.Padding.C197_not_far,
   ``Verif.Visilib.Padding.C197_zones,
   ``Verif.Visilib.Padding.C197_zones_only,
   ``Verif.Visilib.PaddingMerge.C200_apart_partial,
   ``Verif.Visilib.PaddingMerge.C200_near_violated,
   ``Verif.Visilib.PaddingMerge.C200_squares_violated,
   ``Verif.Visilib.Zones.C198_order_violated,
   ``Verif.Visilib.Zones.C198_padded_partial,
   ``Verif.Visilib.Zones.C198_region_violated,
   ``Verif.Visilib.Zones.C198_swapped_violated,
   ``Verif.Visilib.Zones.C198_taken_partial,
   ``Verif.Waypoint.C42_covers_partial,
   ``Verif.Waypoint.C42_decorations_partial,
   ``Verif.Waypoint.C42_exact_partial,
   ``Verif.Waypoint.C42_lost_waypoint_violated,
   ``Verif.Waypoint.C42_negative_number_violated,
   ``Verif.Waypoint.C42_no_waypoint_lost_partial,
   ``Verif.Waypoint.C42_overlap_configured,
   ``Verif.Waypoint.C42_overlap_violated,
   ``Verif.Waypoint.C42_segments_partial,
   ``Verif.Waypoint.C43_in_order_partial,
   ``Verif.Waypoint.C43_sent_once,
   ``Verif.Waypoint.C43_served_partial,
   ``Verif.Waypoint.C43_stuck_violated,
   ``Verif.Waypoint.C58_last_waypoint_partial,
   ``Verif.Waypoint.C58_loiter_speed_violated,
   ``Verif.Waypoint.C58_segment_ends]

open Lean Elab Command Verif.Audit in
run_cmd do
  for n in audited do
    for a in ← liftCoreM (collectAxioms n) do
      unless a ∈ [``propext, ``Classical.choice, ``Quot.sound] do
        throwError "{n} depends on the axiom {a}"
