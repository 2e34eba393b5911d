{
 "claims": [
  {
   "property": "C01",
   "status": "proved",
   "theorems": [
    "Verif.CyclicVec.cycleElement_spec",
    "Verif.CyclicVec.cycleUnsignedElement_spec",
    "Verif.CyclicVec.signed_unique",
    "Verif.CyclicVec.unsigned_unique",
    "Verif.CyclicVec.cycleElement_eq_iff",
    "Verif.CyclicVec.cycleUnsignedElement_eq_iff",
    "Verif.CyclicVec.cycleElement_idem",
    "Verif.CyclicVec.cycleUnsignedElement_idem",
    "Verif.CyclicVec.cycleElement_zero",
    "Verif.CyclicVec.cycle_spec",
    "Verif.CyclicVec.cycleUnsigned_spec"
   ],
   "note": "int is unbounded Int"
  },
  {
   "property": "C02",
   "status": "proved",
   "theorems": [
    "Verif.Gridmap.offset_safe",
    "Verif.Gridmap.validate_iff",
    "Verif.Gridmap.validated_access",
    "Verif.Gridmap.validation_aliases"
   ],
   "note": "with ENABLE_VALIDATION positions outside the map are safe but may alias a cell of the map (validation_aliases); the nodes do not enable it"
  },
  {
   "property": "C03",
   "status": "proved",
   "theorems": [
    "Verif.Gridmap.gridmap_refines"
   ],
   "note": ""
  },
  {
   "property": "C04",
   "status": "proved",
   "theorems": [
    "Verif.Heap.top_is_best",
    "Verif.Heap.queue_refines_bag",
    "Verif.Heap.popBack_keeps_top"
   ],
   "note": "std::push_heap/pop_heap by contract"
  },
  {
   "property": "C05",
   "status": "proved",
   "theorems": [
    "Verif.Astar.search_path_legal"
   ],
   "note": ""
  },
  {
   "property": "C06",
   "status": "proved",
   "theorems": [
    "Verif.Astar.predecessors_loop_free",
    "Verif.Astar.found_returns_true",
    "Verif.Astar.best_effort_path_legal"
   ],
   "note": ""
  },
  {
   "property": "C07",
   "status": "proved",
   "theorems": [
    "Verif.Astar.exhausted_unreachable",
    "Verif.Astar.zero_tasks_never_finds"
   ],
   "note": "requires at least one task per round and no float overflow along routes; with zero tasks the property is false (zero_tasks_never_finds)"
  },
  {
   "property": "C08",
   "status": "proved",
   "theorems": [
    "Verif.Astar.search_terminates",
    "Verif.Astar.search_progress",
    "Verif.Astar.ends_exact",
    "Verif.Model3D.search_ends",
    "Verif.Model3D.search_answers",
    "Verif.Model3D.plan_ends"
   ],
   "note": "search_terminates holds for every type of costs (floating point or exact); ends_exact and plan_ends apply it to exact costs and to the 3-DOF planner"
  },
  {
   "property": "C09",
   "status": "proved",
   "theorems": [
    "Verif.Astar.path_optimal",
    "Verif.Astar.batch_not_optimal",
    "Verif.Astar.multi_start_not_optimal"
   ],
   "note": "exact addition; false for several tasks per round and for starts that are not themselves optimal (counterexamples proved)"
  },
  {
   "property": "C10",
   "status": "proved",
   "theorems": [
    "Verif.Astar.queue_bounded",
    "Verif.Astar.search_path_legal"
   ],
   "note": ""
  },
  {
   "property": "C100",
   "status": "proved",
   "theorems": [
    "Verif.LargeMap.shows_large",
    "Verif.LargeMap.robot_in_middle",
    "Verif.LargeMap.aligned",
    "Verif.LargeMap.odd_width_shifts",
    "Verif.LargeMap.publish_defined",
    "Verif.LargeMap.round_unknown"
   ],
   "note": "exact arithmetic"
  },
  {
   "property": "C101",
   "status": "partial",
   "theorems": [
    "Verif.LargeMap.occluded",
    "Verif.LargeMap.nearest_visible",
    "Verif.LargeMap.ring_is_wall",
    "Verif.LargeMap.surrounded",
    "Verif.LargeMap.hidden_does_not_hide"
   ],
   "note": "an obstacle that is hidden itself need not hide what is behind it (hidden_does_not_hide)"
  },
  {
   "property": "C102",
   "status": "proved",
   "theorems": [
    "Verif.TrajFile.recorded",
    "Verif.TrajFile.published_path",
    "Verif.TrajFile.cleared",
    "Verif.TrajFile.clear_waits",
    "Verif.TrajFile.turning_not_recorded"
   ],
   "note": "turning on the spot is never recorded although there is a parameter for it (turning_not_recorded)"
  },
  {
   "property": "C103",
   "status": "partial",
   "theorems": [
    "Verif.TrajFile.moved",
    "Verif.TrajFile.deleted",
    "Verif.TrajFile.added",
    "Verif.TrajFile.released",
    "Verif.TrajFile.edits_defined_partial",
    "Verif.TrajFile.status_last",
    "Verif.TrajFile.stale_marker",
    "Verif.TrajFile.empty_filtered"
   ],
   "note": "safe when all requested files can be opened and are not empty; otherwise see stale_marker, empty_filtered"
  },
  {
   "property": "C104",
   "status": "proved",
   "theorems": [
    "Verif.TrajFile.saved_first",
    "Verif.TrajFile.round_trip",
    "Verif.TrajFile.filter_keeps",
    "Verif.TrajFile.filter_positions"
   ],
   "note": "the serialisation of ROS is a parameter with the round trip law"
  },
  {
   "property": "C105",
   "status": "proved",
   "theorems": [
    "Verif.Hyst.hysteresis_costs",
    "Verif.Hyst.hysteresis_range",
    "Verif.Hyst.run_goes_on",
    "Verif.Hyst.costAt_range",
    "Verif.Hyst.costAt_mono",
    "Verif.Hyst.costAt_zero_iff",
    "Verif.Hyst.costAt_full_iff",
    "Verif.Hyst.single_pose_costs"
   ],
   "note": ""
  },
  {
   "property": "C106",
   "status": "proved",
   "theorems": [
    "Verif.Hyst.obstacle_on_path_releases",
    "Verif.Hyst.own_cells_free",
    "Verif.Hyst.small_expand_keeps"
   ],
   "note": ""
  },
  {
   "property": "C107",
   "status": "proved",
   "theorems": [
    "Verif.Replan.plans_iff",
    "Verif.Replan.waits",
    "Verif.Replan.deadline",
    "Verif.Replan.plans_in_time",
    "Verif.Replan.regular_interval",
    "Verif.Replan.no_switch_wait",
    "Verif.Replan.stale_switch",
    "Verif.Replan.arrival_consumed"
   ],
   "note": "a pending switch back survives a cancelled goal (stale_switch), so that the next goal can wait sw_wait"
  },
  {
   "property": "C108",
   "status": "proved",
   "theorems": [
    "Verif.Replan.switch_index",
    "Verif.Replan.no_switch_iff",
    "Verif.Replan.switch_remembered",
    "Verif.Replan.switch_after_turn"
   ],
   "note": "the pose waited for is the one after the turning point (switch_after_turn)"
  },
  {
   "property": "C109",
   "status": "proved",
   "theorems": [
    "Verif.Joints2D.collide_iff",
    "Verif.Joints2D.collide_symm",
    "Verif.Joints2D.collide_sound",
    "Verif.Joints2D.collide_periodic",
    "Verif.Joints2D.links_costmap",
    "Verif.Joints2D.cell_clearance",
    "Verif.Joints2D.move_clearance",
    "Verif.Joints2D.misses_crossing"
   ],
   "note": "crossed links go unreported (misses_crossing), as the statement says"
  },
  {
   "property": "C11",
   "status": "proved",
   "theorems": [
    "Verif.Model3D.motion_safe",
    "Verif.Model3D.turn_safe",
    "Verif.Model3D.plan_safe"
   ],
   "note": "Exact real arithmetic and trigonometry. Poses are sampled at the code's own sampling resolution; a pose on the border between two cells may be attributed to either (closed squares). plan_safe composes with the search theorem of C05 for every schedule and estimate; it assumes an even number of headings (see C81)."
  },
  {
   "property": "C110",
   "status": "proved",
   "theorems": [
    "Verif.Dummy.odometry",
    "Verif.Dummy.one_per_round",
    "Verif.Dummy.hop",
    "Verif.Dummy.straight",
    "Verif.Dummy.circle",
    "Verif.Dummy.near_motion",
    "Verif.Dummy.round_time"
   ],
   "note": ""
  },
  {
   "property": "C111",
   "status": "proved",
   "theorems": [
    "Verif.Service.planned_path",
    "Verif.Service.planned_cells",
    "Verif.Service.failure_reasons",
    "Verif.Service.every_call_answered",
    "Verif.Service.success_iff_way",
    "Verif.Service.plain_request",
    "Verif.Service.same_cell_fails",
    "Verif.Service.headings_differ_fails",
    "Verif.Service.moved_goal_fails",
    "Verif.Service.rough_range",
    "Verif.Service.served_path_free_partial"
   ],
   "note": "all poses on free cells provided the costmap without headings is below the one with headings (RoughBelow); served_path_free_partial shows this and the ranges of the costs for the maps the planner holds after any history whose last update does not overwrite and covers all headings; the failures of same_cell_fails and moved_goal_fails are part of the statement; optimal with one task per round"
  },
  {
   "property": "C112",
   "status": "partial",
   "theorems": [
    "Verif.DistMap.update_sound_partial",
    "Verif.DistMap.update_overestimates"
   ],
   "note": "values never below a route that exists: proved for changes seen through the rectangles; equality with a new map is false (update_overestimates)"
  },
  {
   "property": "C113",
   "status": "proved",
   "theorems": [
    "Verif.Frames.sent_iff",
    "Verif.Frames.sent_stamp",
    "Verif.Frames.sent_place",
    "Verif.Frames.sent_nearest",
    "Verif.Frames.sent_posture_kept",
    "Verif.Frames.sent_posture_projected",
    "Verif.Frames.sent_flat",
    "Verif.Frames.sent_aligned",
    "Verif.Frames.aligned_moves"
   ],
   "note": "exact real arithmetic; heading of a vertical forward axis not specified; with aligned postures the position moves (aligned_moves), as the statement says"
  },
  {
   "property": "C114",
   "status": "partial",
   "theorems": [
    "Verif.Frames.never_published",
    "Verif.Frames.transformed_partial"
   ],
   "note": "false of the program: `PoseTransformNode ptn();` in main declares a function, so nothing is ever published (never_published); transformed_partial states what the callback would do; the covariance is not rotated"
  },
  {
   "property": "C115",
   "status": "partial",
   "theorems": [
    "Verif.Joints2D.search_ends",
    "Verif.Joints2D.cheapest_partial",
    "Verif.Joints2D.seam_detour"
   ],
   "note": "termination proved; cheapest proved when no legal move goes through the end of the angle range; false otherwise: the estimate ignores that angles are cyclic (seam_detour)"
  },
  {
   "property": "C116",
   "status": "proved",
   "theorems": [
    "Verif.Polygon.inside_moving",
    "Verif.Polygon.inside_region",
    "Verif.Polygon.inside_move",
    "Verif.Polygon.inside_convex"
   ],
   "note": "exact real arithmetic; points on the outline itself are excluded (there the answer depends on the edge); the code's float rounding is not modelled"
  },
  {
   "property": "C117",
   "status": "proved",
   "theorems": [
    "Verif.Pipeline.path_clearance",
    "Verif.Pipeline.path_clear",
    "Verif.Pipeline.complete_run",
    "Verif.Layers.static_map_blocks"
   ],
   "note": "limits as in the statement: centre on known cells, static overlays combine by maximum, last update not overwriting; obstacles of dynamic overlays are not covered (see C77); exact real arithmetic. complete_run is the witness that all hypotheses are met together"
  },
  {
   "property": "C118",
   "status": "partial",
   "theorems": [
    "Verif.Guide.reachable_not_refused_partial",
    "Verif.Guide.blocked_refused",
    "Verif.Guide.moved_known",
    "Verif.Guide.search_finds_partial",
    "Verif.Guide.plan_succeeds_partial",
    "Verif.Guide.map_fits_partial",
    "Verif.Guide.relocated_refused",
    "Verif.PlannerMap.rough_below_partial",
    "Verif.PlannerMap.overwriting_hides_free"
   ],
   "note": "proved for a robot that is not relocated, a last update that covers all headings and was not applied in overwriting mode, and a relative tolerance of grid enumeration of at most 1/4 (default 0.1). The full statement is false of the code: relocated_refused (the estimate is read at the robot's own lethal cell although the start pose was moved to a free one) and overwriting_hides_free (in overwriting mode the map without headings keeps cells lethal which the update freed)"
  },
  {
   "property": "C119",
   "status": "partial",
   "theorems": [
    "Verif.Guide.starts_known_partial",
    "Verif.Guide.start_value",
    "Verif.Guide.start_undefined"
   ],
   "note": "proved when the robot's own cell is free, the goal can be driven to, one step costs no more than the overshoot and estimates are below 2^31. start_undefined shows the full statement is false of the code: a start pose behind a wall keeps numeric_limits<float>::max() as its estimate, which is converted to int"
  },
  {
   "property": "C12",
   "status": "proved",
   "theorems": [
    "Verif.GridMetric.roundtrip",
    "Verif.GridMetric.roundtrip_cyclic",
    "Verif.GridMetric.cell_of_point",
    "Verif.GridMetric.wrapper_same_cell",
    "Verif.GridMetric.fractional",
    "Verif.GridMetric.append_path",
    "Verif.GridMetric.centres_are_centres",
    "Verif.GridMetric.centre_is_near"
   ],
   "note": "Exact arithmetic; any origin and positive resolution."
  },
  {
   "property": "C120",
   "status": "proved",
   "theorems": [
    "Verif.Safety.ride_safe",
    "Verif.Safety.period_safe",
    "Verif.Safety.command_room",
    "Verif.Safety.travel_le",
    "Verif.Safety.faster_command_unrestricted"
   ],
   "note": "straight ride with a constant command; the example in RideExample is a complete ride (motion, events, commands) meeting every hypothesis; faster_command_unrestricted shows why the command must not become faster"
  },
  {
   "property": "C121",
   "status": "proved",
   "theorems": [
    "Verif.Tracker.arrives",
    "Verif.Tracker.ride_exists",
    "Verif.Tracker.defaults_suit",
    "Verif.Tracker.sparse_path_overrun",
    "Verif.Tracker.sparse_ride"
   ],
   "note": "closed loop with an ideal robot (executes each command exactly for one period, pose known exactly), timer mode (no odometry); straight paths without velocities; sparse_path_overrun is the stated failure for poses five metres apart, sparse_ride shows that this ride exists"
  },
  {
   "property": "C122",
   "status": "proved",
   "theorems": [
    "Verif.Tracker.turn_ends",
    "Verif.Tracker.turn_exists",
    "Verif.Tracker.defaults_turn"
   ],
   "note": "closed loop with an ideal robot, timer mode (no odometry), use_time_optimal_control on; path of exactly one turn (two poses at one place). The projection on a segment of length zero is 0/0 in the code; its value is not used while turning, and the theorem does not depend on it"
  },
  {
   "property": "C123",
   "status": "proved",
   "theorems": [
    "Verif.DistMap.reached",
    "Verif.DistMap.Grid.reachable_has_distance",
    "Verif.DistMap.Grid.diagonal_lost"
   ],
   "note": "costs with a largest value that sums of costs do not reach (FLT_MAX); reached is the abstract form for arbitrary neighbourhoods; diagonal_lost is the stated exception: an update without any change loses a start whose only way out is a diagonal step"
  },
  {
   "property": "C124",
   "status": "proved",
   "theorems": [
    "Verif.Picture.cloud_shows_distances",
    "Verif.Picture.picture_shows_hysteresis",
    "Verif.Picture.picture_shows_memory",
    "Verif.Picture.cloud_shows_lethal"
   ],
   "note": "exact numbers; the sizes of the distance map, of the penalties and of the memory are the one of the last map message; the bounds of the odds are C16 (Bbf)"
  },
  {
   "property": "C125",
   "status": "proved",
   "theorems": [
    "Verif.Tracker.arrives_and_turns",
    "Verif.Tracker.stops_short",
    "Verif.Tracker.lineTurn_exists",
    "Verif.Tracker.after_ends"
   ],
   "note": "exact real numbers; ideal robot that executes the commanded velocity for one control period; exact localisation; conditions on the parameters are `Suits` and `Turns`, met by the defaults; `stops_short` needs the speed limit to be small enough for the controller not to slow down before the turn, its instance ends 0.38 m short with a goal tolerance of 0.2 m"
  },
  {
   "property": "C126",
   "status": "partial",
   "theorems": [
    "Verif.PlannerNode.age_noticed",
    "Verif.PlannerNode.fires_again",
    "Verif.PlannerNode.update_starts_timer",
    "Verif.PlannerNode.parameters_silence_watchdog"
   ],
   "note": "holds while no map and no change of the parameters comes in between (age_noticed); false after a change of the parameters: cbParameter stops the timer and nothing starts it until the next update, so the robot goes on following the last path however old the data gets (parameters_silence_watchdog).  Times are integers; a timer callback begins at most \u03b4 late, callbacks take at most \u03c1"
  },
  {
   "property": "C127",
   "status": "partial",
   "theorems": [
    "Verif.PlannerNode.status_tells_partial",
    "Verif.PlannerNode.missing_told",
    "Verif.PlannerNode.idle_told",
    "Verif.PlannerNode.untold",
    "Verif.PlannerNode.diagnosis_tells",
    "Verif.PlannerNode.old_error_stays",
    "Verif.PlannerNode.escape_hides_error"
   ],
   "note": "not true of every cycle: while a goal is being finished an error that is over is shown on (old_error_stays), and on the way to a temporary goal that is better than the robot's place errors are hidden (escape_hides_error); those cycles are excluded in status_tells_partial"
  },
  {
   "property": "C128",
   "status": "partial",
   "theorems": [
    "Verif.PlannerNode.guided_partial",
    "Verif.PlannerNode.paths_guided_partial",
    "Verif.PlannerNode.update_guides",
    "Verif.PlannerNode.stale_goal",
    "Verif.PlannerNode.blank_after_parameters"
   ],
   "note": "not true in general: a goal that arrives while the robot's position is unknown is planned with the distance map of the previous goal (stale_goal), and after a change of parameters during a goal the distance map is empty (blank_after_parameters), until the next costmap update (update_guides)"
  },
  {
   "property": "C129",
   "status": "proved",
   "theorems": [
    "Verif.PlannerNode.reached_when_there",
    "Verif.PlannerNode.arrives",
    "Verif.PlannerNode.turned",
    "Verif.PlannerNode.turning_run"
   ],
   "note": "liveness counterpart of C88; both planning modes; that the robot and the goal can be placed on the map is a hypothesis of each cycle (the statement says so)"
  },
  {
   "property": "C13",
   "status": "proved",
   "theorems": [
    "Verif.DistMap.create_sound",
    "Verif.DistMap.create_unreachable",
    "Verif.DistMap.create_goal_least",
    "Verif.DistMap.grid_step_free"
   ],
   "note": "for create; update with changed cells is C64"
  },
  {
   "property": "C130",
   "status": "proved",
   "theorems": [
    "Verif.PlannerNode.path_delivered",
    "Verif.PlannerNode.deliver_plan",
    "Verif.PlannerNode.makePlan_found"
   ],
   "note": "the outcome of the grid search is a parameter of the node's model here (World.found, World.poses); its properties are C18-C23 and C97-C99"
  },
  {
   "property": "C131",
   "status": "proved",
   "theorems": [
    "Verif.Scene.drivable_goal_gets_path",
    "Verif.Scene.outcome_found",
    "Verif.Scene.outcome_path",
    "Verif.Scene.own_start",
    "Verif.Scene.exists_world"
   ],
   "note": "composition of the node (C130) with the models of the start poses, the distance map, the reachability test, the multi-threaded search, the interpolation and the conversion to the map frame; exact real numbers; queue_size_limit 0; no part of the previous path is kept; the search is not stopped by the progress callback (stated)"
  },
  {
   "property": "C132",
   "status": "proved",
   "theorems": [
    "Verif.Scene.published_path_clear",
    "Verif.Scene.robot_touches_nothing",
    "Verif.Scene.final_pose_unchecked",
    "Verif.Scene.outcome_any",
    "Verif.Astar.search_any_path_legal",
    "Verif.PlannerNode.origin_step"
   ],
   "note": "the single final pose sent while finishing is excepted in the statement (final_pose_unchecked: it is published without looking at the costmap); exact real numbers; queue_size_limit 0; no part of the previous path is kept"
  },
  {
   "property": "C133",
   "status": "proved",
   "theorems": [
    "Verif.Model3D.move_cost",
    "Verif.Model3D.turn_cost",
    "Verif.Model3D.sample_driven",
    "Verif.Model3D.decel_less_when_tighter"
   ],
   "note": "exact real arithmetic (float in the code); even number of headings, so that the short way round is unambiguous; decel_less_when_tighter is the stated oddity of the deceleration term: among curves of one length that must be driven slowly, the narrower one is charged less"
  },
  {
   "property": "C134",
   "status": "proved",
   "theorems": [
    "Verif.Scene.published_path_spaced",
    "Verif.Scene.planned_path_dense",
    "Verif.Scene.outcome_spaced",
    "Verif.Model3D.interpolated_spacing",
    "Verif.Model3D.interpolated_poses",
    "Verif.Model3D.offered_moderate"
   ],
   "note": "exact real arithmetic; the factor 16/3 is an upper bound (4 for the shape of the curves, 4/3 for the rounding of the number of samples)"
  },
  {
   "property": "C135",
   "status": "proved",
   "theorems": [
    "Verif.Tracker.command_spec",
    "Verif.Tracker.command_direction",
    "Verif.Tracker.short_path_turns"
   ],
   "note": "exact real numbers; speed limits finite and non-negative"
  },
  {
   "property": "C136",
   "status": "proved",
   "theorems": [
    "Verif.Pipeline.sensed_clearance",
    "Verif.Pipeline.sensed_clear",
    "Verif.Pipeline.sensed_run",
    "Verif.Layers.overlay_blocks",
    "Verif.Scene.robot_touches_nothing_sensed"
   ],
   "note": "report with the map's resolution and frame; poses inside the report's area; keep_unknown off for the sensor's layer; expansion positive; exact real numbers"
  },
  {
   "property": "C137",
   "status": "partial",
   "theorems": [
    "Verif.Pipeline.planner_map_partial",
    "Verif.Pipeline.one_sensor_partial",
    "Verif.Pipeline.second_sensor_hides_first",
    "Verif.Pipeline.expansion_not_shown"
   ],
   "note": "false with two sensor layers (second_sensor_hides_first) and with a sensor layer that expands obstacles (expansion_not_shown); proved inside the rectangle of the last update, and everywhere for complete runs of both nodes with one sensor layer that does not expand"
  },
  {
   "property": "C138",
   "status": "proved",
   "theorems": [
    "Verif.PlannerNode.feedback_each_cycle",
    "Verif.PlannerNode.feedback_only",
    "Verif.PlannerNode.position_is_last_found",
    "Verif.PlannerNode.metrics_each_cycle",
    "Verif.PlannerNode.one_age_each",
    "Verif.PlannerNode.metrics_left_over",
    "Verif.PlannerNode.metrics_buffer_grows"
   ],
   "note": "the cycle that gives up publishes no metrics and leaves its measurements in the buffer (metrics_left_over, metrics_buffer_grows)"
  },
  {
   "property": "C139",
   "status": "proved",
   "theorems": [
    "Verif.Tracker.missing_odometry_stops",
    "Verif.Tracker.timeout_only_when_missing",
    "Verif.Tracker.silent_without_odometry",
    "Verif.Tracker.no_timeout_when_off",
    "Verif.Tracker.lost_keeps_driving"
   ],
   "note": "roscpp's one-shot timer is trusted to run once, between its due time and a bounded delay, and to be restarted by setPeriod; callbacks are instantaneous; without use_odom the protection does not exist (lost_keeps_driving, as stated)"
  },
  {
   "property": "C14",
   "status": "proved",
   "theorems": [
    "Verif.DistMap.create_exact",
    "Verif.DistMap.create_exact_start",
    "Verif.DistMap.grid_create_exact",
    "Verif.DistMap.grid_laws"
   ],
   "note": "needs at least one task per round; exact arithmetic laws only for order"
  },
  {
   "property": "C140",
   "status": "partial",
   "theorems": [
    "Verif.Odom.ratio_without_filter",
    "Verif.Odom.never_reversed_partial",
    "Verif.Odom.agreeing_rates",
    "Verif.Odom.agreeing_is_raw",
    "Verif.Odom.correction_fades",
    "Verif.Odom.filter_bounds_partial",
    "Verif.Odom.filter_reverses"
   ],
   "note": "the last sentence is false with the Kalman filter (filter_reverses: default parameters, a displacement is published with more than its length backwards, because the estimate is a slip per rad/s and is applied without the turn rate); proved without the filter, and with it when the share of slip is at most the turn rate in rad/s"
  },
  {
   "property": "C141",
   "status": "partial",
   "theorems": [
    "Verif.Odom.published_any",
    "Verif.Odom.height_fades",
    "Verif.Odom.height_shrinks_partial",
    "Verif.Odom.height_grows"
   ],
   "note": "the last sentence is false when the IMU has been missing for longer than twice the time constant (height_grows: 1 m becomes -3 m); proved for intervals not longer than the time constant; the other sentences are proved in full"
  },
  {
   "property": "C142",
   "status": "proved",
   "theorems": [
    "Verif.Safety.passes_again",
    "Verif.Safety.watchdog_iff",
    "Verif.Safety.first_after_reset"
   ],
   "note": "Histories of the limiter model; a prediction that finds nothing in the way is the spec's Predicts with ratio at least 1. first_after_reset records that the first command after a watchdog reset is still published as a stop."
  },
  {
   "property": "C143",
   "status": "proved",
   "theorems": [
    "Verif.Model3D.offered_iff",
    "Verif.Model3D.plan_steps",
    "Verif.Model3D.far_slant"
   ],
   "note": "Moves as displacements on the grid; real arithmetic in place of float. The last sentence (far_slant) records that the slant limit of the motion primitives does not apply beyond local_range."
  },
  {
   "property": "C144",
   "status": "proved",
   "theorems": [
    "Verif.Odom.too_sure",
    "Verif.Odom.late_counts_less",
    "Verif.Odom.two_averaged",
    "Verif.Odom.three_not_averaged",
    "Verif.Odom.infinite_value"
   ],
   "note": "Exact arithmetic with explicit infinities. The filter multiplies the standard deviation by the factor that belongs to the variance; too_sure, late_counts_less and three_not_averaged state the consequences."
  },
  {
   "property": "C145",
   "status": "proved",
   "theorems": [
    "Verif.Joystick.free_in_force",
    "Verif.Joystick.held_in_force",
    "Verif.Joystick.silent_in_force",
    "Verif.Joystick.lost_button_in_force"
   ],
   "note": "free_in_force assumes that joystick messages have the override button; lost_button_in_force shows what happens otherwise. Wall clock times are beyond the timeout (ClockOK)."
  },
  {
   "property": "C146",
   "status": "proved",
   "theorems": [
    "Verif.Layers.Setup.chain_in_order",
    "Verif.Layers.Setup.starts_iff"
   ],
   "note": "Pointers are indices into a heap of layers. Exceptions of loadConfig and of the footprint parser are not modelled, and every entry has a name."
  },
  {
   "property": "C15",
   "status": "partial",
   "theorems": [
    "Verif.DistMap.create_forgets_partial",
    "Verif.DistMap.create_out_keeps_values",
    "Verif.DistMap.stale_goal"
   ],
   "note": "the property is false as stated: counterexample stale_goal (start outside the map during create, then update); true when both cells are inside the map"
  },
  {
   "property": "C16",
   "status": "proved",
   "theorems": [
    "Verif.Bbf.remember_cell",
    "Verif.Bbf.odds_history",
    "Verif.Bbf.odds_bounded",
    "Verif.Bbf.cost_bounded",
    "Verif.Bbf.cost_in_phase",
    "Verif.Bbf.unobserved_zero",
    "Verif.Bbf.update_mono",
    "Verif.Bbf.order_irrelevant",
    "Verif.Bbf.order_relevant_saturated",
    "Verif.Bbf.pending_inside"
   ],
   "note": ""
  },
  {
   "property": "C17",
   "status": "proved",
   "theorems": [
    "Verif.PlannerMap.costmap_is_base_with_last_update",
    "Verif.PlannerMap.rough_costmap_is_base_with_last_update",
    "Verif.PlannerMap.costmap_history_independent",
    "Verif.PlannerMap.rejected_update_changes_nothing",
    "Verif.PlannerMap.memory_input_is_last_update",
    "Verif.PlannerMap.memory_input_depends_on_history"
   ],
   "note": "for update rectangles whose indices fit the machine integers (Small), both planning costmaps; the separate map handed to the obstacle memory does depend on earlier updates (memory_input_depends_on_history)"
  },
  {
   "property": "C18",
   "status": "proved",
   "theorems": [
    "Verif.SearchPos.search_returns_nearest",
    "Verif.SearchPos.search_fails_iff",
    "Verif.SearchPos.relocate_cases",
    "Verif.SearchPos.nearest_in_plane",
    "Verif.SearchPos.fallback_ignores_minimum"
   ],
   "note": "the optional minimum distance is not kept by the fallback search (fallback_ignores_minimum)"
  },
  {
   "property": "C19",
   "status": "proved",
   "theorems": [
    "Verif.PlannerNode.one_active",
    "Verif.PlannerNode.goal_accounting",
    "Verif.PlannerNode.accepted_one_answer",
    "Verif.PlannerNode.answer_final",
    "Verif.PlannerNode.open_is_pursued",
    "Verif.PlannerNode.cancel_preempts",
    "Verif.PlannerNode.busy_goal_waits",
    "Verif.PlannerNode.waiting_goal_forgotten"
   ],
   "note": "for every history of events of the node; actionlib's SimpleActionServer is modelled as used; a goal that arrives while the other interface is busy is not accepted and is forgotten (busy_goal_waits, waiting_goal_forgotten)"
  },
  {
   "property": "C20",
   "status": "partial",
   "theorems": [
    "Verif.PlannerNode.stale_stops",
    "Verif.PlannerNode.stale_reported",
    "Verif.PlannerNode.stale_unreported_without_goal",
    "Verif.PlannerNode.rejected_update_hides_age"
   ],
   "note": "proved for cycles of the main loop and of the no-update timer while a goal is pursued; false without a goal (nothing is reported unless retain_last_error_status) and, when planning is triggered by updates, for updates that do not fit the map"
  },
  {
   "property": "C21",
   "status": "proved",
   "theorems": [
    "Verif.Jump.report_iff",
    "Verif.Jump.first_never",
    "Verif.Jump.steady_never",
    "Verif.Jump.frame_independent"
   ],
   "note": "transforms are an abstract group"
  },
  {
   "property": "C22",
   "status": "proved",
   "theorems": [
    "Verif.Region.merge_covers",
    "Verif.Region.merge_least",
    "Verif.Region.merge_order",
    "Verif.Region.merge_stamp",
    "Verif.Region.normalize_covers",
    "Verif.Region.normalize_bounds",
    "Verif.Region.expand_covers"
   ],
   "note": ""
  },
  {
   "property": "C23",
   "status": "proved",
   "theorems": [
    "Verif.Region.bitblt_spec"
   ],
   "note": ""
  },
  {
   "property": "C24",
   "status": "proved",
   "theorems": [
    "Verif.CSpace.inflate_full",
    "Verif.CSpace.cell_near",
    "Verif.CSpace.lround_neg",
    "Verif.CSpace.inflate_masked_partial",
    "Verif.CSpace.keep_unknown",
    "Verif.CSpace.template_bounds",
    "Verif.CSpace.plain_shrinking",
    "Verif.CSpace.shortcut_misses_wall"
   ],
   "note": "exact for unequal resolutions; with the shortcut exact for templates that decrease away from the centre (all plain layers, plain_shrinking); shortcut_misses_wall shows a footprint for which it is not"
  },
  {
   "property": "C25",
   "status": "partial",
   "theorems": [
    "Verif.CSpace.conservative_full",
    "Verif.CSpace.conservative_partial",
    "Verif.CSpace.plain_conservative",
    "Verif.CSpace.template_far",
    "Verif.CSpace.shortcut_misses_wall",
    "Verif.CSpace.masked_rect",
    "Verif.CSpace.conservative_disc",
    "Verif.CSpace.conservative_compact"
   ],
   "note": "false for elongated footprints at oblique headings next to a wall when the grid has the map's resolution (shortcut_misses_wall); proved for unequal resolutions, for decreasing templates, for the plain layer, and for every footprint whose inscribed disc plus expansion exceeds its circumscribed radius (conservative_compact)"
  },
  {
   "property": "C26",
   "status": "partial",
   "theorems": [
    "Verif.Layers.no_ghosts_partial",
    "Verif.Layers.ghost_inflation",
    "Verif.Layers.ghost_inflation_fresh"
   ],
   "note": "proved for the last overlay layer of the chain; false for an inflating layer that has further layers below it: inflation outside the message's rectangle stays (ghost_inflation)"
  },
  {
   "property": "C27",
   "status": "proved",
   "theorems": [
    "Verif.Layers.update_content",
    "Verif.Layers.base_replays"
   ],
   "note": "for any chain ending in the update output and any history of usable messages"
  },
  {
   "property": "C28",
   "status": "partial",
   "theorems": [
    "Verif.Layers.stamp_lags_partial",
    "Verif.Layers.base_stamp_partial",
    "Verif.Layers.stamp_of_previous"
   ],
   "note": "false: the update carries the stamp of the previous message (stamp_of_previous, stamp_lags_partial); right for base maps"
  },
  {
   "property": "C29",
   "status": "proved",
   "theorems": [
    "Verif.Layers.buffered_order",
    "Verif.Layers.base_replays",
    "Verif.Layers.nothing_buffered",
    "Verif.Layers.immediate",
    "Verif.Layers.empty_base_undefined"
   ],
   "note": "for non-empty base maps; an empty one while messages are buffered is undefined (empty_base_undefined)"
  },
  {
   "property": "C30",
   "status": "partial",
   "theorems": [
    "Verif.LocalMap.push_spec",
    "Verif.LocalMap.push_exact_partial",
    "Verif.LocalMap.push_keeps",
    "Verif.LocalMap.push_leaves_stale",
    "Verif.LocalMap.push_undefined",
    "Verif.LocalMap.singleshot_undefined",
    "Verif.LocalMap.stale_halves"
   ],
   "note": "Clouds within the hold time are never lost; expired ones are only removed exactly when at most one expires per addition (the loop erases every other one, and erasing the last stored cloud is undefined behaviour)."
  },
  {
   "property": "C31",
   "status": "proved",
   "theorems": [
    "Verif.Polygon.inside_rotate",
    "Verif.Polygon.inside_reverse",
    "Verif.Polygon.inside_between",
    "Verif.Polygon.inside_in_hull",
    "Verif.Polygon.inside_in_box",
    "Verif.Polygon.inside_in_disc",
    "Verif.Polygon.inside_rect",
    "Verif.Polygon.inside_translate",
    "Verif.Polygon.ofParam_spec"
   ],
   "note": "exact arithmetic"
  },
  {
   "property": "C32",
   "status": "partial",
   "theorems": [
    "Verif.LocalMap.cloud_map_exact",
    "Verif.LocalMap.cloud_map_partial",
    "Verif.LocalMap.scan_map_exact",
    "Verif.LocalMap.cloud_stored",
    "Verif.LocalMap.scan_stored"
   ],
   "note": "Exact description including the two deviations: points up to one cell outside the low borders are folded into the first row and column, and the laser node tests only the first point's height. Exact arithmetic."
  },
  {
   "property": "C33",
   "status": "proved",
   "theorems": [
    "Verif.Safety.no_data_no_motion",
    "Verif.Safety.stale_data_stops"
   ],
   "note": "Disabled means: less than disable_timeout since the last disable request, where 'no request yet' counts as a request at time zero (as in the code), so with simulated time close to zero the limiter starts disabled."
  },
  {
   "property": "C34",
   "status": "proved",
   "theorems": [
    "Verif.Safety.only_slows",
    "Verif.Safety.own_commands_zero"
   ],
   "note": "Maximum velocities assumed non-negative, as the reconfigure ranges guarantee. linear.z, angular.x and angular.y are passed on unchanged (or zeroed)."
  },
  {
   "property": "C35",
   "status": "proved",
   "theorems": [
    "Verif.Safety.stops_in_time",
    "Verif.Safety.pose_step"
   ],
   "note": "Exact real arithmetic; the prediction is sampled at multiples of dt and the distance is measured to the last collision-free sample."
  },
  {
   "property": "C36",
   "status": "proved",
   "theorems": [
    "Verif.Safety.tested_points",
    "Verif.Safety.collision_now",
    "Verif.Safety.clear_horizon",
    "Verif.Safety.no_escape",
    "Verif.Safety.no_obstacle_data"
   ],
   "note": "The ratio is 1 instead of 0 when the blocked command is itself zero. Voxel downsampling is an arbitrary function of the cloud; the k-d tree search is an exact disc search."
  },
  {
   "property": "C37",
   "status": "partial",
   "theorems": [
    "Verif.Safety.picture_fresh_partial",
    "Verif.Safety.transformed_twice"
   ],
   "note": "Holds when a usable cloud arrived since the last prediction cycle; otherwise the stored cloud is transformed again (transformed_twice describes the defect exactly, with a concrete example beside it)."
  },
  {
   "property": "C38",
   "status": "partial",
   "theorems": [
    "Verif.Safety.restriction_held_partial",
    "Verif.Safety.hold_covers_period",
    "Verif.Safety.reconfigure_releases",
    "Verif.Safety.first_command_unrestricted",
    "Verif.Safety.recovery_releases"
   ],
   "note": "The restriction is held for the hold time unless the node is reconfigured; the three violations named in the property are proved as theorems."
  },
  {
   "property": "C39",
   "status": "partial",
   "theorems": [
    "Verif.Control.calls_finite",
    "Verif.Control.vset_spec",
    "Verif.Control.step_bounded_partial",
    "Verif.Control.velocity_bounded",
    "Verif.Control.recovers",
    "Verif.Control.reaches",
    "Verif.Control.nan_jumps",
    "Verif.Control.nan_violates_acceleration"
   ],
   "note": "the acceleration part is false for a NaN target, which stops the value at once (nan_violates_acceleration); proved for every other target; velocity bound and finiteness proved for all calls"
  },
  {
   "property": "C40",
   "status": "partial",
   "theorems": [
    "Verif.Tracker.timeout_stops",
    "Verif.Tracker.no_path_stops",
    "Verif.Tracker.invalid_path_silent",
    "Verif.Tracker.following_near_partial",
    "Verif.Tracker.drives_far_away"
   ],
   "note": "stopping without path, transform or odometry, after an invalid path and when the robot is reported far from the path is proved; false as stated for the distance: drives_far_away (only the distance to the line through the nearest segment is looked at)"
  },
  {
   "property": "C41",
   "status": "partial",
   "theorems": [
    "Verif.Tracker.goal_within_partial",
    "Verif.Tracker.goal_far_away",
    "Verif.Tracker.goal_heading_ignored"
   ],
   "note": "false as stated: for a path of one pose the distance is not looked at, and outside the stop distance the final heading is not; what is checked is proved"
  },
  {
   "property": "C42",
   "status": "proved",
   "theorems": [
    "Verif.Tracker.never_outside",
    "Verif.Tracker.progress_monotone",
    "Verif.Tracker.step_change_reads_outside"
   ],
   "note": "for a path step that is not changed while following; otherwise false (step_change_reads_outside), as the statement says"
  },
  {
   "property": "C43",
   "status": "proved",
   "theorems": [
    "Verif.Path2D.convert_ends",
    "Verif.Path2D.convert_length",
    "Verif.Path2D.convert_faithful",
    "Verif.Path2D.convert_merged",
    "Verif.Path2D.convert_exact",
    "Verif.Path2D.convert_round_trip",
    "Verif.Path2D.local_goal",
    "Verif.Path2D.local_goals",
    "Verif.Path2D.short_switch_missed"
   ],
   "note": "exact real numbers; the final position is kept up to the merging distance when the end is merged; a direction change one step after another is not cut (short_switch_missed)"
  },
  {
   "property": "C44",
   "status": "proved",
   "theorems": [
    "Verif.Path2D.strip_distance",
    "Verif.Path2D.nearest_found",
    "Verif.Path2D.nearest_drift",
    "Verif.Path2D.remained_ahead",
    "Verif.Path2D.remained_last",
    "Verif.Path2D.remained_on_path",
    "Verif.Path2D.projection_foot",
    "Verif.Path2D.eta_monotone",
    "Verif.Path2D.eta_step"
   ],
   "note": "exact real numbers; the drift by epsilon per later segment really occurs (nearest_drift); arrival times for headings within half a turn"
  },
  {
   "property": "C45",
   "status": "proved",
   "theorems": [
    "Verif.Control.angleNormalized_spec",
    "Verif.Control.angleNormalized_id",
    "Verif.Control.absorbed_diverges",
    "Verif.Control.float_diverges",
    "Verif.Control.normalizeFloatAngle_spec"
   ],
   "note": "exact arithmetic; with single-precision rounding the loop does not end for large magnitudes (float_diverges)"
  },
  {
   "property": "C46",
   "status": "proved",
   "theorems": [
    "Verif.Filter.lpf_unit_gain",
    "Verif.Filter.lpf_converges",
    "Verif.Filter.lpf_step_response",
    "Verif.Filter.hpf_blocks_constant",
    "Verif.Filter.setOut_eq_mk"
   ],
   "note": "exact arithmetic"
  },
  {
   "property": "C47",
   "status": "proved",
   "theorems": [
    "Verif.Joystick.twist_forwarded_iff",
    "Verif.Joystick.held_publishes_joystick",
    "Verif.Joystick.release_republishes"
   ],
   "note": ""
  },
  {
   "property": "C48",
   "status": "proved",
   "theorems": [
    "Verif.Joystick.mux_forwards_selected",
    "Verif.Joystick.mux_silent",
    "Verif.Joystick.mux_timeout",
    "Verif.Joystick.mux_advertised"
   ],
   "note": ""
  },
  {
   "property": "C49",
   "status": "proved",
   "theorems": [
    "Verif.Odom.measure_spec",
    "Verif.Odom.predict_spec",
    "Verif.Odom.measure_inf",
    "Verif.Odom.inf_takes",
    "Verif.Odom.kf_history",
    "Verif.Odom.kf_hull",
    "Verif.Odom.both_exact_nan"
   ],
   "note": "exact arithmetic; measuring with variance 0 an estimate of variance 0 gives NaN (both_exact_nan)"
  },
  {
   "property": "C50",
   "status": "proved",
   "theorems": [
    "Verif.Odom.publishes_iff",
    "Verif.Odom.published_position",
    "Verif.Odom.published_is_raw",
    "Verif.Odom.starts"
   ],
   "note": ""
  },
  {
   "property": "C51",
   "status": "proved",
   "theorems": [
    "Verif.Patrol.goals_in_order",
    "Verif.Patrol.sends_iff",
    "Verif.Patrol.new_path",
    "Verif.Patrol.patrol_completes",
    "Verif.Patrol.stalls"
   ],
   "note": "a goal that ends preempted, rejected or recalled stalls the patrol (stalls)"
  },
  {
   "property": "C52",
   "status": "proved",
   "theorems": [
    "Verif.MapIO.save_load",
    "Verif.MapIO.save_load_trinary",
    "Verif.MapIO.floors_round_trip",
    "Verif.MapIO.failed_floor_reported_done"
   ],
   "note": "image loader of map_server by its documented trinary behaviour; metadata to six decimals"
  },
  {
   "property": "C53",
   "status": "partial",
   "theorems": [
    "Verif.FloorSel.published_is_wanted",
    "Verif.FloorSel.out_of_range_silent",
    "Verif.FloorSel.selected_latched_partial",
    "Verif.FloorSel.stale_maps"
   ],
   "note": "the last part is false when a new map array arrives for an unchanged floor (stale_maps); proved for a single map array"
  },
  {
   "property": "C54",
   "status": "proved",
   "theorems": [
    "Verif.Slices.mergeCell_spec",
    "Verif.Slices.mergeAll_spec",
    "Verif.Slices.merge_clears_obstacle",
    "Verif.Slices.widen_spec",
    "Verif.Slices.published_obstacles"
   ],
   "note": "merging may clear an obstacle of the lower slice (merge_clears_obstacle)"
  },
  {
   "property": "C55",
   "status": "partial",
   "theorems": [
    "Verif.Joints2D.limits_respected",
    "Verif.Joints2D.velocity_limits",
    "Verif.Joints2D.velocity_direction",
    "Verif.Joints2D.ends_at_target",
    "Verif.Joints2D.standstill_undefined",
    "Verif.Joints2D.negative_tie_missed",
    "Verif.Joints2D.two_turns_away"
   ],
   "note": "speed limits, time order and rest at the end are proved for every published trajectory whose times are defined; false for a command to the present position with a duration (0/0, standstill_undefined); the end is the target up to an even number of turns (two_turns_away) and, after a search, except for negative angles half way between cells (negative_tie_missed). Exact arithmetic."
  },
  {
   "property": "C56",
   "status": "proved",
   "theorems": [
    "Verif.Compat.startup_spec",
    "Verif.Compat.never_mixed",
    "Verif.Compat.out_of_range_stops",
    "Verif.Compat.warned_iff",
    "Verif.Compat.mixed_when_changed"
   ],
   "note": "for a parameter that does not change during start-up; otherwise modes can mix (mixed_when_changed)"
  },
  {
   "property": "C57",
   "status": "proved",
   "theorems": [
    "Verif.Model3D.rotation_access",
    "Verif.Model3D.motion_found_iff",
    "Verif.Model3D.find_periodic",
    "Verif.Model3D.keep_defined"
   ],
   "note": "Exact real arithmetic."
  },
  {
   "property": "C58",
   "status": "partial",
   "theorems": [
    "Verif.SearchPos.crowd_escape_near_partial",
    "Verif.SearchPos.crowd_escape_original",
    "Verif.SearchPos.crowd_escape_found",
    "Verif.SearchPos.simple_escape_ignores_robot",
    "Verif.SearchPos.simple_escape_far_away",
    "Verif.SearchPos.local_copy_outside",
    "Verif.SearchPos.local_copy_inside_iff"
   ],
   "note": "proved for crowd mode; false for the simple mode, which searches around cell (0,0,0) (simple_escape_ignores_robot, simple_escape_far_away)"
  },
  {
   "property": "C59",
   "status": "partial",
   "theorems": [
    "Verif.PlannerNode.retry_limit_aborts_partial",
    "Verif.PlannerNode.next_cycle_after_giving_up",
    "Verif.PlannerNode.blocked_goal_gives_up",
    "Verif.PlannerNode.giving_up_unreported",
    "Verif.PlannerNode.failed_search_never_aborts"
   ],
   "note": "the abort is proved; false for the status: nothing is published in the cycle that gives up, and failed searches are not counted"
  },
  {
   "property": "C60",
   "status": "proved",
   "theorems": [
    "Verif.Mesh.sampled_on_surface",
    "Verif.Mesh.convert_ok",
    "Verif.Mesh.count_spec",
    "Verif.Mesh.sample_covers",
    "Verif.Mesh.surface_covered"
   ],
   "note": "exact arithmetic, before down-sampling"
  },
  {
   "property": "C61",
   "status": "proved",
   "theorems": [
    "Verif.CyclicVec.isExceeded_iff"
   ],
   "note": "32-bit bit-vectors"
  },
  {
   "property": "C62",
   "status": "proved",
   "theorems": [
    "Verif.DistMap.extend_exact"
   ],
   "note": ""
  },
  {
   "property": "C63",
   "status": "proved",
   "theorems": [
    "Verif.DistMap.fill_terminates",
    "Verif.DistMap.create_returns"
   ],
   "note": "well-founded order on cost values (finitely many floats)"
  },
  {
   "property": "C64",
   "status": "partial",
   "theorems": [
    "Verif.DistMap.update_stale",
    "Verif.DistMap.extend_exact",
    "Verif.DistMap.update_sound_partial",
    "Verif.DistMap.corridor_blocked"
   ],
   "note": "false for a changed rectangle whose erased region falls into several parts (counterexample update_stale); proved for every history of changes seen through the rectangles and whose region is connected (update_sound_partial)"
  },
  {
   "property": "C65",
   "status": "proved",
   "theorems": [
    "Verif.DistMap.reads_in_map",
    "Verif.DistMap.mem_diffs_iff"
   ],
   "note": ""
  },
  {
   "property": "C66",
   "status": "proved",
   "theorems": [
    "Verif.Joystick.joyCommand_bounded",
    "Verif.Joystick.joyCommand_spec"
   ],
   "note": "velocities are rationals"
  },
  {
   "property": "C67",
   "status": "proved",
   "theorems": [
    "Verif.Joystick.step_defined",
    "Verif.Joystick.muxStep_defined"
   ],
   "note": "non-negative configured indices"
  },
  {
   "property": "C68",
   "status": "proved",
   "theorems": [
    "Verif.Filter.lpf_no_overshoot",
    "Verif.Filter.lpf_overshoots",
    "Verif.Filter.angle_feed",
    "Verif.Filter.smooth_spec"
   ],
   "note": "for time constants below half a sample the filter does overshoot (lpf_overshoots)"
  },
  {
   "property": "C69",
   "status": "proved",
   "theorems": [
    "Verif.Control.timeOptimal_spec"
   ],
   "note": ""
  },
  {
   "property": "C70",
   "status": "proved",
   "theorems": [
    "Verif.Odom.never_nonfinite",
    "Verif.Odom.zero_noise_nan"
   ],
   "note": ""
  },
  {
   "property": "C71",
   "status": "proved",
   "theorems": [
    "Verif.Odom.projection_spec"
   ],
   "note": ""
  },
  {
   "property": "C72",
   "status": "proved",
   "theorems": [
    "Verif.Bbf.odds_history",
    "Verif.Bbf.saturates",
    "Verif.Bbf.forgets"
   ],
   "note": ""
  },
  {
   "property": "C73",
   "status": "proved",
   "theorems": [
    "Verif.Slices.slice_spec",
    "Verif.Slices.points_in_rect",
    "Verif.Slices.addr_spec",
    "Verif.Slices.area_is_free",
    "Verif.Slices.published_spec",
    "Verif.Slices.floors_selected",
    "Verif.Slices.published_heights",
    "Verif.Slices.empty_cloud"
   ],
   "note": ""
  },
  {
   "property": "C74",
   "status": "proved",
   "theorems": [
    "Verif.Polygon.distLinestrip_spec",
    "Verif.Polygon.dist_spec",
    "Verif.Polygon.radius_spec",
    "Verif.Polygon.inside_within_radius",
    "Verif.Polygon.dist_place",
    "Verif.Polygon.dist_move"
   ],
   "note": "exact arithmetic"
  },
  {
   "property": "C75",
   "status": "proved",
   "theorems": [
    "Verif.CSpace.overwrite_base",
    "Verif.CSpace.max_base",
    "Verif.CSpace.keep_unknown"
   ],
   "note": "overwrite_base: equal resolutions"
  },
  {
   "property": "C76",
   "status": "proved",
   "theorems": [
    "Verif.CSpace.cache_addr"
   ],
   "note": ""
  },
  {
   "property": "C77",
   "status": "partial",
   "theorems": [
    "Verif.Layers.subscriber_sync_partial",
    "Verif.Layers.local_plain",
    "Verif.Layers.subscriber_misses_inflation",
    "Verif.Layers.subscriber_keeps_obstacle"
   ],
   "note": "false when a layer inflates beyond the message's rectangle or a message misses the map; proved otherwise for messages to the last overlay layer"
  },
  {
   "property": "C78",
   "status": "proved",
   "theorems": [
    "Verif.Layers.run_defined"
   ],
   "note": ""
  },
  {
   "property": "C79",
   "status": "proved",
   "theorems": [
    "Verif.Safety.status_truthful",
    "Verif.Safety.stuck_unchanged",
    "Verif.Safety.stuck_since_first",
    "Verif.Safety.stuck_cleared",
    "Verif.Safety.summary_levels"
   ],
   "note": ""
  },
  {
   "property": "C80",
   "status": "proved",
   "theorems": [
    "Verif.LocalMap.map_centred",
    "Verif.LocalMap.publish_interval"
   ],
   "note": "Point cloud node; the laser node uses the same origin computation and rate limit (scan_stored)."
  },
  {
   "property": "C81",
   "status": "proved",
   "theorems": [
    "Verif.Model3D.cost_defined",
    "Verif.Model3D.keep_defined"
   ],
   "note": "For an even number of headings (the default 16); for odd counts the border margin computed by the code may be one cell short, not covered."
  },
  {
   "property": "C82",
   "status": "proved",
   "theorems": [
    "Verif.Model3D.cost_lower_bound",
    "Verif.Model3D.euclidCost_eq",
    "Verif.Model3D.estim2D_consistent",
    "Verif.Model3D.motion_nonempty"
   ],
   "note": "Exact real arithmetic."
  },
  {
   "property": "C83",
   "status": "proved",
   "theorems": [
    "Verif.Model3D.interpolate_through",
    "Verif.Model3D.interpolate_safe",
    "Verif.Model3D.sample_start",
    "Verif.Model3D.curve_ends",
    "Verif.Model3D.straight_ends"
   ],
   "note": "Exact real arithmetic."
  },
  {
   "property": "C84",
   "status": "proved",
   "theorems": [
    "Verif.Model3D.primitive_iff",
    "Verif.Model3D.free_move_accepted"
   ],
   "note": "Exact real arithmetic; free_move_accepted for an even number of headings."
  },
  {
   "property": "C85",
   "status": "proved",
   "theorems": [
    "Verif.Path2D.curvature_arc",
    "Verif.Path2D.curv3p_circle",
    "Verif.Path2D.curv3p_circle_right",
    "Verif.Path2D.curvature_circle",
    "Verif.Path2D.curvature_straight",
    "Verif.Path2D.curvature_mean"
   ],
   "note": "exact real numbers"
  },
  {
   "property": "C86",
   "status": "proved",
   "theorems": [
    "Verif.Tracker.commands_bounded",
    "Verif.Tracker.commands_accelerate",
    "Verif.Tracker.double_deceleration"
   ],
   "note": "time steps are not negative; double_deceleration shows that the factor two is reached"
  },
  {
   "property": "C87",
   "status": "proved",
   "theorems": [
    "Verif.PlannerMap.complete_messages_defined",
    "Verif.PlannerMap.heading_offset_undefined",
    "Verif.PlannerMap.wrapped_update_undefined"
   ],
   "note": "the two counterexamples are the limits named in the statement"
  },
  {
   "property": "C88",
   "status": "proved",
   "theorems": [
    "Verif.PlannerNode.reached_only_at_goal",
    "Verif.PlannerNode.passed_only_near_goal",
    "Verif.PlannerNode.reached_after_leaving"
   ],
   "note": "the position is only looked at when the last turn begins (reached_after_leaving), as the statement says"
  },
  {
   "property": "C89",
   "status": "proved",
   "theorems": [
    "Verif.PlannerNode.never_undefined",
    "Verif.PlannerNode.recursion_needs_consistency",
    "Verif.Scene.shown_consistent",
    "Verif.Scene.never_undefined"
   ],
   "note": "PlannerNode.never_undefined has the condition on the map as a hypothesis; Scene.never_undefined derives it from the geometry (relocation and the test of the goal's cell read the same costmap)"
  },
  {
   "property": "C90",
   "status": "proved",
   "theorems": [
    "Verif.PlannerNode.preempted_only_if",
    "Verif.PlannerNode.aborted_only_if",
    "Verif.PlannerNode.invalid_goal_refused",
    "Verif.PlannerNode.recalled_only_if",
    "Verif.PlannerNode.cleared_only_if",
    "Verif.PlannerNode.waiting_goal_forgotten"
   ],
   "note": ""
  },
  {
   "property": "C91",
   "status": "proved",
   "theorems": [
    "Verif.Joints2D.requested_duration",
    "Verif.Joints2D.free_duration",
    "Verif.Joints2D.same_pace"
   ],
   "note": "exact arithmetic"
  },
  {
   "property": "C92",
   "status": "partial",
   "theorems": [
    "Verif.Joints2D.search_good",
    "Verif.Joints2D.search_exhausted",
    "Verif.Joints2D.moves_clear_partial",
    "Verif.Joints2D.clear_no_collision",
    "Verif.Joints2D.ends_not_lethal",
    "Verif.Joints2D.direct_through_collision"
   ],
   "note": "proved at the code's sampling resolution for searched ways and direct moves up to half a turn; false for longer direct moves (direct_through_collision)"
  },
  {
   "property": "C93",
   "status": "partial",
   "theorems": [
    "Verif.Joints2D.estimate_lower_bound_partial",
    "Verif.Joints2D.estimate_too_high",
    "Verif.Joints2D.move_cost"
   ],
   "note": "proved for ways that stay inside the angle range; false for ways through its end"
  },
  {
   "property": "C94",
   "status": "proved",
   "theorems": [
    "Verif.Joints2D.costmap_built",
    "Verif.Joints2D.zero_reach_undefined_iff",
    "Verif.Joints2D.expansion_stops_at_seam"
   ],
   "note": "the link geometry is an arbitrary predicate on the angles; exceptions as stated"
  },
  {
   "property": "C95",
   "status": "proved",
   "theorems": [
    "Verif.Joints2D.never_undefined",
    "Verif.Joints2D.undefined_or_wrong"
   ],
   "note": "each condition of the statement is needed (undefined_or_wrong)"
  },
  {
   "property": "C96",
   "status": "partial",
   "theorems": [
    "Verif.StartPose.kept_part",
    "Verif.StartPose.refused",
    "Verif.StartPose.defined_partial",
    "Verif.StartPose.switch_is_reversal",
    "Verif.StartPose.start_may_be_lethal",
    "Verif.StartPose.leaves_the_map"
   ],
   "note": "the kept part is proved; the start pose itself is not checked (start_may_be_lethal) and a previous path from another map is looked up outside the new one (leaves_the_map)"
  },
  {
   "property": "C97",
   "status": "partial",
   "theorems": [
    "Verif.StartPose.start_cells",
    "Verif.StartPose.start_complete",
    "Verif.StartPose.start_occupied",
    "Verif.StartPose.finish_partial",
    "Verif.StartPose.predictor_failed",
    "Verif.StartPose.own_cell",
    "Verif.StartPose.odd_headings"
   ],
   "note": "arrival proved for an even number of headings; false for odd ones (odd_headings)"
  },
  {
   "property": "C98",
   "status": "proved",
   "theorems": [
    "Verif.StartPose.joint"
   ],
   "note": ""
  },
  {
   "property": "C99",
   "status": "proved",
   "theorems": [
    "Verif.StartPose.switch_index"
   ],
   "note": ""
  }
 ]
}