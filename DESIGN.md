# Formal model of at-wat/neonavigation in Lean 4 — design

Source modelled: `/repo` (pinned commit, C++14, ROS 1).  The Lean project is `/verif/lean`;
property list is `properties.jsonl`; claim status is `MANIFEST.json`; mutation log is
`seeded/LOG.jsonl`.

## Layout

For each area `X` of the code base there are these files under `lean/Verif/X/` (larger areas have more,
with a header saying what is in them):

* `Model.lean` — executable model, every definition cites the file and lines it models and names
  its simplifications;
* `Spec.lean` — the small independent specification used in theorem statements (no reference to the
  model's helpers beyond its types and, where unavoidable, conversions such as grid to metric);
* `Lemmas.lean` — helper lemmas;
* `Props.lean` — the property theorems (names are listed in `MANIFEST.json`), each next to an
  `example` showing that a concrete, non-trivial case meets its hypotheses.

## General modelling decisions

* **Numbers.** `int` is `Int` (no overflow) unless stated.  `float`/`double` are modelled by exact
  numbers: an arbitrary linear ordered field `K` (instantiable with `Rat`, executable), or `Real`
  where square roots or π are needed, or an *abstract* cost type with only the order laws that IEEE
  rounding keeps (the graph search: `c ≤ add c w` for `w ≥ 0`, monotone `add`).  NaN/∞ are modelled
  explicitly where the code tests for them.
* **Undefined behaviour** (out of range index, `erase`/`++end()`, division by zero on `int`) is a
  distinct outcome (`Option`/`Except`-like result or an explicit `UB` constructor), never a default value.
* **Threads.** ROS nodes here run single-threaded callbacks (`ros::spin`), modelled as
  `step : State → Event → State × Output`, with properties quantified over every event list.
  The multi-threaded search (`GridAstar`) is modelled as a nondeterministic transition relation that
  over-approximates each interleaving.
* **External libraries** (ROS, tf2, PCL, Eigen, actionlib, map_server) are parameters with stated
  assumptions.

## Properties: model and proof plan

| id | modelled | proof |
|---|---|---|
| C01 | `CyclicVec`: both normalisations on `Int` with `Int.tmod`, lifted to vectors; `res = 0` is UB | arithmetic case analysis, uniqueness modulo `res` |
| C02 | `Gridmap`: block/inner address fold over a list of dimensions, `reset` | induction over dimensions, mixed-radix injectivity; invariant `ser_size ≤ capacity` over resets |
| C03 | `Gridmap`: buffer as function/array, each operation as the loop in the code | refinement to `Pos → Val` by induction over op lists |
| C04 | `Heap`: binary heap with `push_heap`/`pop_heap` contracts, `pop_back` | heap invariant, multiset accounting |
| C05–C10 | `Astar`: nondeterministic search state machine (queue as multiset, `g`, parents, batch, schedule) | inductive invariants; ghost cost for "closed" nodes; exchange argument for optimality; counterexample by evaluation |
| C11 | `Model3D`: cost function over exact rationals and abstract motion cells | case analysis of every branch, composition with C05 |
| C12 | `GridMetric` over an ordered field with floor | floor arithmetic |
| C13–C15 | `DistMap`: expansion as nondeterministic relaxation | invariants; counterexamples by evaluation |
| C16 | `Bbf` over an ordered field | invariant over observation lists |
| C17 | `PlannerMap`: update application with region restore | refinement to "base + last update" |
| C18 | `SearchPos`: the triple loop as a fold | fold invariant (argmin) |
| C19, C20, C59 | `PlannerNode`: event-driven state machine | invariants over event lists |
| C21 | `Jump` | unfolding over histories |
| C22, C23 | `Region` | interval arithmetic, frame theorem |
| C24, C25 | `CSpace`: template, masked and unmasked expansion | fold/max lemmas, path-walk induction; counterexample |
| C26–C29 | `Layers`: chain of layers, node | refinement over message histories |
| C30 | `LocalMap`: list erase loop with UB outcome | counterexample + partial theorem |
| C31 | `Polygon`: crossing-number over a field | parity induction along closed vertex list |
| C32 | `LocalMap` | fold lemma; counterexamples |
| C33–C38 | `Safety`: callbacks as step function, `predict` over abstract collision predicate, `Real.sqrt` for braking | invariants, algebra; counterexamples |
| C39 | `Control` | invariant over sequences |
| C40–C42 | `Tracker` | step-function invariants; counterexamples |
| C43, C44 | `Path2D` over abstract metric | list induction |
| C45 | `Control` over `Real`/ordered field with floor | algebra |
| C46 | `Filter` over a field/`Real` | induction over steps |
| C47, C48 | `Joystick` | step-function theorems over histories |
| C49 | `Odom` with explicit infinity | algebra + induction |
| C50 | `Odom` | fold theorem |
| C51 | `Patrol` | trace invariant |
| C52 | `MapIO` | round-trip |
| C53 | `FloorSel` | trace invariant; counterexample |
| C54 | `Slices` | cell-wise case analysis |
| C55 | `Joints2D` | list induction |
| C56 | `Compat` | decision logic |
| C57 | `Model3D` | address arithmetic |
| C58 | `SearchPos` | counterexample |
| C59 | `PlannerNode` | abort proved by case analysis of a cycle; counterexample for the status |
| C60 | `Mesh` | convexity algebra |
| C61 | `CyclicVec`: the unsigned comparison on 32-bit vectors | bit-vector arithmetic by `toInt`/`toNat` (no `bv_decide`) |
| C62, C64 | `DistMap`: `update` after `create` | invariants preserved by re-expansion; counterexample by evaluation |
| C63 | `DistMap` | well-founded measure over cost values |
| C65 | `DistMap/Grid`: the cells of a step | interval arithmetic |
| C66, C67 | `Joystick` | case analysis over message arrays |
| C68, C69 | `Filter`, `Control` | induction over samples; square-root algebra |
| C70, C71 | `Odom` with `Num.Ext` | finiteness invariant over histories; vector algebra |
| C72 | `Bbf` | geometric growth against the clamp |
| C73 | `Slices` | cell-wise description of the counting loops |
| C74 | `Polygon` | projection onto segments, isometry |
| C75, C76 | `CSpace` | fold lemmas; address injectivity |
| C77, C78 | `Layers` | refinement over histories; assertion invariants |
| C79 | `Safety` | case analysis over the cycle and the next command |
| C80 | `LocalMap` | floor arithmetic; invariant over histories |
| C81–C84 | `Model3D` | bounds of the sampled cells, triangle inequality, cache correctness |
| C85 | `Path2D` | trigonometric algebra in `ℂ` |
| C86 | `Tracker/Limits` | bounds of each command branch |
| C87 | `PlannerMap` | bounds of every index |
| C88–C90 | `PlannerNode` | trace invariants relating answers to causes |
| C91, C95 | `Joints2D` node | invariants over message histories |
| C92, C93 | `Joints2D` search | composition with the C05–C07 search theorems; triangle inequality; counterexamples |
| C94 | `Joints2D/Map` | invariant of the expansion loop |
| C96 | `StartPose` | case analysis of every stage, composed with the C43/C44 path theorems; counterexamples |
| C97 | `StartPose` start poses | membership in the candidate list, composed with the C18 relocation theorems |
| C98 | `StartPose` | C96 and the C12 grid/metric theorems |
| C99 | `StartPose` | loop invariant over the path |
| C100, C101 | `LargeMap` | arithmetic of the cut; induction over the occlusion loop; discrete crossing of the ring; counterexample |
| C102 | `TrajFile` recorder | invariant over rounds |
| C103, C104 | `TrajFile` server, saver | invariant over histories; counterexamples |
| C105, C106 | `Hyst` hysteresis map | refinement of a memory of the last path; least distance; triangle inequality |
| C107, C108 | `Replan` main loop, switch backs | invariant over histories; loop invariant of the direction |
| C109 | `Joints2D/Link` bodies of the links | plane geometry over ℂ; Lipschitz bound per cell |
| C110 | `Dummy` simulated robot | invariant over histories; geometric sum; mean value inequality |
| C111 | `Service` make_plan service over `SearchPos`, `Model3D`, `Astar` | refinement of each stage; completeness and optimality of the search; well-founded costs for termination |
| C112 | `DistMap/Change`: histories of changed maps and updates | invariant of erasing flood and expansion; counterexample by evaluation |
| C113 | `Frames`: `process` of the projection node over rotation matrices | matrix identities; heading through the complex argument; counterexample for the aligned position |
| C114 | `Frames`: `cbPose` and `main` of the pose transformer | counterexample: nothing is constructed; the callback by matrix identities |
| C115 | `Joints2D/Cheap`: the search problem of `Joints2D/Search` | termination and optimality of `Astar`; counterexample by an executed run |
| C116 | `Polygon/Region`, `Polygon/Convex`: the crossing count over the reals for moving points and vertices | local constancy of the parity off the outline (one edge or two edges at a vertex at a time), connectedness; convexity of the interior and one explicit inner point |
| C117 | `Pipeline`: the costmap node, the planner's costmap, the search and the interpolation composed | an inscribed disc makes the template contain a disc, so the whole rectangle between robot and obstacle is blocked and the edge shortcut loses nothing; induction over the layer chain and over the history; composition with C80, C02–C10 and C84; a complete run as witness |
| C118 | `Guide`: `makePlan`'s reachability test, the estimate read by the search; composed with the distance map (C16–C18), the 3-DOF moves (C08, C80) and the search (C02–C10) | every move passes over neighbouring non-lethal columns, so a drivable way is a route of the distance map; exactness of the distance map; completeness of the search among cells with a known estimate; counterexamples for relocated robots and overwriting updates |
| C119 | `Guide`: the conversion of the start estimate to `int`; composed with the start poses (C109) | each start pose lies next to the robot's own cell; the distance map is exact up to the overshoot; counterexample: a start pose behind a thin wall |
| C120 | Closed loop of limiter and robot: `Safety/RideSpec` defines the log of callbacks, what the robot sees, is told and how it obeys (a speed function with a derivative); `Safety/Ride` proves one period by integration (`travel_le`, `period_safe`) and the ride by induction over the predictions. |
| C121 | Closed loop of tracker and robot on a straight path: `Tracker/ArriveSpec` defines the path, the robot that obeys, the ride and the inequalities; `Tracker/Straight` evaluates the geometric part of `getTrackingResult` on such a path for every number of poses; `Tracker/Approach` is the arithmetic of the speed control (invariant: the robot can still brake; ranking function: distance plus speed); `Tracker/Arrive` joins them by induction over the periods; `Tracker/Sparse` has the default parameters and the path on which the robot is driven away |
| C122 | Closed loop of tracker and robot for a turn on the spot: `Tracker/ArriveSpec` has the path and the inequalities, `Tracker/Turn` the arithmetic of the rate control (the same invariant as C121, a ranking function with the angle still to go), the evaluation of `getTrackingResult` on such a path, the uniqueness of the normalised angle, and the induction over the periods; `Tracker/TurnCase` has the default parameters |
| C123 | Invariant of the distance map between calls that does not mention the costs: every cell with a value either has only side neighbours with values or is remembered as an edge.  The flood of `update` reopens the border of what it erases (`Border`), the expansion tries every side step (`Tried`), and while the start has no value nothing is cut off; so after every call the values are closed under free side steps.  Costs with a top element; the grid is `Grid.envT`.  Counterexample for diagonal steps by executing the model |
| C124 | `Picture`: the loops of `publishDebug` and `publishRememberedMap` with writes into vectors that fail outside; one lemma about loops which write every cell once (`fill_cells`), then the content cell by cell |
| C125 | `Tracker/{Append,TurnEnd,LineTurn,Short,LineTurnCase}`: looking at a path `P ++ [q]` (`Append`) is looking at `P` until the local goal is its last pose; a turn at the end of any path (`after_ends`) with a robot that still rolls; the straight part follows the recursion `approach` (rank of C121) until the point ahead is within the stop tolerance; both parts are joined by shifting the ride.  Lower bound of the final distance (`stops_short`) by following the acceleration up to the limit |
| C126 | Timed layer on top of `PlannerNode` (`WatchSpec`: `Runs`, the time at which the one-shot timer is due); events other than maps, updates and parameters keep the timer (`step_timer`, from the frame lemmas in `Trace`); induction over the calls: while no call of the timer has begun after `T0` it is due at most `ρ` + watchdog after `T0`.  Then C20's `stale_stops`.  Counterexample: a parameter change (`parameters_silence_watchdog`) |
| C127 | planner node: published status and diagnosis | for every reachable state and world: the last status of a planning cycle against what the searches answered (`status_tells_partial`), and the cycles with old data, without goal, giving up; counterexamples for finishing and for temporary escapes |
| C128 | planner node: field `made`, the goal of the distance map; the answers of the search depend on it | invariant over event lists without disturbing events (`guided_partial`), what planning publishes then (`paths_guided_partial`), one-step repair (`update_guides`); counterexample histories |
| C129 | planner node, as for C88 | the last turn is kept by every quiet event (`turning_step`, induction in `turning_run`), begun by a cycle near the goal (`arrives`) and ended by one with the right heading (`turned`); `reached_when_there` |
| C130 | planner node, as for C129 | the distance map is for the goal (`G`, invariant of C128), so the cycle's `makePlan` takes the branch of a successful search (`makePlan_found`, `deliver_plan`); `path_delivered` |
| C131 | Scene: the world of the node given by the models of the functions it calls | `Shows` ties the node's parameters to StartPose, SearchPos, Guide, DistMap, Astar, Model3D and GridMetric; found by `Guide.search_finds_partial`, clear by `Model3D.interpolate_safe`; delivered by `path_delivered`; `drivable_goal_gets_path` |
| C132 | Scene + Pipeline: the paths published by any event | `PlannerNode.origin_step`: a published path is empty, the poses of a search in the event's world, or the final pose; `Astar.search_any_path_legal` for any outcome; `Model3D.plan_safe`; `Pipeline.clearance_at` for the footprint. Limit: `final_pose_unchecked` |
| C133 | `Model3D` (`cost`, `page`, `rcGet`), `Model3D/CostSpec` (independent description of the motion, the cells it goes through, its length, means of costs) | exact value of every finite result of `cost`: `move_cost`, `turn_cost`; `sample_driven` says that the cached samples lie on the curve of the specification. Finding (`decel_less_when_tighter`): the deceleration term is proportional to the radius, so that of two curves of one length that have to be driven slowly the tighter one is charged less |
| C134 | `Model3D` (`interpolatePath`, `page`, `searchGrids`), `Scene` | `interpolated_poses`: exact list of the poses; bound on the speed of the curve along its parameter (radii of a turn of at most a quarter, chord ≤ arc); every offered move is of that kind; composed with the origin of published paths (as C132) and with the density assumed by C105 |
| C135 | `Tracker.CommandSpec` says what a cycle is meant to command (Reverse, bearing, brakingSpeed, AtEnd, Askew, TurnsOnSpot, Follows, Halts), independently of the branches of the code; `Tracker.CommandProps` proves the published command equal to it by the cases of `getTrackingResult`. |
| C136 | `Layers.Dynamic` follows an overlay message through the chain: the update published for it reports every cell of its rectangle and is lethal where the layer's footprint is (`overlay_blocks`), in every mode and after every history. `Pipeline.SensedSpec` links the nodes (Senses, HasUpdate, Within, Matches), `Pipeline.Sensed` joins `CSpace.conservative_disc`, the planner's map (C31) and `Model3D.plan_safe`; `Pipeline.SensedExample` is a complete run. |
| C137 | `Pipeline.Sync`, `Pipeline.OneSensor`: update content (C27) joined with the planner's map (base and last update). The full statement is false: concrete runs with two sensor layers, and with one that expands obstacles. Proved for whole histories with one sensor layer that does not expand. |
| C138 | `PlannerNode.Report`: feedback, `current_goal` and metrics computed beside the node's state machine, for every history, world and list of durations; decomposition of every event into at most one planning cycle; one age per message by induction over the history; unbounded buffer by induction on the number of repeated goals. |
| C139 | `Tracker.WatchSpec`: the node together with the due time of its one-shot timer, callbacks with times; induction over timed runs: the timer comes from the last odometry message, and runs out unless there is another one. Without `use_odom`: history in which the robot drives on for ever. |
| C140 | `Odom.Slip`: the filter's estimate after one message as a convex combination of the faded old estimate and the measured slip per turn rate, then induction over the increments of the history; counterexample with the default parameters for the direction with the filter. |
| C141 | `Odom.Height`: the height as a function of the history; invariant that the node's position agrees with it and with the sum of increments; product of one factor per published message by induction; counterexample for long intervals. |
| C142 | Safety limiter histories (Safety/Model). Spec: usable data since the last stale prediction, restrictions held until before a time, quiet events. `passes_again` by a bound on the hold-off time and an invariant over the quiet events; `watchdog_iff`; `first_after_reset` says that the first command after a reset is still a stop. |
| C143 | 3-DOF planner model (Model3D). `offered_iff` from the characterisation of the primitives (C84) and of the rough list; `plan_steps` by induction over the path of `plan_moves`; `far_slant` because the cost does not depend on the slant limit. |
| C144 | Filter model with explicit infinities (Odom/Model). Spec: list of measurements, information as sum of inverse variances. `too_sure` by induction from the end, `late_counts_less` from it; closed forms for two and three equal measurements. |
| C145 | Joystick override histories (Joystick/Model). Spec: the last published command. Induction over the history from the output theorems of C47; `lost_button_in_force` is the exception for messages without the button. |
| C146 | The node constructor with addRootLayer, addLayer, setChild and loadClass on a heap of layers (Layers/SetupModel). Spec: following child pointers from the root, and what the lists ask for (Layers/SetupSpec). Invariant over the loop that adds layers. |

Concurrency at the memory-model level, real IEEE rounding, tf2/PCL numerics and ROS transport are
outside the model; the sections below say exactly what is and is
not covered.

## Trusted base

1. **Lean 4.33.0's kernel** and its elaboration of the *statements* (definitions in `Model`/`Spec` files and the
   statements in `Props` files).  Proof terms are checked by the kernel; tactics and Mathlib proofs are not trusted.
2. **Axioms**: only `propext`, `Classical.choice` and `Quot.sound`.  No axiom is declared in `/verif`; there is no
   `sorry`, `admit`, `native_decide`, `bv_decide`, `implemented_by` or `unsafe`.  `decide +kernel` is used for
   concrete examples and counterexamples: it is evaluated by the kernel and adds no axiom.  The exact set for every
   theorem of the manifest is in the last section.
3. **Mathlib** for definitions that occur in statements: ordered fields, `ℝ`, `ℂ`, floor/ceiling, `Real.sqrt`,
   trigonometric functions, `List`, `Multiset`, groups.
4. **The reading of the C++ source**: the models were written by hand from the text of `/repo`.  Nothing connects
   them to the compiled program mechanically.  Every definition cites the lines it was read from.
5. **The assumptions on external code** listed with each module (the C++ standard library's heap functions by
   contract, `actionlib`, `tf2`, PCL, `map_server`).

What the models leave out everywhere: rounding of `float`/`double` (exact numbers are used, except in `Astar`,
`DistMap` and `Heap`, which only assume order laws that rounded addition keeps, and `Bbf`, where rounding is a
parameter), overflow of `int` and `size_t` (except in `CyclicVec` C61 and `PlannerMap`, which use machine integers),
memory exhaustion, ROS transport and parameter parsing, log output.

## Modules: what is modelled, what is not, what was found

"Found" lists behaviours of the code that contradict the plain reading of a property.  Each is a theorem (named)
unless it says *(read only)*.

### CyclicVec — `planner_cspace/include/planner_cspace/cyclic_vec.h`
Modelled: `cycle`, `cycleUnsigned` on elements and vectors, arithmetic, `isExceeded`-style range test as an unsigned
comparison.  Not modelled: `float` specialisations other than those in `Control` and `Model3D`.

### Gridmap — `blockmem_gridmap.h`
Modelled: block address, `reset`, `clear`, `clear_positive`, `clear_partially`, `copy_partially`, assignment,
`validate`, element access with undefined behaviour outside the buffer.  Not modelled: `bad_alloc`, wrap-around of
`size_t`.

### Heap — `reservable_priority_queue.h`
Modelled: `push`, `pop`, `top`, `pop_back`, `clear` with `std::push_heap`/`pop_heap` by contract.  Not modelled:
libstdc++'s sift algorithm, `reserve`.

### Astar — `grid_astar.h`
Modelled: `search`, `searchImpl`, `findPath` with arbitrary thread schedules, queue limit, progress
callback, start list; `Vec` instantiates it with integer vectors and cyclic dimensions.  Assumed: the cost model
callbacks are functions of their arguments.  Not modelled: torn writes of the unsynchronised
`better`/`cost_estim_min` pair (any value of `better` is allowed instead), NaN costs, the wall clock.
Found: zero tasks per round never finds anything (`zero_tasks_never_finds`); with several tasks per round, or starts
reachable from each other more cheaply, the path need not be optimal (counterexamples beside `path_optimal`).
*(read only)* the explicit constructor leaves `search_task_num_` uninitialised.

### DistMap — `distance_map.cpp`
Modelled: `init`, `create`, `update`, `fillCostmap`, the collision-edge search, cell reads.  Not modelled: debug
output, `setParams`.  Found: `stale_goal` (create with a start outside the map, then update), C64's counterexample
(an update erases the branches around one cell of the rectangle only), `diagonal_lost` (an update loses a start whose only way
out is a diagonal step).

### Model3D — `rotation_cache.*`, `motion_cache.*`, `motion_primitive_builder.cpp`, `grid_astar_model_3dof.cpp`
Modelled: all functions used by the search and by `interpolatePath`.  Exact reals.  Not modelled: odd numbers of
headings in C81/C84 (the signed cycle is asymmetric there), rounding at cell borders.  *(read only)* iterators of
different containers are compared in `motion_cache.h`'s `end` test by some callers.

### GridMetric, SearchPos, PlannerMap, PlannerNode — `grid_metric_converter.h`, `planner_3d.cpp`
Modelled: conversions; `searchAvailablePos`, `relocateDiscretePoseIfNeeded`, escape goal search in both modes;
`applyCostmapUpdate`, `cbMap`, `cbMapUpdate`; the node's goal handling, planning cycle, timers, status and results as
a state machine over arbitrary answers of the geometric functions; action feedback, `current_goal` and metrics beside it
(`Report`; durations by name only).  Debug pictures are in `Picture`, the service `make_plan` in `Service`.  Not
modelled: markers, multi-threaded spinners.  Found: the fallback search drops the minimum distance (`fallback_ignores_minimum`); simple
escape mode searches around cell (0,0,0) (`simple_escape_far_away`); local copy off by one (`local_copy_outside`);
heading offset of an update unchecked (`heading_offset_undefined`); rectangle check wraps (`wrapped_update_undefined`);
obstacle memory input depends on history (`memory_input_depends_on_history`); a goal waiting while the other interface
is busy is forgotten (`waiting_goal_forgotten`); stale data unreported without a goal
(`stale_unreported_without_goal`); rejected update hides the data's age (`rejected_update_hides_age`); giving up is
not reported (`giving_up_unreported`); failed searches are never counted (`failed_search_never_aborts`); success after
leaving the goal (`reached_after_leaving`); recursion of estimate and escape search depends on their consistency
(`recursion_needs_consistency`); giving up leaves its metrics in the buffer, which can grow without bound (`metrics_left_over`, `metrics_buffer_grows`).  *(read only)* entering FINISHING publishes the finish path and immediately an empty
one; reconfiguring re-initialises the distance map while `cost_estim_cache_created_` stays true; crowd mode reads the
static distance at `te ± 1`, outside the map when `range_` is 0.

### Joints2D — `planner_2dof_serial_joints.cpp`, `grid_astar_model_2dof_joints.cpp`
Modelled: costmap construction, cost model, `makePlan`, `replan`, both callbacks.  The search is the one of `Astar`
(`search_good`, `search_exhausted`).  `LinkBody` is modelled over ℝ in `LinkModel` (crossed
links are not detected, `misses_crossing`).  Not modelled: publishing of the
debug map and state, `ros::Duration` rounding, `avg_vel_` before the first command (uninitialised in the code; it is
always set before use).  Found: 0/0 times when the target is the present position (`standstill_undefined`); negative
ties miss by a cell (`negative_tie_missed`); ends two turns away (`two_turns_away`); long direct moves go through
collisions (`direct_through_collision`); estimate not admissible through the end of the range (`estimate_too_high`);
zero expansion radius undefined (`zero_reach_undefined_iff`); expansion stops at the seam
(`expansion_stops_at_seam`); four message histories that read outside arrays or swap targets
(`undefined_or_wrong`).

### StartPose — `start_pose_predictor.cpp`, `planner_3d.cpp` (`buildStartPoses`, `isPathFinishing`, `getSwitchIndex`, assembly of the path in `makePlan`)
Modelled: every stage of `StartPosePredictor::process`, start pose candidates with and without `antialias_start`,
relocation of the start (through `SearchPos`), the finish test, the switch back index, and the joining of kept part and
new plan.  The local goals the predictor asks for are the relation `Path2D.Goals` (unique and total by C43).  Costs are
looked up through a partial function so that a cell off the map is a distinct outcome.  Not modelled: the hysteresis map,
`float`/`double` rounding.  Found: the start cell of the new plan is not tested (`start_may_be_lethal`); the previous path
is kept over a change of the map, and its poses are looked up outside the new one (`leaves_the_map`); with an odd number
of headings the finish test misses robots within the tolerance (`odd_headings`).

### LargeMap — `largemap_to_map.cpp`
Modelled: the occlusion table, the cut of the map, ring and circle, the occlusion loop.  Not modelled: tf lookup, timer,
`float` rounding, widths below zero.  Found: for odd widths the cut is half a cell off (`odd_width_shifts`); hidden
obstacles do not hide, depending on the order of the addresses (`hidden_does_not_hide`).

### TrajFile — `trajectory_recorder.cpp`, `trajectory_saver.cpp`, `trajectory_server.cpp`
Modelled: recorder loop with its service, saver, file request, filter (through `Filter`), marker events.  ROS
serialisation is a parameter with a round-trip law; the marker library delivers events only of markers it knows.  Found:
`ang_interval` has no effect (`turning_not_recorded`); clear requests wait as long as the lookup fails (`clear_waits`);
after a failed request the old markers access poses that are gone (`stale_marker`); empty files with the filter are
undefined (`empty_filtered`).  *(read only)* `pose_transform.cpp:97` declares a function instead of the node, so that
program never handles a pose.

### Hyst — `planner_3d.cpp` (hysteresis map)
Modelled: the cells around the path, distance to the pieces with the same heading, clamp and rounding, resets.  The order
of the hash table is arbitrary; `FLT_MAX` is an absent distance; `hysteresis_max_dist = 0` (NaN converted to an integer)
has no outcome.  That successive interpolated points are close is a hypothesis (`Dense`).  Found: with
`hysteresis_expand` below 0.71 cells an obstacle on the path need not release it (`small_expand_keeps`); a path of a
single pose prefers nothing (`single_pose_costs`).

### Replan — `planner_3d.cpp` (`waitUntil`, `spin`, `getSwitchIndex`)
Modelled: one turn of the waiting loop with its reasons, deadline, switch back bookkeeping of `planPath`.  Observations,
clock and planning results are arbitrary inputs; `lethal` stands for the costmap lookup.  Found: a cycle without goal
or costmap leaves a pending switch back, so the planner goes on waiting `sw_wait` (`stale_switch`); the pose taken as
switch back lies after the turning point (`switch_after_turn`).

### Dummy — `dummy_robot.cpp`
Modelled: `cbTwist`, `cbInit` (the transform is an input), the loop of `spin`, over ℝ.  Not modelled: broadcast of the
transform (same pose as the odometry), quaternions, `ros::Rate`, rounding of `float`.

### Service — the make_plan service (`planner_3d.cpp` cbMakePlan)
Modelled: the checks of map and frames, the cells of the two poses, their relocation off lethal cells (`searchAvailablePos`, via
`SearchPos`), the search with the model without headings (via `Model3D` costs and `Astar` rounds, for every schedule), the
interpolation and the conversion to metric poses.  The spec (`Leg`, `Way`, `legCost`, `Takes`) speaks of straight moves, sampled
points and cells, not of the search.  The cast of the estimate of the start to an integer cost is modelled by the floor.
Costs are exact reals (infinite = rejected).  Not modelled: the service transport and logging.
`Service/PropsMap` connects the service with the maps `PlannerMap` builds: `served_path_free_partial`.

### Astar/Exact and Model3D/Ends — termination with exact costs
`search_terminates` needs finitely many cost values.  For exact costs the possible route costs are sums of finitely many
non-negative step costs, a well-founded set (`sums_wf`), so no run of rounds is infinite (`ends_exact`); `Model3D.plan_ends`
applies this to the 3-DOF planner with arbitrary finite maps and non-negative weights.

### Frames — `tf_projection_node.cpp`, `pose_transform.cpp`
Modelled: `process` (both lookups as inputs, all options, times), `projectTranslation`, `cbPose`, `main`.  Rotations are
real matrices (orthogonality is a hypothesis where needed), `getYaw` the argument of the horizontal part of the x axis.  Not modelled: the
library's other formula next to a vertical x axis, quaternion conversions, frame names, the timer.  Found: `main` of `pose_transform`
never constructs the node (`never_published`); `align_all_posture_to_source` also turns the position (`aligned_moves`).

### Pipeline — from the occupancy grid to the path
Nothing new is modelled here: `Pipeline/Spec` names the configured root layer, the message between costmap node and planner,
and what it means that a cell is occupied, a point is in it and the robot touches it; `Pipeline/Props` composes `CSpace`,
`Layers`, `PlannerMap`, `Model3D`, `Astar` and `GridMetric`.  `Pipeline/Example` is a complete run (map, publication,
reception, search, path), so the hypotheses are met together.  Not covered: cells the map does not know (the root layer
marks them unknown and the planner gives them `unknown_cost`), static overlays that overwrite, updates in overwriting mode,
transport, rounding of `float`.  `Pipeline/Sensed` does the same for obstacles that only an overlay layer knows, for the last
update the planner accepted (any mode); `Pipeline/Sync` says what the planner's costmap shows of the node's map and what it loses.

### Guide — how the planner uses the distance map

`Guide/Model.lean`: the reachability test of `makePlan` (`planner_3d.cpp` 1941–1945), the estimate the search reads
(`grid_astar_model_3dof.cpp` 305–310, `grid_astar.h` 331) and the conversion of the start estimate to `int` (`grid_astar.h` 219), with an
undefined conversion as `none`. Everything else is taken from `DistMap`, `Model3D`, `Astar`, `StartPose` and `PlannerMap`.

*Proved.* A move of the vehicle passes only over neighbouring non-lethal columns of the map without headings (`move_columns`), so whatever can
be driven is a route of the distance map (`reachable_not_refused_partial`); the estimate stays known while the robot moves on by less than the
overshoot (`moved_known`); a search whose way stays where the estimate is known succeeds (`search_finds_partial`, `plan_succeeds_partial`); the
map without headings hides no free cell (`map_fits_partial`, `PlannerMap.rough_below_partial`).

*Findings.* (1) `initial_2dof_cost` is read at the robot's own cell although the start pose may have been relocated: a goal next to the
relocated start is refused (`relocated_refused`). (2) In overwriting mode the map without headings is not lowered
(`PlannerMap.overwriting_hides_free`). (3) A start pose behind a thin wall has the largest `float` as its estimate, and the conversion to `int`
is undefined behaviour (`start_undefined`).

### Picture — `planner_3d.cpp` (`publishDebug`, `publishRememberedMap`)
Modelled: the three debug outputs, including the conversion to `int8_t`.  Not modelled: headers, stamps, the test for subscribers.

### Scene — `planner_3d.cpp` (`makePlan`, `createCostEstimCache` seen from the node)
Modelled: the decisions that PlannerNode takes from its parameter `World` (placing the robot and the goal, start poses, reachability, the search and its
path in the map frame), by the models of the functions called, for one costmap, robot pose and distance map.  `exists_world`: every consistent scene is that of some
world.  Not tied to the scene: keeping a part of the previous path (StartPose only), and the search for
temporary goals, except for the test of the original goal's cell.

*Proved.* A goal that can be driven to gets a clear path (`drivable_goal_gets_path`); the node never runs into undefined behaviour, whatever the scenes
(`never_undefined`, without the hypothesis of `PlannerNode.never_undefined`).  Every published path is clear, whatever happens (`published_path_clear`), and with
the costmap node of Pipeline the footprint touches no occupied cell (`robot_touches_nothing`).

### Bbf — `bbf.h`, `costmap_bbf.cpp`
Modelled: odds update and clamp, `remember`, `updateCostmap`, `forEach`.  Rounding is a parameter.

### Jump — `jump_detector.h`; Patrol — `patrol.cpp`
Modelled: all logic.  `tf2` transforms are a group; the action client is a state machine.  Found: a goal that ends
preempted, rejected or recalled stalls the patrol (`stalls`).

### Region, CSpace, Polygon, Layers — `costmap_cspace`
Modelled: `UpdatedRegion`, `bitblt`, footprint template generation (`generateCSpace`), `generateCSpace` of overlays
with and without the same-resolution shortcut, `processMapOverlay`, the layer chain (`base.h`,
`footprint.h`, `plain.h`, `unknown_handle.h`, `stop_propagation.h`, `output.h`), the node's buffering.  Found: the
shortcut misses walls for elongated footprints (`shortcut_misses_wall`); inflation outside the message's rectangle
stays (`ghost_inflation`); updates carry the previous stamp (`stamp_of_previous`); an empty base map with buffered
messages is undefined (`empty_base_undefined`).

### LocalMap — `pointcloud_accumulator.h`, `pointcloud2_to_map.cpp`, `laserscan_to_map.cpp`
Modelled: accumulation, map building, rate limit.  Not modelled: `tf` interpolation, PCL conversion.  Found: the
accumulator erases every other expired cloud and is undefined when it erases the last; in single-shot mode the second
cloud is always undefined; border folding; only the first point's height is tested in the laser node.  *(read only)*
a failed laser transform pushes an empty cloud with stamp 0.

### Safety — `safety_limiter.cpp`
Modelled: every callback, prediction, limiting.  Voxel filter is an arbitrary function, radius search an exact closed
disc.  Not modelled: NaN/∞ in messages, `collision` topic, zero `hz`/`vel`/`acc` parameters.  Found: `transformed_twice`,
the releases of C38.  *(read only)* `dt = 0` (allowed by reconfigure) makes the prediction loop endless; NaN twists
pass; with simulated time below `disable_timeout` the limiter starts disabled.
The closed loop (`Safety/Ride*`) adds a robot moving on a line: continuous position and speed, told the published commands.
The world is static, the points tested are assumed to be the obstacles as seen from the true position (no sensor or
`tf` error), and the command is constant.  Found: `faster_command_unrestricted` — the limit computed for a slow
command is applied to a faster one until the next prediction; and the margin must cover `a·P²/2`, as the compensation
assumes that braking starts at once at the full delay.

### Filter, Control, Path2D, Tracker — `trajectory_tracker`
Modelled: `filter.h`, `basic_control.h`, `path2d.h`, `eigen_line.h`, `average.h`, the tracker node.  Exact reals with
explicit ∞/NaN for path velocities.  Not modelled: `rotate()` of a path, debug output.  Found: NaN target stops at
once (`nan_violates_acceleration`); float angle loop does not end for large values (`float_diverges`);
`short_switch_missed`; `nearest_drift`; `drives_far_away`; `goal_far_away`; `goal_heading_ignored`;
`step_change_reads_outside`; `double_deceleration`; `sparse_path_overrun` (poses further apart than the metre in which
the nearest pose is searched: the robot is driven over the end of a straight path for ever); `lost_keeps_driving` (without `use_odom`, losing the
robot's position publishes no command at all: the last one stays in force).  `WatchSpec` trusts roscpp: `setPeriod` with reset restarts a one-shot
timer also after it has run.  *(read only)* `path_step = 0` loops for ever; −∞ path velocity is
not rejected; backward odometry stamps give negative `dt`.

### Odom — `track_odometry.cpp`, `kalman_filter1.h`; Joystick — `joystick_interrupt.cpp`, `joystick_mux.cpp`
Modelled: all callbacks.  Found: `filter_reverses` (C140: slip per rad/s applied as a ratio, displacement turned round with default parameters); `predict_filter_tc` is
a rate, not the time constant its comment promises (`correction_fades`); `height_grows` (C141: the height filter is unstable after an interval without IMU); `both_exact_nan`; a NaN pose with zero noise (C70).

### FloorSel, MapIO, Slices — `map_organizer`; Mesh — `obj_to_pointcloud.cpp`; Compat — `compatibility.h`
Modelled as described in each `Model.lean`.  Found: `stale_maps`; `merge_clears_obstacle`; `mixed_when_changed`.

## Axioms by theorem

Output of `#print axioms` for every theorem of the manifest, grouped by result (prefix `Verif.` omitted).

**`propext`, `Classical.choice`, `Quot.sound`** (570):
* `CyclicVec`: cycleElement_spec, cycleUnsignedElement_spec, signed_unique, unsigned_unique, cycleElement_eq_iff, cycleUnsignedElement_eq_iff, cycleElement_idem, cycleUnsignedElement_idem, cycle_spec, cycleUnsigned_spec, isExceeded_iff
* `Gridmap`: offset_safe, validate_iff, validated_access, gridmap_refines
* `Astar`: search_path_legal, predecessors_loop_free, found_returns_true, best_effort_path_legal, exhausted_unreachable, search_terminates, search_progress, ends_exact, path_optimal, batch_not_optimal, multi_start_not_optimal, queue_bounded, search_any_path_legal
* `Model3D`: search_ends, search_answers, plan_ends, motion_safe, turn_safe, plan_safe, move_cost, turn_cost, sample_driven, decel_less_when_tighter, interpolated_spacing, interpolated_poses, offered_moderate, offered_iff, plan_steps, far_slant, rotation_access, motion_found_iff, find_periodic, keep_defined, cost_defined, cost_lower_bound, euclidCost_eq, estim2D_consistent, motion_nonempty, interpolate_through, interpolate_safe, sample_start, curve_ends, straight_ends, primitive_iff, free_move_accepted
* `LargeMap`: shows_large, robot_in_middle, aligned, odd_width_shifts, publish_defined, round_unknown, occluded, nearest_visible, ring_is_wall, surrounded, hidden_does_not_hide
* `TrajFile`: recorded, published_path, cleared, clear_waits, turning_not_recorded, moved, deleted, added, released, edits_defined_partial, status_last, stale_marker, empty_filtered, saved_first, round_trip, filter_keeps, filter_positions
* `Hyst`: hysteresis_costs, hysteresis_range, run_goes_on, costAt_range, costAt_mono, costAt_zero_iff, costAt_full_iff, single_pose_costs, obstacle_on_path_releases, own_cells_free, small_expand_keeps
* `Replan`: plans_iff, waits, deadline, plans_in_time, regular_interval, no_switch_wait, stale_switch, arrival_consumed, switch_index, no_switch_iff, switch_remembered, switch_after_turn
* `Joints2D`: collide_iff, collide_symm, collide_sound, collide_periodic, links_costmap, cell_clearance, move_clearance, misses_crossing, search_ends, cheapest_partial, seam_detour, limits_respected, velocity_limits, velocity_direction, ends_at_target, standstill_undefined, negative_tie_missed, two_turns_away, requested_duration, free_duration, same_pace, search_good, search_exhausted, moves_clear_partial, clear_no_collision, ends_not_lethal, direct_through_collision, estimate_lower_bound_partial, estimate_too_high, move_cost, costmap_built, zero_reach_undefined_iff, expansion_stops_at_seam, undefined_or_wrong
* `Dummy`: odometry, one_per_round, hop, straight, circle, near_motion, round_time
* `Service`: planned_path, planned_cells, failure_reasons, every_call_answered, success_iff_way, plain_request, same_cell_fails, headings_differ_fails, moved_goal_fails, rough_range, served_path_free_partial
* `DistMap`: update_sound_partial, update_overestimates, reached, grid_step_free, grid_create_exact, grid_laws, stale_goal, extend_exact, fill_terminates, create_returns, update_stale, corridor_blocked, reads_in_map, mem_diffs_iff
* `Frames`: sent_iff, sent_stamp, sent_place, sent_nearest, sent_posture_kept, sent_posture_projected, sent_flat, sent_aligned, aligned_moves, never_published, transformed_partial
* `Polygon`: inside_moving, inside_region, inside_move, inside_convex, inside_reverse, inside_between, inside_in_hull, inside_in_box, inside_in_disc, inside_rect, inside_translate, distLinestrip_spec, dist_spec, radius_spec, inside_within_radius, dist_place, dist_move
* `Pipeline`: path_clearance, path_clear, complete_run, sensed_clearance, sensed_clear, sensed_run, planner_map_partial, one_sensor_partial, second_sensor_hides_first, expansion_not_shown
* `Layers`: static_map_blocks, overlay_blocks, no_ghosts_partial, ghost_inflation, ghost_inflation_fresh, update_content, stamp_lags_partial, base_stamp_partial, stamp_of_previous, buffered_order, empty_base_undefined, subscriber_sync_partial, local_plain, subscriber_misses_inflation, subscriber_keeps_obstacle, run_defined
* `Guide`: reachable_not_refused_partial, blocked_refused, moved_known, search_finds_partial, plan_succeeds_partial, map_fits_partial, relocated_refused, starts_known_partial, start_value, start_undefined
* `PlannerMap`: rough_below_partial, overwriting_hides_free, costmap_is_base_with_last_update, rough_costmap_is_base_with_last_update, costmap_history_independent, rejected_update_changes_nothing, memory_input_is_last_update, complete_messages_defined
* `GridMetric`: roundtrip, roundtrip_cyclic, cell_of_point, wrapper_same_cell, fractional, centres_are_centres, centre_is_near
* `Safety`: ride_safe, period_safe, command_room, travel_le, faster_command_unrestricted, passes_again, watchdog_iff, first_after_reset, no_data_no_motion, stale_data_stops, only_slows, own_commands_zero, stops_in_time, pose_step, tested_points, collision_now, clear_horizon, no_escape, no_obstacle_data, picture_fresh_partial, transformed_twice, restriction_held_partial, hold_covers_period, reconfigure_releases, first_command_unrestricted, recovery_releases, status_truthful, stuck_unchanged, stuck_since_first, stuck_cleared, summary_levels
* `Tracker`: arrives, ride_exists, defaults_suit, sparse_path_overrun, sparse_ride, turn_ends, turn_exists, defaults_turn, arrives_and_turns, stops_short, lineTurn_exists, after_ends, command_spec, command_direction, short_path_turns, missing_odometry_stops, timeout_only_when_missing, silent_without_odometry, no_timeout_when_off, lost_keeps_driving, timeout_stops, no_path_stops, invalid_path_silent, following_near_partial, drives_far_away, goal_within_partial, goal_far_away, goal_heading_ignored, never_outside, progress_monotone, step_change_reads_outside, commands_bounded, commands_accelerate, double_deceleration
* `DistMap.Grid`: reachable_has_distance, diagonal_lost
* `Picture`: cloud_shows_distances, picture_shows_hysteresis, picture_shows_memory, cloud_shows_lethal
* `PlannerNode`: age_noticed, fires_again, update_starts_timer, parameters_silence_watchdog, status_tells_partial, missing_told, idle_told, untold, diagnosis_tells, old_error_stays, escape_hides_error, guided_partial, paths_guided_partial, update_guides, stale_goal, blank_after_parameters, reached_when_there, arrives, turned, turning_run, path_delivered, deliver_plan, makePlan_found, origin_step, feedback_each_cycle, feedback_only, position_is_last_found, metrics_each_cycle, one_age_each, metrics_left_over, metrics_buffer_grows, one_active, goal_accounting, accepted_one_answer, answer_final, open_is_pursued, cancel_preempts, busy_goal_waits, waiting_goal_forgotten, stale_stops, stale_reported, stale_unreported_without_goal, rejected_update_hides_age, retry_limit_aborts_partial, next_cycle_after_giving_up, blocked_goal_gives_up, giving_up_unreported, failed_search_never_aborts, reached_only_at_goal, passed_only_near_goal, reached_after_leaving, never_undefined, recursion_needs_consistency, preempted_only_if, aborted_only_if, invalid_goal_refused, recalled_only_if, cleared_only_if
* `Scene`: drivable_goal_gets_path, outcome_found, outcome_path, own_start, exists_world, published_path_clear, robot_touches_nothing, final_pose_unchecked, outcome_any, published_path_spaced, planned_path_dense, outcome_spaced, robot_touches_nothing_sensed, shown_consistent, never_undefined
* `Odom`: ratio_without_filter, never_reversed_partial, agreeing_rates, agreeing_is_raw, correction_fades, filter_bounds_partial, filter_reverses, published_any, height_shrinks_partial, height_grows, too_sure, late_counts_less, two_averaged, three_not_averaged, measure_spec, predict_spec, kf_history, kf_hull, publishes_iff, published_position, published_is_raw, starts, never_nonfinite, zero_noise_nan
* `Joystick`: free_in_force, held_in_force, silent_in_force, lost_button_in_force, twist_forwarded_iff, held_publishes_joystick, release_republishes, mux_forwards_selected, joyCommand_bounded, joyCommand_spec, step_defined
* `Layers.Setup`: chain_in_order, starts_iff
* `Bbf`: remember_cell, odds_history, odds_bounded, cost_bounded, cost_in_phase, unobserved_zero, update_mono, order_irrelevant, order_relevant_saturated, pending_inside, saturates, forgets
* `SearchPos`: search_returns_nearest, search_fails_iff, relocate_cases, nearest_in_plane, fallback_ignores_minimum, crowd_escape_near_partial, crowd_escape_original, crowd_escape_found, simple_escape_ignores_robot, simple_escape_far_away, local_copy_outside, local_copy_inside_iff
* `Region`: merge_covers, merge_least, merge_order, normalize_covers, expand_covers, bitblt_spec
* `CSpace`: inflate_full, cell_near, lround_neg, inflate_masked_partial, template_bounds, plain_shrinking, shortcut_misses_wall, conservative_full, conservative_partial, plain_conservative, template_far, masked_rect, conservative_disc, conservative_compact, overwrite_base, cache_addr
* `LocalMap`: push_exact_partial, push_undefined, singleshot_undefined, cloud_map_exact, cloud_map_partial, scan_map_exact, map_centred
* `Control`: vset_spec, step_bounded_partial, velocity_bounded, recovers, reaches, nan_violates_acceleration, angleNormalized_spec, float_diverges, normalizeFloatAngle_spec, timeOptimal_spec
* `Path2D`: convert_ends, convert_length, convert_faithful, convert_merged, convert_exact, convert_round_trip, local_goal, local_goals, short_switch_missed, strip_distance, nearest_found, nearest_drift, remained_ahead, remained_last, remained_on_path, projection_foot, eta_monotone, eta_step, curvature_arc, curv3p_circle, curv3p_circle_right, curvature_circle, curvature_straight, curvature_mean
* `Filter`: lpf_unit_gain, lpf_converges, lpf_step_response, hpf_blocks_constant, lpf_no_overshoot, lpf_overshoots, angle_feed, smooth_spec
* `MapIO`: save_load, save_load_trinary, floors_round_trip, failed_floor_reported_done
* `FloorSel`: selected_latched_partial, stale_maps
* `Slices`: mergeCell_spec, mergeAll_spec, widen_spec, published_obstacles, slice_spec, addr_spec, area_is_free, published_spec, floors_selected, published_heights
* `Compat`: startup_spec, never_mixed, out_of_range_stops
* `Mesh`: sampled_on_surface, count_spec, sample_covers, surface_covered
* `StartPose`: kept_part, refused, defined_partial, switch_is_reversal, start_may_be_lethal, leaves_the_map, start_cells, start_complete, start_occupied, finish_partial, predictor_failed, own_cell, odd_headings, joint, switch_index

**`propext`** (7):
* `CyclicVec`: cycleElement_zero
* `Gridmap`: validation_aliases
* `DistMap`: create_forgets_partial
* `PlannerMap`: memory_input_depends_on_history, heading_offset_undefined, wrapped_update_undefined
* `Compat`: mixed_when_changed

**`propext`, `Quot.sound`** (57):
* `Heap`: top_is_best, queue_refines_bag, popBack_keeps_top
* `Astar`: zero_tasks_never_finds
* `GridMetric`: append_path
* `DistMap`: create_sound, create_unreachable, create_goal_least, create_exact, create_exact_start
* `Odom`: height_fades, infinite_value, measure_inf, inf_takes, both_exact_nan, projection_spec
* `Jump`: report_iff, first_never, steady_never, frame_independent
* `Region`: merge_stamp, normalize_bounds
* `CSpace`: keep_unknown, max_base
* `Layers`: base_replays, nothing_buffered, immediate
* `LocalMap`: push_spec, push_keeps, push_leaves_stale, stale_halves, cloud_stored, scan_stored, publish_interval
* `Polygon`: inside_rotate, ofParam_spec
* `Control`: calls_finite, nan_jumps, angleNormalized_id, absorbed_diverges
* `Filter`: setOut_eq_mk
* `Joystick`: mux_silent, mux_timeout, mux_advertised, muxStep_defined
* `Patrol`: goals_in_order, sends_iff, new_path, patrol_completes, stalls
* `FloorSel`: published_is_wanted, out_of_range_silent
* `Compat`: warned_iff
* `Mesh`: convert_ok
* `Slices`: points_in_rect, empty_cloud
* `Joints2D`: never_undefined

**none** (2):
* `DistMap`: create_out_keeps_values
* `Slices`: merge_clears_obstacle
