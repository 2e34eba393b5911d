{"id": "C01", "title": "Cyclic (heading) grid coordinates normalise to a unique representative", "statement": "Normalising a cyclic grid coordinate with resolution r > 0 always yields the one value congruent to the input modulo r that lies in [r/2-r, r/2) (signed form) or [0, r) (unsigned form); two coordinates denote the same heading exactly when their normal forms are equal, normalising twice changes nothing, and metric (non-cyclic) coordinates are left untouched. A resolution of 0 is undefined behaviour.", "quantifier": "every integer coordinate, every positive resolution (odd and even), every vector dimension split into non-cyclic and cyclic parts", "why_tests_cant": "the domain is all integers times all resolutions; the code relies on C++ truncating remainder whose sign cases cannot be sampled exhaustively", "anchors": ["planner_cspace/include/planner_cspace/cyclic_vec.h: CyclicVecBase::cycleElement, cycleUnsignedElement, cycle, cycleUnsigned"]}
{"id": "C02", "title": "Grid-map cells never alias and never fall outside the allocation", "statement": "For every map size and every in-range position, the storage offset used for a cell of the blocked grid map lies inside the allocated buffer, and two different in-range positions always use different offsets, no matter how often the map was previously resized (grown or shrunk).", "quantifier": "every map size in every dimension (not only multiples of the block width), every pair of positions, every history of resizes", "why_tests_cant": "memory safety and absence of aliasing over all sizes, positions and resize histories; a test samples a few sizes", "anchors": ["planner_cspace/include/planner_cspace/blockmem_gridmap.h: BlockMemGridmap::block_addr, reset, operator[]"]}
{"id": "C03", "title": "The grid map behaves like an independent cell-by-cell store", "statement": "After any sequence of cell writes, whole-map clears, positive-only clears, partial clears and partial copies, reading an in-range cell returns exactly what a plain position-to-value map would return: the last value written to that cell or to a rectangle covering it, and no operation changes any cell outside its own target.", "quantifier": "every sequence of operations on every map size, every rectangle, every pair of maps of the same size", "why_tests_cant": "histories are unbounded, and partial operations run in contiguous memory runs whose boundaries depend on size and block alignment", "anchors": ["planner_cspace/include/planner_cspace/blockmem_gridmap.h: clear, clear_positive, clear_partially, copy_partially, operator[], operator="]}
{"id": "C04", "title": "The open list always yields a best entry and the memory limit never evicts it", "statement": "At every point of any history of inserting, taking the best entry and dropping the last entry, the entry offered is at least as good as every stored entry; inserting, taking and dropping never invent or duplicate entries; and dropping the last entry from a queue holding two or more entries never removes the best one.", "quantifier": "every history of push / pop / pop_back on every content", "why_tests_cant": "unbounded operation sequences and all heap shapes", "anchors": ["planner_cspace/include/planner_cspace/reservable_priority_queue.h: reservable_priority_queue", "planner_cspace/include/planner_cspace/grid_astar.h: PriorityVec"]}
{"id": "C05", "title": "Every path returned by the graph search is a legal path from a start to the goal", "statement": "Whenever the search reports success, the returned path begins at one of the given starts, ends at the goal (or at a node whose remaining estimate was below the leave threshold), and every consecutive pair of cells is a move offered by the model from that cell, inside the map and with a cost the model accepts (non-negative, finite).", "quantifier": "every map size, model, cost function, set of starts, goal, thread count, thread interleaving, batch size, tie-breaking, and queue limit", "why_tests_cant": "depends on the schedule of worker threads and unbounded search histories", "anchors": ["planner_cspace/include/planner_cspace/grid_astar.h: GridAstar::search, searchImpl, findPath"]}
{"id": "C06", "title": "The chain of predecessors recorded by the search is loop-free", "statement": "Walking back from any cell the search has recorded always ends, and ends at a start; so reconstruction of a path terminates, never repeats a cell, and a search that reached its goal never answers 'no path' merely because reconstruction failed.", "quantifier": "every reachable state of the search, every schedule and every non-negative cost function, including zero-cost moves", "why_tests_cant": "a loop appears only for particular orders of updates and zero-cost moves", "anchors": ["planner_cspace/include/planner_cspace/grid_astar.h: searchImpl (parents_, CREATE/update phase), findPath"]}
{"id": "C07", "title": "The graph search never reports 'unreachable' for a reachable goal", "statement": "If the search runs to exhaustion (not aborted by its progress callback and with no queue limit set) and reports failure, then no sequence of admissible moves leads from any start to the goal.", "quantifier": "every model, map, set of starts and goals, batch size, thread schedule", "why_tests_cant": "completeness quantifies over all possible paths", "anchors": ["planner_cspace/include/planner_cspace/grid_astar.h: searchImpl"]}
{"id": "C08", "title": "The graph search terminates", "statement": "On a finite map, for every model with non-negative costs from a finite set of representable values, the search loop stops after finitely many rounds, whatever the batch size and schedule.", "quantifier": "every model, map, schedule", "why_tests_cant": "termination is not testable", "anchors": ["planner_cspace/include/planner_cspace/grid_astar.h: searchImpl"]}
{"id": "C09", "title": "The returned path is cost-optimal", "statement": "With one task per round, a consistent estimate and no early leave threshold, the returned path has minimal total cost among all admissible paths from the starts to the goal. (With several tasks per round this is false: the goal can be taken in the same round as a cheaper predecessor.)", "quantifier": "every model, cost function, consistent estimate, start set", "why_tests_cant": "optimality compares against every possible path", "anchors": ["planner_cspace/include/planner_cspace/grid_astar.h: searchImpl (batch collection of centers)"]}
{"id": "C10", "title": "The queue limit bounds memory without breaking the search", "statement": "With a positive queue limit, at the end of each round the open list never holds more entries than the limit (or what it held initially), and paths returned are still legal.", "quantifier": "every history, every limit", "why_tests_cant": "every history of insertions", "anchors": ["planner_cspace/include/planner_cspace/grid_astar.h: searchImpl, setQueueSizeLimit"]}
{"id": "C11", "title": "A planned motion never touches a cell at or above the lethal cost", "statement": "Whenever the 3-DOF cost function returns a finite non-negative cost for a move, both its ends have a costmap value of at most 99 and every sampled pose of the motion (every heading passed, for a turn in place) lies in a cell whose value is at most 99; hence no path returned by the planner's search sweeps a lethal cell.", "quantifier": "every costmap, every motion primitive and motion cache content, every pair of cells, every weight setting", "why_tests_cant": "all costmaps and all moves", "anchors": ["planner_cspace/src/grid_astar_model_3dof.cpp: GridAstarModel3D::cost", "planner_cspace/include/planner_cspace/planner_3d/grid_astar_model.h"]}
{"id": "C12", "title": "Grid and metric coordinates round-trip", "statement": "Converting a grid cell to metric coordinates and back gives the same cell, and every metric point is mapped to the cell whose square contains it, for any map origin and resolution.", "quantifier": "every cell, every origin, every positive resolution (exact arithmetic)", "why_tests_cant": "infinite domain", "anchors": ["planner_cspace/include/planner_cspace/planner_3d/grid_metric_converter.h: grid2Metric, metric2Grid"]}
{"id": "C13", "title": "The distance map assigns each cell the cost of a real obstacle-free route to the goal", "statement": "After a distance map is created for a start and goal inside the map, every finite value is the total cost of an actual chain of permitted neighbour steps connecting that cell to the goal, no step of which departs from or crosses a lethal cell; the goal cell gets the least value; cells closed off by lethal cells never get a finite value.", "quantifier": "every costmap, goal, map size, processing order", "why_tests_cant": "quantifies over all maps and expansion schedules", "anchors": ["planner_cspace/src/distance_map.cpp: DistanceMap::fillCostmap, init, create"]}
{"id": "C14", "title": "The distance map is exact in the region it claims to cover", "statement": "When the expansion of a freshly created distance map stops, the value of every cell whose true minimal route cost is not above the start's cost plus the overshoot equals that minimal route cost.", "quantifier": "every costmap, goal, start, size", "why_tests_cant": "minimum over all routes", "anchors": ["planner_cspace/src/distance_map.cpp: fillCostmap, create"]}
{"id": "C15", "title": "A distance map created for a goal outside the map is not silently answered from an older goal", "statement": "After asking for a distance map toward a goal, the values read belong to that goal. (The code returns early for an out-of-map goal, keeping the old values while remembering the new goal.)", "quantifier": "every sequence of create/update requests", "why_tests_cant": "history dependent", "anchors": ["planner_cspace/src/distance_map.cpp: create, update"]}
{"id": "C16", "title": "Remembered obstacle probability stays bounded and in phase with the planner's costmap", "statement": "Whatever sequence of hit and miss observations a cell receives, its odds stay within [1/9, 9] and its published cost within [0, 100]; a cell never observed contributes nothing; observation of one cell never changes another; observations are order-insensitive except through saturation.", "quantifier": "every sequence of observations, every hit and miss odds", "why_tests_cant": "unbounded histories", "anchors": ["planner_cspace/include/planner_cspace/bbf.h: BinaryBayesFilter", "planner_cspace/src/costmap_bbf.cpp: CostmapBBFImpl::remember, updateCostmap, forEach"]}
{"id": "C17", "title": "The planner's costmap depends only on the base map and the last accepted update", "statement": "After any sequence of costmap update messages, the costmap used for planning equals the base map with the last update applied (overwritten or cell-wise maximum according to the setting); nothing from earlier updates leaks through; rejected updates change nothing.", "quantifier": "every sequence of base maps and updates with every rectangle (overlapping, touching or crossing the border) whose indices fit the machine integers, in every mode", "why_tests_cant": "history independence over all histories", "anchors": ["planner_cspace/src/planner_3d.cpp: applyCostmapUpdate, cbMapUpdate, cbMap"]}
{"id": "C18", "title": "Goal relocation returns a free cell within the requested range", "statement": "When the planner relocates a start or goal pose, the result lies inside the map with the required margin, within the requested distance and angle of the requested pose, its cost is below the acceptable cost (or below lethal in the fallback), and no eligible cell is closer; if none exists the request fails.", "quantifier": "every costmap, pose, range, thresholds", "why_tests_cant": "all maps and ranges; a minimum over all candidates", "anchors": ["planner_cspace/src/planner_3d.cpp: searchAvailablePos"]}
{"id": "C19", "title": "At most one navigation action is active, and every goal gets exactly one final answer", "statement": "The two action interfaces of the planner never hold an active goal at the same time, and every accepted goal ends in exactly one of succeeded, aborted, preempted.", "quantifier": "every interleaving of goals, cancels, maps, planning results", "why_tests_cant": "all event interleavings", "anchors": ["planner_cspace/src/planner_3d.cpp: cbAction, cbTolerantAction, cbPreempt, planPath, setGoal"]}
{"id": "C20", "title": "Stale sensor data stops the robot", "statement": "If the costmap watchdog is enabled and no costmap update arrived within the limit, every planning cycle publishes an empty path and reports 'data missing' until an update arrives.", "quantifier": "every history of update times", "why_tests_cant": "all timings", "anchors": ["planner_cspace/src/planner_3d.cpp: planPath"]}
{"id": "C21", "title": "Localisation jump detection", "statement": "The jump detector reports a jump exactly when the displacement between successive base poses measured in the map frame and in the odometry frame differs by more than the position or yaw threshold, never on the first sample, and a steady history never produces a report.", "quantifier": "every sequence of poses", "why_tests_cant": "all histories", "anchors": ["planner_cspace/include/planner_cspace/jump_detector.h / src/jump_detector.cpp: JumpDetector::detectJump"]}
{"id": "C22", "title": "Pending update regions cover everything that changed", "statement": "Merging update regions gives a region containing both operands, no larger than their bounding box, independent of merge order; clipping to the map keeps exactly the part inside the map and never goes negative.", "quantifier": "every pair/sequence of regions (empty, negative-origin, partially outside), every map size", "why_tests_cant": "all geometry combinations", "anchors": ["costmap_cspace/include/costmap_cspace/costmap_3d_layer/base.h: UpdatedRegion::merge, expand, normalize"]}
{"id": "C23", "title": "Restoring a rectangle of the configuration-space map copies exactly that rectangle", "statement": "Copying a region from one configuration-space map to another changes every cell (all headings) inside the clipped region to the source's value, and no cell outside.", "quantifier": "every region, every map size, every content", "why_tests_cant": "frame condition over all cells", "anchors": ["costmap_cspace/include/costmap_cspace/costmap_3d_layer/base.h: UpdatedRegion::bitblt, CSpace3DMsg::copyCells, address, getCost"]}
{"id": "C24", "title": "Obstacle inflation is exactly the footprint's configuration-space obstacle", "statement": "After inflating an occupancy grid, each configuration-space cell holds the maximum, over occupied source cells, of footprint-template cost scaled by occupancy (or the previous value if larger); the shortcut that skips already-dominated neighbours gives the same result whenever the template decreases monotonically away from the centre, but not for every footprint.", "quantifier": "every occupancy grid, template, range", "why_tests_cant": "all maps and templates", "anchors": ["costmap_cspace/include/costmap_cspace/costmap_3d_layer/footprint.h: generateSpecifiedCSpace, getMaskedRange, setMapMetaData"]}
{"id": "C25", "title": "The configuration-space map is conservative", "statement": "Any configuration-space cell where the footprint (placed at that cell and heading) covers a fully occupied source cell has value 100.", "quantifier": "every map, every footprint, every pose", "why_tests_cant": "safety over all maps", "anchors": ["costmap_cspace/include/costmap_cspace/costmap_3d_layer/footprint.h: setMapMetaData, generateSpecifiedCSpace", "costmap_cspace/include/costmap_cspace/costmap_3d_layer/../cspace3_cache.h: CSpace3Cache::e"]}
{"id": "C26", "title": "Overlay layers leave no ghost obstacles", "statement": "After any sequence of overlay messages to a layer, the output in the reported update region equals what a freshly started node would compute from the base map and the last overlay only.", "quantifier": "every overlay history, every region", "why_tests_cant": "history independence", "anchors": ["costmap_cspace/include/costmap_cspace/costmap_3d_layer/base.h: processMapOverlay, updateChainEntry, setBaseMap"]}
{"id": "C27", "title": "The published update message contains the current cells of the whole changed region", "statement": "Each published incremental update is either empty or carries, for every heading, exactly the node's current map cells on a rectangle that lies inside the map.", "quantifier": "every chain of layers ending in the update output, every history of base maps and overlays", "why_tests_cant": "all histories and map geometries", "anchors": ["costmap_cspace/include/costmap_cspace/costmap_3d_layer/output.h: Costmap3dUpdateLayerOutput::generateUpdateMsg, updateChain"]}
{"id": "C28", "title": "The published update carries the time of the data it contains", "statement": "The stamp of a published incremental update equals the stamp of the newest sensor data merged into it. (The code copies the header before refreshing the stamp, so it carries the previous update's stamp.)", "quantifier": "every history", "why_tests_cant": "history dependent off-by-one", "anchors": ["costmap_cspace/include/costmap_cspace/costmap_3d_layer/output.h: generateUpdateMsg"]}
{"id": "C29", "title": "Overlays received before the base map are neither lost nor reordered", "statement": "Overlay maps received before the first base map are applied exactly once each, in order of arrival, right after the base map arrives; afterwards overlays are applied immediately.", "quantifier": "every interleaving of base and overlay messages", "why_tests_cant": "all interleavings", "anchors": ["costmap_cspace/src/costmap_3d.cpp: Costmap3DOFNode::cbMap, cbMapOverlay"]}
{"id": "C30", "title": "Expired point clouds are forgotten", "statement": "After a point cloud is added to the accumulator, exactly the clouds younger than the hold time (plus the new one) remain, in arrival order. (The removal loop skips the element after each erased one.)", "quantifier": "every sequence of stamps and hold times", "why_tests_cant": "all histories", "anchors": ["costmap_cspace/include/costmap_cspace/pointcloud_accumulator.h: PointcloudAccumulator::push"]}
{"id": "C31", "title": "Point-in-footprint test rejects everything outside the footprint's bounding box", "statement": "For every closed polygon, a point outside the polygon's bounding box is never inside; for every axis-aligned rectangle the test is exact up to the boundary convention; the answer does not depend on the starting vertex or the orientation of the polygon.", "quantifier": "every polygon (any number of vertices, convex or not), every point", "why_tests_cant": "all polygons", "anchors": ["costmap_cspace/include/costmap_cspace/polygon.h: Polygon::inside", "safety_limiter/src/safety_limiter.cpp: polygon::inside"]}
{"id": "C32", "title": "Local obstacle maps mark exactly the cells hit by points", "statement": "The occupancy grid built from accumulated points marks a cell occupied exactly when some accepted point falls in it, and points outside the grid or outside the height range are ignored. (Truncation toward zero folds points up to one cell outside into border cells, and the laser version tests the height of the first point only.)", "quantifier": "every point cloud, grid size, origin", "why_tests_cant": "all clouds", "anchors": ["costmap_cspace/src/pointcloud2_to_map.cpp: cbSingle/publishMap", "costmap_cspace/src/laserscan_to_map.cpp: cbScan"]}
{"id": "C33", "title": "No sensor data, no motion", "statement": "As long as no point cloud has been received, or while the watchdog has expired, every command the limiter publishes in reaction to an input command is exactly zero unless the limiter is temporarily disabled.", "quantifier": "every interleaving of commands, clouds, watchdog and disable events", "why_tests_cant": "all interleavings", "anchors": ["safety_limiter/src/safety_limiter.cpp: cbTwist, cbWatchdogTimer, cbWatchdogReset, cbCloud"]}
{"id": "C34", "title": "The limiter only ever slows the robot down", "statement": "Every published command is the input command with each component scaled by a factor in [0,1]: never reversed, never enlarged, and within configured maximum velocities.", "quantifier": "every reachable limiter state, every command, parameters", "why_tests_cant": "all histories", "anchors": ["safety_limiter/src/safety_limiter.cpp: limit, limitMaxVelocities, cbTwist, cbPredictTimer, cbParameter"]}
{"id": "C35", "title": "A limited command lets the robot stop before the first predicted collision", "statement": "If the predictor reports a collision at distance d along the motion, the speed allowed by the returned ratio is such that, after travelling for the system delay and then braking at the configured deceleration, the travelled distance does not exceed d minus the margin.", "quantifier": "every distance, speed, deceleration, delay, margin (real arithmetic)", "why_tests_cant": "continuum of values, square roots", "anchors": ["safety_limiter/src/safety_limiter.cpp: predict (delay compensation and ratio computation)"]}
{"id": "C36", "title": "A robot predicted to be in collision is stopped unless the command leads out", "statement": "If the footprint already contains an obstacle point and the motion does not bring it out of collision within the configured escape distance and angle, the returned ratio is 0 (unless the command is zero anyway); an obstacle-free prediction horizon gives ratio 1; empty data gives 0 unless allowed, and a missing transform always gives 0.", "quantifier": "every cloud, polygon, twist, configuration with positive dt", "why_tests_cant": "The result depends on the geometry of every point, every footprint and every time step of the prediction.", "anchors": ["safety_limiter/src/safety_limiter.cpp: predict"]}
{"id": "C37", "title": "The obstacle picture is transformed exactly once", "statement": "The points tested against the footprint in each prediction cycle are the received points expressed in the base frame at that time. (The code overwrites its stored cloud in place, so a second cycle without new data transforms twice.)", "quantifier": "every sequence of clouds and prediction cycles", "why_tests_cant": "history dependent", "anchors": ["safety_limiter/src/safety_limiter.cpp: predict, cbCloud"]}
{"id": "C38", "title": "A restriction is held and only released by elapsed hold time", "statement": "Once a restriction is established, every command until the hold time passes is restricted at least as strongly; and no command is passed unrestricted before a prediction has been made. (Reconfiguration and the first commands after start or data recovery violate this.)", "quantifier": "every event history", "why_tests_cant": "all histories", "anchors": ["safety_limiter/src/safety_limiter.cpp: cbPredictTimer, cbTwist, cbParameter"]}
{"id": "C39", "title": "Velocity and acceleration limits hold at every control step", "statement": "Every output of the velocity limiter differs from the previous one by at most acceleration times elapsed time and, once within, never leaves the velocity bound; non-finite inputs never reach the output.", "quantifier": "every sequence of targets, limits and time steps", "why_tests_cant": "unbounded sequences", "anchors": ["trajectory_tracker/include/trajectory_tracker/basic_control.h: VelAccLimitter"]}
{"id": "C40", "title": "The tracker commands zero velocity without a valid path", "statement": "With no path, an invalidated path or when farther than the stop distance from the path, each control cycle publishes zero; when odometry stops arriving a zero command is published.", "quantifier": "every history of paths, odometry, timeouts", "why_tests_cant": "all histories", "anchors": ["trajectory_tracker/src/trajectory_tracker.cpp: control, cbOdomTimeout, cbPath, getTrackingResult"]}
{"id": "C41", "title": "'Goal reached' is only reported within tolerance", "statement": "The tracker reports the goal reached only when on the last segment and remaining distance, heading and velocities are all within the configured tolerances. (In the stop-and-rotate branch the raw heading error is not evaluated.)", "quantifier": "every path, pose, configuration", "why_tests_cant": "all paths", "anchors": ["trajectory_tracker/src/trajectory_tracker.cpp: getTrackingResult"]}
{"id": "C42", "title": "Progress along a path never goes back", "statement": "The index of the completed part of the path never decreases between new paths and always addresses the path, so the tracker never reads outside it. (Changing the path step while following can violate this.)", "quantifier": "every history of poses and reconfigurations", "why_tests_cant": "all histories", "anchors": ["trajectory_tracker/src/trajectory_tracker.cpp: getTrackingResult, control, cbPath"]}
{"id": "C43", "title": "Path conversion keeps shape and end points", "statement": "Converting a path message to the internal path and back keeps the first position, the final position and final heading, never lengthens the path, and merges runs of in-place rotations into at most two poses; segmentation into local goals covers the whole path in order and terminates.", "quantifier": "every path", "why_tests_cant": "all lists", "anchors": ["trajectory_tracker/include/trajectory_tracker/path2d.h: fromMsg, toMsg, findLocalGoal, enumerateLocalGoals"]}
{"id": "C44", "title": "Nearest-point search and remaining distance are correct", "statement": "The nearest segment reported is within the number of segments times epsilon of the true minimum over the searched range; remaining distance to the end equals the sum of remaining segment lengths; estimated arrival times never decrease along the path.", "quantifier": "every path, pose, epsilon", "why_tests_cant": "all lists", "anchors": ["trajectory_tracker/include/trajectory_tracker/path2d.h: findNearestWithDistance, remainedDistance, getEstimatedTimeOfArrivals"]}
{"id": "C45", "title": "Angle normalisation", "statement": "Normalising an angle yields an equivalent angle (modulo a full turn) within half a turn, for all magnitudes.", "quantifier": "every real angle", "why_tests_cant": "continuum", "anchors": ["trajectory_tracker/include/trajectory_tracker/basic_control.h: angleNormalized", "planner_cspace/include/planner_cspace/cyclic_vec.h: normalizeFloatAngle"]}
{"id": "C46", "title": "The path smoothing filter has unit gain and converges", "statement": "The low-pass filter keeps a constant input unchanged when initialised with it, and converges to any constant input geometrically for every positive time constant.", "quantifier": "every time constant, initial value, input, number of steps", "why_tests_cant": "unbounded steps", "anchors": ["trajectory_tracker/include/trajectory_tracker/filter.h: Filter"]}
{"id": "C47", "title": "Joystick override is exclusive", "statement": "While the override button is held and joystick messages are fresher than the timeout, no autonomous command is forwarded; the override status published agrees; once the joystick is silent longer than the timeout autonomous commands are forwarded unchanged.", "quantifier": "every interleaving of joystick and command messages with arbitrary times", "why_tests_cant": "all interleavings", "anchors": ["joystick_interrupt/src/joystick_interrupt.cpp: cbJoy, cbTwist"]}
{"id": "C48", "title": "The joystick multiplexer forwards exactly the selected source", "statement": "Every forwarded message comes from the currently selected source unchanged and every message from the selected source is forwarded; after the joystick is silent beyond the timeout the default source is selected at the next timer tick.", "quantifier": "every interleaving", "why_tests_cant": "all interleavings", "anchors": ["joystick_interrupt/src/joystick_mux.cpp: cbJoy, cbTopic, cbTimer"]}
{"id": "C49", "title": "State estimate filter is a convex combination", "statement": "After a measurement the estimate lies between previous estimate and the measurement, its variance never increases and never exceeds the measurement variance; prediction never decreases variance; an infinitely uncertain measurement changes nothing and an infinitely uncertain prior takes the measurement.", "quantifier": "every sequence of predictions and measurements", "why_tests_cant": "unbounded sequences", "anchors": ["track_odometry/include/track_odometry/kalman_filter1.h: KalmanFilter1"]}
{"id": "C50", "title": "Odometry correction loses no displacement", "statement": "The published pose is the sum of slip-compensated increments of every interval since start; intervals with missing IMU are accounted for by the next published sample.", "quantifier": "every sequence of odometry and IMU messages", "why_tests_cant": "unbounded histories", "anchors": ["track_odometry/src/track_odometry.cpp: cbOdom, cbImu"]}
{"id": "C51", "title": "Patrol visits the poses in order, each once", "statement": "For every path received, goals are sent in path order, without skipping or repeating, and the next goal is sent only after the previous one ended; a new path restarts from its first pose.", "quantifier": "every path, every sequence of action results", "why_tests_cant": "all histories", "anchors": ["planner_cspace/src/patrol.cpp: PatrolActionNode"]}
{"id": "C52", "title": "Saving and loading a map keeps its trinary content", "statement": "Saving a map whose cells are free, occupied or unknown and loading it gives the same grid with the same orientation; all other values become unknown.", "quantifier": "every map size and content", "why_tests_cant": "round trip over all maps", "anchors": ["map_organizer/src/save_maps.cpp: mapsCallback", "map_organizer/src/tie_maps.cpp"]}
{"id": "C53", "title": "Floor selection publishes the right map", "statement": "The map published is always the map of the requested floor; out-of-range floors never publish; after a change of floor or maps the current floor's map is what subscribers have.", "quantifier": "every interleaving of map arrays and floor requests", "why_tests_cant": "all histories", "anchors": ["map_organizer/src/select_map.cpp"]}
{"id": "C54", "title": "Merging of slope floors loses no travelable cell", "statement": "When adjacent height slices are merged, each cell free in either slice remains free in exactly one of them and obstacle cells never become free by widening.", "quantifier": "every pair of slices", "why_tests_cant": "all maps", "anchors": ["map_organizer/src/pointcloud_to_maps.cpp: cbPoints"]}
{"id": "C55", "title": "Joint trajectories respect velocity limits and time order", "statement": "Way-point times of a planned two-joint trajectory never decrease, per-joint average speed between way-points never exceeds the configured maximum, and the trajectory ends at the requested positions at rest.", "quantifier": "every path, limits", "why_tests_cant": "all lists", "anchors": ["planner_cspace/src/planner_2dof_serial_joints.cpp: replan"]}
{"id": "C56", "title": "Compatibility mode selects exactly one topic name", "statement": "With a given compatibility level a node uses the old or the new topic name, never both, and warns that the old names are deprecated exactly when it uses them; levels outside the supported range stop the node.", "quantifier": "every level", "why_tests_cant": "decision over all integers", "anchors": ["neonavigation_common/include/neonavigation_common/compatibility.h"]}
{"id": "C57", "title": "Motion interpolation and cache addressing are in range", "statement": "Every rotation/motion cache access made while evaluating a move is inside the cache for every heading (positive or negative for the motion cache) and displacement within the search range, and the rotation cache entry read is that of the requested displacement: its forward and sideways components, the turn the short way round and the radii of the curve joining the two poses.", "quantifier": "every heading, displacement", "why_tests_cant": "all integers", "anchors": ["planner_cspace/include/planner_cspace/planner_3d/rotation_cache.h, src/rotation_cache.cpp, motion_cache.h, motion_cache.cpp"]}
{"id": "C58", "title": "Temporary escape goal is near the robot", "statement": "The temporary escape goal chosen when the path is blocked is searched around the robot's position. (For the non-crowd case the code searches around cell (0,0,0).)", "quantifier": "every robot pose, map", "why_tests_cant": "all states", "anchors": ["planner_cspace/src/planner_3d.cpp: updateTemporaryEscapeGoal"]}
{"id": "C59", "title": "A failed planning after the retry limit is reported", "statement": "When planning fails more than the allowed number of times the goal is aborted and the error status is published to subscribers. (The code returns before publishing the status.)", "quantifier": "every history of planning results", "why_tests_cant": "history dependent", "anchors": ["planner_cspace/src/planner_3d.cpp: planPath"]}
{"id": "C60", "title": "Sampled surface points lie on the mesh", "statement": "Every point sampled from a triangle lies in that triangle, and every point of a triangle large enough for a sample, except two of its corners, can be sampled: no part of the surface is left out for every outcome of the random engine.", "quantifier": "every triangle and sample resolution", "why_tests_cant": "continuum", "anchors": ["obj_to_pointcloud/src/obj_to_pointcloud.cpp"]}
{"id": "C61", "title": "The in-map test accepts exactly the in-range positions", "statement": "The single unsigned comparison used to reject positions outside the map rejects a position exactly when some non-cyclic coordinate is negative or at least the map size, for all 32-bit coordinates and all non-negative sizes.", "quantifier": "every 32-bit coordinate vector, every non-negative size", "why_tests_cant": "it is a reinterpretation of the sign bit; tests sample a few coordinates out of 2^32 per axis", "anchors": ["planner_cspace/include/planner_cspace/cyclic_vec.h: CyclicVecBase::isExceeded"]}
{"id": "C62", "title": "Extending a distance map toward a new start is as good as creating it", "statement": "When nothing in the map changed, updating the distance map for other starts, any number of times, keeps every finite value the cost of a real route, and the value of the last start (and every cell within the covered range of it) is the minimal route cost.", "quantifier": "every map, goal, and every sequence of starts", "why_tests_cant": "arbitrarily long update histories and schedules", "anchors": ["planner_cspace/src/distance_map.cpp: update, fillCostmap (edges_buf_)"]}
{"id": "C63", "title": "Computing a distance map always finishes", "statement": "The expansion of the distance map performs finitely many rounds on every map and never gets stuck, whatever the schedule of the worker threads.", "quantifier": "every map, start, goal, schedule", "why_tests_cant": "termination", "anchors": ["planner_cspace/src/distance_map.cpp: fillCostmap"]}
{"id": "C64", "title": "After the map changed inside a rectangle, updating the distance map removes values that are no longer valid", "statement": "After an update for a rectangle that contains every changed cell, no cell that lost its connection with the goal keeps a finite value. (The code only erases the branches around one cell of the rectangle and the start.)", "quantifier": "every map, rectangle and change", "why_tests_cant": "history dependent and over all map topologies", "anchors": ["planner_cspace/src/distance_map.cpp: update"]}
{"id": "C65", "title": "Computing a distance map never reads outside the map", "statement": "Every map cell examined for a step between two cells of the map lies inside the map.", "quantifier": "every map size, cell and neighbour offset", "why_tests_cant": "all sizes and positions", "anchors": ["planner_cspace/src/distance_map.cpp: init (search_diffs_), fillCostmap"]}
{"id": "C66", "title": "Joystick speed is bounded by the configured speed", "statement": "With the interrupt button held, each commanded velocity component is the configured velocity times the deflection of the more deflected of its two axes, times the high-speed ratio when that button is held; so for deflections within [-1,1] it never exceeds the configured velocity (times the ratio), and in omni mode the linear part is likewise bounded.", "quantifier": "every joystick message, configuration and axis assignment", "why_tests_cant": "real-valued inputs and all combinations of axes and buttons", "anchors": ["joystick_interrupt/src/joystick_interrupt.cpp: cbJoy, getJoyValue, getAxisValue, getButtonValue"]}
{"id": "C67", "title": "No joystick message makes the joystick nodes read outside the message", "statement": "Whatever the number of axes and buttons in the received message, and whatever non-negative indices are configured, the nodes never read past the end of the message's arrays.", "quantifier": "every message length and configuration", "why_tests_cant": "out-of-range reads are silent undefined behaviour", "anchors": ["joystick_interrupt/src/joystick_interrupt.cpp: cbJoy", "joystick_interrupt/src/joystick_mux.cpp: cbJoy"]}
{"id": "C68", "title": "The smoothing filter never overshoots and follows angles the short way", "statement": "With a time constant of at least half a sample the low-pass output stays between the smallest and the largest of its start value and inputs; in angle mode the input is taken as the equivalent angle nearest to the last output; smoothing a non-empty path keeps its number of poses, its first position and its coordinate range. For smaller time constants the filter overshoots.", "quantifier": "every time constant, every input sequence, every path", "why_tests_cant": "unbounded input sequences", "anchors": ["trajectory_tracker/include/trajectory_tracker/filter.h: Filter", "trajectory_tracker/src/trajectory_server.cpp: loadFile, hz filter"]}
{"id": "C69", "title": "Time-optimal turning command is the braking speed", "statement": "The commanded angular velocity opposes the angle error and is exactly the speed from which constant deceleration stops at zero error.", "quantifier": "every angle and positive acceleration", "why_tests_cant": "continuum", "anchors": ["trajectory_tracker/include/trajectory_tracker/basic_control.h: timeOptimalControl"]}
{"id": "C70", "title": "Corrected odometry is never non-finite", "statement": "With positive odometry noise no published pose component is NaN or infinite, whatever finite odometry, IMU and tf messages arrive; with zero noise a NaN pose can be published.", "quantifier": "every sequence of messages", "why_tests_cant": "unbounded histories", "anchors": ["track_odometry/src/track_odometry.cpp: cbOdom, cbOdomImu", "track_odometry/include/track_odometry/kalman_filter1.h"]}
{"id": "C71", "title": "Projected frame lies in the projection surface", "statement": "The projected transform's origin lies in the plane of the projection surface, and its horizontal coordinates in that plane are those of the source.", "quantifier": "every pair of frames", "why_tests_cant": "continuum", "anchors": ["track_odometry/src/tf_projection_node.cpp / include/track_odometry/tf_projection.h: projectTranslation"]}
{"id": "C72", "title": "Obstacles are learnt and forgotten after boundedly many observations", "statement": "Repeated hits saturate a cell's probability at its maximum and repeated misses bring it to its minimum, after a number of observations depending only on the odds; once saturated further identical observations change nothing.", "quantifier": "every start state, every hit odds above one and miss odds below one", "why_tests_cant": "limit behaviour", "anchors": ["planner_cspace/include/planner_cspace/bbf.h: BinaryBayesFilter::update"]}
{"id": "C73", "title": "Extracted floors say what the cloud says", "statement": "In each height slice a cell is occupied exactly where a point would hit the robot, free exactly where there are floor points and no such point, unknown elsewhere; every cell of the cloud is inside the map array; a floor is published exactly when its number of free cells makes up the minimum area; an empty cloud publishes no floor. The floors offered for publication are exactly those of the heights that hold more than a given share of the points of the fullest height, have at least as many travelable cells as the heights just below and above, and more than a given share of the travelable cells of the widest height; they come in ascending order.", "quantifier": "every point cloud and parameters", "why_tests_cant": "all clouds", "anchors": ["map_organizer/src/pointcloud_to_maps.cpp: cbPoints"]}
{"id": "C74", "title": "Footprint distance and radius are exact and invariant under motion", "statement": "The distance from a point to a footprint is the smallest distance to a point of its outline; the radius is the largest distance of a vertex from the origin and bounds the distance of every point inside; moving a footprint to a pose keeps all distances.", "quantifier": "every polygon, every point, every pose", "why_tests_cant": "all polygons and poses", "anchors": ["costmap_cspace/include/costmap_cspace/polygon.h: Vec::dist, dist_line, dist_linestrip, Polygon::dist, radius, move"]}
{"id": "C75", "title": "Overwrite mode forgets lower layers exactly where the new grid can replace them", "statement": "In overwrite mode an overlay layer first forgets the inherited costs of exactly those cells that its grid observed and whose footprint template lies completely inside the grid; in max mode, or for the base layer, it forgets nothing. Cells unknown to both the grid and the layers below can be kept unknown.", "quantifier": "every grid, map, range", "why_tests_cant": "all maps", "anchors": ["costmap_cspace/include/costmap_cspace/costmap_3d_layer/footprint.h: clearTravelable, generateSpecifiedCSpace, generateCSpace"]}
{"id": "C76", "title": "Footprint template cells have distinct places in the cache", "statement": "Within the template range, every displacement and heading is stored in its own element of the template array.", "quantifier": "every range, displacement, heading", "why_tests_cant": "all integers", "anchors": ["costmap_cspace/include/costmap_cspace/cspace3_cache.h: CSpace3Cache::reset, e"]}
{"id": "C77", "title": "A subscriber that applies the updates keeps an identical map", "statement": "A copy of the node's map to which each published incremental update is applied in order stays identical to the node's own map. (False when inflation leaves the rectangle of the overlay message and when an overlay lies outside the map.)", "quantifier": "every history of overlay messages", "why_tests_cant": "subscriber/publisher consistency over all histories", "anchors": ["costmap_cspace/include/costmap_cspace/costmap_3d_layer/output.h: generateUpdateMsg", "costmap_cspace/include/costmap_cspace/costmap_3d_layer/base.h: updateChainEntry", "costmap_cspace/include/costmap_cspace/costmap_3d_layer/footprint.h: updateCSpace"]}
{"id": "C78", "title": "The costmap node never aborts on well-formed maps", "statement": "For every chain of layers ending in the update output and every history of non-empty base maps with the announced number of cells and of overlay maps, no assertion of the layer chain or of the update message fails.", "quantifier": "every chain, every interleaving of base and overlay messages, of any size and offset", "why_tests_cant": "all geometries and histories", "anchors": ["costmap_cspace/src/costmap_3d.cpp: cbMap, cbMapOverlay", "costmap_cspace/include/costmap_cspace/costmap_3d_layer/output.h: generateUpdateMsg", "costmap_cspace/include/costmap_cspace/costmap_3d_layer/base.h: setBaseMap, processMapOverlay, UpdatedRegion"]}
{"id": "C79", "title": "The limiter's status message tells what happens to the next command", "statement": "Whenever the limiter publishes a status, the next command (if the limiter is not disabled) is turned into zero exactly as announced when data is missing or the watchdog expired, is otherwise scaled by exactly the published ratio, and is not restricted when the summary is OK; the reported time of getting stuck is the time of the first prediction cycle of the current uninterrupted run of cycles that found the robot in collision, and zero otherwise. The summary agrees with the other published fields: with data it is OK exactly if the ratio is 1, says that the robot cannot move or cannot escape exactly if the ratio is below 1e-6, and speaks of a collision (escaping, or unable to) exactly if a time of getting stuck is reported.", "quantifier": "every history of callbacks", "why_tests_cant": "A test sees only a few interleavings of predictions, data gaps and commands; the published status must be right after every history.", "anchors": ["safety_limiter/src/safety_limiter.cpp: diagnoseCollision, predict, cbTwist"]}
{"id": "C80", "title": "Local obstacle maps are centred on the robot and rate limited", "statement": "Every map published by the point cloud node has its centre less than one cell from the robot in each direction, with the centre on the global cell raster so that maps do not jitter; and two published maps are at least the configured interval apart, in stamp order.", "quantifier": "every message history, robot position, map size and resolution (exact arithmetic)", "why_tests_cant": "all histories and positions", "anchors": ["costmap_cspace/src/pointcloud2_to_map.cpp: cbCloud, publishMap"]}
{"id": "C81", "title": "Evaluating an offered move never reads outside the map", "statement": "For every cell of the map and every move offered by the 3-DOF model that ends in the map, computing its cost reads only cells inside the costmap and entries inside the rotation and motion caches, for any even number of headings.", "quantifier": "every map size, even heading count, search range, weights, costmap content, cell and offered move", "why_tests_cant": "the set of cells swept by a curve depends on real geometry; all maps and moves", "anchors": ["planner_cspace/src/grid_astar_model_3dof.cpp: GridAstarModel3D::cost, searchGrids", "planner_cspace/src/motion_cache.cpp", "planner_cspace/src/rotation_cache.cpp", "planner_cspace/src/motion_primitive_builder.cpp"]}
{"id": "C82", "title": "No move is cheaper than its length and turn", "statement": "With non-negative weights and costmap values, a finite move cost is at least the weighted length plus the weighted turn (the short way round), so it is never negative; the 2-D estimate is consistent with the 2-D move cost (estimate \u2264 move cost + estimate after the move).", "quantifier": "all weights, costmaps, pairs of cells and goals", "why_tests_cant": "all reals", "anchors": ["planner_cspace/src/grid_astar_model_3dof.cpp: GridAstarModel3D::cost, searchGrids", "planner_cspace/src/motion_cache.cpp", "planner_cspace/src/rotation_cache.cpp", "planner_cspace/src/motion_primitive_builder.cpp"]}
{"id": "C83", "title": "The published path follows the planned cells and stays in free space", "statement": "The interpolated path starts at the first planned cell, ends at the last and passes through every planned cell in order; when every planned move has a finite cost, every interpolated pose lies in a free cell.", "quantifier": "every grid path, costmap, weights", "why_tests_cant": "all paths", "anchors": ["planner_cspace/src/motion_cache.cpp: interpolatePath", "planner_cspace/src/grid_astar_model_3dof.cpp: cost"]}
{"id": "C84", "title": "The offered motions are exactly the kinematically feasible ones", "statement": "Near the start the planner offers exactly: every rotation in place, every straight (or sufficiently shallow) motion ahead or back, and every curve of less than a quarter turn, bending to the side it moves to, of at least the minimum radius, all within the search range; in free space away from the border each of them gets a finite cost.", "quantifier": "every geometry, weight setting, start heading and displacement", "why_tests_cant": "all displacements and headings", "anchors": ["planner_cspace/src/motion_primitive_builder.cpp: MotionPrimitiveBuilder::build", "planner_cspace/src/grid_astar_model_3dof.cpp: cost"]}
{"id": "C85", "title": "Curvature of a circular path is one over its radius", "statement": "For two poses lying on an arc and for three or more points on a circle the curvature used for the angular velocity is one over the signed radius; on a straight line it is zero. In general it is the mean of the three-point curvatures up to and including the first pose beyond the search range.", "quantifier": "every circle, arc and line, look-ahead point and range", "why_tests_cant": "all real-valued geometries", "anchors": ["trajectory_tracker/include/trajectory_tracker/path2d.h: getCurvature", "trajectory_tracker/include/trajectory_tracker/eigen_line.h: curv3p"]}
{"id": "C86", "title": "Tracker commands keep the velocity and acceleration limits", "statement": "Every published command keeps the angular velocity limit and the larger of speed limit and path speeds; from one command to the next the velocities change by at most acceleration limit times time step or become zero. (With the speed reduction for the angular velocity limit enabled the linear velocity may change by twice that.)", "quantifier": "every history of paths, speeds, reconfigurations and odometry with time stamps in order", "why_tests_cant": "all histories and real-valued inputs", "anchors": ["trajectory_tracker/src/trajectory_tracker.cpp: control", "trajectory_tracker/include/trajectory_tracker/basic_control.h: VelAccLimitter"]}
{"id": "C87", "title": "Costmap updates never write outside the planner's maps", "statement": "A planner that receives base maps and costmap updates which carry all the data they announce, start at the first heading and have indices within the machine integers never reads or writes outside a message or a map. (The node's own range check does not look at the heading offset, and wraps around for rectangles near 2^32: such updates are accepted and written outside the map.)", "quantifier": "every history of base maps and updates of any size and position, in every mode", "why_tests_cant": "all histories; memory errors do not show in outputs", "anchors": ["planner_cspace/src/planner_3d.cpp: applyCostmapUpdate, cbMapUpdate, cbMap", "planner_cspace/include/planner_cspace/blockmem_gridmap.h: copy_partially, clear_partially"]}
{"id": "C88", "title": "Success means the robot was at the goal", "statement": "A navigation goal is answered with success as reached only if, while it was being processed, the robot was within the linear and angular tolerance of the requested pose (or of the free pose next to it that replaces it), and its heading is within the final tolerance when the answer is given; in continuous mode, only if it is within the client's tolerances at that moment. (The position is not looked at again once the last turn has begun.)", "quantifier": "every history of goals, cancels, maps, costmap updates, positions, planning cycles and reconfigurations", "why_tests_cant": "the success depends on the whole history", "anchors": ["planner_cspace/src/planner_3d.cpp: planPath, makePlan, isPathFinishing"]}
{"id": "C89", "title": "The planner node survives every sequence of events", "statement": "Whatever order goals, cancels, maps, updates, planning cycles, escape triggers and reconfigurations arrive in, the node never reads the tolerance of a tolerant goal that it does not have, and estimating costs and looking for temporary goals, which call each other, terminate. (The map must be such that the search for a temporary goal returns to the original goal only if that is not in an obstacle.)", "quantifier": "every history of events", "why_tests_cant": "all event interleavings", "anchors": ["planner_cspace/src/planner_3d.cpp: createCostEstimCache, updateTemporaryEscapeGoal, isPathFinishing, planPath, cbTolerantAction"]}
{"id": "C90", "title": "A navigation goal ends only for a reason the client can understand", "statement": "A goal is preempted only by a cancel request or a newer goal on the same interface; aborted only if its frame is wrong, it or the robot is outside the map on arrival, or the failure limit is exceeded while it is processed; recalled only if it was never accepted; and answered 'goal cleared' only if it has no orientation. A goal with a wrong frame, or off the map with the robot located, is aborted at once.", "quantifier": "every history of events", "why_tests_cant": "all event interleavings", "anchors": ["planner_cspace/src/planner_3d.cpp: setGoal, cbAction, cbTolerantAction, cbPreempt, planPath"]}
{"id": "C91", "title": "Joint trajectories take the requested time", "statement": "A new joint command with a positive time_from_start yields a trajectory that ends at that time, or, when the joint speed limits do not allow it, at the larger of the way divided by each limit, the way being the sum of the longer joint's displacements. With a time of zero the trajectory runs at the lower limit. Trajectories published again for the same command keep the pace (way per time) of the first one.", "quantifier": "all parameters with positive limits, maps, histories, commands and sound search results", "why_tests_cant": "the time depends on every way-point of an arbitrary path and on the history of replans", "anchors": ["planner_cspace/src/planner_2dof_serial_joints.cpp: replan, cbTrajectory"]}
{"id": "C92", "title": "Joint motions are collision free", "statement": "Every motion that is published for the two joints moves from cell to cell of the joint angle map along straight displacements whose sampled angle pairs do not collide; the search reports failure by exhaustion only if there is no such way.", "quantifier": "all maps, start and goal angles, schedules of the search and histories", "why_tests_cant": "obstacle maps, angles and search schedules are unbounded in number", "anchors": ["planner_cspace/src/planner_2dof_serial_joints.cpp: makePlan, replan", "planner_cspace/src/grid_astar_model_2dof_joints.cpp: cost"]}
{"id": "C93", "title": "The joint planner's estimate does not exceed the remaining cost", "statement": "The cost estimate used by the joint search never exceeds the cost of any legal way from the cell to the goal.", "quantifier": "all cells, goals, costmaps with non-negative costs and chains of legal moves", "why_tests_cant": "admissibility quantifies over all chains", "anchors": ["planner_cspace/src/grid_astar_model_2dof_joints.cpp: costEstim, cost, euclidCost"]}
{"id": "C94", "title": "The joint angle costmap reflects link collisions", "statement": "A cell of the joint angle costmap is lethal exactly when the links collide at its angles, and every other cell has the largest of the costs that fall linearly with the distance to the colliding cells within the expansion radius. A radius that rounds to zero cells makes the construction undefined as soon as some cell collides, and the expansion does not continue over the end of the angle range.", "quantifier": "all resolutions, expansion radii and collision predicates", "why_tests_cant": "the map depends on every cell's neighbourhood and the order of expansion", "anchors": ["planner_cspace/src/planner_2dof_serial_joints.cpp: Planner2dofSerialJointsNode constructor"]}
{"id": "C95", "title": "The joint planner is robust against message histories", "statement": "Joint states and commands that are complete, name both joints, in commands always in the same order, stay within two turns and do not ask for zero duration and zero angles never make the node read outside of its arrays.", "quantifier": "all histories of joint state and command messages", "why_tests_cant": "histories are unbounded; the failing ones combine several messages", "anchors": ["planner_cspace/src/planner_2dof_serial_joints.cpp: cbJoint, cbTrajectory, replan, makePlan"]}
{"id": "C96", "title": "The continued part of the previous path is the intended one and free", "statement": "When the planner keeps the beginning of the previous path, it keeps the poses from where the robot is now up to the first pose on a cell centre that is reached after the preserved time, or, if a switch back is reached earlier but after its own time, up to that, or to the end of the path. Every kept pose lies in a cell that is not lethal. The planner gives the previous path up only if it is empty, too far away, or a kept pose lies in a lethal cell. The start of the new plan is the pose where the kept part ends, and it too is not lethal and on the map.", "quantifier": "all configurations, maps, robot poses and previous paths", "why_tests_cant": "it depends on the whole previous path, its timing and the changing map", "anchors": ["planner_cspace/src/start_pose_predictor.cpp: StartPosePredictor::process", "planner_cspace/src/start_pose_predictor.cpp: StartPosePredictor::removeAlreadyPassed", "planner_cspace/src/start_pose_predictor.cpp: StartPosePredictor::getExpectedPose", "planner_cspace/src/start_pose_predictor.cpp: StartPosePredictor::getSwitchBack", "planner_cspace/src/start_pose_predictor.cpp: StartPosePredictor::buildResults", "planner_cspace/src/start_pose_predictor.cpp: StartPosePredictor::getInitialETA"]}
{"id": "C97", "title": "Start poses of the search", "statement": "A new plan starts in cells that are on the map and not lethal: the cells with the robot's heading whose centre is within one cell of the robot, at the cost of the way to the centre and of the cell, or the robot's own cell without antialiasing, or, if the own cell is lethal, a nearest free cell within the tolerances. With antialiasing no free such cell nearer than one cell is left out. The start is reported as blocked exactly when the robot is off the map or lethal and nothing is left. The robot counts as arrived exactly when a start pose (or, while continuing a path, its own cell) is within the tolerances of the goal.", "quantifier": "all maps, costs, robot poses, goals and parameters", "why_tests_cant": "the position in the cell is continuous and the relocation scans the map", "anchors": ["planner_cspace/src/planner_3d.cpp: buildStartPoses", "planner_cspace/src/planner_3d.cpp: isPathFinishing", "planner_cspace/src/planner_3d.cpp: searchAvailablePos"]}
{"id": "C98", "title": "The published path continues the previous one", "statement": "When a part of the previous path is kept, the published path consists of exactly those poses of the previous path followed by the new plan, and the new plan begins where the previous path went on: within a thousandth of a cell and of a heading step, or within half a cell and half a heading step at the end of the previous path.", "quantifier": "all previous paths, robot poses, maps and new plans", "why_tests_cant": "a jump of the path appears only for particular paths and poses", "anchors": ["planner_cspace/src/planner_3d.cpp: makePlan", "planner_cspace/src/start_pose_predictor.cpp: StartPosePredictor::buildResults", "planner_cspace/include/planner_cspace/planner_3d/grid_metric_converter.h: appendGridPath2MetricPath"]}
{"id": "C99", "title": "The first switch back is found", "statement": "The switch back reported for a path is the first pose reached by a move in the other direction (forward or backward) than all the moves before it, where moves of up to a millimetre do not count; none is reported exactly when all moves go in the same direction.", "quantifier": "all paths", "why_tests_cant": "paths are unbounded and mix small moves, turns and reversals", "anchors": ["planner_cspace/src/planner_3d.cpp: getSwitchIndex"]}
{"id": "C100", "title": "A local map shows the large map around the robot", "statement": "Every cell of the local map that is not cut off by its shape shows the cell of the large map at the same place: the centres differ by at most half a cell along each axis, with one shift for the whole map, and not at all if the origin of the large map is a multiple of the resolution and the width of the local map is even. Cells outside of the large map, or outside of the circle of a round local map, are unknown. The robot is less than a cell away from the middle. With complete data nothing is read outside of the large map.", "quantifier": "all large maps, robot positions and widths", "why_tests_cant": "the cut depends on rounding of arbitrary positions and on every cell", "anchors": ["costmap_cspace/src/largemap_to_map.cpp: LargeMapToMapNode::publishMap"]}
{"id": "C101", "title": "Simulated occlusion and surrounding are consistent", "statement": "Simulated occlusion only makes cells unknown, only behind an obstacle on the line from the middle, and makes everything behind every visible obstacle unknown; the first obstacle on a line stays visible. With simulated surrounding no way of neighbouring cells leads from the inside of the ring out of it without passing an obstacle (or a hidden ring cell). Everything behind any obstacle of the map is hidden.", "quantifier": "all maps and widths", "why_tests_cant": "the in-place loop depends on the order of cells; ways are unbounded", "anchors": ["costmap_cspace/src/largemap_to_map.cpp: LargeMapToMapNode::LargeMapToMapNode", "costmap_cspace/src/largemap_to_map.cpp: LargeMapToMapNode::publishMap"]}
{"id": "C102", "title": "Recorded paths cover the movement evenly", "statement": "A recorded path consists of poses found since the last clear, in order, from the first one on; successive ones are more than the interval apart, and every pose found is within the interval of a recorded one; poses are numbered and stamped as configured, and exactly the growing path is published. A clear request empties the path and is answered at the next successful lookup of the pose, and not before.", "quantifier": "all sequences of lookups, failures and clear requests", "why_tests_cant": "histories are unbounded", "anchors": ["trajectory_tracker/src/trajectory_recorder.cpp: RecorderNode::spin", "trajectory_tracker/src/trajectory_recorder.cpp: RecorderNode::clearPath"]}
{"id": "C103", "title": "Editing a served path is exact and safe", "statement": "Moving, deleting and adding at a marker changes exactly the pose of that marker, and the edited path is published. There is always one marker for each pose, and no sequence of requests and marker events accesses a pose outside of the path. The status names the last requested file, and no file after a request that failed.", "quantifier": "all sequences of requests and marker events", "why_tests_cant": "histories are unbounded; the failing ones combine a failed request and an old marker", "anchors": ["trajectory_tracker/src/trajectory_server.cpp: ServerNode::processFeedback", "trajectory_tracker/src/trajectory_server.cpp: ServerNode::change", "trajectory_tracker/src/trajectory_server.cpp: ServerNode::updateIM"]}
{"id": "C104", "title": "Saved paths are served unchanged", "statement": "The saver writes the first path for which it can open its file and nothing else. Requested from the server without filter, it is published with the same frame and poses; with filter, the number of poses and all but their horizontal positions are unchanged.", "quantifier": "all sequences of received paths and requests", "why_tests_cant": "all paths and orders of messages", "anchors": ["trajectory_tracker/src/trajectory_saver.cpp: SaverNode::cbPath", "trajectory_tracker/src/trajectory_server.cpp: ServerNode::loadFile", "trajectory_tracker/src/trajectory_server.cpp: ServerNode::change"]}
{"id": "C105", "title": "Hysteresis costs describe the last path", "statement": "After every history of maps, goals, obstacle reports and plans, the hysteresis costs of the planner are those of the last planned path: for every cell and heading, 0 up to hysteresis_expand from the part of the path with this heading, 100 from hysteresis_expand + hysteresis_max_dist on, linear in between; nothing remains of earlier paths, and no cell is cut off by the limited update area. After a new map, a new goal, or an obstacle at a place of cost 0 they are all reset and not used until the next plan.", "quantifier": "all histories, maps, cells, headings, orders of the hash table, parameters with hysteresis_max_dist > 0 and paths whose successive interpolated points are at most the search range plus 4.5 cells apart", "why_tests_cant": "unbounded histories, all paths and cells", "anchors": ["planner_cspace/src/planner_3d.cpp: makePlan", "planner_cspace/src/planner_3d.cpp: clearHysteresis", "planner_cspace/src/planner_3d.cpp: applyCostmapUpdate", "planner_cspace/include/planner_cspace/cyclic_vec.h: distLinestrip2d"]}
{"id": "C106", "title": "An obstacle on the path releases it", "statement": "If hysteresis_expand is at least 0.71 cells and the planned path has two poses or more, an obstacle reported next in any cell the path goes through makes the planner stop preferring the path. With a smaller hysteresis_expand this does not hold.", "quantifier": "all histories before the plan, all paths and updates", "why_tests_cant": "all paths and positions of obstacles", "anchors": ["planner_cspace/src/planner_3d.cpp: applyCostmapUpdate", "planner_cspace/src/planner_3d.cpp: makePlan"]}
{"id": "C107", "title": "When the planner plans again", "statement": "In the mode that plans periodically, the planner starts a planning cycle in a turn of its waiting loop exactly if, with a map, the robot's position jumped, a costmap arrived with an obstacle on the path being followed, or the robot arrived (position, and heading up to full turns) at the switch back it waits for, or if the deadline passed. The deadline is the time of the last cycle plus 1/freq, or plus sw_wait while a switch back is pending; so a cycle always follows within the longer of the two, and without such an event never earlier than the period.", "quantifier": "all histories of observations, clocks and planning results", "why_tests_cant": "unbounded histories, all times and poses", "anchors": ["planner_cspace/src/planner_3d.cpp: waitUntil", "planner_cspace/src/planner_3d.cpp: spin", "planner_cspace/src/planner_3d.cpp: planPath"]}
{"id": "C108", "title": "Switch backs are found", "statement": "For every path, the switch back reported is the first pose reached by a motion of more than a millimetre in the other direction (forward, backward) than an earlier motion; none is reported exactly for paths driven in one direction. After a search this is the pose the planner waits for.", "quantifier": "all paths", "why_tests_cant": "all paths of any length and shape", "anchors": ["planner_cspace/src/planner_3d.cpp: getSwitchIndex", "planner_cspace/src/planner_3d.cpp: planPath"]}
{"id": "C109", "title": "The link collision test reports real collisions of the tested discs", "statement": "The collision test of the joint planner reports two links as colliding exactly if the discs at their ends overlap, or a link's end disc overlaps the disc at the other link's joint; a reported collision is a real one, because the link bodies then have a point in common. The answer does not depend on which link is asked nor, for integral gains, on full turns. The costmap is lethal exactly at the cells whose centre angles collide in this sense; on an accepted move the tested discs stay apart, at all angles of the sampled cells, up to the distance the link ends can move within half a cell. The sides of the links are not tested, so crossed links may go unreported.", "quantifier": "all links with non-negative radii and lengths, joint angles, resolutions and accepted moves", "why_tests_cant": "angles and geometries are continuous; the distance bound holds over whole cells and not only at their centres", "anchors": ["planner_cspace/src/planner_2dof_serial_joints.cpp: LinkBody::end, LinkBody::isCollide, Planner2dofSerialJointsNode constructor"]}
{"id": "C110", "title": "The simulated robot follows its commands", "statement": "Every round of the simulated robot publishes one odometry message with the velocities in force (the last command; zero before the first and after an accepted initial pose) and the pose reached from the last accepted initial pose by following the command in force in each round since; an initial pose that cannot be transformed changes nothing. Between rounds the robot moves by exactly speed times period. A command stays in force for ever: without angular velocity the robot stays on a line, otherwise on a circle, and its position differs from the smooth motion at the commanded speeds by at most |v||w| times elapsed time times period.", "quantifier": "all histories of commands, initial poses and rounds; all velocities; any number of rounds", "why_tests_cant": "histories are unbounded and the error bound concerns every number of rounds and every velocity", "anchors": ["planner_cspace/src/dummy_robot.cpp: DummyRobotNode::cbTwist, DummyRobotNode::cbInit, DummyRobotNode::spin"]}
{"id": "C111", "title": "The plan service answers with a free, cheapest path or a reason", "statement": "A call of the make_plan service is always answered. A path is returned only with a map and with both poses in the planner's frame; it begins at the centre of the cell taken for the start, ends at the centre of the cell taken for the goal, and all its poses lie on cells that are not lethal. It follows cells joined by straight moves, and with one task per round no other sequence of such moves is cheaper. The call fails only without a map, for a foreign frame, for a pose without an acceptable cell within the tolerance, or when no sequence of straight moves joins the two cells; two poses on free cells joined by free neighbouring cells are always answered with a path. Caveats of the code: start and goal in the same cell fail, and a pose moved off a lethal cell may get a heading that makes the call fail.", "quantifier": "all maps, costmaps, weights, requests, tolerances and schedules of the search tasks", "why_tests_cant": "any map size and any arrangement of obstacles; answers depend on the schedule of the parallel search; cheapest is a claim over all ways", "anchors": ["planner_cspace/src/planner_3d.cpp: cbMakePlan", "planner_cspace/src/planner_3d.cpp: searchAvailablePos", "planner_cspace/src/grid_astar_model_3dof.cpp: GridAstarModel2D", "planner_cspace/include/planner_cspace/grid_astar.h: search"]}
{"id": "C112", "title": "An updated distance map holds the values of a new one", "statement": "After a change of the costmap and an update of the distance map for a rectangle around the change, no value is below the cost of a route that exists now, and each value is the one a newly created map would hold. (The code does not look again at cells more than one cell away from the erased region, so values can become too high even when nothing changed.)", "quantifier": "all maps, goals, histories of changes and updates, schedules", "why_tests_cant": "histories of changes are unbounded and the values depend on all routes of the map", "anchors": ["planner_cspace/src/distance_map.cpp: DistanceMap::update, DistanceMap::fillCostmap"]}
{"id": "C113", "title": "Projected frames stand on the surface", "statement": "Whatever the poses of the source frame and of the projection surface, the projection node sends a transform if and only if both are known, the second at the time of the first. The frame sent is at the point of the surface nearest to the source, unless postures are aligned to the source, in which case the position is first turned about the surface's origin (and so may move along the surface, but not away from that origin). Its orientation is the source's; with a projected posture its vertical axis is the surface's normal and its forward axis lies in the surface in the direction of the source's heading; with the flat option it is level in the parent frame with an unchanged heading. Its time is the source's plus the tolerance, and it is static exactly for a source without a time.", "quantifier": "every pose of the source and the surface, every combination of options, every time and every outcome of the two lookups", "why_tests_cant": "The tests use a handful of poses with level surfaces; the geometry must hold for every pair of three-dimensional poses and every combination of options.", "anchors": ["track_odometry/src/tf_projection_node.cpp: TfProjectionNode::process", "track_odometry/src/tf_projection.cpp: projectTranslation"]}
{"id": "C114", "title": "Poses are republished in the frame asked for", "statement": "Every pose sent to the pose transformer whose frame can be transformed is published as the same physical pose expressed in the frame asked for, with its covariance; the others are dropped.", "quantifier": "every sequence of pose messages, every state of the transform buffer", "why_tests_cant": "The statement quantifies over all histories and all transforms; the node has no test at all.", "anchors": ["map_organizer/src/pose_transform.cpp: PoseTransformNode::cbPose, main"]}
{"id": "C115", "title": "The joint search ends and finds a cheapest way", "statement": "For every map of joint angles, start and goal, the search of the planner for two serial joints ends, for every number of threads and every schedule; with one task per round and no queue limit the way it returns costs at most as much as every other legal way from the start to the goal.", "quantifier": "every costmap, start and goal cell, weights, resolution and range, every schedule of the search", "why_tests_cant": "Whether a cheaper way exists is a statement about all ways; whether the search always ends is a statement about all schedules. Tests compare a few scenes.", "anchors": ["planner_cspace/src/grid_astar_model_2dof_joints.cpp: GridAstarModel2DoFSerialJoint::cost, costEstim", "planner_cspace/src/planner_2dof_serial_joints.cpp: makePlan", "planner_cspace/include/planner_cspace/grid_astar.h: GridAstar::search"]}
{"id": "C116", "title": "The footprint test answers what the footprint covers", "statement": "For every footprint given as a polygon and every point off its outline: points that can be joined without touching the outline get the same answer; the answer does not depend on where the robot stands or how it is turned, as long as footprint and point are moved together; while robot and point move continuously the answer can change only at a moment when the point lies on the outline; and for a convex footprint listed counter-clockwise the answer is yes exactly for the points strictly on the inner side of every edge.", "quantifier": "every polygon (any number of vertices, also self-touching ones for the first three statements), every pose and point off the outline, every connected set and continuous motion", "why_tests_cant": "The crossing count treats vertices, horizontal edges and rays through vertices specially; a test looks at a few points of a few shapes, while the statement is about a continuum of points and headings.", "anchors": ["costmap_cspace/include/costmap_cspace/polygon.h: Polygon::inside, Polygon::move", "safety_limiter/src/safety_limiter.cpp: polygon::inside, polygon::move"]}
{"id": "C117", "title": "A planned path keeps the robot off the occupied cells of the map", "statement": "Let a map server send an occupancy grid to the costmap node, let the node publish its configuration-space map, and let the planner plan on it. If the footprint contains a disc of radius r around the robot's centre, then on every pose of the path sent to the controller the centre is, from every point of every occupied cell of the grid, at least r plus the configured linear expansion minus the square root of two cells away. In particular, if the expansion exceeds the difference between the footprint's circumscribed and inscribed radius by more than the square root of two cells, the robot standing on any pose of the path, at its heading, touches no occupied cell. This holds in spite of the costmap's shortcut that expands only the edges of obstacles, and of the interpolation of the path between cells. Limits: the centre must be where the map is known (unknown cells may be traversable by configuration); static overlays must combine by maximum; the last accepted update must not be in overwriting mode.", "quantifier": "every footprint polygon with an inscribed disc, expansion, spread, map, resolution, origin and number of headings; every chain of static layers that combine by maximum and any dynamic layers; every history of base maps and overlays; every history of maps and updates at the planner; every search (weights, starts, goal, thread schedule); every pose of the interpolated path, every occupied cell and every point of it", "why_tests_cant": "the claim composes the costmap's template, its edge shortcut, the layer chain, the planner's costmap, the search, the motion primitives and the interpolation; a test shows one map, one footprint and one path", "anchors": ["costmap_cspace/include/costmap_cspace/costmap_3d_layer/footprint.h: generateCSpaceTemplate, generateSpecifiedCSpace", "costmap_cspace/include/costmap_cspace/costmap_3d_layer/base.h: setBaseMap, updateChainEntry", "costmap_cspace/src/costmap_3d.cpp: cbMap, cbUpdateStatic", "planner_cspace/src/planner_3d.cpp: cbMap, applyCostmapUpdate, makePlan", "planner_cspace/src/grid_astar_model_3dof.cpp: cost", "planner_cspace/src/motion_cache.cpp: interpolatePath", "planner_cspace/include/planner_cspace/planner_3d/grid_metric_converter.h: grid2Metric"]}
{"id": "C118", "title": "A goal that can be driven to is not reported unreachable", "statement": "A goal whose cell is not free is reported unreachable. If some sequence of moves the planner allows itself leads from the robot's cell to a free goal, then the planner does not report that the goal is unreachable, and the search succeeds unless it is stopped. This holds after any number of extensions of the distance map for earlier positions of the robot, for every interleaving of the search threads, and although the distances are computed on a coarser map without headings and only up to a limit beyond the robot.", "quantifier": "every map, history of map updates, vehicle geometry, goal and robot cell, weights, history of the distance map and schedule of the search; the way must stay where a route to the goal costs no more than the robot's estimate plus the configured overshoot", "why_tests_cant": "Refusal happens when an estimate computed on a different, coarser map is infinite; that no drivable way at all is lost by the coarser map is a statement about all maps and all sequences of moves.", "anchors": ["planner_cspace/src/planner_3d.cpp: makePlan, fillCostmap, cbMap, cbMapUpdate", "planner_cspace/src/distance_map.cpp: DistanceMap::create, DistanceMap::update", "planner_cspace/src/grid_astar_model_3dof.cpp: GridAstarModel3D::cost, costEstim, searchGrids", "planner_cspace/include/planner_cspace/grid_astar.h: GridAstar::search"]}
{"id": "C119", "title": "Every start pose handed to the search has a known estimate", "statement": "Whenever the planner starts a search, the estimate of the remaining cost is known for each of the start poses it hands over, and its conversion to an integer is defined. The integer is the estimate cut off towards zero.", "quantifier": "every map, vehicle geometry, robot pose, goal, history of the distance map; start poses in the robot's own or in neighbouring cells", "why_tests_cant": "The start poses depend on the position within the cell and on which of up to four neighbouring cells are free; an unreachable neighbour behind a thin wall has no estimate.", "anchors": ["planner_cspace/src/planner_3d.cpp: makePlan, buildStartPoses", "planner_cspace/src/start_pose_predictor.cpp", "planner_cspace/include/planner_cspace/grid_astar.h: GridAstar::searchImpl"]}
{"id": "C120", "title": "A robot that obeys the safety limiter does not run into what the limiter sees", "statement": "Let a robot be sent straight ahead with a constant velocity v through the safety limiter, follow the commands the limiter publishes (braking with at least lin_acc when told to go slower), and let the points compared with the footprint be the obstacles around it. If d_margin is at least lin_acc*P^2/2 + v*Delta (plus the tolerance of 1e-6) for a cycle of at most P <= 1/hz + dt and a first command at most Delta after each prediction, the prediction horizon is long enough, predictions are at most the hold time apart, and the footprint is at least v*dt long beside each obstacle, and the robot can stop at the start, then at every moment of the ride it touches no obstacle and could still stop before all of them. A command that suddenly becomes faster is not covered: it is passed on with the limit of the slower one until the next prediction.", "quantifier": "all footprints, configurations, obstacle sets, timings of predictions, commands and clouds within the stated periods, and all motions of the robot that obey the published commands, for an unbounded duration", "why_tests_cant": "a test drives one scenario for a few seconds; here the statement is about every continuous motion and every interleaving of callbacks for ever, and depends on the compensation formula being exact", "anchors": ["safety_limiter/src/safety_limiter.cpp: cbTwist, cbPredictTimer, predict, limit, cbCloud"]}
{"id": "C121", "title": "A robot on a straight path drives to its end and stops there", "statement": "A robot which stands on a straight path, looks along it and executes the velocity commands published by the path tracker for one period each reaches the end of the path: it never turns, never drives backward, never exceeds the configured speed, never goes beyond the end of the path by the stop tolerance, and after a number of periods bounded in terms of the distance it stands still for ever within the stop tolerance of the end, where the tracker reports the goal; nothing on the way is undefined. This holds when the stop tolerance allows for the motion in one period (with the look-ahead) and the poses of the path are close to each other (with the default parameters at 50 Hz: more than a millimetre and at most 48 cm apart, the path at least 10 cm long). When the poses are further apart than the metre in which the tracker looks for the next pose it does not hold: on a path of three poses five metres apart, a robot one metre before the end is driven over the end at full speed and away from it for ever, with the status FOLLOWING.", "quantifier": "all straight paths (position, direction, number and spacing of the poses), all start positions on the path, all parameter sets satisfying the stated inequalities, the closed loop of tracker and robot over an unbounded number of periods", "why_tests_cant": "a test drives one path with one parameter set and a tolerance; that the discretised speed control, the look-ahead, the search window of one metre and the stop condition fit together for every path and every parameter set is an induction over the closed loop with a ranking argument", "anchors": ["trajectory_tracker/src/trajectory_tracker.cpp: cbPath, cbTimer, control, getTrackingResult", "trajectory_tracker/include/trajectory_tracker/basic_control.h: timeOptimalControl, VelAccLimitter::set", "trajectory_tracker/include/trajectory_tracker/path2d.h: findLocalGoal, findNearestWithDistance, remainedDistance, getCurvature"]}
{"id": "C122", "title": "A turn on the spot ends at the heading asked for", "statement": "A robot which stands still, anywhere and with any heading, receives a path consisting of a turn on the spot (two poses at one place) and executes the velocity commands published by the path tracker for one period each: it never leaves its place, it only turns the shorter way, never faster than the configured angular velocity, never beyond the heading asked for by the stop tolerance, and after a number of periods bounded in terms of the angle it stands still for ever within the stop tolerance of this heading (modulo full turns), where the tracker reports the goal; nothing on the way is undefined. This holds with time-optimal control when the stop tolerance allows for the motion in one period and for the prediction (the default parameters at 50 Hz do).", "quantifier": "all places and headings of the path, all poses of the robot, all parameter sets satisfying the stated inequalities, the closed loop of tracker and robot over an unbounded number of periods", "why_tests_cant": "a test turns from a few headings with one parameter set; that the wrapped angle, the predicted angle, the rate limits and the stop condition never make the robot oscillate, turn the long way or overshoot is an induction over the closed loop on a circle of headings", "anchors": ["trajectory_tracker/src/trajectory_tracker.cpp: cbPath, cbTimer, control, getTrackingResult", "trajectory_tracker/include/trajectory_tracker/basic_control.h: timeOptimalControl, VelAccLimitter::set, angleNormalized", "trajectory_tracker/include/trajectory_tracker/path2d.h: findLocalGoal, fromMsg"]}
{"id": "C123", "title": "A goal that can be reached keeps a distance through all changes of the map", "statement": "However the costmap changes over time, inside or outside of the rectangles announced with the updates of the distance map, after every update the robot's cell has a finite distance whenever free cells with common sides lead from it to the goal in the current map; so the planner does not report such a goal as unreachable. (Where only a diagonal step leads out of the robot's cell the distance can be lost by an update, even when nothing changed.)", "quantifier": "all map sizes, goals, starts, sequences of costmaps and of calls of update with any rectangles, thread schedules of the expansion", "why_tests_cant": "the histories of map changes are unbounded, and a lost cell shows only after a particular order of erasing, cutting off and reopening", "anchors": ["planner_cspace/src/distance_map.cpp: DistanceMap::update, DistanceMap::create, DistanceMap::fillCostmap", "planner_cspace/src/planner_3d.cpp: cbMapUpdate"]}
{"id": "C124", "title": "The published pictures show the planner's real state", "statement": "The cloud of distances has exactly one point for every cell that has a distance to the goal, at the centre of the cell and with its distance as value; the picture of the former path shows for every cell the least penalty over all headings, and 100 where there is no distance; the picture of the remembered obstacles shows for every cell a percentage between 0 and 100 which is at most one below the cost the planner uses. No picture has a value written outside of it. The debug cloud of the costmap node has exactly one point for each lethal cell and heading of the costmap.", "quantifier": "all map sizes, distance maps, penalties, remembered odds between the limits of the filter", "why_tests_cant": "the pictures are what a user looks at to understand a decision of the planner; a wrong index or a missed cell shows only for particular sizes and contents", "anchors": ["planner_cspace/src/planner_3d.cpp: publishDebug, publishRememberedMap, grid2MetricPoint", "planner_cspace/src/costmap_bbf.cpp: forEach", "costmap_cspace/src/costmap_3d.cpp: publishDebug"]}
{"id": "C125", "title": "A straight path that ends with a turn is driven to its end and turned", "statement": "A robot that follows a straight path whose last pose repeats the end with another heading drives along the line without turning, never faster than the limit, then turns the shorter way and never backwards, and after a number of control steps bounded in terms of the length and the angle it stands still with the heading within the stop tolerance, reports the goal and stays so. It comes to rest within the stop tolerance plus the look-forward distance at top speed plus the braking distance of the end of the path; it really may stop about the look-forward distance short of the end and report the goal, since the position is no longer corrected once the turn has begun.", "quantifier": "all straight paths with any spacing the node can follow, all final headings, all start positions on the line, all parameters meeting the stated conditions, every number of control steps", "why_tests_cant": "the claim is about an unbounded closed loop of node and robot whose two phases overlap: the robot still rolls when the turn begins", "anchors": ["trajectory_tracker/src/trajectory_tracker.cpp: control, getTrackingResult", "trajectory_tracker/include/trajectory_tracker/path2d.h: findLocalGoal, findNearest, remainedDistance"]}
{"id": "C126", "title": "Missing costmap updates are noticed also when planning is triggered by updates", "statement": "When planning is triggered by costmap updates and the costmap watchdog is on, then after an update, as long as no further one comes, from the moment the data is older than the watchdog allows a planning cycle takes place at least once per watchdog time (plus the time callbacks take and the delay of timers); each of them publishes an empty path and reports that data is missing.", "quantifier": "every history of callbacks, every time at which they run, all delays and durations, every moment after the data became too old", "why_tests_cant": "the claim is about the timing of a timer that is stopped and started again by several callbacks", "anchors": ["planner_cspace/src/planner_3d.cpp: cbMapUpdate, cbNoMapUpdateTimer, cbParameter, planPath, spin"]}
{"id": "C127", "title": "The status message tells what the last planning cycle did", "statement": "After every planning cycle that has a map, a costmap that is recent enough, a goal that is not being finished and the robot's position, and uses no temporary escape goal, the published status says GOING_WELL only if the robot is within the tolerance of the goal (and the status is then FINISHING) or the path just sent is one that the search found to the requested (or relocated) goal; IN_ROCK only if the robot is in an obstacle; PATH_NOT_FOUND only if the robot or the goal is out of the map, the goal is blocked, or the search found nothing; never DATA_MISSING. While a goal is pursued and the costmap is too old it says DATA_MISSING and only empty paths are sent. Without a goal it goes on showing the last error, or GOING_WELL if retain_last_error_status is off. A cycle without a status is one that aborts the goal after too many retries. The diagnosis is OK exactly for GOING_WELL.", "quantifier": "every history of events, every answer of the searches, every configuration and time", "why_tests_cant": "The error is one variable written in ten places and overwritten in the course of a cycle; what it says at the end depends on the whole history and on which of the searches fail.", "anchors": ["planner_cspace/src/planner_3d.cpp: planPath", "planner_cspace/src/planner_3d.cpp: makePlan", "planner_cspace/src/planner_3d.cpp: createCostEstimCache", "planner_cspace/src/planner_3d.cpp: diagnoseStatus", "planner_cspace/include/planner_cspace/planner_3d/temporary_escape.h: temporaryEscapeStatus2PlannerErrorStatus"]}
{"id": "C128", "title": "Searches are guided by a distance map for the goal pursued", "statement": "Whenever the planner searches for a path to a goal (the requested pose, the pose it was moved to, or a temporary goal), the distance map by which it decides that the goal is reachable and estimates the remaining cost was computed for that very goal. This holds as long as no goal and no map arrives while the robot's position is unknown and no parameters are changed during a goal; after such an event it holds again from the next accepted costmap update with the robot's position known.", "quantifier": "every history of maps, updates, goals, cancels, cycles, parameter changes and losses of the robot's position, every answer of the searches", "why_tests_cant": "The distance map is recomputed in six places and invalidated in others; whether a search can meet one made for an earlier goal depends on the interleaving of the callbacks.", "anchors": ["planner_cspace/src/planner_3d.cpp: createCostEstimCache", "planner_cspace/src/planner_3d.cpp: setGoal", "planner_cspace/src/planner_3d.cpp: applyCostmapUpdate", "planner_cspace/src/planner_3d.cpp: cbMap", "planner_cspace/src/planner_3d.cpp: cbParameter", "planner_cspace/src/planner_3d.cpp: updateTemporaryEscapeGoal", "planner_cspace/src/distance_map.cpp: DistanceMap::init", "planner_cspace/src/distance_map.cpp: DistanceMap::update"]}
{"id": "C129", "title": "A goal is answered as reached once the robot is there", "statement": "If, while an action goal is being processed, the robot is within the position and heading-step tolerances of the goal in some planning cycle, and in a later cycle its heading is within the final tolerance, then the goal has been answered as reached, exactly once, provided that the costmap is recent in these cycles, the robot and the goal can be placed on the map, and meanwhile nobody cancels, replaces or disturbs the goal. This holds in both planning modes (periodic, or triggered by costmap updates), for plain and for tolerant goals that are to be stopped at, however many cycles and costmap updates come in between, and also if the robot drifts out of the position tolerance while turning.", "quantifier": "every history up to the arrival, every sequence of undisturbed cycles, timers and costmap updates after it, every world they meet", "why_tests_cant": "The answer depends on state carried over any number of cycles and callbacks in two modes; a test shows one arrival, not that none gets stuck.", "anchors": ["planner_cspace/src/planner_3d.cpp: planPath", "planner_cspace/src/planner_3d.cpp: makePlan", "planner_cspace/src/planner_3d.cpp: isPathFinishing", "planner_cspace/src/planner_3d.cpp: cbMapUpdate", "planner_cspace/src/planner_3d.cpp: createCostEstimCache"]}
{"id": "C130", "title": "A path that the search can find is delivered", "statement": "If a goal is being pursued and the robot is not yet within tolerance of it, the robot and the goal can be placed on the map, the costmap is recent and the retry limit is not exceeded, and the search, guided by the distance map for the goal, succeeds, then the next planning cycle publishes the path of that search and reports that all goes well. The only other paths it may publish are empty ones, sent before while the search is taking long. This holds in both planning modes and for every history in which no goal arrived while the position was unknown and the parameters were not changed during a goal.", "quantifier": "every history up to the cycle, every world the cycle meets, both planning modes, plain and tolerant goals", "why_tests_cant": "Whether a found path is really published depends on flags and maps carried over from any earlier history (previous goals, failed relocations, stale updates); tests show single goals.", "anchors": ["planner_cspace/src/planner_3d.cpp: planPath", "planner_cspace/src/planner_3d.cpp: makePlan", "planner_cspace/src/planner_3d.cpp: cbMapUpdate", "planner_cspace/src/planner_3d.cpp: createCostEstimCache", "planner_cspace/src/planner_3d.cpp: updateGoal"]}
{"id": "C131", "title": "A goal the robot can drive to gets a path it can drive", "statement": "If a goal is being pursued, the robot is on the map in a free cell and not yet within tolerance of the goal, and there is a way from its cell to the goal's cell made of moves the vehicle can carry out without collision, within the part of the map for which distances have been computed, then the next planning cycle publishes a non-empty path unless the search is stopped by the user. Every pose of that path lies in a cell (position and heading) in which the robot does not collide, the path begins at most one cell away from the robot with the robot's heading, and it ends in the goal's cell or, if the goal is beyond the local planning range, at a place that is nearer to the goal by at least that range. The only other paths published in the cycle are empty ones, sent before.", "quantifier": "every history of the node up to the cycle, every costmap, robot pose, goal, distance map, parameters, every schedule of the search threads, both planning modes", "why_tests_cant": "It is the combination of the node's state, the reachability test, the start cells, the parallel search and the interpolation over all maps and schedules; a test shows one map.", "anchors": ["planner_cspace/src/planner_3d.cpp: planPath", "planner_cspace/src/planner_3d.cpp: makePlan", "planner_cspace/src/planner_3d.cpp: buildStartPoses", "planner_cspace/src/planner_3d.cpp: createCostEstimCache", "planner_cspace/include/planner_cspace/grid_astar.h: GridAstar::search", "planner_cspace/src/grid_astar_model_3dof.cpp: GridAstarModel3D", "planner_cspace/src/distance_map.cpp: DistanceMap", "planner_cspace/include/planner_cspace/planner_3d/grid_metric_converter.h: appendGridPath2MetricPath"]}
{"id": "C132", "title": "Every path the planner publishes is clear of obstacles", "statement": "Whatever state the planner is in and whatever event it handles (planning cycle, costmap update in trigger mode, goal requests, map changes), every path it publishes is empty, or the single final pose while it is finishing, or all its poses lie in map cells whose cost is below the lethal value in the costmap the planner plans on at that moment; this includes searches stopped before their end and the path to the nearest known place (find_best). A path that is not empty and not the final pose begins at most one cell away from the robot, if the robot's own cell is free. If that costmap comes from the costmap node (static layers combined by maximum, expansion larger than the footprint's circumscribed minus inscribed radius plus sqrt 2 cells), the robot's footprint on no pose of such a path touches a point of an occupied map cell. The final pose alone is not checked against the costmap.", "quantifier": "all states of the planner, all events, all costmaps, footprints, maps, robot poses and goals, all interleavings of the search threads, every outcome of the search", "why_tests_cant": "a test can look at the paths of a few scenes; whether some history of goals, escapes, aborted searches and map updates lets a path through an obstacle out cannot be sampled", "anchors": ["planner_cspace/src/planner_3d.cpp:makePlan", "planner_cspace/src/planner_3d.cpp:planPath", "planner_cspace/src/planner_3d.cpp:publishPath", "planner_cspace/include/planner_cspace/grid_astar.h:search", "costmap_cspace/src/costmap_3d_layer/footprint.cpp:generateCSpace"]}
{"id": "C133", "title": "The cost of a move is the documented sum of its parts", "statement": "Whenever a move of the vehicle gets a finite cost, that cost is exactly: its straight length and its turn (the short way round) with their weights, increased by the backward factor if the destination lies behind the robot; plus, for a lane change, the turn weight times the slope of the change over a full turn of headings, or, for a curve too narrow for full speed under the limit of the angular velocity, the length times the allowed fraction of the speed times the deceleration weight; plus the length of the driven motion times the mean cost of the cells it goes through (each counted once, the destination not counted) times the costmap weight, and likewise for the costs of leaving the remembered path; plus, in a curve, the turn times the mean of the cell costs above the turn threshold. The motion is the straight line between the cells or the curve around a fixed centre that fits both headings. A turn in place costs the turn with its weight, the fixed cost of such turns and the costs above the threshold of the headings passed. (As the code has it, the deceleration term is smaller for tighter curves of the same length.)", "quantifier": "every pair of cells, every costmap and remembered costs, all weights, even numbers of headings", "why_tests_cant": "the sum over the cells of a sampled curve, with cells counted once, cannot be compared with an independent description by sampled tests; a wrong term only changes preferences between paths", "anchors": ["planner_cspace/src/grid_astar_model_3dof.cpp: GridAstarModel3D::cost", "planner_cspace/src/motion_cache.cpp: MotionCache::reset", "planner_cspace/src/rotation_cache.cpp: RotationCache::reset"]}
{"id": "C134", "title": "Neighbouring poses of a published path are close to each other", "statement": "Between two cells of the grid path, the published path contains the poses of the motion at regular fractions of it, every so many samples (the interpolation resolution over the sampling resolution, rounded, at least one), beginning with the start cell; the next cell follows. Hence any two neighbouring poses of any path the planner publishes are not further apart than 16/3 times the larger of the sampling resolution and the interpolation resolution plus half the sampling resolution, in cells, whatever moves the path consists of and however the search ended. With the resolutions in use this is close enough for the costs of leaving the remembered path to be exact.", "quantifier": "every state and event of the planner, every scene (map, robot, goal, weights), every outcome of the search", "why_tests_cant": "the moves of all lengths, headings and curvatures, and all search outcomes, cannot be enumerated; a gap would show up in rare curves only", "anchors": ["planner_cspace/src/motion_cache.cpp: MotionCache::interpolatePath, MotionCache::reset", "planner_cspace/src/motion_primitive_builder.cpp: MotionPrimitiveBuilder::build", "planner_cspace/src/planner_3d.cpp: makePlan"]}
{"id": "C135", "title": "What the tracker commands in every cycle", "statement": "In every control cycle that reports FOLLOWING or GOAL: if the end of the current stretch of the path is reached, or the robot is turned too far away from the way, it brakes within its acceleration and turns (to the heading of the stretch's end, respectively to the way); otherwise it takes the speed from which it can just stop at the end of the stretch, forwards where the heading of the pose ahead points along the way and backwards (only if allowed) where it points against it, bounded by the speed limit at that pose and the acceleration, and leads its turn rate to that of the curve and against lateral and angle errors. It is never made to move against the direction of the way while the end of the stretch is ahead. On paths shorter than the position-control length it only brakes and turns. Only within all stop tolerances does it stop at once.", "quantifier": "every configuration with non-negative limits, state, path, robot pose, prediction and time step", "why_tests_cant": "all poses, paths and gains; the formula has to hold in each of them", "anchors": ["trajectory_tracker/src/trajectory_tracker.cpp: control, getTrackingResult", "trajectory_tracker/include/trajectory_tracker/basic_control.h"]}
{"id": "C136", "title": "Sensed obstacles: planned paths keep clear of what the sensors reported last", "statement": "If a sensor reports occupied cells through an overlay layer of the costmap node and the planner has received the update published for that report as its last one, then on every pose of a planned path inside the area of the report the robot's centre is at least the footprint's inscribed radius plus the layer's expansion, less the square root of two times the sum of the cell width and the misalignment of the two grids, away from every point of every reported occupied cell on the map. If the expansion exceeds the difference of the circumscribed and the inscribed radius by more than that, the robot touches no such point. This holds of every path the planner publishes, whatever its state, except that the final pose alone may be published unchecked.", "quantifier": "every footprint with an inscribed disc, every chain of layers with maximum layers after the sensor's, every history of the costmap node and of the planner, every report with the map's resolution and frame, every search configuration and thread schedule, every pose of the path", "why_tests_cant": "The claim spans two nodes and a parallel search and ranges over all histories, reports, footprints and paths; tests run single scenes.", "anchors": ["costmap_cspace/include/costmap_cspace/costmap_3d_layer/base.h: processMapOverlay, updateChainEntry, UpdatedRegion::bitblt", "costmap_cspace/include/costmap_cspace/costmap_3d_layer/footprint.h: updateCSpace, generateCSpace", "costmap_cspace/include/costmap_cspace/costmap_3d_layer/output.h: generateUpdateMsg", "planner_cspace/src/planner_3d.cpp: applyCostmapUpdate, makePlan"]}
{"id": "C137", "title": "The planner's costmap shows the obstacles of the costmap node's map", "statement": "After every update the planner's costmap shows every obstacle of the costmap node's map. (False with two sensor layers: an update covers the rectangles of the last two reports only and the planner undoes the previous update first, so an obstacle seen by one sensor disappears from the planner's costmap after two reports of another, although the node still knows it. False with one sensor layer that expands obstacles: the part of the expansion outside the reported rectangles is in the node's map but not in the planner's. It holds inside the rectangle of the last update; elsewhere the planner's costmap is the received map. With one sensor layer that does not expand, the two maps agree everywhere after every report.)", "quantifier": "every chain of layers, every history of both nodes, every cell", "why_tests_cant": "Which obstacles are visible depends on the whole order of reports from all sensors; tests use one sensor.", "anchors": ["costmap_cspace/include/costmap_cspace/costmap_3d_layer/output.h: generateUpdateMsg", "costmap_cspace/include/costmap_cspace/costmap_3d_layer/base.h: processMapOverlay", "planner_cspace/src/planner_3d.cpp: applyCostmapUpdate, cbMapUpdate"]}
{"id": "C138", "title": "Feedback and metrics of the planner", "statement": "While an action goal is in progress, every planning cycle in which the planner has a map, the robot's position and a recent costmap sends exactly one feedback, to that goal, carrying the robot's position as last looked up; feedback is never sent at another time, to another goal, to a goal not accepted or already answered. Every planning cycle publishes one metrics message, stamped with the cycle's time, with the costmap's age and with the same error and status as the status message of the cycle, and leaves no measurement for the next message; only the cycle that gives up a goal publishes none (its measurements go into the next message). If attempts are not limited every metrics message has exactly one costmap age.", "quantifier": "every history of maps, updates, cycles, timers, goals, cancels and parameter changes; every answer of the searches; every list of recorded durations", "why_tests_cant": "which cycle runs in which state depends on the interleaving of all callbacks; the buffer is carried from cycle to cycle, so that a message depends on the whole history", "anchors": ["planner_cspace/src/planner_3d.cpp: planPath", "planner_cspace/src/planner_3d.cpp: updateStart", "planner_cspace/src/planner_3d.cpp: cbMapUpdate", "planner_cspace/src/planner_3d.cpp: publishCurrentGoal"]}
{"id": "C139", "title": "Missing odometry stops the robot, and arriving odometry does not", "statement": "When trajectory_tracker is driven by odometry (use_odom) with a non-zero odom_timeout_sec, the robot is told to stop once odometry has been missing for that long: after the last odometry message a zero velocity command with status NO_PATH is published, not earlier than odom_timeout_sec after that message and at most the delay of the timer later, whatever paths, speeds and parameters arrive meanwhile, and it stays the last command. The timeout never strikes unless the last odometry message is at least odom_timeout_sec old. Before the first odometry message no command is published. With odom_timeout_sec 0 there is no timeout. Without use_odom there is no such protection: when the robot's position is lost while it drives, its last command stays in force.", "quantifier": "every configuration, every timed history of path, speed, parameter and odometry messages and timer callbacks, every timeout and every bound on the delay of timers", "why_tests_cant": "The claim concerns all interleavings of messages with a one-shot timer that is restarted by each message, in real time; a test sees one schedule.", "anchors": ["trajectory_tracker/src/trajectory_tracker.cpp: cbOdometry, cbOdomTimeout, cbTimer, spin"]}
{"id": "C140", "title": "Slip correction of the odometry", "statement": "track_odometry scales each raw displacement by what wheels and gyro say about slip before adding it to the published position. Without the Kalman filter (use_kf false) the factor is the share of the wheels' turn rate confirmed by the gyro, and 1 while the wheels hardly turn (within three times sigma_odom). When gyro and wheels always agree in orientation and rate, the published position is the raw one, with or without the filter. With the filter, while the wheels hardly turn the correction fades by dt times predict_filter_tc with each message; if the gyro never turns faster than the wheels, displacements are never lengthened. Without enable_negative_slip the correction never turns a displacement round.", "quantifier": "every history of odometry and IMU messages and every set of parameters with positive sigma_odom", "why_tests_cant": "The factor depends on the whole history through the filter's state; all histories, rates and intervals are concerned.", "anchors": ["track_odometry/src/track_odometry.cpp: cbOdom", "track_odometry/include/track_odometry/kalman_filter1.h: predict, measure"]}
{"id": "C141", "title": "Height filter and height reset of the odometry", "statement": "The height filter (z_filter_timeconst) and the messages of reset_odometry_z change only the height published by track_odometry: the horizontal position is the same sum of corrected displacements as without them. A reset sets the height; afterwards, each published message adds the vertical part of its displacement and multiplies the height by 1 - dt/z_filter_timeconst, where dt is the time since the last message used; a constant that is not positive switches the filter off. On flat ground the height therefore only shrinks towards zero.", "quantifier": "every history of odometry, IMU and reset messages, every set of parameters with positive sigma_odom", "why_tests_cant": "The height depends on the whole history since the last reset, including intervals without IMU.", "anchors": ["track_odometry/src/track_odometry.cpp: cbOdom, cbResetZ"]}
{"id": "C142", "title": "The safety limiter lets the robot move again", "statement": "Whatever happened before - obstacles, missing data, an expired watchdog - the safety limiter does not keep the robot stopped for ever: once usable obstacle data is there, the watchdog is not expired and the hold time of every restriction is over, one processed velocity command frees the robot, and every later command passes subject only to the velocity limits, for as long as the watchdog does not fire and the prediction cycles have recent data and find nothing in the way. The watchdog stops the robot exactly while it is expired, i.e. from its firing to the next message that resets it. The freeing command itself is still limited as before: the first command after a watchdog reset is a stop.", "quantifier": "all histories of commands, clouds, prediction cycles, watchdog firings and resets, disable messages and parameter changes; all times and commands; all footprints and parameters", "why_tests_cant": "The recovery depends on the whole history through a held ratio, a hold-off time and two flags; tests replay a few scripted sequences and cannot show that no sequence leaves the limiter latched.", "anchors": ["safety_limiter/src/safety_limiter.cpp: cbTwist", "safety_limiter/src/safety_limiter.cpp: cbWatchdogReset", "safety_limiter/src/safety_limiter.cpp: cbWatchdogTimer", "safety_limiter/src/safety_limiter.cpp: cbCloud", "safety_limiter/src/safety_limiter.cpp: cbPredictTimer"]}
{"id": "C143", "title": "Near the robot a plan is made of drivable moves; farther away it keeps the heading", "statement": "From a cell closer than local_range to a start, the path search offers exactly the feasible moves: turns in place, straight moves with a limited slant, and curves of less than a quarter turn that respect the minimum radius; so every step of a returned path that begins there is such a move. From any other cell it offers exactly the displacements of at most the search range that keep the heading, so a returned path never turns there. What is not limited there is the slant: in free space every such displacement with at least half a cell of forward or backward component is accepted, however far it goes to the side.", "quantifier": "all maps, costmaps, weights, local ranges, starts, goals and all returned paths, for every interleaving of the parallel search", "why_tests_cant": "The set of moves depends on the position relative to every start and on the geometry of each displacement and heading; tests look at a few paths in one small map.", "anchors": ["planner_cspace/src/grid_astar_model_3dof.cpp: GridAstarModel3D::searchGrids", "planner_cspace/src/grid_astar_model_3dof.cpp: GridAstarModel3D::GridAstarModel3D", "planner_cspace/src/motion_primitive_builder.cpp: MotionPrimitiveBuilder::build", "planner_cspace/include/planner_cspace/grid_astar.h: GridAstar::searchImpl"]}
{"id": "C144", "title": "State estimate filter under repeated measurements", "statement": "Starting with nothing known, after any number of measurements with positive standard deviations the filter's estimate is finite, and each further measurement moves it towards the measured value by at most that measurement's share of the total information (inverse variance). Two equally good measurements are averaged. From the third on the filter departs from the best linear combination: its stated uncertainty is strictly smaller than any combination of the measurements can justify, a later measurement counts strictly less than its share (the third of three equal ones counts half as much as each of the others), and the result depends on the order. If nothing is known and an infinite value is measured, the estimate is zero.", "quantifier": "all finite sequences of measured values and positive standard deviations, of any length", "why_tests_cant": "A statement about every sequence of measurements and every weight; a test compares a handful of numbers with a tolerance and would not show the systematic overconfidence.", "anchors": ["track_odometry/include/track_odometry/kalman_filter1.h: KalmanFilter1::measure", "track_odometry/include/track_odometry/kalman_filter1.h: KalmanFilter1::set"]}
{"id": "C145", "title": "Joystick override: whose command is in force", "statement": "The command in force behind joystick_interrupt, i.e. the last velocity command it published, always belongs to one party: after a joystick message that holds the override button it is that message's command, and it stays in force until a further joystick message or an autonomous command later than the timeout; when the newest joystick message does not hold the button (or none came) it is the newest autonomous command received, also one that came during the override, or, if there was none, nothing or a stop; and the first autonomous command later than the timeout after the last joystick message takes over. There is no timer: when both sources fall silent the last command stays in force for ever. A joystick message that lacks the override button ends the override without publishing anything, so the joystick's command stays in force although nobody holds the button.", "quantifier": "all histories of joystick messages and autonomous commands with positive times, all parameters and messages", "why_tests_cant": "Depends on the interleaving and timing of two message streams over the whole history; tests check single hand-overs.", "anchors": ["joystick_interrupt/src/joystick_interrupt.cpp: cbJoy", "joystick_interrupt/src/joystick_interrupt.cpp: cbTwist"]}
{"id": "C146", "title": "The configured layers form one chain in the listed order", "statement": "When the costmap node starts, each map runs through exactly these layers, in this order and none twice: the footprint layer of the base map, the static_layers entries in the listed order, the output of the static map, the layers entries in the listed order (without that parameter one footprint layer), the output of the updates. Each layer has the class its entry names and the overlay mode it names (max if it names none), only the first is the root, each layer reads the very map that the previous one writes and no two layers write the same map, and each overlay topic feeds exactly the layer of the entry that names it. The node starts if and only if ang_resolution is positive, a given list is not empty, and every entry has a known class and, if it names one, a known overlay mode.", "quantifier": "all configurations: lists of any length, all names, classes and modes", "why_tests_cant": "The chain is built by pointer updates while parameters of any length are read; tests build a few fixed chains by hand and do not start the node with arbitrary lists.", "anchors": ["costmap_cspace/src/costmap_3d.cpp: Costmap3DOFNode::Costmap3DOFNode", "costmap_cspace/include/costmap_cspace/costmap_3d.h: addRootLayer, addLayer", "costmap_cspace/include/costmap_cspace/costmap_3d_layer/class_loader.h: loadClass", "costmap_cspace/include/costmap_cspace/costmap_3d_layer/base.h: setChild"]}
