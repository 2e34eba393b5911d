import Mathlib.Algebra.Order.Ring.Rat
import Mathlib.Algebra.Order.Group.Unbundled.Abs
/-! # The planner node as an event-driven state machine

Models `planner_cspace/src/planner_3d.cpp` (class `Planner3dNode`): goals, cancels, maps, planning cycles, status.

What is decided by geometry (is the goal in an obstacle, which escape goal is found, what path the search returns) is not computed
here but given with every event as a `World`, an arbitrary answer to every question the code asks; the searches themselves are
modelled in `SearchPos`, `Astar`, `DistMap`, `PlannerMap`.  Callbacks run one after the other (`ros::spinOnce` on one thread).
The two `actionlib::SimpleActionServer`s are external; `Server` models what their documentation and source promise (actionlib
`simple_action_server_imp.h`: `goalCallback`, `preemptCallback`, `acceptNewGoal`, `isActive`, `setSucceeded`, ...).
Action feedback, the current goal and metrics are in `Report`, the diagnosis in `StatusSpec`, debug pictures in `Picture`. -/
namespace Verif.PlannerNode

/-- `enum class DiscretePoseStatus`, pose_status.h 37–43; `moved` carries the new pose. -/
inductive Pos (P : Type) where
  | ok | moved (p : P) | inRock | outOfMap

/-- The outcome of the crowd-mode search for an escape goal, planner_3d.cpp 2138–2310: nothing found (or too near the edge),
the original goal is reachable again, or a temporary goal with the sign of the improvement test (2305–2315). -/
inductive Esc (P : Type) where
  | nothing | original | temp (p : P) (improves : Bool)

/-- Who asks for an escape goal: line 614 passes the relocated start cell, lines 269 and 1951 the robot's own cell. -/
inductive Caller where
  | cache | robot

/-- Everything geometry decides during one callback.
* `start`: `relocateDiscretePoseIfNeeded` on the robot's cell (581);
* `goal p`: the same for goal pose `p` (582);
* `simple`: the result of `searchAvailablePos` in `updateTemporaryEscapeGoal` (2118);
* `crowd c o`: the crowd-mode search with original goal `o` (2138–2310);
* `starts p`: the start candidates of `buildStartPoses` (1810–1898), each with the squared distance in cells and the heading
  distance in steps to the goal `p`, or `none` if the start is occupied;
* `unreachable d p`: no finite estimate in the distance map, made for the goal `d` (`none`: initialised), or a lethal goal cell (1944);
* `waits d p`: how often the search, guided by that distance map, reports a time-out (1958–1980, each publishes an empty path);
* `found d p`, `poses d p`: whether that search succeeds and the poses it gives (1995–2037);
* `turns ps`: the path has a switch back (`getSwitchIndex`, 1692);
* `heading p`: heading difference of the robot to the pose `p` (1612–1621);
* `lethal p`: the goal cell is lethal (927). -/
structure World (P : Type) where
  start : Pos P
  goal : P → Pos P
  simple : Option P
  crowd : Caller → P → Esc P
  starts : P → Option (List (Int × Int))
  unreachable : Option P → P → Bool
  waits : Option P → P → Nat
  found : Option P → P → Bool
  poses : Option P → P → List P
  turns : List P → Bool
  heading : P → ℚ
  lethal : P → Bool

/-- `PlannerStatus.status`: DONE, DOING, FINISHING. -/
inductive Phase where
  | done | doing | finishing
deriving DecidableEq

/-- `PlannerStatus.error` (the values the node uses). -/
inductive Err where
  | goingWell | inRock | pathNotFound | dataMissing
deriving DecidableEq

/-- `enum class TemporaryEscapeStatus`, temporary_escape.h 39–44. -/
inductive Escaping where
  | no | better | worse
deriving DecidableEq

/-- `operator|`, temporary_escape.h 65–69: the worse of the two. -/
def Escaping.worst : Escaping → Escaping → Escaping
  | .worse, _ => .worse
  | _, .worse => .worse
  | .better, _ => .better
  | _, .better => .better
  | .no, .no => .no

/-- `temporaryEscapeStatus2PlannerErrorStatus`, temporary_escape.h 51–63. -/
def Escaping.err : Escaping → Err
  | .worse => .pathNotFound
  | _ => .goingWell

/-- The tolerances of a `MoveWithTolerance` goal; the linear and angular tolerance are given in cells and heading steps, as
rounded in `isPathFinishing` (planner_3d.cpp 1796–1798). -/
structure Tol where
  lin : Int
  ang : Int
  angFinish : ℚ
  continuous : Bool

/-- Parameters, planner_3d.cpp 1220–1340 and 1395–1500.  `waitSwitch` is `sw_wait_ > 0 && !keep_a_part_of_previous_path_`
(1690). -/
structure Cfg where
  watchdog : Int
  maxRetry : Int
  retain : Bool
  trigger : Bool
  crowd : Bool
  tempEscape : Bool
  fastUpdate : Bool
  findBest : Bool
  waitSwitch : Bool
  forceOrientation : Bool
  tolLin : Int
  tolAng : Int
  escLin : Int
  escAng : Int
  angFinish : ℚ

/-- The two action interfaces `move_base` and `tolerant_move`. -/
inductive Which where
  | base | tolerant
deriving DecidableEq

/-- How a goal ends.  `reached`: "Goal reached." (1632–1635), `passed`: "Goal reached (Continuous movement mode)." (1925),
`cleared`: "Goal cleared." (490–492) — all three are `setSucceeded`; `aborted`: `setAborted`; `preempted`: `setPreempted`;
`recalled`: cancelled by the action server before it was accepted. -/
inductive Answer where
  | reached | passed | cleared | aborted | preempted | recalled
deriving DecidableEq

/-- What the node publishes; `accepted` notes that the action server accepted goal `id`, which asks for `pose`. -/
inductive Out (P : Type) where
  | path (poses : List P)
  | status (p : Phase) (e : Err)
  | accepted (k : Which) (id : Nat) (pose : P)
  | answer (id : Nat) (a : Answer)

/-- One `SimpleActionServer`: the current goal with its activity (`isActive`), and a goal that has been received but not
accepted (`next_goal_` when it differs from `current_goal_`). -/
structure Server where
  current : Option Nat
  active : Bool
  pending : Option Nat

/-- The state of `Planner3dNode` (planner_3d.cpp 150–251) and of its action servers.  `count` numbers the action goals received;
`log` is everything published so far.  `made` is the goal for which the distance map `cost_estim_cache_` was computed last (`goal_`, distance_map.cpp
360), `none` after `init` (distance_map.cpp 208–210: all values are 0 then).  `cost_estim_cache_.init` is called for a map (1045) and for new parameters
(1473); before the first map, when the latter is skipped, `made` is `none` anyway. -/
structure St (P : Type) where
  cfg : Cfg
  frame : Nat
  hasMap : Bool
  hasGoal : Bool
  hasStart : Bool
  cacheReady : Bool
  made : Option P
  startOccupied : Bool
  switchback : Bool
  stuck : Int
  escaping : Escaping
  goal : P
  goalRaw : P
  goalOriginal : P
  phase : Phase
  error : Err
  lastCostmap : Int
  timer : Bool
  base : Server
  tol : Server
  tolGoal : Option Tol
  count : Nat
  log : List (Out P)

variable {P : Type}

/-- A goal message: frame (0 stands for the empty name, the node's frame before the first map), pose, and whether its orientation is a unit quaternion (`|len2 - 1| < 0.1`, planner_3d.cpp
464–470). -/
structure GoalMsg (P : Type) where
  frame : Nat
  pose : P
  oriented : Bool

/-- Publishing. -/
def emit (o : Out P) (s : St P) : St P := { s with log := s.log ++ [o] }

/-- The end of the current goal of one server: `setSucceeded`/`setAborted`/`setPreempted`, guarded by `isActive()` as at all call
sites but two (1119, 1131, where the goal has just been accepted). -/
def finish (k : Which) (a : Answer) (s : St P) : St P :=
  match k with
  | .base =>
    if s.base.active then
      match s.base.current with
      | some i => emit (.answer i a) { s with base := { s.base with active := false } }
      | none => s
    else s
  | .tolerant =>
    if s.tol.active then
      match s.tol.current with
      | some i => emit (.answer i a) { s with tol := { s.tol with active := false } }
      | none => s
    else s

/-- Both servers, as in 444–448, 489–492, 1631–1634, 1654–1659. -/
def finishBoth (a : Answer) (s : St P) : St P := finish .tolerant a (finish .base a s)

/-- `cbPreempt`, planner_3d.cpp 441–453. -/
def cbPreempt (s : St P) : St P :=
  { finishBoth .preempted s with hasGoal := false, escaping := .no, phase := .done }

/-- Taking up a temporary goal, planner_3d.cpp 2123–2134 and 2305–2327: the status `better`/`worse`, the goal poses, leaving the
finishing phase. -/
def takeEscape (p : P) (better : Bool) (s : St P) : St P :=
  { s with
    escaping := if better then .better else .worse
    goalRaw := p
    goal := p
    phase := if s.phase = .finishing then .doing else s.phase }

/-- Returning to the original goal, planner_3d.cpp 606–607, 1916–1917, 2237–2238. -/
def backToOriginal (s : St P) : St P :=
  { s with goal := s.goalOriginal, goalRaw := s.goalOriginal, escaping := .no }

/-- `updateTemporaryEscapeGoal`, planner_3d.cpp 2098–2329, with `createCostEstimCache` as parameter (the two call each other). -/
def escapeGoal (w : World P) (cache : St P → Option (St P × Bool)) (who : Caller) (s : St P) : Option (St P) :=
  if !s.hasMap || !s.hasGoal || !s.hasStart then some s
  else if s.switchback then some s
  else if !s.cfg.crowd then
    match w.simple with
    | none => some s
    | some p => (cache (takeEscape p false s)).map Prod.fst
  else
    match w.crowd who s.goalOriginal with
    | .nothing => some s
    | .original => (cache (backToOriginal s)).map Prod.fst
    | .temp p b => (cache (takeEscape p b s)).map Prod.fst

/-- `createCostEstimCache`, planner_3d.cpp 557–653; the Boolean is its result.  The first argument bounds the depth of the mutual
recursion with `updateTemporaryEscapeGoal`; `none` means deeper.  The distance map itself is in `DistMap`. -/
def cache (w : World P) : Nat → St P → Option (St P × Bool)
  | 0, _ => none
  | n + 1, s =>
    if !s.hasGoal then some (s, true)
    else if !s.hasMap || !s.hasStart then some (s, true)
    else
      let s := { s with cacheReady := false, startOccupied := false }
      match w.start with
      | .outOfMap => some (s, false)
      | .inRock => some ({ s with stuck := s.stuck + 1, startOccupied := true }, true)
      | _ =>
        match w.goal s.goalRaw with
        | .outOfMap => some (s, false)
        | .inRock =>
          if s.escaping ≠ .no then some (backToOriginal s, true)
          else if s.cfg.tempEscape && s.cfg.crowd then
            (escapeGoal w (cache w n) .cache { s with stuck := s.stuck + 1 }).map fun s => (s, true)
          else some ({ s with stuck := s.stuck + 1 }, true)
        | .moved p => some ({ s with goal := p, cacheReady := true, made := some p }, true)
        | .ok => some ({ s with goal := s.goalRaw, cacheReady := true, made := some s.goalRaw }, true)

/-- The depth of recursion offered; `PlannerNode.cache_defined` shows that it is enough. -/
def depth : Nat := 2

/-- `updateTemporaryEscapeGoal` as called from outside. -/
def escapeNow (w : World P) (s : St P) : Option (St P) := escapeGoal w (cache w depth) .robot s

/-- `setGoal`, planner_3d.cpp 455–495. -/
def setGoal (g : GoalMsg P) (w : World P) (s : St P) : Option (St P × Bool) :=
  if s.frame ≠ g.frame then some (s, false)
  else
    let s := { s with goalOriginal := g.pose, goalRaw := g.pose, goal := g.pose }
    if g.oriented then
      (cache w depth { s with escaping := .no, hasGoal := true, stuck := 0 }).map fun r =>
        if r.2 then
          let s := { r.1 with phase := .doing }
          (emit (.status s.phase s.error) s, true)
        else ({ r.1 with hasGoal := false }, false)
    else some (finishBoth .cleared { s with hasGoal := false }, true)

/-- `cbGoal`, planner_3d.cpp 432–440. -/
def cbGoal (g : GoalMsg P) (w : World P) (s : St P) : Option (St P) :=
  if s.base.active || s.tol.active then some s else (setGoal g w s).map Prod.fst

/-- `SimpleActionServer::goalCallback` up to the user's goal callback, for a goal numbered `id`: an unaccepted goal is
cancelled, the new one becomes the pending one, and if a goal is active the preempt callback runs. -/
def receive (k : Which) (id : Nat) (s : St P) : St P :=
  match k with
  | .base =>
    let s := match s.base.pending with
      | some j => emit (.answer j .recalled) s
      | none => s
    let s := { s with base := { s.base with pending := some id } }
    if s.base.active then cbPreempt s else s
  | .tolerant =>
    let s := match s.tol.pending with
      | some j => emit (.answer j .recalled) s
      | none => s
    let s := { s with tol := { s.tol with pending := some id } }
    if s.tol.active then cbPreempt s else s

/-- `acceptNewGoal`: the pending goal becomes the current, active one.  (It would cancel a goal that is still active; `receive`
has ended it before.) -/
def accept (k : Which) (pose : P) (s : St P) : St P :=
  match k with
  | .base =>
    match s.base.pending with
    | some i => emit (.accepted .base i pose) { s with base := ⟨some i, true, none⟩ }
    | none => s
  | .tolerant =>
    match s.tol.pending with
    | some i => emit (.accepted .tolerant i pose) { s with tol := ⟨some i, true, none⟩ }
    | none => s

/-- `cbAction`, planner_3d.cpp 1109–1120. -/
def cbAction (g : GoalMsg P) (w : World P) (s : St P) : Option (St P) :=
  if s.tol.active then some s
  else
    (setGoal g w (accept .base g.pose s)).map fun r => if r.2 then r.1 else finish .base .aborted r.1

/-- `cbTolerantAction`, planner_3d.cpp 1122–1133. -/
def cbTolerantAction (g : GoalMsg P) (t : Tol) (w : World P) (s : St P) : Option (St P) :=
  if s.base.active then some s
  else
    (setGoal g w { accept .tolerant g.pose s with tolGoal := some t }).map fun r =>
      if r.2 then r.1 else finish .tolerant .aborted r.1

/-- The tolerances used by `isPathFinishing`, planner_3d.cpp 1789–1803; `none` if the tolerant goal is active and
`goal_tolerant_` is null. -/
def tolerance (s : St P) : Option (Int × Int) :=
  if s.escaping ≠ .no then some (s.cfg.escLin, s.cfg.escAng)
  else if s.tol.active then s.tolGoal.map fun t => (t.lin, t.ang)
  else some (s.cfg.tolLin, s.cfg.tolAng)

/-- `isPathFinishing`, planner_3d.cpp 1805–1807, for a start at the given distance. -/
def within (t : Int × Int) (d : Int × Int) : Bool := decide (d.1 ≤ t.1 * t.1 ∧ d.2 ≤ t.2)

/-- `publishFinishPath`, planner_3d.cpp 748–761. -/
def finishPath (s : St P) : St P :=
  emit (.path [if s.cfg.forceOrientation then s.goalRaw else s.goal]) s

/-- `makePlan` from the reachability check on, planner_3d.cpp 1941–2096: the path is the second component. -/
def searchPath (w : World P) (s : St P) : Option (St P × List P) :=
  let g := s.goal
  let d := s.made
  if w.unreachable d g then
    let s := { s with error := .pathNotFound }
    if s.cfg.tempEscape then (escapeNow w s).map fun s => (s, []) else some (s, [])
  else
    let s := { s with log := s.log ++ List.replicate (w.waits d g) (.path []) }
    if w.found d g then some (s, w.poses d g)
    else
      let s := { s with error := .pathNotFound }
      some (s, if s.cfg.findBest then w.poses d g else [])

/-- `makePlan`, planner_3d.cpp 1900–2096. -/
def makePlan (w : World P) (s : St P) : Option (St P × List P) :=
  match w.starts s.goal with
  | none => some ({ s with error := .inRock }, [])
  | some ds =>
    match tolerance s with
    | none => none
    | some t =>
      if ds.any (within t) then
        if s.escaping ≠ .no then
          (cache w depth (backToOriginal s)).map fun r => (r.1, [])
        else if s.tol.active then
          match s.tolGoal with
          | none => none
          | some g =>
            if g.continuous then searchPath w { finish .tolerant .passed s with tolGoal := none }
            else some (finishPath { s with phase := .finishing }, [])
        else some (finishPath { s with phase := .finishing }, [])
      else searchPath w s

/-- `status_` is published, planner_3d.cpp 1713–1714. -/
def publishStatus (s : St P) : St P := emit (.status s.phase s.error) s

/-- The finishing phase of `planPath`, planner_3d.cpp 1610–1640. -/
def planFinish (w : World P) (s : St P) : Option (St P) :=
  let yaw := w.heading (if s.cfg.forceOrientation then s.goalRaw else s.goal)
  match (if s.tol.active then s.tolGoal.map Tol.angFinish else some s.cfg.angFinish) with
  | none => none
  | some lim =>
    if |yaw| < lim then some (publishStatus (finishBoth .reached { s with phase := .done, hasGoal := false }))
    else some (publishStatus (finishPath s))

/-- Giving up, planner_3d.cpp 1645–1660: returns from `planPath` at once. -/
def giveUp (s : St P) : St P :=
  finishBoth .aborted (emit (.path []) { s with error := .pathNotFound, phase := .done, hasGoal := false })

/-- The planning phase of `planPath`, planner_3d.cpp 1641–1704. -/
def planMove (w : World P) (s : St P) : Option (St P) :=
  let before := s.escaping
  if s.cfg.maxRetry ≠ -1 ∧ s.stuck > s.cfg.maxRetry then some (giveUp s)
  else if !s.cacheReady then
    let s := { s with error := if s.startOccupied then .inRock else .pathNotFound }
    some (publishStatus (emit (.path []) s))
  else
    (makePlan w { s with error := .goingWell }).map fun r =>
      let s := emit (.path r.2) r.1
      let s := if s.cfg.waitSwitch then { s with switchback := w.turns r.2 } else s
      let s := if s.escaping ≠ .no ∨ before ≠ .no then { s with error := (s.escaping.worst before).err } else s
      publishStatus s

/-- The costmap watchdog, planner_3d.cpp 1564–1591. -/
def Stale (s : St P) (now : Int) : Prop := s.cfg.watchdog > 0 ∧ now - s.lastCostmap > s.cfg.watchdog

instance (s : St P) (now : Int) : Decidable (Stale s now) := by unfold Stale; infer_instance

/-- `planPath`, planner_3d.cpp 1557–1729. -/
def planPath (now : Int) (w : World P) (s : St P) : Option (St P) :=
  (if s.hasMap && !s.cacheReady && s.hasGoal then (cache w depth s).map Prod.fst else some s).bind fun s =>
    if Stale s now then
      let s := emit (.path []) { s with error := .dataMissing }
      if !s.hasGoal then
        let s := if s.cfg.retain then s else { s with error := .goingWell }
        some (publishStatus (emit (.path []) s))
      else some (publishStatus s)
    else if s.hasMap && s.hasGoal && s.hasStart then
      let s := { s with switchback := false }
      if s.phase = .finishing then planFinish w s else planMove w s
    else if !s.hasGoal then
      let s := if s.cfg.retain then s else { s with error := .goingWell }
      some (publishStatus (emit (.path []) s))
    else some (publishStatus s)

/-- A costmap update message: the time it is processed, whether it fits the map (`applyCostmapUpdate`, planner_3d.cpp 782–797,
see `PlannerMap`), whether the robot's position can be looked up then, and the world with the update. -/
structure Update (P : Type) where
  now : Int
  fits : Bool
  located : Bool
  w : World P

/-- `applyCostmapUpdate`, planner_3d.cpp 777–958, except the maps. -/
def applyUpdate (u : Update P) (s : St P) : Option (St P) :=
  if !u.fits then some s
  else
    let s := { s with lastCostmap := u.now }
    if !s.hasStart then some s
    else if !s.hasGoal then some s
    else if !s.cfg.fastUpdate then (cache u.w depth s).map Prod.fst
    else if u.w.lethal s.goal then (cache u.w depth s).map Prod.fst
    else some { s with made := some s.goal }

/-- `cbMapUpdate`, planner_3d.cpp 966–987. -/
def cbMapUpdate (u : Update P) (s : St P) : Option (St P) :=
  if !s.hasMap then some s
  else if s.cfg.trigger then
    (applyUpdate u { s with timer := false, hasStart := u.located }).bind fun s =>
      (planPath s.lastCostmap u.w s).map fun s => if s.cfg.watchdog > 0 then { s with timer := true } else s
  else applyUpdate u s

/-- `cbMap`, planner_3d.cpp 988–1108, except the maps: `early` is the retained update, if it is applied (1102–1106). -/
def cbMap (frame : Nat) (w : World P) (early : Option (Update P)) (s : St P) : Option (St P) :=
  (cache w depth { emit (.path []) s with frame := frame, hasMap := true, made := none }).bind fun r =>
    match early with
    | some u => cbMapUpdate u r.1
    | none => some r.1

/-- What can happen to the node.
* `map`, `update`: messages on `costmap` and `costmap_update`;
* `located ok`: `updateStart` from `waitUntil` (1512); `switchReached`: the robot reached the switch back (1531–1546);
* `cycle now`: `planPath` from the main loop (1755); `timer now`: `cbNoMapUpdateTimer` (960–965);
* `topicGoal`: message on `move_base_simple/goal`; `baseGoal`, `tolGoal`: action goals, `late` if the goal's time stamp is older
  than a known goal's (the server then recalls it); `cancel k`: the client cancels the goal that is being processed;
* `escape`: message on `temporary_escape` (262–270); `config`: dynamic reconfigure (1395–1500). -/
inductive Event (P : Type) where
  | map (frame : Nat) (w : World P) (early : Option (Update P))
  | update (u : Update P)
  | located (ok : Bool)
  | switchReached
  | cycle (now : Int) (w : World P)
  | timer (now : Int) (w : World P)
  | topicGoal (g : GoalMsg P) (w : World P)
  | baseGoal (late : Bool) (g : GoalMsg P) (w : World P)
  | tolGoal (late : Bool) (g : GoalMsg P) (t : Tol) (w : World P)
  | cancel (k : Which)
  | escape (w : World P)
  | config (c : Cfg)

/-- One event; `none`: a null pointer is dereferenced or the recursion goes too deep. -/
def step (s : St P) : Event P → Option (St P)
  | .map f w early => cbMap f w early s
  | .update u => cbMapUpdate u s
  | .located ok => if s.hasMap && !s.cfg.trigger then some { s with hasStart := ok } else some s
  | .switchReached => some { s with switchback := false }
  | .cycle now w => if s.cfg.trigger then some s else planPath now w s
  | .timer now w => if s.timer then planPath now w s else some s
  | .topicGoal g w => cbGoal g w s
  | .baseGoal late g w =>
    let s' := { s with count := s.count + 1 }
    if late then some (emit (.answer s.count .recalled) s') else cbAction g w (receive .base s.count s')
  | .tolGoal late g t w =>
    let s' := { s with count := s.count + 1 }
    if late then some (emit (.answer s.count .recalled) s') else cbTolerantAction g t w (receive .tolerant s.count s')
  | .cancel .base => some (if s.base.active then cbPreempt s else s)
  | .cancel .tolerant => some (if s.tol.active then cbPreempt s else s)
  | .escape w => if s.hasMap then escapeNow w s else some s
  | .config c => some { s with cfg := c, timer := false, made := none }

/-- The state after construction, planner_3d.cpp 1343–1356; `p` stands for the pose of an empty message.  `status_.error` is
GOING_WELL (0) by message default; `last_costmap_` is time 0. -/
def init (c : Cfg) (p : P) : St P :=
  { cfg := c, frame := 0, hasMap := false, hasGoal := false, hasStart := false, cacheReady := false, made := none, startOccupied := false,
    switchback := false, stuck := 0, escaping := .no, goal := p, goalRaw := p, goalOriginal := p, phase := .done,
    error := .goingWell, lastCostmap := 0, timer := false, base := ⟨none, false, none⟩, tol := ⟨none, false, none⟩,
    tolGoal := none, count := 0, log := [] }

/-- A history of events. -/
def run (c : Cfg) (p : P) (h : List (Event P)) : Option (St P) := h.foldlM step (init c p)

end Verif.PlannerNode
