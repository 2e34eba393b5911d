import Verif.GridMetric.Model
import Mathlib.Analysis.SpecialFunctions.Trigonometric.Basic
import Mathlib.Analysis.SpecialFunctions.Complex.Arg
/-! # When the 3-DOF planner plans again

`planner_cspace/src/planner_3d.cpp`: `waitUntil` 1501–1555, the main loop `spin` 1734–1767 (in the mode that does not plan on
costmap updates, lines 1751–1765), the bookkeeping of switch backs in `planPath` (1593–1609, 1688–1696), `getSwitchIndex`
2331–2363, and the waiting time set in `cbParameter` 1487–1495.

Exact real arithmetic; poses are planar (`tf2::getYaw` is the heading).  What arrives from outside in one turn of the waiting
loop is an arbitrary `Obs`, what a planning cycle produces an arbitrary `Cycle`. -/
set_option linter.unusedVariables false
namespace Verif.Replan
open Verif.GridMetric (Pose)

/-- The parameters `freq`, `sw_wait`, `keep_a_part_of_previous_path`, `goal_tolerance_lin`, `goal_tolerance_ang`. -/
structure Cfg where
  freq : ℝ
  swWait : ℝ
  keep : Bool
  tolLin : ℝ
  tolAng : ℝ

/-- `sw_wait_`, planner_3d.cpp 1487–1495. -/
noncomputable def Cfg.wait (c : Cfg) : ℝ := if c.keep then 1 / c.freq else c.swWait

/-- planner_3d.cpp 2342–2345: the pose is reached from the one before by a motion of more than 1 mm. -/
def moved (p q : Pose ℝ) : Prop := (q.y - p.y) ^ 2 + (q.x - p.x) ^ 2 > (1 / 1000) ^ 2

/-- planner_3d.cpp 2348: the motion is against the heading of its end. -/
noncomputable def backward (p q : Pose ℝ) : Prop := Real.cos q.yaw * (q.x - p.x) + Real.sin q.yaw * (q.y - p.y) < 0

open Classical in
/-- The loop of `getSwitchIndex`, planner_3d.cpp 2337–2360: `prev` is `p_prev`, `dir` holds `dir_prev` if `dir_set`, `i` is the
position of the iterator. -/
noncomputable def switchFrom (prev : Pose ℝ) (dir : Option Bool) (i : Nat) : List (Pose ℝ) → Option Nat
  | [] => none
  | p :: ps =>
    if moved prev p then
      match dir with
      | some d => if d != decide (backward prev p) then some i else switchFrom p (some (decide (backward prev p))) (i + 1) ps
      | none => switchFrom p (some (decide (backward prev p))) (i + 1) ps
    else switchFrom p dir (i + 1) ps

/-- `getSwitchIndex`, planner_3d.cpp 2331–2363; -1 is `none`. -/
noncomputable def getSwitchIndex : List (Pose ℝ) → Option Nat
  | [] => none
  | p :: ps => switchFrom p none 1 ps

/-- `is_path_switchback_`, `sw_pos_`, `previous_path_`. -/
structure Node where
  isSw : Bool
  swPos : Pose ℝ
  prev : List (Pose ℝ)

/-- One turn of the waiting loop: what the callbacks, the transform buffer and the clock give.
* `hasMap`: `has_map_`;
* `updated`: the stamp of the costmap changed (1505–1507);
* `path`: `previous_path_` if a callback replaced it (e.g. by an empty one);
* `jump`: result of `detectJump` (1513);
* `lethal p`: the costmap cell of pose `p` is 100 (1524);
* `start`: the pose of the robot (1511);
* `now`: the clock at line 1549. -/
structure Obs where
  hasMap : Bool
  updated : Bool
  path : Option (List (Pose ℝ))
  jump : Bool
  lethal : Pose ℝ → Bool
  start : Pose ℝ
  now : ℝ

/-- Why the waiting loop ended. -/
inductive Reason where
  | jump | obstacle | arrived | time
deriving DecidableEq

/-- planner_3d.cpp 1534–1541. -/
noncomputable def arrivedAt (c : Cfg) (s w : Pose ℝ) : Prop :=
  Real.sqrt ((s.y - w.y) ^ 2 + (s.x - w.x) ^ 2) < c.tolLin ∧
    |Complex.arg ⟨Real.cos (s.yaw - w.yaw), Real.sin (s.yaw - w.yaw)⟩| < c.tolAng

open Classical in
/-- One turn of the loop, planner_3d.cpp 1505–1553; `none`: the loop goes on. -/
noncomputable def turn (c : Cfg) (next : ℝ) (n : Node) (o : Obs) : Node × Option Reason :=
  let n := { n with prev := o.path.getD n.prev }
  if o.hasMap ∧ o.jump then (n, some .jump)
  else if o.hasMap ∧ o.updated ∧ n.prev.length > 1 ∧ (n.prev.any o.lethal) then (n, some .obstacle)
  else if o.hasMap ∧ n.isSw ∧ arrivedAt c o.start n.swPos then ({ n with isSw := false }, some .arrived)
  else if o.now > next then (n, some .time)
  else (n, none)

/-- What a planning cycle does (`planPath`).
* `now`: its time (1754);
* `active`: there is a map, a goal, a pose and a recent costmap (1593);
* `planned`: the search is run (1688; not if the planner is finishing, gives up or has no cost estimate);
* `path`: the path it gives (empty if nothing is found);
* `shown`: the last path published in the cycle. -/
structure Cycle where
  now : ℝ
  active : Bool
  planned : Bool
  path : List (Pose ℝ)
  shown : List (Pose ℝ)

/-- The switch back after a cycle, planner_3d.cpp 1609, 1690–1696. -/
noncomputable def plan (c : Cfg) (n : Node) (y : Cycle) : Node :=
  let n := { n with prev := y.shown }
  if y.active then
    if y.planned ∧ c.wait > 0 ∧ c.keep = false then
      match getSwitchIndex y.path with
      | some i => { n with isSw := true, swPos := y.path.getD i n.swPos }
      | none => { n with isSw := false }
    else { n with isSw := false }
  else n

/-- The main loop: `next_replan_time`, the node, and the cycles so far with their reasons. -/
structure St where
  next : ℝ
  node : Node
  log : List (Reason × ℝ)

/-- planner_3d.cpp 1756–1764. -/
noncomputable def period (c : Cfg) (n : Node) : ℝ := if n.isSw then c.wait else 1 / c.freq

/-- One turn of the waiting loop, and the cycle and the new deadline if it ends, planner_3d.cpp 1753–1764. -/
noncomputable def step (c : Cfg) (s : St) (o : Obs) (y : Cycle) : St :=
  match turn c s.next s.node o with
  | (n, none) => { s with node := n }
  | (n, some r) =>
    let n' := plan c n y
    { next := y.now + period c n', node := n', log := s.log ++ [(r, y.now)] }

/-- planner_3d.cpp 1738, 1353. -/
def init (t : ℝ) (w : Pose ℝ) : St := ⟨t, ⟨false, w, []⟩, []⟩

/-- The node after a history; each element is a turn of the loop with the cycle that takes place if the loop ends. -/
noncomputable def run (c : Cfg) (t : ℝ) (w : Pose ℝ) (h : List (Obs × Cycle)) : St :=
  h.foldl (fun s e => step c s e.1 e.2) (init t w)

end Verif.Replan
