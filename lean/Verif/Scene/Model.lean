import Verif.PlannerNode.Model
import Verif.Guide.Model
import Verif.StartPose.Model
import Verif.SearchPos.Model
/-! # The world of the planner node, with the geometry filled in

`Verif.PlannerNode` treats everything geometry decides as a parameter (`World`).  Here these parameters are given by the models of the functions the
node calls: `planner_cspace/src/planner_3d.cpp`, `createCostEstimCache` (557–640), `makePlan` (1900–2028). -/
namespace Verif.Scene
open Verif.Model3D
open Verif.GridMetric (Cell Pose metric2Grid grid2Metric appendPath)
open Verif.DistMap (DM)
open Verif.DistMap.Grid (Pos)
open Verif.Astar.Vec (Search Why)

/-- What the node knows in one callback: the parameters of the start poses (map metadata, tolerances), of the search (`g`, `c`, `lr`:
`local_range_`), the costmap, the hysteresis map (used when `u`), the parameters of the distance map and the
robot's pose in the map frame. -/
structure Scene where
  pl : StartPose.Plan
  g : Geo
  c : Wt
  cm : Cell → Int
  u : Bool
  hy : Cell → Option Int
  lr : Int
  d : DistMap.Grid.Cfg
  robot : Path2D.Pose

/-- Poses in the map frame. -/
abbrev P := Pose ℝ

/-- The costmap, read inside the map only. -/
def known (sc : Scene) : Cell → Option Int := fun a =>
  if 0 ≤ a.x ∧ a.x < sc.g.width ∧ 0 ≤ a.y ∧ a.y < sc.g.height ∧ 0 ≤ a.yaw ∧ a.yaw < sc.g.angle then some (sc.cm a) else none

/-- `metric2Grid`, planner_3d.cpp 306–315 (1904, 575: the goal's cell). -/
noncomputable def cell (sc : Scene) (p : P) : Cell :=
  let c := metric2Grid sc.pl.info p
  ⟨c.x, c.y, cycU c.yaw sc.pl.map.angle⟩

/-- The robot's own cell, planner_3d.cpp 1903. -/
noncomputable def own (sc : Scene) : Cell := StartPose.ownCell sc.pl sc.robot

/-- The outcome of `relocateDiscretePoseIfNeeded(…, tolerance_range_, tolerance_angle_)`, planner_3d.cpp 582–583 and 586–631; a relocated pose is the centre
of the cell found (`goal_.pose = grid2MetricPose(e)`, 620). -/
noncomputable def place (sc : Scene) (a : Cell) : PlannerNode.Pos P :=
  match SearchPos.relocate sc.pl.map sc.cm sc.cm sc.pl.dist a sc.pl.tolRange sc.pl.tolAngle false with
  | (.ok, _) => .ok
  | (.relocated, b) => .moved (grid2Metric sc.pl.info b)
  | (.inRock, _) => .inRock
  | (.outOfMap, _) => .outOfMap

/-- `buildStartPoses`, planner_3d.cpp 1909 (no part of the previous path is kept). -/
noncomputable def starts (sc : Scene) (p : P) : StartPose.Status × List (Cell × ℝ) := StartPose.starts sc.pl sc.cm sc.robot (cell sc p) none

/-- The squared distance and the heading distance of a start cell from the goal, `isPathFinishing`, planner_3d.cpp 1787–1808. -/
noncomputable def apart (sc : Scene) (p : P) (a : Cell) : Int × Int :=
  let e := cell sc p
  ((a.x - e.x) * (a.x - e.x) + (a.y - e.y) * (a.y - e.y), |cycS (a.yaw - e.yaw) sc.pl.map.angle|)

/-- `range_limit`, planner_3d.cpp 1957. -/
noncomputable def rangeLimit (sc : Scene) (m : DM Pos Rat) : ℝ :=
  ((m.g ((own sc).x, (own sc).y) : Rat) : ℝ) - ((sc.lr : ℝ) + (sc.g.range : ℝ)) * sc.c.ec0

/-- The search of `makePlan`, planner_3d.cpp 1995–2000.  `leave` is `center.p_ - center.p_raw_ < cost_leave` (grid_astar.h 264).  `junk` stands for a
cost read outside the maps, `sE` for the rounded estimate of the starts, `tasks` for `num_search_task`; the queue is not limited
(`queue_size_limit`, default 0). -/
noncomputable def search (sc : Scene) (m : DM Pos Rat) (p : P) (junk : WithTop ℝ) (sE : List Int → WithTop ℝ) (tasks : Nat) : Astar.Vec.VProb (WithTop ℝ) :=
  planProb sc.g sc.c sc.u (known sc) sc.hy sc.lr ((starts sc p).2.map Prod.fst) junk (Guide.searchEstim sc.g sc.c m (cell sc p)) sE
    ((starts sc p).2.map fun x => (toVec x.1, (x.2 : WithTop ℝ))) (toVec (cell sc p))
    (fun q raw => open Classical in decide (q < raw + (rangeLimit sc m : WithTop ℝ))) tasks 0

/-- `sE` is `const int cost_estim = model->costEstim(s, e)` (grid_astar.h 219) where that is defined. -/
def Rounds (sc : Scene) (m : DM Pos Rat) (p : P) (sE : List Int → WithTop ℝ) : Prop :=
  ∀ a k, Guide.startEstim sc.g sc.c m (cell sc p) a = some k → sE (toVec a) = (((k : Int) : ℝ) : WithTop ℝ)

/-- What comes out of lines 1983–2028: whether a path was found and its poses in the map frame.  `stopped`: the progress callback stops the search
(1964–1977); `best`: `find_best_`. -/
inductive Outcome (sc : Scene) (m : DM Pos Rat) (best : Bool) (p : P) (stopped : Bool) : Bool → List P → Prop
  | same (h : ∃ x ∈ (starts sc p).2, x.1 = cell sc p) :
      Outcome sc m best p stopped true (appendPath sc.pl.info (interpolatePath sc.g [cell sc p]) [])
  | search {junk sE tasks why r} (h : ∀ x ∈ (starts sc p).2, x.1 ≠ cell sc p) (ht : 0 < tasks) (hE : Rounds sc m p sE)
      (hs : Search (search sc m p junk sE tasks) best why r) (ha : why = .aborted → stopped = true) :
      Outcome sc m best p stopped r.1 (appendPath sc.pl.info (interpolatePath sc.g (r.2.map ofVec)) [])

/-- The world of the planner node is that of the scene; `m o` is the distance map when it was made for the goal `o`.  `crowd`: `updateTemporaryEscapeGoal` returns to the original goal
only if `cm_[g_orig] < 100` (planner_3d.cpp 2233). -/
structure Shows (sc : Scene) (m : Option P → DM Pos Rat) (best : Bool) (stopped : Option P → P → Bool) (w : PlannerNode.World P) : Prop where
  start : w.start = place sc (own sc)
  goal : ∀ p, w.goal p = place sc (cell sc p)
  starts : ∀ p, w.starts p = if (starts sc p).1 = .occupied then none else some ((starts sc p).2.map fun x => apart sc p x.1)
  unreachable : ∀ o p b, Guide.goalUnreachable (m o) (known sc) (own sc) (cell sc p) = some b → w.unreachable o p = b
  crowd : ∀ c p, w.crowd c p = .original → sc.cm (cell sc p) < 100
  search : ∀ o p, w.starts p ≠ none → Outcome sc (m o) best p (stopped o p) (w.found o p) (w.poses o p)

end Verif.Scene
