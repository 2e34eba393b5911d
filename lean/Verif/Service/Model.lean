import Verif.SearchPos.Model
import Verif.Model3D.Plan
import Verif.GridMetric.Model
/-! # The `make_plan` service of the 3-DOF planner

`planner_cspace/src/planner_3d.cpp`: `cbMakePlan` 336–430, with `relocateDiscretePoseIfNeeded` (`Verif.SearchPos`),
`GridAstarModel2D` of `planner_cspace/src/grid_astar_model_3dof.cpp` 346–384 (`Verif.Model3D.cost2D`, `costEstim2D`,
`searchListRough`), the search (`Verif.Astar`, any schedule of its threads), `interpolatePath` and
`appendGridPath2MetricPath`.

Exact real arithmetic; frames are numbers; the response's header and time stamp are not modelled. -/
set_option linter.unusedVariables false
namespace Verif.Service
open Verif.GridMetric (Cell Pose Info metric2GridC appendPath)
open Verif.CSpace (lround)
open Verif.Model3D (Geo Wt cost2D costEstim2D searchListRough interpolatePath euclidCost toVec ofVec encode)
open Verif.Astar.Vec (VProb Search Why)

/-- The members of the node that the service uses: `has_map_`, `map_header_.frame_id`, the map's geometry with `range_` and the
sampling steps, the cost weights, the map's origin, `relocation_acceptable_cost_`, `tolerance_angle_`, the costmaps `cm_` (with
headings) and `cm_rough_` (without, read at heading 0), the numbers of the search and `find_best_`. -/
structure Node where
  hasMap : Bool
  frame : Nat
  geo : Geo
  wt : Wt
  ox : ℝ
  oy : ℝ
  acceptable : Int
  tolAngle : Int
  cm : Cell → Int
  rough : Cell → Int
  tasks : Nat
  limit : Nat
  findBest : Bool

/-- `map_info_`. -/
noncomputable def Node.info (n : Node) : Info ℝ := ⟨n.geo.res, n.geo.ares, n.ox, n.oy, n.geo.angle⟩

/-- The sizes seen by the relocation. -/
def Node.map (n : Node) : SearchPos.Map := ⟨n.geo.width, n.geo.height, n.geo.angle, n.geo.range, n.acceptable⟩

/-- `nav_msgs::GetPlan::Request`. -/
structure Request where
  startFrame : Nat
  goalFrame : Nat
  start : Pose ℝ
  goal : Pose ℝ
  tolerance : ℝ

/-- What happens before the search: the request is refused, the behaviour is undefined (a map with no headings), or the
search runs between two cells. -/
inductive Prep where
  | refused
  | undefined
  | ready (s e : Cell)
  deriving DecidableEq

/-- planner_3d.cpp 339–389. -/
noncomputable def prepare (n : Node) (q : Request) : Prep :=
  if n.hasMap = false then .refused
  else if q.startFrame ≠ n.frame ∨ q.goalFrame ≠ n.frame then .refused
  else
    match metric2GridC n.info q.start, metric2GridC n.info q.goal with
    | some s, some e =>
      let range := lround (q.tolerance / n.geo.res)
      let rs := SearchPos.relocate n.map n.cm n.rough (euclidCost n.geo n.wt) s range n.tolAngle true
      let re := SearchPos.relocate n.map n.cm n.rough (euclidCost n.geo n.wt) e range n.tolAngle true
      if rs.1 = .outOfMap ∨ rs.1 = .inRock then .refused
      else if re.1 = .outOfMap ∨ re.1 = .inRock then .refused
      else .ready rs.2 re.2
    | _, _ => .undefined

/-- Reading `cm_rough_`, a grid of one heading; `none` is a read outside of it. -/
def roughAt (n : Node) (p : Cell) : Option Int :=
  if 0 ≤ p.x ∧ p.x < n.geo.width ∧ 0 ≤ p.y ∧ p.y < n.geo.height ∧ p.yaw = 0 then some (n.rough p) else none

/-- `as_.search(starts, e, path_grid, model_2d, …, 0, …)`, planner_3d.cpp 398–407, grid_astar.h 169–193: the search over the
grid of `as_` (planner_3d.cpp 1032) with the moves, costs and estimates of `GridAstarModel2D`; it also leaves at a cell whose estimate is
negative.  The estimate of a start is stored in an `int` (grid_astar.h 219; it is not negative).  `junk` is what an undefined evaluation of a cost gives. -/
noncomputable def problem (n : Node) (junk : WithTop ℝ) (s e : Cell) : VProb (WithTop ℝ) where
  nonc := 2
  size := [n.geo.width, n.geo.height, n.geo.angle]
  grids := fun _ => (searchListRough n.geo).map toVec
  estim := fun v => ((costEstim2D n.wt (ofVec v) e : ℝ) : WithTop ℝ)
  cost := fun a b => encode junk (cost2D n.geo n.wt (roughAt n) (ofVec a) (ofVec b))
  startEstim := fun v => (((⌊costEstim2D n.wt (ofVec v) e⌋ : Int) : ℝ) : WithTop ℝ)
  starts := [(toVec s, 0)]
  goal := toVec e
  leave := fun pr raw => decide (pr < raw)
  tasks := n.tasks
  limit := n.limit

/-- The possible results of a call, planner_3d.cpp 336–430; `none` is `return false`.  The progress callback never stops the
search (391–394), so it is not aborted. -/
inductive Answer (n : Node) (q : Request) : Option (List (Pose ℝ)) → Prop
  | refused (h : prepare n q = .refused) : Answer n q none
  | failed {s e : Cell} {junk : WithTop ℝ} {why : Why} {path : List (List Int)} (h : prepare n q = .ready s e)
      (hw : why ≠ .aborted) (hs : Search (problem n junk s e) n.findBest why (false, path)) : Answer n q none
  | planned {s e : Cell} {junk : WithTop ℝ} {why : Why} {path : List (List Int)} (h : prepare n q = .ready s e)
      (hw : why ≠ .aborted) (hs : Search (problem n junk s e) n.findBest why (true, path)) :
      Answer n q (some (appendPath n.info (interpolatePath n.geo (path.map ofVec)) []))

end Verif.Service
