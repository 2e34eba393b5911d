import Verif.Model3D.Plan
import Verif.DistMap.Grid
import Verif.DistMap.Model
/-! # How the planner uses the estimate of the distance map

The part of `makePlan` (`planner_3d.cpp`) between the start poses and the search, and the estimate handed to the search. -/
set_option linter.unusedVariables false
namespace Verif.Guide
open Verif.Model3D
open Verif.GridMetric (Cell)
open Verif.DistMap (DM)
open Verif.DistMap.Grid (Pos)
open Verif.Astar (CostType)

/-- planner_3d.cpp 1941–1945: `initial_2dof_cost` is the estimate at the robot's own cell, whatever the start poses are; the goal is
"unreachable" when it is the largest value or the goal's cell is lethal.  `none` when the goal is outside the map. -/
def goalUnreachable (m : DM Pos Rat) (cm : Cell → Option Int) (own goal : Cell) : Option Bool :=
  if m.g (own.x, own.y) = CostType.top then some true else (cm goal).map fun v => decide (100 ≤ v)

/-- What the search reads from the distance map, grid_astar_model_3dof.cpp 305–310. -/
def estimOf (m : DM Pos Rat) (c : Cell) : Option ℝ :=
  if m.g (c.x, c.y) = CostType.top then none else some ((m.g (c.x, c.y) : Rat) : ℝ)

/-- `model->costEstim(next, e)`, grid_astar.h 331: the largest value where the distance map has it. -/
noncomputable def searchEstim (g : Geo) (c : Wt) (m : DM Pos Rat) (goal : Cell) (v : List Int) : WithTop ℝ :=
  match costEstim g c (estimOf m) (ofVec v) goal with
  | none => ⊤
  | some e => (e : WithTop ℝ)

/-- `const int cost_estim = model->costEstim(s, e)`, grid_astar.h 219: the conversion of a value that does not fit into `int` is undefined
(`none`); `numeric_limits<float>::max()` does not fit. -/
noncomputable def startEstim (g : Geo) (c : Wt) (m : DM Pos Rat) (goal s : Cell) : Option Int :=
  match costEstim g c (estimOf m) s goal with
  | none => none
  | some e => if -2147483649 < e ∧ e < 2147483648 then some (if 0 ≤ e then ⌊e⌋ else ⌈e⌉) else none

end Verif.Guide
