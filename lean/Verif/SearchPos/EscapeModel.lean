import Verif.SearchPos.Model
import Mathlib.Analysis.SpecialFunctions.Complex.Arg
/-! # Temporary escape goals of the 3-DOF planner

`planner_cspace/src/planner_3d.cpp`: `updateTemporaryEscapeGoal`, choice of the temporary goal.

`float` values are real numbers; `numeric_limits<float>::max()` ("not reached") is `none`.  The distance maps
(`cost_estim_cache_static_`, `arrivable_map_`) are functions of the cell: their content is the subject of `Verif.DistMap`. -/
namespace Verif.SearchPos
open Verif.GridMetric (Cell)
open Verif.Model3D (upTo sqlen cycU)
open Verif.CSpace (trunc)

/-- Members used by `updateTemporaryEscapeGoal`: map, `esc_range_`, `esc_range_min_`, `esc_angle_`,
`map_info_.angular_resolution`. -/
structure Esc extends Map where
  escRange : Int
  escMin : Int
  escAngle : Int
  ares : ℝ

/-- The branch without crowd mode, planner_3d.cpp:2115–2123: `te` is default constructed, i.e. (0, 0, 0); the robot's cell is not
used. -/
noncomputable def simpleEscape (e : Esc) (cm : Cell → Int) (dist : Cell → ℝ) (_start : Cell) : Option Cell :=
  searchAvailablePos e.toMap cm dist ⟨0, 0, 0⟩ e.escRange e.escAngle e.acceptable e.escMin

/-- What the loop looks at. -/
structure World where
  /-- `cm_` -/
  cm : Cell → Int
  /-- `cm_rough_` -/
  rough : Int → Int → Int
  /-- `arrivable_map_[te - local_origin] != max` -/
  arrivable : Int → Int → Prop
  /-- `cost_estim_cache_static_` -/
  stat : Int → Int → Option ℝ

/-- The eight neighbours in loop order, planner_3d.cpp:2260–2267. -/
def ring : List (Int × Int) :=
  [(-1, -1), (0, -1), (1, -1), (-1, 0), (1, 0), (-1, 1), (0, 1), (1, 1)]

/-- One neighbour's contribution, planner_3d.cpp:2269–2277. -/
noncomputable def gradStep (w : World) (x y : Int) (cost : ℝ) (g : ℝ × ℝ) (d : Int × Int) : ℝ × ℝ :=
  match w.stat (x + d.1) (y + d.2) with
  | none => g
  | some c2 => (g.1 + -(c2 - cost) * (d.1 : ℝ), g.2 + -(c2 - cost) * (d.2 : ℝ))

/-- Gradient of the static distance map, planner_3d.cpp:2258–2279. -/
noncomputable def grad (w : World) (x y : Int) (cost : ℝ) : ℝ × ℝ := ring.foldl (gradStep w x y cost) (0, 0)

/-- Heading of the temporary goal, planner_3d.cpp:2284–2287 (`atan2(grad[1], grad[0])` is the argument of
`grad[0] + i grad[1]`). -/
noncomputable def heading (e : Esc) (g : ℝ × ℝ) : Int := cycU (trunc (Complex.arg ⟨g.1, g.2⟩ / e.ares)) e.angle

/-- State of the search loop: it returned because the original goal is reachable, or the best cell so far. -/
inductive Loop where
  | backToOriginal
  | best (b : Option (ℝ × Cell))

open Classical in
/-- The part of the loop body after the arrivability checks, planner_3d.cpp:2243–2298, for a cell `(x, y)` at squared distance
`sq`. -/
noncomputable def consider (e : Esc) (w : World) (sq x y : Int) (centre : Bool) (b : Option (ℝ × Cell)) :
    Option (ℝ × Cell) :=
  if centre = true ∨ sq < e.escMin * e.escMin then b
  else if w.rough x y ≥ e.acceptable then b
  else match w.stat x y with
  | none => b
  | some cost =>
    if (∃ b0, b = some b0 ∧ cost ≥ b0.1) then b
    else
      let g := grad w x y cost
      if g.1 = 0 ∧ g.2 = 0 then b
      else if w.cm ⟨x, y, heading e g⟩ ≥ e.acceptable then b
      else some (cost, ⟨x, y, heading e g⟩)

open Classical in
/-- Loop body, planner_3d.cpp:2209–2298. -/
noncomputable def crowdStep (e : Esc) (w : World) (start gOrig : Cell) : Loop → Int × Int → Loop
  | .backToOriginal, _ => .backToOriginal
  | .best b, d =>
    let sq := d.1 * d.1 + d.2 * d.2
    if sq > e.escRange * e.escRange then .best b
    else
      let x := start.x + d.1
      let y := start.y + d.2
      if x < 0 ∨ e.width ≤ x ∨ y < 0 ∨ e.height ≤ y then .best b
      else if Gridmap.validateLoop e.range 2 [x, y, 0] [e.width, e.height, 1] = false then .best b
      else if ¬ w.arrivable x y then .best b
      else if x = gOrig.x ∧ y = gOrig.y ∧ w.cm gOrig < 100 then .backToOriginal
      else .best (consider e w sq x y (d.1 = 0 ∧ d.2 = 0) b)

/-- The offsets in loop order, planner_3d.cpp:2205–2207. -/
def crowdOffsets (R : Int) : List (Int × Int) :=
  (upTo (-R) R).flatMap fun dy => (upTo (-R) R).map fun dx => (dx, dy)

/-- Outcome of the crowd branch. -/
inductive Outcome where
  /-- `validate(s, esc_range_)` failed (2141–2145) -/
  | tooCloseToEdge
  /-- back to the original goal (2233–2241) -/
  | original
  /-- no valid temporary goal (2300–2304) -/
  | nothing
  /-- temporary goal, and whether it improves on the robot's cell (2306–2319, without the check of `isPathFinishing`) -/
  | goal (te : Cell) (improves : Prop)

/-- The crowd branch, planner_3d.cpp:2138–2319. -/
noncomputable def crowdEscape (e : Esc) (w : World) (start gOrig : Cell) : Outcome :=
  if Gridmap.validateLoop e.escRange 2 [start.x, start.y, 0] [e.width, e.height, e.angle] = false then .tooCloseToEdge
  else match (crowdOffsets e.escRange).foldl (crowdStep e w start gOrig) (.best none) with
    | .backToOriginal => .original
    | .best none => .nothing
    | .best (some (cost, te)) => .goal te (∀ c0, w.stat start.x start.y = some c0 → cost < c0)

/-- Columns of `cm_rough_` copied into the local map, planner_3d.cpp:2178–2197: `local_origin` is `s - esc_range_` and the last
copied column is `local_origin + local_width` with `local_width = 2 * esc_range_ + 1`. -/
def copiedColumns (e : Esc) (start : Cell) : List Int :=
  upTo (start.x - e.escRange) (start.x - e.escRange + (e.escRange * 2 + 1))

end Verif.SearchPos
