import Verif.Model3D.Model
import Verif.Gridmap.Model
/-! # Relocation of start and goal poses in the 3-DOF planner

`planner_cspace/src/planner_3d.cpp`: `searchAvailablePos`, `relocateDiscretePoseIfNeeded`.

`int` values are `Int` (no overflow).  A costmap is a function on cells; it is only read at cells that passed `validate`, where
reading is defined (property C02).  `model_->euclidCost` is a parameter `dist` (in the node: `Verif.Model3D.euclidCost`);
all its values are below `numeric_limits<float>::max()`, the initial value of `range_min`, so "nothing found yet" is `none`. -/
namespace Verif.SearchPos
open Verif.GridMetric (Cell)
open Verif.Model3D (upTo sqlen cycU)

/-- `map_info_.width/height/angle`, `range_` and `relocation_acceptable_cost_` (planner_3d.cpp:146–190). -/
structure Map where
  width : Int
  height : Int
  angle : Int
  range : Int
  acceptable : Int

/-- The offsets in loop order, planner_3d.cpp:510–516. -/
def offsets (xyRange angleRange : Int) : List Cell :=
  (upTo (-angleRange) angleRange).flatMap fun a =>
    (upTo (-xyRange) xyRange).flatMap fun x =>
      (upTo (-xyRange) xyRange).map fun y => ⟨x, y, a⟩

/-- `s2 = s + d; s2.cycleUnsigned(map_info_.angle)`, planner_3d.cpp:523 and 527. -/
def shift (m : Map) (s d : Cell) : Cell := ⟨s.x + d.x, s.y + d.y, cycU (s.yaw + d.yaw) m.angle⟩

/-- The tests of planner_3d.cpp:518–532: is the offset taken into account?  The `unsigned` comparisons reject negative
indices as well. -/
def taken (m : Map) (cm : Cell → Int) (s : Cell) (xyRange minXy acceptable : Int) (d : Cell) : Bool :=
  if d.x = 0 ∧ d.y = 0 ∧ d.yaw = 0 then false
  else if sqlen d > xyRange * xyRange then false
  else if sqlen d < minXy * minXy then false
  else
    let s2 := shift m s d
    if s2.x < 0 ∨ m.width ≤ s2.x ∨ s2.y < 0 ∨ m.height ≤ s2.y then false
    else if Gridmap.validateLoop m.range 2 [s2.x, s2.y, s2.yaw] [m.width, m.height, m.angle] = false then false
    else if cm s2 ≥ acceptable then false
    else true

/-- One iteration, planner_3d.cpp:516–538: `(range_min, s_out)`. -/
noncomputable def visit (m : Map) (cm : Cell → Int) (dist : Cell → ℝ) (s : Cell) (xyRange minXy acceptable : Int)
    (best : Option (ℝ × Cell)) (d : Cell) : Option (ℝ × Cell) :=
  if taken m cm s xyRange minXy acceptable d then
    match best with
    | none => some (dist d, shift m s d)
    | some (rangeMin, sOut) => if dist d < rangeMin then some (dist d, shift m s d) else some (rangeMin, sOut)
  else best

/-- The nested loops, planner_3d.cpp:507–541. -/
noncomputable def scan (m : Map) (cm : Cell → Int) (dist : Cell → ℝ) (s : Cell) (xyRange angleRange minXy acceptable : Int) :
    Option Cell :=
  ((offsets xyRange angleRange).foldl (visit m cm dist s xyRange minXy acceptable) none).map Prod.snd

/-- `searchAvailablePos`, planner_3d.cpp:497–555.  `cm` is the member `cm_`: the costmap argument of the function is not used.
`none` is `return false` (the pose is left unchanged); the recursive call of line 547 passes no `min_xy_range`. -/
noncomputable def searchAvailablePos (m : Map) (cm : Cell → Int) (dist : Cell → ℝ) (s : Cell) (xyRange angleRange : Int)
    (costAcceptable : Int := -1) (minXy : Int := 0) : Option Cell :=
  let acc := if costAcceptable = -1 then m.acceptable else costAcceptable
  match scan m cm dist s xyRange angleRange minXy acc with
  | some out => some ⟨out.x, out.y, cycU out.yaw m.angle⟩
  | none =>
    if acc ≠ 100 then
      (scan m cm dist s xyRange angleRange 0 100).map fun out => ⟨out.x, out.y, cycU out.yaw m.angle⟩
    else none

/-- `DiscretePoseStatus`, pose_status.h. -/
inductive Status where
  | ok | relocated | inRock | outOfMap
  deriving DecidableEq, Repr

/-- `relocateDiscretePoseIfNeededImpl`, planner_3d.cpp:271–289: `own` is the map given as argument, `cm` the member `cm_`
that the search reads. -/
noncomputable def relocateImpl (m : Map) (own cm : Cell → Int) (dist : Cell → ℝ) (tolRange tolAngle : Int) (s : Cell) :
    Status × Cell :=
  if Gridmap.validateLoop m.range 2 [s.x, s.y, s.yaw] [m.width, m.height, m.angle] = false then (.outOfMap, s)
  else if own s = 100 then
    match searchAvailablePos m cm dist s tolRange tolAngle with
    | some s' => (.relocated, s')
    | none => (.inRock, s)
  else (.ok, s)

/-- `relocateDiscretePoseIfNeeded`, planner_3d.cpp:290–304. -/
noncomputable def relocate (m : Map) (cm rough : Cell → Int) (dist : Cell → ℝ) (s : Cell) (tolRange tolAngle : Int)
    (useRough : Bool) : Status × Cell :=
  if useRough then relocateImpl m rough cm dist tolRange tolAngle ⟨s.x, s.y, 0⟩
  else relocateImpl m cm cm dist tolRange tolAngle s

end Verif.SearchPos
