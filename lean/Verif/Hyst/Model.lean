import Verif.Model3D.Model
import Verif.Polygon.Model
import Verif.CSpace.Model
/-! # The hysteresis map of the 3-DOF planner

`planner_cspace/src/planner_3d.cpp` 579–581, 654–661, 839–896, 1034, 1076–1078, 2030–2084, and the distance functions of
`cyclic_vec.h`.

`float`/`double` are real numbers.  `std::numeric_limits<float>::max()`, the distance of a cell that no part of the path
passes with its heading, is `none`. -/
set_option linter.unusedVariables false
namespace Verif.Hyst
open Verif.GridMetric (Cell Pose)
open Verif.CSpace (lround trunc)
open Verif.Model3D (cycU upTo)
open Verif.Polygon (distLinestrip)

/-- The size of the map and its resolution, `map_info_`. -/
structure Map where
  width : Int
  height : Int
  angle : Int
  res : ℝ

/-- The parameters `cc_.hysteresis_max_dist_`, `cc_.hysteresis_expand_` and `range_`; they can change between two plans
(planner_3d.cpp 1419–1420). -/
structure Cfg where
  maxDist : ℝ
  expand : ℝ
  range : Int

/-- `map_info_`, `cm_hyst_`, `hyst_updated_cells_`, `has_hysteresis_map_`. -/
structure St where
  map : Map
  hyst : Cell → Int
  updated : List Cell
  has : Bool

/-- planner_3d.cpp 2034–2036. -/
noncomputable def maxCells (m : Map) (c : Cfg) : ℝ := c.maxDist / m.res
noncomputable def expandCells (m : Map) (c : Cfg) : ℝ := c.expand / m.res
noncomputable def pathRange (m : Map) (c : Cfg) : Int := trunc ((c.range : ℝ) + maxCells m c + expandCells m c + 5)

/-- planner_3d.cpp 2046–2047.  A negative coordinate is a huge one after the conversion to `unsigned`. -/
def inside (m : Map) (p : Cell) : Bool := decide (0 ≤ p.x ∧ p.x < m.width ∧ 0 ≤ p.y ∧ p.y < m.height)

/-- planner_3d.cpp 2044–2045: `p + d` rounds the point of the path and then adds (`operator+`, cyclic_vec.h 170–179,
conversion 60–63). -/
noncomputable def around (m : Map) (p : Pose ℝ) (dx dy : Int) : Cell :=
  ⟨lround p.x + dx, lround p.y + dy, cycU (lround p.yaw) m.angle⟩

/-- planner_3d.cpp 2037–2052: the keys of `path_points`. -/
noncomputable def pathPoints (m : Map) (c : Cfg) (path : List (Pose ℝ)) : List Cell :=
  path.flatMap fun p => (upTo (-pathRange m c) (pathRange m c)).flatMap fun dx =>
    ((upTo (-pathRange m c) (pathRange m c)).map fun dy => around m p dx dy).filter (inside m)

/-- planner_3d.cpp 2064–2069. -/
noncomputable def heading (m : Map) (p : Pose ℝ) : Int := cycU (lround p.yaw) m.angle

/-- `distLinestrip2d`, cyclic_vec.h 204–224 with 240–252: the same formulas as in polygon.h, on the first two elements. -/
noncomputable def distTo (p : Cell) (a b : Pose ℝ) : ℝ := distLinestrip ((p.x : ℝ), (p.y : ℝ)) (a.x, a.y) (b.x, b.y)

/-- planner_3d.cpp 2070–2076: one part of the path. -/
noncomputable def visit (m : Map) (p : Cell) (acc : Option ℝ) (a b : Pose ℝ) : Option ℝ :=
  if heading m b = p.yaw ∨ heading m a = p.yaw then
    match acc with
    | none => some (distTo p a b)
    | some d => if distTo p a b < d then some (distTo p a b) else some d
  else acc

/-- planner_3d.cpp 2058–2079: `d_min`. -/
noncomputable def dMin (m : Map) (p : Cell) : Option ℝ → List (Pose ℝ) → Option ℝ
  | acc, a :: b :: rest => dMin m p (visit m p acc a b) (b :: rest)
  | acc, _ => acc

/-- planner_3d.cpp 2080. -/
noncomputable def clampD (m : Map) (c : Cfg) : Option ℝ → ℝ
  | none => max (expandCells m c) (expandCells m c + maxCells m c)
  | some d => max (expandCells m c) (min (expandCells m c + maxCells m c) d)

/-- planner_3d.cpp 2081. -/
noncomputable def cellCost (m : Map) (c : Cfg) (path : List (Pose ℝ)) (p : Cell) : Int :=
  lround ((clampD m c (dMin m p none path) - expandCells m c) * 100 / maxCells m c)

/-- Assignment of one cell. -/
def put (f : Cell → Int) (p : Cell) (v : Int) : Cell → Int := fun q => if q = p then v else f q

/-- `clearHysteresis`, planner_3d.cpp 654–661. -/
def clearHysteresis (s : St) : St :=
  { s with hyst := s.updated.foldl (fun f p => put f p 100) s.hyst, updated := [] }

/-- planner_3d.cpp 2054–2084; `keys` are the keys of `path_points` in the order of the hash table. -/
noncomputable def rebuild (s : St) (c : Cfg) (path : List (Pose ℝ)) (keys : List Cell) : St :=
  { map := s.map
    hyst := keys.foldl (fun f p => put f p (cellCost s.map c path p)) (clearHysteresis s).hyst
    updated := (clearHysteresis s).updated ++ keys
    has := true }

/-- planner_3d.cpp 839, 856–857, 891–896; `blocked` are the cells which the update reports with cost 100. -/
def onUpdate (s : St) (blocked : List Cell) : St :=
  if (blocked.any fun p => s.hyst p == 0) && s.has then { clearHysteresis s with has := false } else s

/-- planner_3d.cpp 579–580: a new goal. -/
def onGoal (s : St) : St := { clearHysteresis s with has := false }

/-- planner_3d.cpp 1034, 1076–1078: a new map. -/
def onMap (m : Map) : St := { map := m, hyst := fun _ => 100, updated := [], has := false }

/-- What happens to the planner. `plan` is a search that found a path; `path` is the interpolated path. -/
inductive Ev where
  | map (m : Map)
  | goal
  | update (blocked : List Cell)
  | plan (c : Cfg) (path : List (Pose ℝ))

/-- One event.  The order of the keys of the hash table is arbitrary (a key can be written once only, so a list with
repetitions describes no more maps).  A plan with `hysteresis_max_dist` zero divides zero by zero and
converts the NaN to an integer: no outcome is described then. -/
inductive Step : St → Ev → St → Prop
  | map (s : St) (m : Map) : Step s (.map m) (onMap m)
  | goal (s : St) : Step s .goal (onGoal s)
  | update (s : St) (b : List Cell) : Step s (.update b) (onUpdate s b)
  | plan (s : St) (c : Cfg) (path : List (Pose ℝ)) (keys : List Cell)
      (hz : maxCells s.map c ≠ 0) (hk : ∀ p, p ∈ keys ↔ p ∈ pathPoints s.map c path) :
      Step s (.plan c path) (rebuild s c path keys)

/-- The planner after a history of events that starts with the reception of a map. -/
inductive Run (m : Map) : List Ev → St → Prop
  | init : Run m [] (onMap m)
  | step {es : List Ev} {s t : St} {e : Ev} : Run m es s → Step s e t → Run m (es ++ [e]) t

/-- planner_3d.cpp 1982: the search adds the costs of the map only if this holds. -/
def used (s : St) : Bool := s.has

end Verif.Hyst
