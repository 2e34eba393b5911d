import Mathlib.Algebra.Order.Field.Basic
import Mathlib.Analysis.SpecialFunctions.Sqrt
import Mathlib.Analysis.SpecialFunctions.Trigonometric.Basic
/-! # Footprint polygons

`costmap_cspace/include/costmap_cspace/polygon.h` and the identical nested classes of
`safety_limiter/src/safety_limiter.cpp` (605–706).  `float` is modelled by an arbitrary ordered field `K` (exact
arithmetic); the functions that need `hypot` use the real numbers. -/
namespace Verif.Polygon

/-- `Vec`, polygon.h 44–58 (safety_limiter.cpp 605–627). -/
abbrev Pt (K : Type) := K × K

section
variable {K : Type} [Field K] [LinearOrder K]

/-- polygon.h 101–121: at least three vertices are required; the first vertex is appended to close the polygon.
`none` is the `std::runtime_error`.  (safety_limiter.cpp 226–250 does the same.) -/
def close : List (Pt K) → List (Pt K)
  | [] => []
  | p :: ps => (p :: ps) ++ [p]

def ofParam (pts : List (Pt K)) : Option (List (Pt K)) :=
  if pts.length < 3 then none else some (close pts)

/-- polygon.h 170–171 (safety_limiter.cpp 682–683): the edge crosses the height of the point. -/
def straddles (a v1 v2 : Pt K) : Bool :=
  (decide (v1.2 ≤ a.2) && decide (a.2 < v2.2)) || (decide (v2.2 ≤ a.2) && decide (a.2 < v1.2))

/-- polygon.h 174 (safety_limiter.cpp 686). -/
def lx (a v1 v2 : Pt K) : K := v1.1 + (v2.1 - v1.1) * (a.2 - v1.2) / (v2.2 - v1.2)

/-- polygon.h 166–178 (safety_limiter.cpp 678–690): the loop over consecutive vertices counting the crossings.
The vector always holds the first vertex twice, so `v.size() - 1` does not underflow. -/
def crossings (a : Pt K) : List (Pt K) → Nat
  | v1 :: v2 :: vs => (if straddles a v1 v2 then if a.1 < lx a v1 v2 then 1 else 0 else 0) + crossings a (v2 :: vs)
  | _ => 0

/-- polygon.h 163–180 (safety_limiter.cpp 675–692). -/
def inside (v : List (Pt K)) (a : Pt K) : Bool := crossings a v % 2 == 1

/-- polygon.h 152–162 (safety_limiter.cpp 664–674), with `c = cosf(yaw)`, `s = sinf(yaw)`. -/
def moveCS (x y c s : K) (v : List (Pt K)) : List (Pt K) :=
  v.map fun p => (c * p.1 - s * p.2 + x, s * p.1 + c * p.2 + y)

end

/-! ### Distances (real numbers) -/

/-- `std::hypot`. -/
noncomputable def hypot (x y : ℝ) : ℝ := Real.sqrt (x ^ 2 + y ^ 2)

/-- polygon.h 73–76. -/
noncomputable def dist (p a : Pt ℝ) : ℝ := hypot (p.1 - a.1) (p.2 - a.2)

/-- polygon.h 65–72. -/
def cross (p a : Pt ℝ) : ℝ := p.1 * a.2 - p.2 * a.1
def dot (p a : Pt ℝ) : ℝ := p.1 * a.1 + p.2 * a.2
def sub (p a : Pt ℝ) : Pt ℝ := (p.1 - a.1, p.2 - a.2)

/-- polygon.h 77–80. -/
noncomputable def distLine (p a b : Pt ℝ) : ℝ := cross (sub b a) (sub p a) / dist b a

/-- polygon.h 81–88. -/
noncomputable def distLinestrip (p a b : Pt ℝ) : ℝ :=
  if dot (sub b a) (sub p a) ≤ 0 then dist p a
  else if dot (sub a b) (sub p b) ≤ 0 then dist p b
  else |distLine p a b|

/-- polygon.h 184–191: the minimum over the edges.  `big` is `std::numeric_limits<float>::max()`. -/
noncomputable def distFrom (big : ℝ) (p : Pt ℝ) : List (Pt ℝ) → ℝ
  | v1 :: v2 :: vs =>
    distFrom (if distLinestrip p v1 v2 < big then distLinestrip p v1 v2 else big) p (v2 :: vs)
  | _ => big

/-- polygon.h 141–151 (safety_limiter.cpp 231–249). -/
noncomputable def radius (v : List (Pt ℝ)) : ℝ :=
  v.foldl (fun r p => if hypot p.1 p.2 > r then hypot p.1 p.2 else r) 0

/-- `move` with the angle itself. -/
noncomputable def move (x y yaw : ℝ) (v : List (Pt ℝ)) : List (Pt ℝ) := moveCS x y (Real.cos yaw) (Real.sin yaw) v

end Verif.Polygon
