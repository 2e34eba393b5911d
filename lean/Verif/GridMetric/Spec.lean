import Verif.GridMetric.Model
/-! # What the squares of the grid are -/
namespace Verif.GridMetric.Spec
open Verif.GridMetric
variable {K : Type} [Field K] [LinearOrder K]

/-- The point lies in the square of cell `(i, j)`: half open, side `res`, corner at the origin plus whole cells. -/
def InSquare (m : Info K) (i j : Int) (x y : K) : Prop :=
  m.ox + (i : K) * m.res ≤ x ∧ x < m.ox + ((i : K) + 1) * m.res ∧
  m.oy + (j : K) * m.res ≤ y ∧ y < m.oy + ((j : K) + 1) * m.res

/-- Heading `w` is a nearest one to the angle: at most half a heading step away. -/
def NearestHeading (m : Info K) (w : Int) (yaw : K) : Prop := |yaw - (w : K) * m.ares| ≤ m.ares / 2

/-- Two headings mean the same direction. -/
def SameDirection (angle a b : Int) : Prop := ∃ k : Int, a = b + k * angle

end Verif.GridMetric.Spec
