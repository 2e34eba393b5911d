import Verif.Polygon.Model
/-! # Specification vocabulary for polygons

Independent of how the test is computed. -/
namespace Verif.Polygon.Spec
open Verif.Polygon
variable {K : Type} [Field K] [LinearOrder K]

/-- The point lies in the convex hull of the vertices: every half-plane holding all vertices holds the point. -/
def InHull (pts : List (Pt K)) (a : Pt K) : Prop :=
  ∀ α β γ : K, (∀ p ∈ pts, α * p.1 + β * p.2 ≤ γ) → α * a.1 + β * a.2 ≤ γ

/-- `q` lies on the closed segment from `a` to `b`. -/
def OnSegment (a b q : Pt K) : Prop :=
  ∃ t : K, 0 ≤ t ∧ t ≤ 1 ∧ q = (a.1 + t * (b.1 - a.1), a.2 + t * (b.2 - a.2))

/-- `q` lies on the outline of the polygon with the (closed) vertex list `v`. -/
def OnOutline (v : List (Pt K)) (q : Pt K) : Prop :=
  ∃ l a b r, v = l ++ a :: b :: r ∧ OnSegment a b q

/-- `p`, `q` are consecutive vertices of the (closed) vertex list. -/
def Edge (v : List (Pt K)) (p q : Pt K) : Prop := ∃ l r, v = l ++ p :: q :: r

/-- Positive to the left of the directed line from `u` to `v`, negative to the right. -/
def leftOf (u v a : Pt K) : K := (v.1 - u.1) * (a.2 - u.2) - (v.2 - u.2) * (a.1 - u.1)

/-- A convex polygon, vertices listed counterclockwise: seen along any edge all other vertices are on the left. -/
def ConvexCCW (pts : List (Pt K)) : Prop :=
  3 ≤ pts.length ∧ pts.Nodup ∧ ∀ u v, Edge (close pts) u v → ∀ w ∈ pts, w ≠ u → w ≠ v → 0 < leftOf u v w

/-- Every point at most `ρ` away from the robot's centre belongs to the footprint (an inscribed disc). -/
def Core (pts : List (Pt ℝ)) (ρ : ℝ) : Prop :=
  ∀ a : Pt ℝ, hypot a.1 a.2 ≤ ρ → inside (close pts) a = true ∨ OnOutline (close pts) a

end Verif.Polygon.Spec
