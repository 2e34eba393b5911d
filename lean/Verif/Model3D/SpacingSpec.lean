import Verif.Model3D.CostSpec
/-! # Specification: how densely a path is interpolated -/
namespace Verif.Model3D.Spec
open Verif.Model3D Verif.GridMetric
open Verif.CSpace (lround)
open Real

/-- Every how many samples a pose is published: the interpolation resolution over the sampling resolution, rounded, and at least one. -/
noncomputable def stride (g : Geo) : Nat := (max 1 (lround (g.ires / g.ger))).toNat

/-- Distance of two poses, in cells. -/
noncomputable def apart (p q : Pose ℝ) : ℝ := √((q.x - p.x) ^ 2 + (q.y - p.y) ^ 2)

/-- The moves paths are made of: turns in place, and motions within the search range that turn by at most a quarter or are driven straight. -/
def Moderate (g : Geo) (a b : Cell) : Prop :=
  (a.x = b.x ∧ a.y = b.y) ∨
  ((b.x - a.x) * (b.x - a.x) + (b.y - a.y) * (b.y - a.y) ≤ g.range * g.range ∧
    ∀ φ, IsTurn g (b.yaw - a.yaw) φ → |φ| ≤ π / 2 ∨ |sin φ| < 0.1)

end Verif.Model3D.Spec
