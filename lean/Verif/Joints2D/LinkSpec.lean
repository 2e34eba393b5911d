import Mathlib.Analysis.SpecialFunctions.Complex.Circle
import Verif.Joints2D.LinkModel
/-! # Vocabulary: links as bodies in the plane

Points of the plane are complex numbers. -/
namespace Verif.Joints2D

/-- A disc. -/
structure Disc where
  centre : ℂ
  radius : ℝ

/-- The centres are closer than the sum of the radii. -/
def Overlap (a b : Disc) : Prop := dist a.centre b.centre < a.radius + b.radius

/-- How far two discs are apart (negative when they overlap). -/
noncomputable def gap (a b : Disc) : ℝ := dist a.centre b.centre - (a.radius + b.radius)

/-- The place of a link's joint. -/
noncomputable def Link.base (l : Link) : ℂ := ⟨l.origin.x, l.origin.y⟩

/-- The disc at the joint of a link. -/
noncomputable def Link.jointDisc (l : Link) : Disc := ⟨l.base, l.rJoint⟩

/-- The disc at the end of a link whose joint angle is `th`: the joint, moved by the length in the direction
`origin angle + gain * th`. -/
noncomputable def Link.endDisc (l : Link) (th : ℝ) : Disc :=
  ⟨l.base + l.length * Complex.exp ((l.origin.th + l.gain * th : ℝ) * Complex.I), l.rEnd⟩

/-- The body of a link: the points that are, for some point of the axis, no farther from it than the radius there (the radius
changes linearly from the joint to the end). -/
def Link.body (l : Link) (th : ℝ) : Set ℂ :=
  {z | ∃ t : ℝ, 0 ≤ t ∧ t ≤ 1 ∧
    dist z ((1 - t) * l.base + t * (l.endDisc th).centre) ≤ (1 - t) * l.rJoint + t * l.rEnd}

/-- How far the ends of the links move, together, while the joints turn by half a cell (`pi / res`). -/
noncomputable def slack (p : Par ℝ) (a b : Link) : ℝ := (a.length * |a.gain| + b.length * |b.gain|) * (Real.pi / p.res)

end Verif.Joints2D
