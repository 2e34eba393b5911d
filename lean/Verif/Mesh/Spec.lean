import Verif.Mesh.Model
/-! # Specification vocabulary for mesh sampling -/
namespace Verif.Mesh.Spec
open Verif.Mesh

variable {K : Type} [Field K] [LinearOrder K] [IsStrictOrderedRing K]

/-- `q` is a convex combination of the three corners. -/
def InTriangle (p0 p1 p2 q : P3 K) : Prop :=
  ∃ a b c : K, 0 ≤ a ∧ 0 ≤ b ∧ 0 ≤ c ∧ a + b + c = 1 ∧
    q.x = a * p0.x + b * p1.x + c * p2.x ∧ q.y = a * p0.y + b * p1.y + c * p2.y ∧
    q.z = a * p0.z + b * p1.z + c * p2.z

/-- A point of the input moved into the output frame: scaled, then offset. -/
def place (c : Cfg K) (p : P3 K) : P3 K :=
  ⟨p.x * c.scale + c.offset.x, p.y * c.scale + c.offset.y, p.z * c.scale + c.offset.z⟩

/-- `q` lies on the placed surface (or is a placed point) of a file. -/
def OnFile (c : Cfg K) (q : P3 K) : File K → Prop
  | .pcd ps => ∃ p ∈ ps, q = place c p
  | .obj vs polys => ∃ i0 i1 i2 p0 p1 p2, [i0, i1, i2] ∈ polys ∧ vs[i0]? = some p0 ∧ vs[i1]? = some p1 ∧
      vs[i2]? = some p2 ∧ InTriangle (place c p0) (place c p1) (place c p2) q

/-- All polygons are triangles with existing vertices. -/
def WellFormed : File K → Prop
  | .pcd _ => True
  | .obj vs polys => ∀ l ∈ polys, ∃ i0 i1 i2, l = [i0, i1, i2] ∧ i0 < vs.length ∧ i1 < vs.length ∧ i2 < vs.length

/-- The random engine's contract. -/
def Unit (rand : Nat → K) : Prop := ∀ i, 0 ≤ rand i ∧ rand i < 1

end Verif.Mesh.Spec
