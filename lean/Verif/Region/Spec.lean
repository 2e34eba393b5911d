import Verif.Region.Model
/-! # Specification vocabulary for regions: sets of cells -/
namespace Verif.Region.Spec
open Verif.Region

/-- A cell: column, row, heading. -/
structure Cell where
  x : Int
  y : Int
  a : Int

/-- The region holds the cell. -/
def Covers (r : Region) (c : Cell) : Prop :=
  (r.x ≤ c.x ∧ c.x < r.x + r.width) ∧ (r.y ≤ c.y ∧ c.y < r.y + r.height) ∧ (r.yaw ≤ c.a ∧ c.a < r.yaw + r.angle)

/-- No negative extents. -/
def Regular (r : Region) : Prop := 0 ≤ r.width ∧ 0 ≤ r.height ∧ 0 ≤ r.angle

/-- The cell belongs to a map of the given size (any heading). -/
def InMap (w h : Int) (c : Cell) : Prop := 0 ≤ c.x ∧ c.x < w ∧ 0 ≤ c.y ∧ c.y < h

/-- The buffer has the size announced in the header. -/
def WF (m : Map) : Prop := m.data.length = m.w * m.h * m.ang

end Verif.Region.Spec
