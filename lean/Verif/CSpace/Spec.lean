import Verif.CSpace.Model
import Verif.Polygon.Spec
/-! # Specification vocabulary for obstacle inflation -/
namespace Verif.CSpace.Spec
open Verif.CSpace
variable {K : Type} [Field K] [LinearOrder K] [FloorRing K]

/-- The message holds the number of values its header announces. -/
def WF (g : Grid K) : Prop := g.data.length = g.w * g.h

/-- Value `v` of the source grid lies on map cell `(x, y)`. -/
def ValueAt (g : Grid K) (m : Info K) (x y v : Int) : Prop :=
  ∃ i, i < g.data.length ∧ g.data.getD i 0 = v ∧ cellX g m i = x ∧ cellY g m i = y ∧
    (0 ≤ x ∧ x < m.w ∧ 0 ≤ y ∧ y < m.h)

/-- What the source grid asks of map cell `(x, y)`: an observed free cell asks for at least 0; an occupied cell within
template range asks for the template cost scaled by its occupancy. -/
def Demand (R : Int) (t : Int → Int → Int) (g : Grid K) (m : Info K) (x y c : Int) : Prop :=
  (ValueAt g m x y 0 ∧ c = 0) ∨
  (∃ gx gy v, ValueAt g m gx gy v ∧ 0 < v ∧ |x - gx| ≤ R ∧ |y - gy| ≤ R ∧
    c = (t (x - gx) (y - gy) * v) / 100 ∧ 0 < c)

/-- `r` is the largest of `base` and the elements of `S`. -/
def IsMax (S : Int → Prop) (base r : Int) : Prop :=
  base ≤ r ∧ (∀ c, S c → c ≤ r) ∧ (r = base ∨ S r)

/-- The template never increases when moving away from the centre along a row or a column. -/
def Shrinking (t : Int → Int → Int) : Prop :=
  ∀ x y, (x < 0 → t x y ≤ t (x + 1) y) ∧ (0 < x → t x y ≤ t (x - 1) y) ∧
    (y < 0 → t x y ≤ t x (y + 1)) ∧ (0 < y → t x y ≤ t x (y - 1))

/-- The map cells onto which the source grid projects (equal resolutions). -/
def InWindow (g : Grid K) (m : Info K) (x y : Int) : Prop :=
  offX g m ≤ x ∧ x < offX g m + g.w ∧ offY g m ≤ y ∧ y < offY g m + g.h

/-- The footprint, with the robot's centre on the map cell `(x, y)` and at the given heading, covers the centre of cell
`(gx, gy)`. -/
def FootCovers (f : Foot) (res angRes : ℝ) (x y yaw gx gy : Int) : Prop :=
  Polygon.inside (Polygon.move ((x - gx : Int) * res) ((y - gy : Int) * res) (yaw * angRes) (Polygon.close f.pts)) (0, 0) = true

/-- Likewise, some point of the footprint's outline is closer to the centre of cell `(gx, gy)` than the configured
expansion. -/
def FootNear (f : Foot) (res angRes : ℝ) (x y yaw gx gy : Int) : Prop :=
  ∃ q, Polygon.Spec.OnOutline
      (Polygon.move ((x - gx : Int) * res) ((y - gy : Int) * res) (yaw * angRes) (Polygon.close f.pts)) q ∧
    Polygon.dist (0, 0) q < f.expand

end Verif.CSpace.Spec
