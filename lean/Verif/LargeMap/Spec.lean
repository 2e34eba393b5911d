import Verif.LargeMap.Model
/-! # What a local map must show -/
namespace Verif.LargeMap

/-- A cell of a square map. -/
abbrev Cell := Int × Int

/-- The cell is one of the map of `w × w` cells. -/
def OnMap (w : Nat) (c : Cell) : Prop := (0 ≤ c.1 ∧ c.1 < w) ∧ 0 ≤ c.2 ∧ c.2 < w

/-- The value of a cell in row-major data. -/
def value (w : Nat) (m : List Int) (c : Cell) : Option Int := m[(c.2 * w + c.1).toNat]?

/-- The value of the cell of the large map, unknown outside of it. -/
def Large.value (L : Large) (x y : Int) : Option Int :=
  if (0 ≤ x ∧ x < L.w) ∧ 0 ≤ y ∧ y < L.h then L.data[(y * L.w + x).toNat]? else some (-1)

/-- Centre of cell number `i` along an axis with the given origin. -/
noncomputable def centre (res o : ℝ) (i : Int) : ℝ := o + ((i : ℝ) + 1 / 2) * res

/-- Square of the distance of (the corner of) a cell from the middle of the map, in cells. -/
noncomputable def sqRadius (w : Nat) (c : Cell) : ℝ := ((c.1 : ℝ) - (w : ℝ) / 2) ^ 2 + ((c.2 : ℝ) - (w : ℝ) / 2) ^ 2

/-- The ring of the width of two cells inside the circle that touches the borders of the map. -/
def InRing (w : Nat) (c : Cell) : Prop := ((w : ℝ) / 2 - 2) ^ 2 ≤ sqRadius w c ∧ sqRadius w c ≤ ((w : ℝ) / 2) ^ 2

/-- The cell is left unknown or an obstacle by the shape of the local map. -/
def Masked (c : Config) (p : Cell) : Prop :=
  (c.surrounded = true ∧ InRing c.width p) ∨ (c.round = true ∧ ((c.width : ℝ) / 2) ^ 2 < sqRadius c.width p)

/-- Cell `b` is on the way from the middle of the map to cell `c`: it contains a point of the line at a distance of 1, 1.5, 2, … cells
from the middle that is more than a cell before `c`. -/
def Blocks (w : Nat) (b c : Cell) : Prop :=
  b ≠ c ∧ ∃ k : Nat, (1 + (k : ℝ) / 2) + 1 < Real.sqrt (sqRadius w c) ∧
    let f := (1 + (k : ℝ) / 2) / Real.sqrt (sqRadius w c)
    ((b.1 : ℝ) ≤ (w : ℝ) / 2 + f * ((c.1 : ℝ) - (w : ℝ) / 2) ∧ (w : ℝ) / 2 + f * ((c.1 : ℝ) - (w : ℝ) / 2) < (b.1 : ℝ) + 1) ∧
    ((b.2 : ℝ) ≤ (w : ℝ) / 2 + f * ((c.2 : ℝ) - (w : ℝ) / 2) ∧ (w : ℝ) / 2 + f * ((c.2 : ℝ) - (w : ℝ) / 2) < (b.2 : ℝ) + 1)

/-- A step to one of the eight neighbours. -/
def Adjacent (a b : Cell) : Prop := |a.1 - b.1| ≤ 1 ∧ |a.2 - b.2| ≤ 1

end Verif.LargeMap
