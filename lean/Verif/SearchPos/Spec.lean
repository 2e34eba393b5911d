import Verif.SearchPos.Model
/-! # What the relocation of a pose must return -/
namespace Verif.SearchPos
open Verif.GridMetric (Cell)

/-- The cell lies on the map, at least `margin` cells away from the border. -/
def Inside (m : Map) (c : Cell) : Prop :=
  m.range ≤ c.x ∧ c.x < m.width - m.range ∧ 0 ≤ c.x ∧ c.x < m.width ∧
  m.range ≤ c.y ∧ c.y < m.height - m.range ∧ 0 ≤ c.y ∧ c.y < m.height ∧ 0 ≤ c.yaw ∧ c.yaw < m.angle

/-- `c` is the cell reached from `s` by the offset `d`; headings are counted modulo a full turn. -/
def Reached (m : Map) (s d c : Cell) : Prop :=
  c.x = s.x + d.x ∧ c.y = s.y + d.y ∧ m.angle ∣ c.yaw - (s.yaw + d.yaw)

/-- The offset `d ≠ 0` is at most `R` cells long, at least `r` cells long, and turns by at most `A` headings. -/
def WithinRange (R A r : Int) (d : Cell) : Prop :=
  d ≠ ⟨0, 0, 0⟩ ∧ 0 ≤ R ∧ d.x ^ 2 + d.y ^ 2 ≤ R ^ 2 ∧ r ^ 2 ≤ d.x ^ 2 + d.y ^ 2 ∧ |d.yaw| ≤ A

/-- `c`, reached by `d`, may be used: on the map with margin, in range, and cheaper than `acc`. -/
def Eligible (m : Map) (cm : Cell → Int) (s : Cell) (R A r acc : Int) (d c : Cell) : Prop :=
  Reached m s d c ∧ WithinRange R A r d ∧ Inside m c ∧ cm c < acc

/-- `c` is eligible and no eligible cell is nearer. -/
def Nearest (m : Map) (cm : Cell → Int) (dist : Cell → ℝ) (s : Cell) (R A r acc : Int) (c : Cell) : Prop :=
  ∃ d, Eligible m cm s R A r acc d c ∧ ∀ d' c', Eligible m cm s R A r acc d' c' → dist d ≤ dist d'

/-- There is an eligible cell. -/
def Exists (m : Map) (cm : Cell → Int) (s : Cell) (R A r acc : Int) : Prop :=
  ∃ d c, Eligible m cm s R A r acc d c

end Verif.SearchPos
