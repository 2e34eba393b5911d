import Verif.SearchPos.EscapeModel
import Verif.SearchPos.Spec
import Mathlib.Algebra.BigOperators.Group.Finset.Basic
import Mathlib.Data.Int.Interval
/-! # Where a temporary escape goal may be -/
namespace Verif.SearchPos
open Verif.GridMetric (Cell)

/-- The cell is at most the escape range away from the robot, on the map with margin, and can be reached locally. -/
def InWindow (e : Esc) (w : World) (robot : Cell) (x y : Int) : Prop :=
  0 ≤ e.escRange ∧ (x - robot.x) ^ 2 + (y - robot.y) ^ 2 ≤ e.escRange ^ 2 ∧
  (e.range ≤ x ∧ x < e.width - e.range ∧ 0 ≤ x ∧ x < e.width) ∧
  (e.range ≤ y ∧ y < e.height - e.range ∧ 0 ≤ y ∧ y < e.height) ∧ w.arrivable x y

/-- Contribution of one neighbour to the downhill direction. -/
noncomputable def pull (w : World) (x y : Int) (cost : ℝ) (dx dy : Int) : ℂ :=
  match w.stat (x + dx) (y + dy) with
  | none => 0
  | some c2 => ((cost - c2 : ℝ) : ℂ) * ((dx : ℂ) + (dy : ℂ) * Complex.I)

/-- Downhill direction of the static distance map at a cell: the neighbours weighted by how much nearer to the goal they
are (neighbours that cannot reach the goal do not count). -/
noncomputable def downhill (w : World) (x y : Int) (cost : ℝ) : ℂ :=
  ∑ dy ∈ Finset.Icc (-1 : Int) 1, ∑ dx ∈ Finset.Icc (-1 : Int) 1, pull w x y cost dx dy

/-- `te` is an acceptable temporary goal with distance `cost` to the original goal. -/
def EscapeCell (e : Esc) (w : World) (robot te : Cell) (cost : ℝ) : Prop :=
  InWindow e w robot te.x te.y ∧ (te.x, te.y) ≠ (robot.x, robot.y) ∧
  e.escMin ^ 2 ≤ (te.x - robot.x) ^ 2 + (te.y - robot.y) ^ 2 ∧
  w.rough te.x te.y < e.acceptable ∧ w.cm te < e.acceptable ∧ w.stat te.x te.y = some cost ∧
  downhill w te.x te.y cost ≠ 0 ∧
  te.yaw = Model3D.cycU (CSpace.trunc ((downhill w te.x te.y cost).arg / e.ares)) e.angle

/-- The original goal is within the window and free. -/
def OriginalReachable (e : Esc) (w : World) (robot gOrig : Cell) : Prop :=
  InWindow e w robot gOrig.x gOrig.y ∧ w.cm gOrig < 100

/-- The robot is at least the escape range away from the border. -/
def FarFromEdge (e : Esc) (robot : Cell) : Prop :=
  (e.escRange ≤ robot.x ∧ robot.x < e.width - e.escRange) ∧ (e.escRange ≤ robot.y ∧ robot.y < e.height - e.escRange)

end Verif.SearchPos
