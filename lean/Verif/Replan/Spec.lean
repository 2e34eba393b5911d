import Verif.Replan.Model
/-! # Specification: switch backs, and reasons to plan again -/
namespace Verif.Replan
open Verif.GridMetric (Pose)

/-- Between the poses `k - 1` and `k` the robot moves (by more than a millimetre). -/
def MovesTo (path : List (Pose ℝ)) (k : Nat) : Prop :=
  ∃ p q, 1 ≤ k ∧ path[k - 1]? = some p ∧ path[k]? = some q ∧ 1 / 1000 < Real.sqrt ((q.x - p.x) ^ 2 + (q.y - p.y) ^ 2)

/-- ... backwards. -/
def BackwardTo (path : List (Pose ℝ)) (k : Nat) : Prop :=
  ∃ p q, 1 ≤ k ∧ path[k - 1]? = some p ∧ path[k]? = some q ∧
    (q.x - p.x) * Real.cos q.yaw + (q.y - p.y) * Real.sin q.yaw < 0

/-- At pose `k` the robot moves in the other direction (forward, backward) than somewhere before. -/
def Reversed (path : List (Pose ℝ)) (k : Nat) : Prop :=
  MovesTo path k ∧ ∃ j, j < k ∧ MovesTo path j ∧ ¬ (BackwardTo path j ↔ BackwardTo path k)

/-- The robot is at the place `w`, with a heading that agrees up to full turns. -/
def At (c : Cfg) (s w : Pose ℝ) : Prop :=
  Real.sqrt ((s.x - w.x) ^ 2 + (s.y - w.y) ^ 2) < c.tolLin ∧ ∃ k : Int, |s.yaw - w.yaw + 2 * Real.pi * k| < c.tolAng

/-- The path that is followed while `o` is observed. -/
def follows (s : St) (o : Obs) : List (Pose ℝ) := o.path.getD s.node.prev

/-- Something happened that needs a new plan at once: the position jumped, a costmap arrived that has an obstacle on the path,
or the robot arrived at the place where the path turns back. -/
def Urgent (c : Cfg) (s : St) (o : Obs) : Prop :=
  o.hasMap = true ∧ (o.jump = true ∨
    (o.updated = true ∧ 2 ≤ (follows s o).length ∧ ∃ p ∈ follows s o, o.lethal p = true) ∨
    (s.node.isSw = true ∧ At c o.start s.node.swPos))

end Verif.Replan
