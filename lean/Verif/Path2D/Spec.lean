import Verif.Path2D.Model
import Mathlib.Analysis.InnerProductSpace.Basic
import Mathlib.Topology.MetricSpace.HausdorffDistance
/-!
# Specification of the path operations of the tracker
-/
namespace Verif.Path2D

/-- Poses `i - 1` and `i` of the path are at (nearly) the same place. -/
def TurnsAt (P : List Pose) (eps : ℝ) (i : Nat) : Prop :=
  0 < i ∧ ∃ a b, P[i - 1]? = some a ∧ P[i]? = some b ∧ ‖b.pos - a.pos‖ ^ 2 < eps

/-- Component along the heading of `b` of the move from `a` to `b`: positive when driving forward. -/
noncomputable def forward (a b : Pose) : ℝ :=
  (b.pos.re - a.pos.re) * Real.cos b.yaw + (b.pos.im - a.pos.im) * Real.sin b.yaw

/-- The move into pose `i` goes in the opposite direction of the one into pose `i - 1`. -/
def ReversesAt (P : List Pose) (i : Nat) : Prop :=
  2 ≤ i ∧ ∃ a b c, P[i - 2]? = some a ∧ P[i - 1]? = some b ∧ P[i]? = some c ∧ forward a b * forward b c < 0

/-- Pose `i` ends the stretch of path starting at `s`: a turn in place, or a change of driving direction between two
real moves of the stretch. -/
def CutAt (P : List Pose) (switchBack turn : Bool) (eps : ℝ) (s i : Nat) : Prop :=
  (turn = true ∧ TurnsAt P eps i) ∨
  (switchBack = true ∧ s + 2 ≤ i ∧ ¬ TurnsAt P eps (i - 1) ∧ ¬ TurnsAt P eps i ∧ ReversesAt P i)

/-- Distance from a point to the part of the path between poses `i - 1` and `i`. -/
noncomputable def segDist (P : List Pose) (t : ℂ) (i : Nat) : ℝ :=
  match P[i - 1]?, P[i]? with
  | some a, some b => Metric.infDist t (segment ℝ a.pos b.pos)
  | _, _ => 0

/-- Length of the path from pose `b` to pose `i`. -/
noncomputable def lengthFromTo (P : List Pose) (b i : Nat) : ℝ := length ((P.drop b).take (i + 1 - b))

/-- Pose `i` is looked at by a search from pose `b`: the range is unlimited (zero) or the way along the path to the pose
is within it. -/
def InRange (P : List Pose) (range : ℝ) (b i : Nat) : Prop := range ≤ 0 ∨ lengthFromTo P b i ≤ range

/-- Pose `b` is reached from `a` by driving along a circle of signed radius `r` (left turns positive) while the heading
changes by `θ`. -/
def IsArc (r θ : ℝ) (a b : Pose) : Prop :=
  b.yaw = a.yaw + θ ∧
  b.pos.re = a.pos.re + r * (Real.sin (a.yaw + θ) - Real.sin a.yaw) ∧
  b.pos.im = a.pos.im + r * (Real.cos a.yaw - Real.cos (a.yaw + θ))

/-- The three points turn left. -/
def TurnsLeft (a b c : ℂ) : Prop := 0 < (b.re - a.re) * (c.im - a.im) - (b.im - a.im) * (c.re - a.re)

/-- Signed curvature of the circle through three points (left turns positive): four times the signed area of the triangle over the product
of its sides. -/
noncomputable def menger (a b c : ℂ) : ℝ :=
  2 * ((b.re - a.re) * (c.im - a.im) - (b.im - a.im) * (c.re - a.re)) / (‖b - a‖ * ‖b - c‖ * ‖c - a‖)

/-- Curvature of the path around its pose `i + 1`. -/
noncomputable def bendAt (ps : List Pose) (i : Nat) : ℝ :=
  match ps[i]?, ps[i + 1]?, ps[i + 2]? with
  | some a, some b, some c => menger a.pos b.pos c.pos
  | _, _, _ => 0

end Verif.Path2D
