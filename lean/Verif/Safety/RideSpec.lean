import Verif.Safety.Spec
import Mathlib.Analysis.Calculus.Deriv.Basic
/-! # A ride with the safety limiter: vocabulary

A robot drives straight ahead; the limiter sits between the sender of the commands and the wheels. -/
namespace Verif.Safety.Spec
open Verif.Polygon hiding dist

/-- Straight ahead with speed `v`. -/
def forward (v : ℝ) : Twist := ⟨v, 0, 0, 0, 0, 0⟩

/-- With the robot at position `x` of its straight line the obstacle point lies in the footprint. -/
def Touches (fp : List (Pt ℝ)) (x : ℝ) (o : Pt ℝ) : Prop := inside (close fp) (o.1 - x, o.2) = true

/-- The obstacle is never touched, or it is touched exactly between two positions of the robot, and these are at least `len` apart: the
footprint is not shorter than `len` at the side of the obstacle. -/
def Solid (fp : List (Pt ℝ)) (len : ℝ) (o : Pt ℝ) : Prop :=
  (∀ x, ¬ Touches fp x o) ∨ ∃ lo hi, lo + len ≤ hi ∧ ∀ x, Touches fp x o ↔ lo < x ∧ x ≤ hi

/-- The robot with speed `w` obeys the commands `force`: while no command is above `u`, its speed is at most `u`, or it brakes towards `u` with
deceleration `a`. -/
def Obeys (a : ℝ) (w force : ℝ → ℝ) : Prop :=
  ∀ t0 t1 u, 0 ≤ u → (∀ τ, t0 ≤ τ → τ < t1 → force τ ≤ u) → ∀ τ, t0 ≤ τ → τ ≤ t1 → w τ ≤ max u (w t0 - a * (τ - t0))

/-- The room the configured margin must leave: braking that begins up to one period late, the way driven before the first command after a
prediction, and the tolerance of 10⁻⁶ with which a ratio counts as one. -/
noncomputable def slack (c : Cfg) (v P Δ : ℝ) : ℝ :=
  c.linAcc * P ^ 2 / 2 + v * Δ + 1e-6 * (v * (1 / c.hz + c.dt) + v ^ 2 / c.linAcc)

/-- The node: `hist k` is the history before prediction `k`, which takes place at time `p k`; `mid k` are the events between the predictions
`k` and `k + 1`. -/
structure Log where
  hist : Nat → List Ev
  p : Nat → ℝ
  tf : Nat → Option (P3 → P3)
  mid : Nat → List Ev
  /-- The time of the first command after prediction `k`. -/
  first : Nat → ℝ

/-- A log in which only the command `forward v` and point clouds are received: at most the hold time passes between two predictions, the first
command after a prediction comes after at most `Δ`, and from the first command after a prediction to the first one after the next prediction it
takes at most `P`. -/
structure Regular (e : Env) (c : Cfg) (v P Δ : ℝ) (l : Log) : Prop where
  cycle : ∀ k, l.hist (k + 1) = l.hist k ++ .predict (l.p k) (l.tf k) :: l.mid k
  only : ∀ k ev, ev ∈ l.mid k → (∃ now, ev = .twist now (forward v)) ∨ ∃ s pts f, ev = .cloud s pts f
  times : ∀ k now t, .twist now t ∈ l.mid k → l.first k ≤ now ∧ now ≤ l.p (k + 1)
  ordered : ∀ k pre now t post, l.mid k = pre ++ .twist now t :: post → ∀ now' t', .twist now' t' ∈ pre → now' ≤ now
  first_le : ∀ k, l.first k ≤ l.p (k + 1)
  late : ∀ k, l.p k ≤ l.first k ∧ l.first k ≤ l.p k + Δ
  period : ∀ k, l.first (k + 1) ≤ l.first k + P
  hold : ∀ k, l.p (k + 1) ≤ l.p k + c.holdTime
  config : config c (l.hist 0) = c
  command : (run e c (l.hist 0)).twist = forward v
  enabled : c.disableTimeout ≤ l.p 0 - lastDisable (l.hist 0)

/-- At each prediction the node has recent data, and the points it compares with the footprint are the obstacles, as seen from the robot at
position `x`. -/
def Sees (e : Env) (c : Cfg) (l : Log) (x : ℝ → ℝ) (obs : List (Pt ℝ)) : Prop :=
  ∀ k, (run e c (l.hist k)).hasCloud = true ∧ l.p k - lastStamp (l.hist k) ≤ c.timeout ∧
    ∃ pts b, (predict e c (run e c (l.hist k)).twist (run e c (l.hist k)).cloud (l.tf k)).tested = some (pts, b) ∧
      ∀ q, q ∈ pts ↔ ∃ o ∈ obs, q = (o.1 - x (l.p k), o.2)

/-- Between the first commands of two cycles, what the robot is told to do is a command the limiter has sent in the first one of these
cycles. -/
def Told (e : Env) (c : Cfg) (l : Log) (force : ℝ → ℝ) : Prop :=
  ∀ k τ, l.first k ≤ τ → τ < l.first (k + 1) → ∃ pre now t post o, l.mid k = pre ++ .twist now t :: post ∧
    outputs e c (l.hist k ++ .predict (l.p k) (l.tf k) :: pre) (.twist now t) = [.cmd o] ∧ force τ = o.lx

/-- The motion of the robot: position `x`, speed `w` between 0 and `v`. -/
structure Moves (v : ℝ) (x w : ℝ → ℝ) : Prop where
  speed : ∀ τ, HasDerivAt x (w τ) τ
  forward : ∀ τ, 0 ≤ w τ
  le : ∀ τ, w τ ≤ v

end Verif.Safety.Spec
