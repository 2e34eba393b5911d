import Verif.Tracker.Spec
/-! # Specification: the odometry timeout in real time

With `use_odom`, the odometry callback restarts a timer which runs once, `odom_timeout_sec` later (trajectory_tracker.cpp 316–327: `createTimer` with
`oneshot`, `setPeriod` with `reset`).  `Model` only knows the callback `cbOdomTimeout`; here the timer has a time.  Simplification: a callback takes
place at one moment; a callback that runs late because another one takes its time is covered by the bound `δ` on the delay of the timer. -/
namespace Verif.Tracker

/-- The node, and the time at which the timer is due. -/
structure Timed where
  node : State
  due : Option ℝ

/-- A callback with its time. -/
structure Call where
  at_ : ℝ
  ev : Event

/-- An odometry message. -/
def Event.IsOdom : Event → Prop
  | .odometry .. => True
  | _ => False

/-- The timer after a callback, trajectory_tracker.cpp 316–327; `τ` is `odom_timeout_sec`, 0 switches the timer off. -/
noncomputable def due' (τ : ℝ) (due : Option ℝ) (k : Call) : Option ℝ :=
  match k.ev with
  | .odometry .. => if τ ≠ 0 then some (k.at_ + τ) else due
  | .odomTimeout => none
  | _ => due

/-- A run of the node with `use_odom` (no control timer, trajectory_tracker.cpp 400–408) from time `t` to time `t'`, with what it publishes.  The timeout's callback runs when the
timer is due, at most `δ` late. -/
inductive Runs (τ δ : ℝ) : Timed → ℝ → List Call → List (ℝ × Out) → Timed → ℝ → Prop where
  | nil (x : Timed) (t : ℝ) : Runs τ δ x t [] [] x t
  | cons {x y : Timed} {t t' : ℝ} {k : Call} {l : List Call} {s : State} {o : Option Out} {os : List (ℝ × Out)} (after : t ≤ k.at_)
      (late : ∀ d, x.due = some d → k.at_ ≤ d + δ) (fires : k.ev = .odomTimeout → ∃ d, x.due = some d ∧ d ≤ k.at_)
      (mode : ∀ f hz a b, k.ev ≠ .timer f hz a b) (does : step x.node k.ev = some (s, o)) (rest : Runs τ δ ⟨s, due' τ x.due k⟩ k.at_ l os y t') :
      Runs τ δ x t (k :: l) (o.toList.map (fun o => (k.at_, o)) ++ os) y t'

/-- The time up to which the node is watched: nothing else happens until then. -/
def Until (δ : ℝ) (y : Timed) (t T : ℝ) : Prop := t ≤ T ∧ ∀ d, y.due = some d → T ≤ d + δ

end Verif.Tracker
