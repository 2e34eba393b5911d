import Verif.PlannerNode.Spec
/-! # Specification: the no-update timer in real time

`nh_.createTimer(costmap_watchdog_, …, true)` (planner_3d.cpp 963–964, 979–980) makes a timer which runs once, `costmap_watchdog_` after its creation.
The untimed model only knows whether there is such a timer; here it has a time. -/
namespace Verif.PlannerNode
variable {P : Type}

/-- The node, and the time at which the timer is due. -/
structure Timed (P : Type) where
  node : St P
  due : Option Int

/-- A callback: when it begins, when it ends, what it is. -/
structure Call (P : Type) where
  at_ : Int
  till : Int
  ev : Event P

/-- The callbacks which create the timer anew, if there is one afterwards: planner_3d.cpp 963 and 979, the latter also from 1105. -/
def creates : Event P → Bool
  | .map _ _ (some _) | .update _ | .timer _ _ => true
  | _ => false

/-- The timer after a callback that ended at time `till`, planner_3d.cpp 963–964, 973, 979–980, 1498. -/
def due' (x : Timed P) (till : Int) (e : Event P) (s : St P) : Option Int :=
  if s.timer then if creates e then some (till + s.cfg.watchdog) else x.due else none

/-- No callback takes longer than `ρ`; a timer callback begins when the timer is due, at most `δ` late. -/
inductive Runs (δ ρ : Int) : Timed P → Int → List (Call P) → Timed P → Int → Prop where
  | nil (x : Timed P) (t : Int) : Runs δ ρ x t [] x t
  | cons {x y : Timed P} {t t' : Int} {k : Call P} {l : List (Call P)} {s : St P} (after : t ≤ k.at_) (ends : k.at_ ≤ k.till)
      (short : k.till ≤ k.at_ + ρ) (late : ∀ d, x.due = some d → k.at_ ≤ d + δ)
      (fires : ∀ now w, k.ev = .timer now w → now = k.at_ ∧ ∃ d, x.due = some d ∧ d ≤ k.at_)
      (does : step x.node k.ev = some s) (rest : Runs δ ρ ⟨s, due' x k.till k.ev s⟩ k.till l y t') : Runs δ ρ x t (k :: l) y t'

/-- The time up to which the node is watched: nothing else happens until then. -/
def Until (δ : Int) (y : Timed P) (t T : Int) : Prop := t ≤ T ∧ ∀ d, y.due = some d → T ≤ d + δ

/-- The events other than maps, costmap updates and changes of the parameters. -/
def Silent : Event P → Prop
  | .map _ _ _ | .update _ | .config _ => False
  | _ => True

end Verif.PlannerNode
