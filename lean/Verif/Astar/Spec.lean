import Verif.Astar.Model
import Mathlib.Data.List.Chain
/-!
# What a legal path is

Stated only in terms of the search problem (moves offered by the model, its cost and estimate
functions, starts and goal), not of the search's data structures.
-/
namespace Verif.Astar.Spec
open Verif.Astar

variable {V C : Type} [CostType C]

/-- A cost the model accepts: non-negative and not the "infinite" value. -/
def Accepted (c : C) : Prop := 0 ≤ c ∧ c ≠ CostType.top

/-- `p → x` is an admissible move: offered by the model from `p` and staying in the map, the estimate at `x` and
the cost of the move are accepted. -/
def Move (P : Prob V C) (p x : V) : Prop :=
  x ∈ P.nexts p ∧ Accepted (P.estim x) ∧ Accepted (P.cost p x)

/-- `path` is a legal path from a start to `e`. -/
structure LegalPath (P : Prob V C) (path : List V) (e : V) : Prop where
  ne : path ≠ []
  first : path.head ne ∈ P.starts.map Prod.fst
  last : path.getLast ne = e
  moves : path.IsChain (Move P)

/-- `x` can be reached from some start by admissible moves. -/
inductive Reachable (P : Prob V C) : V → Prop
  | start {s c} : (s, c) ∈ P.starts → Reachable P s
  | move {p x} : Reachable P p → Move P p x → Reachable P x

/-- `Route P x c`: some sequence of admissible moves from a start to `x` has total cost `c`
(initial cost of the start included). -/
inductive Route (P : Prob V C) : V → C → Prop
  | start {s c} : (s, c) ∈ P.starts → Route P s c
  | move {p x c} : Route P p c → Move P p x → Route P x (c + P.cost p x)

/-- Total cost of the moves along a path. -/
def movesCost (P : Prob V C) : List V → C → C
  | a :: b :: l, acc => movesCost P (b :: l) (acc + P.cost a b)
  | _, acc => acc

end Verif.Astar.Spec
