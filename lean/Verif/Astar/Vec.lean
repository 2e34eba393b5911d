import Verif.Astar.Model
import Verif.CyclicVec.Model
/-!
# The search on grid vectors (`grid_astar.h`): the part of `searchImpl` around the loop

Cells are lists of `int` coordinates, the first `nonc` of them non-cyclic.  `toProb` is the
instantiation of the abstract search of `Verif.Astar.Model` with the vector operations of
`Verif.CyclicVec`.
-/
namespace Verif.Astar.Vec
open Verif.Astar Verif.CyclicVec

/-- Arguments of `search` (grid_astar.h:169-182), the model object, and the configuration. -/
structure VProb (C : Type) where
  nonc : Nat
  /-- `g.size()` -/
  size : List Int
  /-- `model->searchGrids(p, ss_normalized, e)` -/
  grids : List Int → List (List Int)
  estim : List Int → C
  cost : List Int → List Int → C
  startEstim : List Int → C
  /-- `sts`, not normalised -/
  starts : List (List Int × C)
  /-- `en`, not normalised -/
  goal : List Int
  leave : C → C → Bool
  tasks : Nat
  limit : Nat

/-- `operator+`, cyclic_vec.h:176-185. -/
def vadd (a b : List Int) : List Int := List.zipWith (· + ·) a b

/-- `isExceeded` (cyclic_vec.h:323-333) on unbounded integers; `CyclicVec.isExceeded_iff` (C61) proves that
the 32-bit unsigned comparison of the code decides this. -/
def exceeded : Nat → List Int → List Int → Bool
  | n + 1, e :: es, s :: ss => decide (e < 0 ∨ s ≤ e) || exceeded n es ss
  | _, _, _ => false

/-- `next = p + *it; next.cycleUnsigned(g.size()); if (next.isExceeded(g.size())) continue;`,
grid_astar.h:320-323.  (`none` also for a zero size, undefined behaviour, excluded by hypotheses.) -/
def nextOf {C : Type} (P : VProb C) (p d : List Int) : Option (List Int) :=
  match cycleUnsigned P.nonc (vadd p d) P.size with
  | none => none
  | some x => if exceeded P.nonc x P.size then none else some x

/-- `s.cycleUnsigned(g.size())`, grid_astar.h:201 and 215. -/
def norm {C : Type} (P : VProb C) (v : List Int) : List Int :=
  (cycleUnsigned P.nonc v P.size).getD v

/-- The loop's problem. -/
def toProb {C : Type} (P : VProb C) : Prob (List Int) C where
  nexts p := (P.grids p).filterMap (nextOf P p)
  estim := P.estim
  cost := P.cost
  starts := P.starts.map fun s => (norm P s.1, s.2)
  startEstim := P.startEstim
  goal := norm P P.goal
  leave := P.leave
  tasks := P.tasks
  limit := P.limit

/-- Why `search` returned. -/
inductive Why where
  | noStart | startIsGoal | found | exhausted | aborted
  deriving DecidableEq

def whyOf {V : Type} : Fin V → Why
  | .found _ => .found
  | .exhausted => .exhausted
  | .aborted => .aborted

variable {C : Type} [CostType C]

/-- Possible results of one call of `search` with an empty `path` list: reason, returned boolean, path.
grid_astar.h:195-196 (no start), 211-212 (a start equal to the goal, compared before normalisation),
374-383. -/
inductive Search (P : VProb C) (returnBest : Bool) : Why → Bool × List (List Int) → Prop
  | noStart (h : P.starts = []) : Search P returnBest .noStart (false, [])
  | same (h : ∃ s ∈ P.starts, s.1 = P.goal) : Search P returnBest .startIsGoal (false, [])
  | run {s f} (h1 : P.starts ≠ []) (h2 : ∀ s ∈ P.starts, s.1 ≠ P.goal)
      (hf : Final (toProb P) s f) :
      Search P returnBest (whyOf f) (result (toProb P) s f returnBest)

end Verif.Astar.Vec
