import Mathlib.Order.Defs.LinearOrder
import Mathlib.Algebra.Group.Defs
/-!
# Model of the graph search (`planner_cspace/include/planner_cspace/grid_astar.h`, `GridAstar`)

`V` is the type of (already normalised) cells, `C` the type of costs.

* `float` costs are an abstract linear order with an addition (`CostType`): the only arithmetic fact
  used in the general theorems is `c ≤ c + w` for `w ≥ 0`, which IEEE round-to-nearest addition of
  non-NaN values satisfies.  NaN is not modelled.
* The open list is a bag; taking the top takes *some* entry with minimal priority
  (this is what `Verif.Heap` proves about the priority queue), `pop_back` removes *some* entry.
* The OpenMP team: the expansion loop (`omp for`) only reads `g`, so each center's updates are a
  function of the old `g`; the `omp critical` sections of the threads run in some order.  The model
  allows *every permutation* of the resulting single actions, which includes every partition of the
  centers among threads and every order of the critical sections.
* `better`/`cost_estim_min` are written by several threads without synchronisation (a data race in the
  C++ sense, grid_astar.h:309-313); the model lets `better` become any center or keep its value. Torn
  values are not modelled.
* The wall clock only decides when the progress callback runs; the callback may abort in any round.
-/
set_option linter.unusedVariables false

namespace Verif.Astar

/-- What is assumed of `float` in the search. `top` is `numeric_limits<float>::max()` (value of a cell
not reached yet), `neg1` is the `-1` stored for finished cells. -/
class CostType (C : Type) extends LinearOrder C, Add C, Zero C where
  top : C
  neg1 : C
  neg1_lt_zero : neg1 < (0 : C)
  le_add : ∀ c w : C, 0 ≤ w → c ≤ c + w

/-- The search problem given to `searchImpl` (grid_astar.h:185-193) after normalisation of the starts
and the goal. -/
structure Prob (V C : Type) where
  /-- `searchGrids` shifted to `p`, `cycleUnsigned`, `isExceeded` filter (315-323). -/
  nexts : V → List V
  /-- `model->costEstim(·, e)` -/
  estim : V → C
  /-- `model->cost(·, ·, ss_normalized, e)` -/
  cost : V → V → C
  /-- normalised starts with their initial costs -/
  starts : List (V × C)
  /-- `const int cost_estim = model->costEstim(s, e)`, truncated to `int` (219) -/
  startEstim : V → C
  /-- normalised goal `e` (200-201) -/
  goal : V
  /-- `center.p_ - center.p_raw_ < cost_leave` as a function of `p_` and `p_raw_` (264) -/
  leave : C → C → Bool
  /-- `search_task_num_` -/
  tasks : Nat
  /-- `queue_size_limit_` -/
  limit : Nat

/-- `PriorityVec`, grid_astar.h:78-96. -/
structure Ent (V C : Type) where
  p : C
  raw : C
  v : V

/-- `GridmapUpdate`, grid_astar.h:97-131. -/
structure Upd (V C : Type) where
  p0 : V
  p1 : V
  estim : C
  cost : C

/-- Things done in the critical section (350-366): apply an update, or finish a cell. -/
inductive Act (V C : Type) where
  | upd (u : Upd V C)
  | dont (p : V)

variable {V C : Type} [DecidableEq V]

/-! `std::unordered_map<Vec, Vec, Vec> parents_` as an association list without duplicate keys. -/

def plookup : List (V × V) → V → Option V
  | [], _ => none
  | (a, b) :: t, k => if a = k then some b else plookup t k

def perase (l : List (V × V)) (k : V) : List (V × V) := l.filter (fun e => e.1 ≠ k)

def pinsert (l : List (V × V)) (k v : V) : List (V × V) := (k, v) :: perase l k

theorem perase_length_lt {l : List (V × V)} {k v : V} (h : plookup l k = some v) :
    (perase l k).length < l.length := by
  induction l with
  | nil => simp [plookup] at h
  | cons e t ih =>
    obtain ⟨a, b⟩ := e
    unfold plookup at h
    split at h
    · rename_i hk
      subst hk
      simp only [perase, ne_eq, decide_not, List.filter_cons, decide_true, Bool.not_true,
        Bool.false_eq_true, if_false, List.length_cons]
      exact Nat.lt_succ_of_le (List.length_filter_le _ _)
    · rename_i hk
      have := ih h
      simp only [perase, ne_eq, decide_not] at this ⊢
      simp [hk, this]

/-- `findPath`, grid_astar.h:385-412.  Returns the boolean result and the path.  `ss` are the start
cells, `parents` the local copy that is consumed; terminates because each round erases one entry. -/
def findPath (ss : List V) (parents : List (V × V)) (n : V) (path : List V) : Bool × List V :=
  if n ∈ ss then (true, n :: path)
  else match h : plookup parents n with
    | none => (false, n :: path)
    | some m => findPath ss (perase parents n) m (n :: path)
termination_by parents.length
decreasing_by exact perase_length_lt h

/-- Search state at the head of the `while (true)` loop (248).  `gh` is a ghost copy of `g` that ignores
the `-1` marks; nothing reads it. -/
structure St (V C : Type) where
  g : V → C
  par : List (V × V)
  open_ : List (Ent V C)
  better : V
  gh : V → C

def setF {β : Type} (f : V → β) (k : V) (b : β) : V → β := fun x => if x = k then b else f x

variable [CostType C]

/-- Initialisation, grid_astar.h:202-226 (every start writes `g`, and is pushed). -/
def init (P : Prob V C) (better : V) : St V C :=
  let g0 := P.starts.foldl (fun g s => setF g s.1 s.2) (fun _ => CostType.top)
  { g := g0, gh := g0, par := [], better := better,
    open_ := P.starts.map fun s => ⟨P.startEstim s.1 + s.2, s.2, s.1⟩ }

/-- `cost < 0 || cost == numeric_limits<float>::max()` is the rejection test (332, 336). -/
def rejected (c : C) : Prop := c < 0 ∨ c = CostType.top

instance (c : C) : Decidable (rejected c) := by unfold rejected; infer_instance

/-- Body of the loop over the search list, grid_astar.h:320-345, for the cell `p` popped with raw cost
`c` when the map holds `g`. -/
def expandOne (P : Prob V C) (g : V → C) (p : V) (c : C) (next : V) : Option (Upd V C) :=
  if g next < g p then none
  else if rejected (P.estim next) then none
  else if rejected (P.cost p next) then none
  else if g next > c + P.cost p next then
    some ⟨p, next, c + P.cost p next + P.estim next, c + P.cost p next⟩
  else none

/-- Expansion of one center, grid_astar.h:302-347: nothing when stale (`c > gp`), otherwise its
updates, or a `dont` mark when there are none. -/
def expand (P : Prob V C) (g : V → C) (e : Ent V C) : List (Act V C) :=
  if e.raw > g e.v then []
  else
    let us := (P.nexts e.v).filterMap (expandOne P g e.v e.raw)
    if us.isEmpty then [.dont e.v] else us.map .upd

/-- One action of the critical section, grid_astar.h:352-366. -/
inductive ActRel (limit : Nat) : St V C → Act V C → St V C → Prop
  /-- `g[pos] > cost` fails -/
  | skip (s u) (h : ¬ s.g u.p1 > u.cost) : ActRel limit s (.upd u) s
  /-- update and push, queue not above its limit -/
  | push (s : St V C) (u) (h : s.g u.p1 > u.cost) (hl : limit = 0 ∨ s.open_.length + 1 ≤ limit) :
      ActRel limit s (.upd u)
        { s with g := setF s.g u.p1 u.cost, gh := setF s.gh u.p1 u.cost,
                 par := pinsert s.par u.p1 u.p0, open_ := ⟨u.estim, u.cost, u.p1⟩ :: s.open_ }
  /-- update, push, and `pop_back` removes some entry `x` -/
  | pushDrop (s : St V C) (u) (x : Ent V C) (rest : List (Ent V C)) (h : s.g u.p1 > u.cost)
      (hl : 0 < limit ∧ limit < s.open_.length + 1)
      (hx : List.Perm (⟨u.estim, u.cost, u.p1⟩ :: s.open_) (x :: rest)) :
      ActRel limit s (.upd u)
        { s with g := setF s.g u.p1 u.cost, gh := setF s.gh u.p1 u.cost,
                 par := pinsert s.par u.p1 u.p0, open_ := rest }
  | dont (s : St V C) (p) : ActRel limit s (.dont p) { s with g := setF s.g p CostType.neg1 }

/-- A sequence of actions. -/
inductive ActsRel (limit : Nat) : St V C → List (Act V C) → St V C → Prop
  | nil (s) : ActsRel limit s [] s
  | cons {s s' s'' a as} : ActRel limit s a s' → ActsRel limit s' as s'' → ActsRel limit s (a :: as) s''

/-- `center.v_ == e || center.p_ - center.p_raw_ < cost_leave`, grid_astar.h:264. -/
def hits (P : Prob V C) (e : Ent V C) : Prop := e.v = P.goal ∨ P.leave e.p e.raw = true

/-- Fetching tasks, grid_astar.h:257-272: at most `n` further pops; yields the centers, the remaining
open list and the entry that ended the search, if any. -/
inductive Collect (P : Prob V C) : Nat → List (Ent V C) → List (Ent V C) → List (Ent V C) →
    Option (Ent V C) → Prop
  | full (o) : Collect P 0 o [] o none
  | empty (n) : Collect P (n + 1) [] [] [] none
  | hit (n o e rest) (hp : List.Perm o (e :: rest)) (hmin : ∀ x ∈ o, e.p ≤ x.p) (hh : hits P e) :
      Collect P (n + 1) o [] rest (some e)
  | take {n o e rest cs o' r} (hp : List.Perm o (e :: rest)) (hmin : ∀ x ∈ o, e.p ≤ x.p)
      (hh : ¬ hits P e) (hc : Collect P n rest cs o' r) : Collect P (n + 1) o (e :: cs) o' r

/-- One full round (grid_astar.h:250-370) that does not end the search. -/
inductive Round (P : Prob V C) : St V C → St V C → Prop
  | mk {s cs o' b acts s'} (hc : Collect P P.tasks s.open_ cs o' none) (hne : cs ≠ [])
      (hp : List.Perm acts (cs.flatMap (expand P s.g)))
      (hb : b = s.better ∨ ∃ e ∈ cs, b = e.v)
      (ha : ActsRel P.limit { s with open_ := o', better := b } acts s') : Round P s s'

/-- States at the loop head reachable by any schedule. -/
inductive Reach (P : Prob V C) : St V C → Prop
  | init (b) (hb : b ∈ P.starts.map Prod.fst) : Reach P (init P b)
  | round {s s'} : Reach P s → Round P s s' → Reach P s'

/-- How the loop ends (grid_astar.h:294: `centers.size() < 1 || found || abort`). -/
inductive Fin (V : Type) where
  /-- goal (or a cell within the leave cost) was taken -/
  | found (e : V)
  /-- nothing left to expand -/
  | exhausted
  /-- the progress callback returned false -/
  | aborted

/-- Final states. -/
inductive Final (P : Prob V C) : St V C → Fin V → Prop
  | found {s cs o' e} (hr : Reach P s) (hc : Collect P P.tasks s.open_ cs o' (some e)) :
      Final P { s with open_ := o' } (.found e.v)
  | exhausted {s o'} (hr : Reach P s) (hc : Collect P P.tasks s.open_ [] o' none) :
      Final P { s with open_ := o' } .exhausted
  | aborted {s cs o'} (hr : Reach P s) (hc : Collect P P.tasks s.open_ cs o' none) :
      Final P { s with open_ := o' } .aborted

/-- Result of `searchImpl` (grid_astar.h:374-383): boolean and path, given `return_best`. -/
def result (P : Prob V C) (s : St V C) (f : Fin V) (returnBest : Bool) : Bool × List V :=
  match f with
  | .found e => findPath (P.starts.map Prod.fst) s.par e []
  | _ => if returnBest then (false, (findPath (P.starts.map Prod.fst) s.par s.better []).2)
         else (false, [])

end Verif.Astar
