import Verif.DistMap.Model
import Mathlib.Logic.Relation
/-! # Specification: routes to the goal -/
namespace Verif.DistMap.Spec
open Verif.DistMap
open Verif.Astar (CostType)

variable {V C : Type} [CostType C]

/-- A permitted step: offered, and no checked cell is lethal; `w` is its cost. -/
def Step (E : Env V C) (p x : V) (w : C) : Prop := ∃ eu, ⟨x, eu, some w⟩ ∈ E.nexts p

/-- `Route E goal v c`: an actual chain of permitted steps connects `v` with the goal, with
total cost `c` (the goal counts `E.base`). -/
inductive Route (E : Env V C) (goal : V) : V → C → Prop
  | goal : Route E goal goal E.base
  | step {p x c w} : Route E goal p c → Step E p x w → Route E goal x (c + w)

/-- `v` is connected with the goal by permitted steps. -/
inductive Connected (E : Env V C) (goal : V) : V → Prop
  | goal : Connected E goal goal
  | step {p x w} : Connected E goal p → Step E p x w → Connected E goal x

/-- Assumptions on the step costs: not negative, at least the straight-line cost, and the order laws of
(rounded) addition. -/
structure Laws (E : Env V C) : Prop where
  nonneg : ∀ p d w, d ∈ E.nexts p → d.cost = some w → (0 : C) ≤ w ∧ d.euclid ≤ w
  mono_left : ∀ a b w : C, a ≤ b → a + w ≤ b + w
  mono_right : ∀ a b w : C, a ≤ b → w + a ≤ w + b
  /-- the range test: a larger value or a smaller start value is cut as well -/
  cut_mono : ∀ a b s t : C, a ≤ b → t ≤ s → E.cut a s = true → E.cut b t = true

/-- Further laws: a loop back to the goal costs at least half a cell, steps stay in the map. -/
structure Laws2 (E : Env V C) (goal : V) : Prop extends Laws E where
  base_le : E.base ≤ 0
  back : ∀ p x w, Step E p x w → (0 : C) ≤ E.base + w
  top0 : (0 : C) < CostType.top
  inMap : ∀ p d, d ∈ E.nexts p → E.inMap d.next = true
  /-- the range test never cuts a value not above the start's -/
  cut_self : ∀ a s : C, a ≤ s → E.cut a s = false

/-- What an exact distance map means: away from the goal the stored value is the cost of a route and no
route is cheaper. -/
def ExactAt (E : Env V C) (goal : V) (g : V → C) (v : V) : Prop :=
  Route E goal v (g v) ∧ ∀ c, Route E goal v c → g v ≤ c

variable [DecidableEq V]

/-- The states a distance map for goal `e` can be in after one `create` and any number of `update`
calls with an empty rectangle (no change) and arbitrary starts inside the map; `s` is the last start. -/
inductive Hist (E : Env V C) (cells : List V) (e : V) : V → DM V C → Prop
  | create {s m m'} (hs : E.inMap s = true) (he : E.inMap e = true) (h : Create E s e m m') :
      Hist E cells e s m'
  | update {s0 s m m'} (hh : Hist E cells e s0 m) (hs : E.inMap s = true) (he : E.inMap e = true)
      (h : Update E cells s e [] m m') : Hist E cells e s m'

/-- The value of `v` is below all values of the changed rectangle. -/
def Below (m : DM V C) (rect : List V) (v : V) : Prop := m.g v < CostType.top ∧ ∀ r ∈ rect, m.g v < m.g r

/-- `b` is reached from `a` over direct neighbours with a value that is not below the rectangle. -/
def Linked (E : Env V C) (m : DM V C) (rect : List V) : V → V → Prop :=
  Relation.ReflTransGen fun a b => b ∈ E.neigh4 a ∧ m.g b < CostType.top ∧ ¬ Below m rect b

/-- The change from `E` to `E'` is seen through the rectangle: the steps among cells below the rectangle are as before, and the cells that
are not below it form one region (together with that of the start), so that the erasing flood finds them. -/
structure Confined (E E' : Env V C) (m : DM V C) (s e : V) (rect : List V) : Prop where
  base : E'.base = E.base
  clear : ∀ p x w, (p = e ∨ Below m rect p) → (x = e ∨ Below m rect x) → Step E p x w → Step E' p x w
  linked : ∀ v, m.g v < CostType.top → ¬ Below m rect v →
    (∀ r ∈ rect, (∀ r' ∈ rect, m.g r ≤ m.g r') → Linked E' m rect r v) ∨
    (m.g s < CostType.top ∧ (∃ r ∈ rect, m.g r < m.g s) ∧ Linked E' m rect s v)

/-- The states of a distance map for goal `e` after one `create` and any number of changes of the map, each followed by an `update` with a
rectangle through which the change is seen. -/
inductive Changes (cells : List V) (e : V) : Env V C → DM V C → Prop
  | create {E s m m'} (L : Laws2 E e) (hs : E.inMap s = true) (he : E.inMap e = true) (h : Create E s e m m') :
      Changes cells e E m'
  | update {E E' s rect m m'} (hh : Changes cells e E m) (L : Laws2 E' e) (hs : E'.inMap s = true) (he : E'.inMap e = true)
      (hc : Confined E E' m s e rect) (h : Update E' cells s e rect m m') : Changes cells e E' m'

/-- `v` is connected with the goal over cells with a common side, by permitted steps. -/
inductive SideConnected (E : Env V C) (goal : V) : V → Prop
  | goal : SideConnected E goal goal
  | step {p x w} : SideConnected E goal p → x ∈ E.neigh4 p → Step E p x w → SideConnected E goal x

/-- What the maps of a history have in common, whatever their costs: `nb` are the neighbours over a side, each of them is offered as a step (free or
blocked), being a neighbour is symmetric, and no sum of a value and the cost of a step reaches the value that means "unknown" (`float`
sums do not reach `FLT_MAX`: a value close to it is not changed by adding the cost of a step). -/
structure Sides (E : Env V C) (nb : V → List V) (cells : List V) : Prop where
  neigh : E.neigh4 = nb
  symm : ∀ p x, E.inMap p = true → x ∈ nb p → p ∈ nb x
  offered : ∀ p x, x ∈ nb p → ∃ d ∈ E.nexts p, d.next = x
  fin : ∀ p d w, d ∈ E.nexts p → d.cost = some w → ∀ a < (CostType.top : C), a + w < CostType.top
  finEu : ∀ p d, d ∈ E.nexts p → ∀ a < (CostType.top : C), a + d.euclid < CostType.top
  tasks : 0 < E.tasks
  cells : ∀ v, E.inMap v = true → v ∈ cells

/-- The states of a distance map after a `create` and any number of changes of the map, each followed by an `update` with an arbitrary rectangle and an
arbitrary goal inside the map; `E` is the last map, `s` the last start and `e` the last goal.  A start outside of the map is allowed
as long as the goal stays the same. -/
inductive Uses (nb : V → List V) (cells : List V) : Env V C → V → V → DM V C → Prop
  | create {E s e m m'} (L : Laws2 E e) (S : Sides E nb cells) (hs : E.inMap s = true) (he : E.inMap e = true) (h : Create E s e m m') : Uses nb cells E s e m'
  | update {E E' s0 s e0 e rect m m'} (hh : Uses nb cells E s0 e0 m) (L : Laws2 E' e) (S : Sides E' nb cells) (hs : E'.inMap s = true ∨ e = e0)
      (he : E'.inMap e = true) (hm : E'.inMap = E.inMap) (h : Update E' cells s e rect m m') : Uses nb cells E' s e m'

end Verif.DistMap.Spec
