import Mathlib.Order.Defs.LinearOrder
/-!
# Model of the open list (`planner_cspace/include/planner_cspace/reservable_priority_queue.h`)

`reservable_priority_queue<T>` is `std::priority_queue<T>` over a `std::vector`, with the additional
`clear` and `pop_back` that act on the underlying vector.  `std::push_heap` / `std::pop_heap` are modelled by
their contract in the C++ standard (any implementation meeting it), not by libstdc++'s code:

* `push`: the vector becomes *some* heap-ordered permutation of the old content plus the new element;
* `pop` (on a non-empty queue): the first element is removed and the rest becomes *some* heap-ordered
  permutation of the other elements.

`pop_back` and `clear` are exactly `vector::pop_back`/`vector::clear`.  `pop`/`pop_back` on an empty
queue are undefined behaviour and have no transition.
-/
namespace Verif.Heap

/-- Element: a priority (`PriorityVec::p_`, grid_astar.h:81) and a payload. -/
structure Elem (K A : Type) where
  p : K
  a : A

variable {K A : Type} [LinearOrder K]

/-- `PriorityVec::operator<` (grid_astar.h:91-95): `p_ > b.p_`, i.e. smaller values come first. -/
def lt (x y : Elem K A) : Prop := x.p > y.p

/-- `std::is_heap` for the vector and `operator<`: no element is ordered after its parent; the parent of index
`i+1` is index `i/2`. -/
def IsHeap (l : List (Elem K A)) : Prop :=
  ∀ i (h : i + 1 < l.length), ¬ lt (l[i / 2]'(by omega)) l[i + 1]

/-- The operations used by the search (grid_astar.h:203, 220, 263, 358, 360). -/
inductive Op (K A : Type) where
  | push (x : Elem K A)
  | pop
  | popBack
  | clear

/-- One operation on the vector. -/
inductive Step : List (Elem K A) → Op K A → List (Elem K A) → Prop
  | push {l x l'} (hp : l'.Perm (x :: l)) (hh : IsHeap l') : Step l (.push x) l'
  | pop {x t l'} (hp : l'.Perm t) (hh : IsHeap l') : Step (x :: t) .pop l'
  | popBack {l} (hne : l ≠ []) : Step l .popBack l.dropLast
  | clear {l} : Step l .clear []

/-- Runs starting from the empty queue. -/
inductive Run : List (Op K A) → List (Elem K A) → Prop
  | nil : Run [] []
  | snoc {ops l op l'} : Run ops l → Step l op l' → Run (ops ++ [op]) l'

/-- `top()`: the first element of the vector. -/
def top (l : List (Elem K A)) : Option (Elem K A) := l.head?

end Verif.Heap
