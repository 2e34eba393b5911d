import Verif.Heap.Model
/-!
# Specification: a bag of entries from which a best one is taken

Refers only to bags (lists up to permutation) and priorities.
-/
namespace Verif.Heap.Spec
open Verif.Heap

variable {K A : Type} [LinearOrder K]

/-- `m` is at least as good as everything in the bag. -/
def BestOf (m : Elem K A) (bag : List (Elem K A)) : Prop := m ∈ bag ∧ ∀ y ∈ bag, m.p ≤ y.p

/-- Bag semantics of the operations.  Dropping from a bag of two or more entries must leave an entry as
good as everything that was there. -/
inductive BagStep : List (Elem K A) → Op K A → List (Elem K A) → Prop
  | push {b x b'} : b'.Perm (x :: b) → BagStep b (.push x) b'
  | pop {b m b'} : b.Perm (m :: b') → BestOf m b → BagStep b .pop b'
  | popBack {b d b'} : b.Perm (d :: b') → (2 ≤ b.length → ∃ m ∈ b', BestOf m b) → BagStep b .popBack b'
  | clear {b} : BagStep b .clear []

/-- Bag runs. -/
inductive BagRun : List (Op K A) → List (Elem K A) → Prop
  | nil : BagRun [] []
  | snoc {ops l op l'} : BagRun ops l → BagStep l op l' → BagRun (ops ++ [op]) l'

end Verif.Heap.Spec
