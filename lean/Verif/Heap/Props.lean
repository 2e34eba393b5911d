import Verif.Heap.Spec
import Mathlib.Data.List.Basic
import Mathlib.Order.Defs.LinearOrder
import Mathlib.Data.Nat.Basic
import Mathlib.Algebra.Order.Group.Nat

/-! # C04: the open list -/
namespace Verif.Heap
open Spec

variable {K A : Type} [LinearOrder K]

theorem heap_head {l : List (Elem K A)} (h : IsHeap l) :
    ∀ i (hi : i < l.length), (l[0]'(by omega)).p ≤ l[i].p := by
  intro i
  induction i using Nat.strong_induction_on with
  | _ i ih =>
    intro hi
    cases i with
    | zero => exact le_refl _
    | succ i =>
      have h1 := h i hi
      unfold lt at h1
      exact le_trans (ih (i / 2) (by omega) (by omega)) (not_lt.mp h1)

theorem heap_dropLast {l : List (Elem K A)} (h : IsHeap l) : IsHeap l.dropLast := by
  intro i hi
  simp only [List.length_dropLast] at hi
  have := h i (by omega)
  simpa using this

theorem step_heap {l l' : List (Elem K A)} {op : Op K A} (hl : IsHeap l) (h : Step l op l') : IsHeap l' := by
  cases h with
  | push _ hh => exact hh
  | pop _ hh => exact hh
  | popBack _ => exact heap_dropLast hl
  | clear => intro i hi; simp at hi

theorem run_heap {ops : List (Op K A)} {l : List (Elem K A)} (h : Run ops l) : IsHeap l := by
  induction h with
  | nil => intro i hi; simp at hi
  | snoc _ hs ih => exact step_heap ih hs

/-- C04: after any history, the entry offered by `top` is at least as good as every stored entry. -/
theorem top_is_best {ops : List (Op K A)} {l : List (Elem K A)} (h : Run ops l) {m : Elem K A}
    (hm : top l = some m) : BestOf m l := by
  have hh := run_heap h
  cases l with
  | nil => simp [top] at hm
  | cons x t =>
    simp only [top, List.head?_cons, Option.some.injEq] at hm
    subst hm
    refine ⟨List.mem_cons_self, fun y hy => ?_⟩
    obtain ⟨i, hi, rfl⟩ := List.mem_iff_getElem.mp hy
    exact heap_head hh i hi

/-- C04: every history of the queue is a history of the bag: nothing is invented, duplicated or
lost, `pop` takes a best entry, and `pop_back` on two or more entries leaves a best one. -/
theorem queue_refines_bag {ops : List (Op K A)} {l : List (Elem K A)} (h : Run ops l) : BagRun ops l := by
  induction h with
  | nil => exact .nil
  | @snoc ops l op l' hr hs ih =>
    refine .snoc ih ?_
    cases hs with
    | push hp _ => exact .push hp
    | @pop x t _ hp _ => exact .pop (m := x) (hp.symm.cons x) (top_is_best hr rfl)
    | popBack hne =>
      refine .popBack (d := l.getLast hne) ?_ ?_
      · conv => lhs; rw [← List.dropLast_append_getLast hne]
        exact List.perm_append_singleton _ _
      · intro h2
        cases l with
        | nil => exact absurd rfl hne
        | cons x t =>
          cases t with
          | nil => simp at h2
          | cons y t => exact ⟨x, by simp [List.dropLast], top_is_best hr rfl⟩
    | clear => exact .clear

/-- C04: dropping the last of two or more entries does not change the entry offered. -/
theorem popBack_keeps_top {l l' : List (Elem K A)} (hs : Step l .popBack l')
    (h2 : 2 ≤ l.length) : top l' = top l := by
  cases hs with
  | popBack hne =>
    match l, h2 with
    | x :: y :: t, _ => simp [top, List.dropLast]

/-- Memory-limit corner case: with a single stored entry `pop_back` empties the queue, so a limit below the number of
simultaneously open entries can evict the only one. -/
theorem popBack_single (x : Elem K A) : Step [x] .popBack [] := .popBack (by simp)

/-- Non-vacuity: a run with pushes out of order, a pop and a drop. -/
example : Run (K := Nat) (A := Unit)
    [.push ⟨5, ()⟩, .push ⟨2, ()⟩, .push ⟨9, ()⟩, .pop, .push ⟨1, ()⟩, .popBack]
    [⟨1, ()⟩, ⟨9, ()⟩] := by
  have two : ∀ a b : Nat, a ≤ b → IsHeap ([⟨a, ()⟩, ⟨b, ()⟩] : List (Elem Nat Unit)) := by
    intro a b h i hi
    have : i = 0 := by simp at hi; omega
    subst this
    simp [lt]; omega
  have three : ∀ a b c : Nat, a ≤ b → a ≤ c →
      IsHeap ([⟨a, ()⟩, ⟨b, ()⟩, ⟨c, ()⟩] : List (Elem Nat Unit)) := by
    intro a b c h h' i hi
    have : i = 0 ∨ i = 1 := by simp at hi; omega
    rcases this with rfl | rfl <;> simp [lt] <;> omega
  have r1 : Run (K := Nat) [.push ⟨5, ()⟩] [⟨5, ()⟩] := .snoc (ops := []) .nil
    (.push (List.Perm.refl _) (by intro i hi; simp at hi))
  have r2 : Run (K := Nat) [.push ⟨5, ()⟩, .push ⟨2, ()⟩] [⟨2, ()⟩, ⟨5, ()⟩] := .snoc r1
    (.push (List.Perm.refl _) (two 2 5 (by omega)))
  have r3 : Run (K := Nat) [.push ⟨5, ()⟩, .push ⟨2, ()⟩, .push ⟨9, ()⟩] [⟨2, ()⟩, ⟨5, ()⟩, ⟨9, ()⟩] :=
    .snoc r2 (.push ((List.perm_append_singleton (⟨9, ()⟩ : Elem Nat Unit) [⟨2, ()⟩, ⟨5, ()⟩]))
      (three 2 5 9 (by omega) (by omega)))
  have r4 : Run (K := Nat) [.push ⟨5, ()⟩, .push ⟨2, ()⟩, .push ⟨9, ()⟩, .pop] [⟨5, ()⟩, ⟨9, ()⟩] :=
    .snoc r3 (.pop (List.Perm.refl _) (two 5 9 (by omega)))
  have r5 : Run (K := Nat) [.push ⟨5, ()⟩, .push ⟨2, ()⟩, .push ⟨9, ()⟩, .pop, .push ⟨1, ()⟩]
      [⟨1, ()⟩, ⟨9, ()⟩, ⟨5, ()⟩] :=
    .snoc r4 (.push (.cons _ (List.Perm.swap _ _ _)) (three 1 9 5 (by omega) (by omega)))
  exact .snoc r5 (.popBack (by simp))

end Verif.Heap
