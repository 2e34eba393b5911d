import Verif.LocalMap.Spec
import Mathlib.Tactic.Ring
import Mathlib.Tactic.Linarith
import Mathlib.Tactic.Positivity
import Mathlib.Tactic.NormNum
import Mathlib.Algebra.Order.Field.Rat
import Mathlib.Data.Rat.Floor
/-! # Properties of accumulated clouds and local maps (C30, C32, C80) -/
set_option linter.unusedSectionVars false
namespace Verif.LocalMap
open Spec

/-! ### C30: the accumulator -/

theorem sweep_kept {α : Type} (hold now : Int) : ∀ (n : Nat) (l kept : List (Stamped α)), l.length ≤ n →
    sweep hold now kept l = (sweep hold now [] l).map (kept ++ ·) := by
  intro n
  induction n with
  | zero =>
    intro l kept h
    have : l = [] := List.length_eq_zero_iff.1 (by omega)
    subst this
    simp [sweep]
  | succ n ih =>
    intro l kept h
    match l with
    | [] => simp [sweep]
    | [p] =>
      by_cases hp : expired hold now p = true <;> simp [sweep, hp]
    | p :: q :: qs =>
      by_cases hp : expired hold now p = true
      · simp only [sweep, hp, if_true]
        simp only [List.length_cons] at h
        rw [ih qs (kept ++ [q]) (by omega), ih qs ([] ++ [q]) (by omega), Option.map_map]
        congr 1
        funext x
        simp
      · simp [sweep, hp]

theorem sweep_two {α : Type} (hold now : Int) (p q : Stamped α) (l : List (Stamped α)) (hp : expired hold now p = true) :
    sweep hold now [] (p :: q :: l) = (sweep hold now [] l).map (q :: ·) := by
  simp only [sweep, hp, if_true]
  rw [sweep_kept hold now l.length l ([] ++ [q]) (le_refl _)]
  rfl

theorem sweep_fresh {α : Type} (hold now : Int) (l : List (Stamped α)) (hl : ∀ p ∈ l, expired hold now p = false) :
    sweep hold now [] l = some l := by
  cases l with
  | nil => simp [sweep]
  | cons p ps =>
    have hp := hl p (List.mem_cons_self ..)
    cases ps <;> simp [sweep, hp]

/-- **C30** (what the code does).  When the clouds to be forgotten are the oldest ones, only every other one of them is
removed; and when nothing else is stored and their number is odd, the behaviour is undefined. -/
theorem push_spec {α : Type} (hold : Int) (p : Stamped α) : ∀ (n : Nat) (old fresh : List (Stamped α)), old.length ≤ n →
    (∀ q ∈ old, q.stamp + hold < p.stamp) → (∀ q ∈ fresh, p.stamp ≤ q.stamp + hold) →
    push hold (old ++ fresh) p =
      if fresh = [] ∧ old.length % 2 = 1 then none else some (everySecond old ++ fresh ++ [p]) := by
  intro n
  induction n with
  | zero =>
    intro old fresh h _ hf
    have : old = [] := List.length_eq_zero_iff.1 (by omega)
    subst this
    have := sweep_fresh hold p.stamp fresh (fun q hq => by simpa [expired] using hf q hq)
    simp [push, this, everySecond]
  | succ n ih =>
    intro old fresh h ho hf
    match old with
    | [] =>
      have := sweep_fresh hold p.stamp fresh (fun q hq => by simpa [expired] using hf q hq)
      simp [push, this, everySecond]
    | [a] =>
      have ha : expired hold p.stamp a = true := by simpa [expired] using ho a (by simp)
      cases fresh with
      | nil => simp [push, sweep, ha]
      | cons b bs =>
        have := sweep_fresh hold p.stamp bs (fun q hq => by simpa [expired] using hf q (List.mem_cons_of_mem _ hq))
        simp [push, sweep_two hold p.stamp a b bs ha, this, everySecond]
    | a :: b :: old =>
      have ha : expired hold p.stamp a = true := by simpa [expired] using ho a (by simp)
      have ih := ih old fresh (by simp only [List.length_cons] at h; omega) (fun q hq => ho q (by simp [hq])) hf
      have e : push hold (a :: b :: old ++ fresh) p = (push hold (old ++ fresh) p).map (b :: ·) := by
        simp only [push, List.cons_append, sweep_two hold p.stamp a b _ ha, Option.map_map]
        congr 1
      rw [e, ih]
      have hlen : (a :: b :: old).length % 2 = old.length % 2 := by simp only [List.length_cons]; omega
      rw [hlen]
      by_cases hc : fresh = [] ∧ old.length % 2 = 1
      · simp [hc]
      · rw [if_neg hc, if_neg hc]
        simp [everySecond]

/-- **C30** (partial): when at most the oldest stored cloud has expired, and it is not the only one, exactly the clouds
within the hold time and the new one remain, in order.  Missing: several clouds expiring at once
(`push_leaves_stale`) and all of them expiring (`push_undefined`). -/
theorem push_exact_partial {α : Type} (hold : Int) (p : Stamped α) (old fresh : List (Stamped α))
    (hn : old = [] ∨ (old.length = 1 ∧ fresh ≠ []))
    (ho : ∀ q ∈ old, q.stamp + hold < p.stamp) (hf : ∀ q ∈ fresh, p.stamp ≤ q.stamp + hold) :
    push hold (old ++ fresh) p = some (remembered hold (old ++ fresh) p) := by
  have h1 : old.filter (fun q => decide (p.stamp ≤ q.stamp + hold)) = [] := by
    rw [List.filter_eq_nil_iff]
    intro q hq
    simpa using ho q hq
  have h2 : fresh.filter (fun q => decide (p.stamp ≤ q.stamp + hold)) = fresh := by
    rw [List.filter_eq_self]
    intro q hq
    simpa using hf q hq
  rw [push_spec hold p old.length old fresh (le_refl _) ho hf]
  unfold remembered
  rw [List.filter_append, h1, h2]
  rcases hn with rfl | ⟨h, h'⟩
  · simp [everySecond]
  · rw [if_neg (by simp [h'])]
    match old, h with
    | [a], _ => simp [everySecond]

/-- **C30** (defect): of two clouds that have expired the younger one stays. -/
theorem push_leaves_stale {α : Type} (hold : Int) (a b c p : Stamped α) (ha : a.stamp + hold < p.stamp)
    (hb : b.stamp + hold < p.stamp) (hc : p.stamp ≤ c.stamp + hold) :
    push hold [a, b, c] p = some [b, c, p] := by
  have := push_spec hold p 2 [a, b] [c] (by simp) (by simp [ha, hb]) (by simp [hc])
  simpa [everySecond] using this

/-- **C30** (defect): the behaviour is undefined exactly when an odd number of clouds is stored and the first, third,
… and last of them have expired. -/
theorem push_undefined {α : Type} (hold : Int) (p : Stamped α) : ∀ (n : Nat) (l : List (Stamped α)), l.length ≤ n →
    (push hold l p = none ↔
      l.length % 2 = 1 ∧ ∀ i (hi : i < l.length), i % 2 = 0 → (l[i]'hi).stamp + hold < p.stamp) := by
  intro n
  induction n with
  | zero =>
    intro l h
    have : l = [] := List.length_eq_zero_iff.1 (by omega)
    subst this
    simp [push, sweep]
  | succ n ih =>
    intro l h
    match l with
    | [] => simp [push, sweep]
    | [a] =>
      by_cases ha : expired hold p.stamp a = true
      · have : a.stamp + hold < p.stamp := by simpa [expired] using ha
        simp [push, sweep, ha, this]
      · have : ¬ (a.stamp + hold < p.stamp) := by simpa [expired] using ha
        simp [push, sweep, ha, not_lt.1 this]
    | a :: b :: l =>
      by_cases ha : expired hold p.stamp a = true
      · have ha' : a.stamp + hold < p.stamp := by simpa [expired] using ha
        have e : push hold (a :: b :: l) p = (push hold l p).map (b :: ·) := by
          simp only [push, sweep_two hold p.stamp a b _ ha, Option.map_map]
          congr 1
        rw [e, Option.map_eq_none_iff, ih l (by simp only [List.length_cons] at h; omega)]
        constructor
        · rintro ⟨h1, h2⟩
          refine ⟨by simp only [List.length_cons]; omega, ?_⟩
          intro i hi h0
          match i with
          | 0 => exact ha'
          | 1 => omega
          | i + 2 => exact h2 i (by simp only [List.length_cons] at hi; omega) (by omega)
        · rintro ⟨h1, h2⟩
          refine ⟨by simp only [List.length_cons] at h1; omega, ?_⟩
          intro i hi h0
          exact h2 (i + 2) (by simp only [List.length_cons]; omega) (by omega)
      · have ha' : ¬ (a.stamp + hold < p.stamp) := by simpa [expired] using ha
        constructor
        · intro hx
          simp [push, sweep, ha] at hx
        · rintro ⟨-, h2⟩
          exact absurd (h2 0 (by simp) rfl) ha'

/-- **C30** (defect): the accumulator for single shots holds nothing, so the second single shot is undefined. -/
theorem singleshot_undefined {α : Type} (a p : Stamped α) (h : a.stamp < p.stamp) : push 0 [a] p = none := by
  rw [push_undefined 0 p 1 [a] (by simp)]
  refine ⟨by simp, ?_⟩
  intro i hi _
  have : i = 0 := by simpa using hi
  subst this
  simpa using h

/-- **C30**: no cloud within the hold time is ever lost, nothing is invented, and the order is kept, whatever the stamps. -/
theorem push_keeps {α : Type} (hold : Int) (p : Stamped α) : ∀ (n : Nat) (l l' : List (Stamped α)), l.length ≤ n →
    push hold l p = some l' → (remembered hold l p).Sublist l' ∧ l'.Sublist (l ++ [p]) := by
  intro n
  induction n with
  | zero =>
    intro l l' h hp
    have : l = [] := List.length_eq_zero_iff.1 (by omega)
    subst this
    simp [push, sweep] at hp
    subst hp
    exact ⟨by simp [remembered], by simp⟩
  | succ n ih =>
    intro l l' h hp
    match l with
    | [] =>
      simp [push, sweep] at hp
      subst hp
      exact ⟨by simp [remembered], by simp⟩
    | [a] =>
      by_cases ha : expired hold p.stamp a = true
      · simp [push, sweep, ha] at hp
      · simp [push, sweep, ha] at hp
        subst hp
        exact ⟨List.Sublist.append List.filter_sublist (List.Sublist.refl _), List.Sublist.refl _⟩
    | a :: b :: l =>
      by_cases ha : expired hold p.stamp a = true
      · have ha' : ¬ (p.stamp ≤ a.stamp + hold) := by simpa [expired] using ha
        have e : push hold (a :: b :: l) p = (push hold l p).map (b :: ·) := by
          simp only [push, sweep_two hold p.stamp a b _ ha, Option.map_map]
          congr 1
        rw [e, Option.map_eq_some_iff] at hp
        obtain ⟨l'', hl'', rfl⟩ := hp
        obtain ⟨i1, i2⟩ := ih l l'' (by simp only [List.length_cons] at h; omega) hl''
        constructor
        · unfold remembered at i1 ⊢
          rw [List.filter_cons, if_neg (by simpa using ha'), List.filter_cons]
          split
          · exact List.Sublist.cons_cons _ i1
          · exact List.Sublist.cons _ i1
        · exact List.Sublist.cons _ (List.Sublist.cons_cons _ i2)
      · simp [push, sweep, ha] at hp
        subst hp
        exact ⟨List.Sublist.append List.filter_sublist (List.Sublist.refl _), List.Sublist.refl _⟩

/-- **C30**: the number of forgotten-to-be clouds halves with each addition. -/
theorem stale_halves {α : Type} (old : List α) : (everySecond old).length = old.length / 2 := by
  have : ∀ (n : Nat) (l : List α), l.length ≤ n → (everySecond l).length = l.length / 2 := by
    intro n
    induction n with
    | zero =>
      intro l h
      have : l = [] := List.length_eq_zero_iff.1 (by omega)
      subst this; simp [everySecond]
    | succ n ih =>
      intro l h
      match l with
      | [] => simp [everySecond]
      | [a] => simp [everySecond]
      | a :: b :: l =>
        simp only [everySecond, List.length_cons] at h ⊢
        rw [ih l (by omega)]; omega
  exact this _ old (le_refl _)

/-- Concrete cases: one expired cloud is removed; of three expired clouds the middle one survives. -/
example : push 10 [⟨0, 'a'⟩, ⟨5, 'b'⟩] ⟨12, 'c'⟩ = some [⟨5, 'b'⟩, ⟨12, 'c'⟩] := by decide
example : push 10 [⟨0, 'a'⟩, ⟨1, 'b'⟩, ⟨2, 'c'⟩, ⟨9, 'd'⟩] ⟨19, 'e'⟩ = some [⟨1, 'b'⟩, ⟨9, 'd'⟩, ⟨19, 'e'⟩] := by decide
example : push 10 [⟨0, 'a'⟩] ⟨19, 'e'⟩ = none := by decide

/-! ### C32: the map -/

variable {K : Type} [Field K] [LinearOrder K] [IsStrictOrderedRing K] [FloorRing K]

theorem toInt_bounds (a : K) : (0 ≤ a → (toInt a : K) ≤ a ∧ a < toInt a + 1) ∧
    (a < 0 → a ≤ toInt a ∧ (toInt a : K) < a + 1) := by
  constructor
  · intro h
    simp only [toInt, if_pos h]
    exact ⟨Int.floor_le a, Int.lt_floor_add_one a⟩
  · intro h
    simp only [toInt, if_neg (not_le.2 h)]
    exact ⟨Int.le_ceil a, Int.ceil_lt_add_one a⟩

theorem toInt_eq_iff (a : K) (i : Nat) :
    toInt a = (i : Int) ↔ (if i = 0 then (-1 : K) < a else (i : K) ≤ a) ∧ a < (i : K) + 1 := by
  rcases le_or_gt 0 a with h | h
  · simp only [toInt, if_pos h]
    rw [Int.floor_eq_iff]
    by_cases hi : i = 0
    · subst hi
      simp only [if_true]
      push_cast
      constructor
      · rintro ⟨h1, h2⟩; exact ⟨by linarith, by linarith⟩
      · rintro ⟨h1, h2⟩; exact ⟨h, by linarith⟩
    · simp only [if_neg hi]
      push_cast
      exact Iff.rfl
  · simp only [toInt, if_neg (not_le.2 h)]
    rw [Int.ceil_eq_iff]
    by_cases hi : i = 0
    · subst hi
      simp only [if_true]
      push_cast
      constructor
      · rintro ⟨h1, h2⟩; exact ⟨by linarith, by linarith⟩
      · rintro ⟨h1, h2⟩; exact ⟨by linarith, by linarith⟩
    · simp only [if_neg hi]
      have hi' : (1 : K) ≤ (i : K) := by exact_mod_cast Nat.one_le_iff_ne_zero.2 hi
      push_cast
      constructor
      · rintro ⟨h1, h2⟩; exact ⟨by linarith, by linarith⟩
      · rintro ⟨h1, h2⟩; exact ⟨by linarith, by linarith⟩

theorem index_iff (origin res : K) (hres : 0 < res) (cells : Nat) (v : K) (i : Nat) (hi : i < cells) :
    index origin res cells v = some i ↔ InCellFolded origin res i v := by
  have h1 : index origin res cells v = some i ↔ toInt ((v - origin) / res) = (i : Int) := by
    unfold index
    simp only
    constructor
    · intro h
      split at h
      · rename_i hc
        have : (toInt ((v - origin) / res)).toNat = i := by simpa using h
        omega
      · cases h
    · intro h
      rw [if_pos (by rw [h]; omega), h]
      simp
  rw [h1, toInt_eq_iff]
  unfold InCellFolded
  have e1 : (v - origin) / res < (i : K) + 1 ↔ v < origin + ((i : K) + 1) * res := by
    rw [div_lt_iff₀ hres]
    constructor <;> intro h <;> linarith
  rw [e1]
  by_cases h0 : i = 0
  · simp only [if_pos h0]
    rw [lt_div_iff₀ hres]
    constructor
    · rintro ⟨a, b⟩; exact ⟨by linarith, b⟩
    · rintro ⟨a, b⟩; exact ⟨by linarith, b⟩
  · simp only [if_neg h0]
    rw [le_div_iff₀ hres]
    constructor
    · rintro ⟨a, b⟩; exact ⟨by linarith, b⟩
    · rintro ⟨a, b⟩; exact ⟨by linarith, b⟩

theorem index_lt (origin res : K) (cells : Nat) (v : K) (i : Nat) (h : index origin res cells v = some i) : i < cells := by
  unfold index at h
  simp only at h
  split at h
  · have : (toInt ((v - origin) / res)).toNat = i := by simpa using h
    omega
  · cases h

theorem mark_origin (p : Params K) (g : Grid K) (pt : P3 K) : (mark p g pt).ox = g.ox ∧ (mark p g pt).oy = g.oy := by
  unfold mark; split <;> exact ⟨rfl, rfl⟩

theorem mark_cell (p : Params K) (g : Grid K) (pt : P3 K) (x y : Nat) :
    (mark p g pt).cell x y =
      if index g.ox p.res p.width pt.x = some x ∧ index g.oy p.res p.height pt.y = some y then 100 else g.cell x y := by
  unfold mark
  split
  · rename_i i j hi hj
    simp only [hi, hj, Option.some.injEq]
    by_cases h : x = i ∧ y = j
    · rw [if_pos h, if_pos ⟨h.1.symm, h.2.symm⟩]
    · rw [if_neg h, if_neg (fun h' => h ⟨h'.1.symm, h'.2.symm⟩)]
  · rename_i h
    rw [if_neg]
    rintro ⟨h1, h2⟩
    exact h x y h1 h2

/-- Marking a list of points that pass a test. -/
theorem marks_cell (p : Params K) (ok : P3 K → Bool) : ∀ (pts : List (P3 K)) (g : Grid K) (x y : Nat),
    (pts.foldl (fun g pt => if ok pt then g else mark p g pt) g).ox = g.ox ∧
    (pts.foldl (fun g pt => if ok pt then g else mark p g pt) g).oy = g.oy ∧
    ((∃ pt ∈ pts, ok pt = false ∧ index g.ox p.res p.width pt.x = some x ∧ index g.oy p.res p.height pt.y = some y) →
      (pts.foldl (fun g pt => if ok pt then g else mark p g pt) g).cell x y = 100) ∧
    (¬ (∃ pt ∈ pts, ok pt = false ∧ index g.ox p.res p.width pt.x = some x ∧ index g.oy p.res p.height pt.y = some y) →
      (pts.foldl (fun g pt => if ok pt then g else mark p g pt) g).cell x y = g.cell x y) ∧
    (g.cell x y = 100 → (pts.foldl (fun g pt => if ok pt then g else mark p g pt) g).cell x y = 100) := by
  intro pts
  induction pts with
  | nil => intro g x y; exact ⟨rfl, rfl, by simp, by simp, id⟩
  | cons pt pts ih =>
    intro g x y
    rw [List.foldl_cons]
    by_cases hok : ok pt = true
    · simp only [hok, if_true]
      obtain ⟨h1, h2, h3, h4, h5⟩ := ih g x y
      refine ⟨h1, h2, ?_, ?_, h5⟩
      · rintro ⟨q, hq, hqok, hqi⟩
        rcases List.mem_cons.1 hq with rfl | hq
        · simp [hok] at hqok
        · exact h3 ⟨q, hq, hqok, hqi⟩
      · intro hn
        exact h4 (fun ⟨q, hq, hqi⟩ => hn ⟨q, List.mem_cons_of_mem _ hq, hqi⟩)
    · simp only [hok, Bool.false_eq_true, if_false]
      obtain ⟨h1, h2, h3, h4, h5⟩ := ih (mark p g pt) x y
      obtain ⟨m1, m2⟩ := mark_origin p g pt
      rw [m1, m2] at h3 h4
      refine ⟨h1.trans m1, h2.trans m2, ?_, ?_, ?_⟩
      · rintro ⟨q, hq, hqok, hqi⟩
        rcases List.mem_cons.1 hq with rfl | hq
        · apply h5
          rw [mark_cell, if_pos hqi]
        · exact h3 ⟨q, hq, hqok, hqi⟩
      · intro hn
        rw [h4 (fun ⟨q, hq, hqi⟩ => hn ⟨q, List.mem_cons_of_mem _ hq, hqi⟩), mark_cell, if_neg]
        intro hc
        exact hn ⟨pt, List.mem_cons_self .., by simpa using hok, hc⟩
      · intro hg
        apply h5
        rw [mark_cell]; split
        · rfl
        · exact hg

theorem zReject_iff (p : Params K) (rz z : K) : zReject p rz z = false ↔ HeightOk p rz z := by
  simp [zReject, HeightOk]

/-- Marking several clouds, each with its own test. -/
theorem clouds_cell (p : Params K) (okOf : List (P3 K) → P3 K → Bool) (x y : Nat) :
    ∀ (cs : List (Stamped (List (P3 K)))) (g : Grid K),
    (cs.foldl (fun g c => c.val.foldl (fun g pt => if okOf c.val pt then g else mark p g pt) g) g).ox = g.ox ∧
    (cs.foldl (fun g c => c.val.foldl (fun g pt => if okOf c.val pt then g else mark p g pt) g) g).oy = g.oy ∧
    ((∃ c ∈ cs, ∃ pt ∈ c.val, okOf c.val pt = false ∧ index g.ox p.res p.width pt.x = some x ∧
        index g.oy p.res p.height pt.y = some y) →
      (cs.foldl (fun g c => c.val.foldl (fun g pt => if okOf c.val pt then g else mark p g pt) g) g).cell x y = 100) ∧
    (¬ (∃ c ∈ cs, ∃ pt ∈ c.val, okOf c.val pt = false ∧ index g.ox p.res p.width pt.x = some x ∧
        index g.oy p.res p.height pt.y = some y) →
      (cs.foldl (fun g c => c.val.foldl (fun g pt => if okOf c.val pt then g else mark p g pt) g) g).cell x y =
        g.cell x y) ∧
    (g.cell x y = 100 →
      (cs.foldl (fun g c => c.val.foldl (fun g pt => if okOf c.val pt then g else mark p g pt) g) g).cell x y = 100) := by
  intro cs
  induction cs with
  | nil => intro g; exact ⟨rfl, rfl, by simp, by simp, id⟩
  | cons c cs ih =>
    intro g
    rw [List.foldl_cons]
    obtain ⟨m1, m2, m3, m4, m5⟩ := marks_cell p (okOf c.val) c.val g x y
    obtain ⟨h1, h2, h3, h4, h5⟩ := ih (c.val.foldl (fun g pt => if okOf c.val pt then g else mark p g pt) g)
    rw [m1, m2] at h3 h4
    refine ⟨h1.trans m1, h2.trans m2, ?_, ?_, ?_⟩
    · rintro ⟨d, hd, q, hq, hqi⟩
      rcases List.mem_cons.1 hd with rfl | hd
      · exact h5 (m3 ⟨q, hq, hqi⟩)
      · exact h3 ⟨d, hd, q, hq, hqi⟩
    · intro hn
      rw [h4 (fun ⟨d, hd, hx⟩ => hn ⟨d, List.mem_cons_of_mem _ hd, hx⟩),
        m4 (fun hx => hn ⟨c, List.mem_cons_self .., hx⟩)]
    · intro hg
      exact h5 (m5 hg)

theorem published_cloud (p : Params K) (s s' : St K) (stamp : Int) (tf : Option (List (P3 K))) (single : Bool)
    (robot : Option (P3 K)) (g : Grid K) (h : cbCloud p s stamp tf single robot = some (s', some g)) :
    ∃ r, robot = some r ∧ s.published + p.interval ≤ stamp ∧ s'.published = stamp ∧
      g = (s'.continuous ++ s'.single).foldl (fun g c => markCloud p r.z g c.val) (blank p r) := by
  unfold cbCloud at h
  cases tf with
  | none => simp at h
  | some pts =>
    simp only at h
    generalize hp : (if single = true then Option.map (fun l => { s with single := l }) (push 0 s.single ⟨stamp, pts⟩)
      else Option.map (fun l => { s with continuous := l }) (push p.holdTime s.continuous ⟨stamp, pts⟩)) = q at h
    cases q with
    | none => simp at h
    | some s1 =>
      have hpub : s1.published = s.published := by
        split at hp
        · rw [Option.map_eq_some_iff] at hp
          obtain ⟨l, -, rfl⟩ := hp; rfl
        · rw [Option.map_eq_some_iff] at hp
          obtain ⟨l, -, rfl⟩ := hp; rfl
      simp only at h
      split at h
      · simp at h
      · rename_i hlt
        cases robot with
        | none => simp at h
        | some r =>
          simp only [Option.some.injEq, Prod.mk.injEq] at h
          obtain ⟨rfl, rfl⟩ := h
          exact ⟨r, rfl, by rw [← hpub]; omega, rfl, rfl⟩

/-- **C32** (exact description, point cloud node).  In a published map a cell is occupied exactly when some point of a
stored cloud has an acceptable height and falls into the cell, where the first row and column also take points up to
one cell outside; all other cells are free. -/
theorem cloud_map_exact (p : Params K) (hres : 0 < p.res) (s s' : St K) (stamp : Int) (tf : Option (List (P3 K)))
    (single : Bool) (r : P3 K) (g : Grid K) (h : cbCloud p s stamp tf single (some r) = some (s', some g))
    (i j : Nat) (hi : i < p.width) (hj : j < p.height) :
    (g.cell i j = 100 ∨ g.cell i j = 0) ∧
    (g.cell i j = 100 ↔ ∃ c ∈ s'.continuous ++ s'.single, ∃ pt ∈ c.val, HeightOk p r.z pt.z ∧
      InCellFolded g.ox p.res i pt.x ∧ InCellFolded g.oy p.res j pt.y) := by
  obtain ⟨r', hr, -, -, hg⟩ := published_cloud p s s' stamp tf single (some r) g h
  cases hr
  obtain ⟨h1, h2, h3, h4, -⟩ := clouds_cell p (fun _ pt => zReject p r.z pt.z) i j (s'.continuous ++ s'.single) (blank p r)
  have hg' : g = (s'.continuous ++ s'.single).foldl
      (fun g c => c.val.foldl (fun g pt => if zReject p r.z pt.z then g else mark p g pt) g) (blank p r) := hg
  rw [← hg'] at h1 h2 h3 h4
  have key : (∃ c ∈ s'.continuous ++ s'.single, ∃ pt ∈ c.val, zReject p r.z pt.z = false ∧
        index (blank p r).ox p.res p.width pt.x = some i ∧ index (blank p r).oy p.res p.height pt.y = some j) ↔
      ∃ c ∈ s'.continuous ++ s'.single, ∃ pt ∈ c.val, HeightOk p r.z pt.z ∧
        InCellFolded g.ox p.res i pt.x ∧ InCellFolded g.oy p.res j pt.y := by
    rw [h1, h2]
    simp only [index_iff _ _ hres _ _ _ hi, index_iff _ _ hres _ _ _ hj, zReject_iff]
  rw [← key]
  by_cases hc : ∃ c ∈ s'.continuous ++ s'.single, ∃ pt ∈ c.val, zReject p r.z pt.z = false ∧
        index (blank p r).ox p.res p.width pt.x = some i ∧ index (blank p r).oy p.res p.height pt.y = some j
  · exact ⟨Or.inl (h3 hc), ⟨fun _ => hc, fun _ => h3 hc⟩⟩
  · have h0 : g.cell i j = 0 := h4 hc
    refine ⟨Or.inr h0, ⟨fun h' => ?_, fun h' => absurd h' hc⟩⟩
    rw [h0] at h'
    cases h'

theorem folded_eq (origin res : K) (i : Nat) (v : K) (hi : i ≠ 0) : InCellFolded origin res i v ↔ InCell origin res i v := by
  unfold InCellFolded InCell
  rw [if_neg hi]

/-- **C32** (partial, point cloud node): away from the first row and column a cell is occupied exactly when some accepted
point lies in it. -/
theorem cloud_map_partial (p : Params K) (hres : 0 < p.res) (s s' : St K) (stamp : Int) (tf : Option (List (P3 K)))
    (single : Bool) (r : P3 K) (g : Grid K) (h : cbCloud p s stamp tf single (some r) = some (s', some g))
    (i j : Nat) (hi : i < p.width) (hj : j < p.height) (hi0 : i ≠ 0) (hj0 : j ≠ 0) :
    g.cell i j = 100 ↔ ∃ c ∈ s'.continuous ++ s'.single, ∃ pt ∈ c.val, HeightOk p r.z pt.z ∧
      InCell g.ox p.res i pt.x ∧ InCell g.oy p.res j pt.y := by
  rw [(cloud_map_exact p hres s s' stamp tf single r g h i j hi hj).2]
  simp only [folded_eq _ _ _ _ hi0, folded_eq _ _ _ _ hj0]

/-- **C32** (exact description, laser scan node): as for point clouds, but the height of the first point of each scan
decides for the whole scan. -/
theorem scan_map_exact (p : Params K) (hres : 0 < p.res) (s s' : St K) (stamp : Int) (tf : Option (List (P3 K)))
    (r : P3 K) (g : Grid K) (h : cbScan p s stamp tf (some r) = some (s', some g))
    (i j : Nat) (hi : i < p.width) (hj : j < p.height) :
    (g.cell i j = 100 ∨ g.cell i j = 0) ∧
    (g.cell i j = 100 ↔ ∃ c ∈ s'.continuous, ∃ first, c.val.head? = some first ∧ HeightOk p r.z first.z ∧
      ∃ pt ∈ c.val, InCellFolded g.ox p.res i pt.x ∧ InCellFolded g.oy p.res j pt.y) := by
  -- the test of a whole scan
  let okOf : List (P3 K) → P3 K → Bool := fun pts _ => match pts with
    | [] => true
    | f :: _ => zReject p r.z f.z
  have hscan : ∀ (g : Grid K) (pts : List (P3 K)),
      markScan p r.z g pts = pts.foldl (fun g pt => if okOf pts pt then g else mark p g pt) g := by
    intro g pts
    cases pts <;> rfl
  have hg : g = s'.continuous.foldl (fun g c => c.val.foldl (fun g pt => if okOf c.val pt then g else mark p g pt) g)
      (blank p r) := by
    unfold cbScan at h
    simp only at h
    split at h
    · cases h
    · split at h
      · simp at h
      · simp only [Option.some.injEq, Prod.mk.injEq] at h
        obtain ⟨rfl, rfl⟩ := h
        simp only [hscan]
  obtain ⟨h1, h2, h3, h4, -⟩ := clouds_cell p okOf i j s'.continuous (blank p r)
  rw [← hg] at h1 h2 h3 h4
  have key : (∃ c ∈ s'.continuous, ∃ pt ∈ c.val, okOf c.val pt = false ∧
        index (blank p r).ox p.res p.width pt.x = some i ∧ index (blank p r).oy p.res p.height pt.y = some j) ↔
      ∃ c ∈ s'.continuous, ∃ first, c.val.head? = some first ∧ HeightOk p r.z first.z ∧
        ∃ pt ∈ c.val, InCellFolded g.ox p.res i pt.x ∧ InCellFolded g.oy p.res j pt.y := by
    rw [h1, h2]
    simp only [index_iff _ _ hres _ _ _ hi, index_iff _ _ hres _ _ _ hj, ← zReject_iff]
    constructor
    · rintro ⟨c, hc, pt, hpt, hok, hx⟩
      cases hv : c.val with
      | nil => rw [hv] at hpt; simp at hpt
      | cons f fs =>
        refine ⟨c, hc, f, by rw [hv]; rfl, ?_, pt, hpt, hx⟩
        simpa [okOf, hv] using hok
    · rintro ⟨c, hc, f, hf, hok, pt, hpt, hx⟩
      refine ⟨c, hc, pt, hpt, ?_, hx⟩
      cases hv : c.val with
      | nil => rw [hv] at hpt; simp at hpt
      | cons f' fs =>
        rw [hv] at hf
        cases hf
        exact hok
  rw [← key]
  by_cases hc : ∃ c ∈ s'.continuous, ∃ pt ∈ c.val, okOf c.val pt = false ∧
        index (blank p r).ox p.res p.width pt.x = some i ∧ index (blank p r).oy p.res p.height pt.y = some j
  · exact ⟨Or.inl (h3 hc), ⟨fun _ => hc, fun _ => h3 hc⟩⟩
  · have h0 : g.cell i j = 0 := h4 hc
    refine ⟨Or.inr h0, ⟨fun h' => ?_, fun h' => absurd h' hc⟩⟩
    rw [h0] at h'
    cases h'

/-- **C80**: the origin is such that the robot is less than one cell away from the centre of the map. -/
theorem map_centred (p : Params K) (hres : 0 < p.res) (s s' : St K) (stamp : Int) (tf : Option (List (P3 K)))
    (single : Bool) (r : P3 K) (g : Grid K) (h : cbCloud p s stamp tf single (some r) = some (s', some g)) :
    |r.x - (g.ox + (p.width : K) * p.res / 2)| < p.res ∧ |r.y - (g.oy + (p.height : K) * p.res / 2)| < p.res ∧
    ∃ k l : Int, g.ox + (p.width : K) * p.res / 2 = k * p.res ∧ g.oy + (p.height : K) * p.res / 2 = l * p.res := by
  obtain ⟨r', hr, -, -, hg⟩ := published_cloud p s s' stamp tf single (some r) g h
  cases hr
  obtain ⟨h1, h2, -⟩ := clouds_cell p (fun _ pt => zReject p r.z pt.z) 0 0 (s'.continuous ++ s'.single) (blank p r)
  have hg' : g = (s'.continuous ++ s'.single).foldl
      (fun g c => c.val.foldl (fun g pt => if zReject p r.z pt.z then g else mark p g pt) g) (blank p r) := hg
  rw [← hg'] at h1 h2
  have near : ∀ (n : Nat) (v : K), |v - (originAt p.res n v + (n : K) * p.res / 2)| < p.res ∧
      originAt p.res n v + (n : K) * p.res / 2 = (toInt (v / p.res) : K) * p.res := by
    intro n v
    have e : originAt p.res n v + (n : K) * p.res / 2 = (toInt (v / p.res) : K) * p.res := by
      unfold originAt; ring
    refine ⟨?_, e⟩
    rw [e]
    obtain ⟨b1, b2⟩ := toInt_bounds (v / p.res)
    have hv : v = v / p.res * p.res := by rw [div_mul_cancel₀ _ (ne_of_gt hres)]
    rw [abs_lt]
    rcases le_or_gt 0 (v / p.res) with hs | hs
    · obtain ⟨c1, c2⟩ := b1 hs
      generalize v / p.res = q at *
      constructor <;> nlinarith
    · obtain ⟨c1, c2⟩ := b2 hs
      generalize v / p.res = q at *
      constructor <;> nlinarith
  rw [h1, h2]
  exact ⟨(near _ _).1, (near _ _).1, _, _, (near _ _).2, (near _ _).2⟩

/-- **C80**: maps are published at least the configured interval apart, in stamp order. -/
theorem publish_interval (p : Params K) (hint : 0 ≤ p.interval) : ∀ (ms : List (Msg K)) (s s' : St K)
    (os : List (Int × Grid K)), runClouds p s ms = some (s', os) →
    (∀ o ∈ os, s.published + p.interval ≤ o.1) ∧ os.Pairwise (fun a b => a.1 + p.interval ≤ b.1) ∧
      s.published ≤ s'.published := by
  have mono : ∀ (s s1 : St K) (m : Msg K) (o : Option (Grid K)),
      cbCloud p s m.stamp m.tf m.singleshot m.robot = some (s1, o) →
      (o = none ∧ s1.published = s.published) ∨ (s.published + p.interval ≤ m.stamp ∧ s1.published = m.stamp) := by
    intro s s1 m o h
    unfold cbCloud at h
    cases htf : m.tf with
    | none =>
      rw [htf] at h
      simp only [Option.some.injEq, Prod.mk.injEq] at h
      obtain ⟨rfl, rfl⟩ := h
      exact Or.inl ⟨rfl, rfl⟩
    | some pts =>
      rw [htf] at h
      simp only at h
      generalize hp : (if m.singleshot = true then
          Option.map (fun l => { s with single := l }) (push 0 s.single ⟨m.stamp, pts⟩)
        else Option.map (fun l => { s with continuous := l }) (push p.holdTime s.continuous ⟨m.stamp, pts⟩)) = q at h
      cases q with
      | none => simp at h
      | some s2 =>
        have hpub : s2.published = s.published := by
          split at hp
          · rw [Option.map_eq_some_iff] at hp
            obtain ⟨l, -, rfl⟩ := hp; rfl
          · rw [Option.map_eq_some_iff] at hp
            obtain ⟨l, -, rfl⟩ := hp; rfl
        simp only at h
        split at h
        · simp only [Option.some.injEq, Prod.mk.injEq] at h
          obtain ⟨rfl, rfl⟩ := h
          exact Or.inl ⟨rfl, hpub⟩
        · right
          split at h
          · simp only [Option.some.injEq, Prod.mk.injEq] at h
            obtain ⟨rfl, rfl⟩ := h
            exact ⟨by rw [← hpub]; omega, rfl⟩
          · simp only [Option.some.injEq, Prod.mk.injEq] at h
            obtain ⟨rfl, rfl⟩ := h
            exact ⟨by rw [← hpub]; omega, rfl⟩
  intro ms
  induction ms with
  | nil =>
    intro s s' os h
    simp only [runClouds, Option.some.injEq, Prod.mk.injEq] at h
    obtain ⟨rfl, rfl⟩ := h
    exact ⟨by simp, List.Pairwise.nil, le_refl _⟩
  | cons m ms ih =>
    intro s s' os h
    simp only [runClouds] at h
    split at h
    · cases h
    · rename_i s1 o h1
      split at h
      · cases h
      · rename_i s2 os2 h2
        simp only [Option.some.injEq, Prod.mk.injEq] at h
        obtain ⟨rfl, rfl⟩ := h
        obtain ⟨i1, i2, i3⟩ := ih s1 s2 os2 h2
        rcases mono s s1 m o h1 with ⟨rfl, hp⟩ | ⟨hp1, hp2⟩
        · rw [hp] at i1 i3
          have e : (Option.map (fun g => (m.stamp, g)) (none : Option (Grid K))).toList ++ os2 = os2 := rfl
          exact ⟨i1, i2, i3⟩
        · rw [hp2] at i1 i3
          have hle : ∀ o ∈ os2, s.published + p.interval ≤ o.1 := fun o ho => by
            have := i1 o ho
            omega
          refine ⟨?_, ?_, by omega⟩
          · intro x hx
            rcases List.mem_append.1 hx with hx | hx
            · cases o with
              | none => simp at hx
              | some g =>
                simp at hx
                subst hx
                exact hp1
            · exact hle x hx
          · cases o with
            | none => simpa using i2
            | some g =>
              simp only [Option.map_some, Option.toList_some, List.singleton_append]
              exact List.Pairwise.cons i1 i2

/-- **C32**: the clouds a map is made from: the incoming cloud joins the accumulator of its kind, the other one is left
alone; and a map is published exactly when one is due and the robot's position is known. -/
theorem cloud_stored (p : Params K) (s s' : St K) (stamp : Int) (pts : List (P3 K)) (single : Bool)
    (robot : Option (P3 K)) (o : Option (Grid K)) (h : cbCloud p s stamp (some pts) single robot = some (s', o)) :
    (single = true → push 0 s.single ⟨stamp, pts⟩ = some s'.single ∧ s'.continuous = s.continuous) ∧
    (single = false → push p.holdTime s.continuous ⟨stamp, pts⟩ = some s'.continuous ∧ s'.single = s.single) ∧
    (o.isSome ↔ robot.isSome ∧ s.published + p.interval ≤ stamp) := by
  unfold cbCloud at h
  simp only at h
  generalize hp : (if single = true then Option.map (fun l => { s with single := l }) (push 0 s.single ⟨stamp, pts⟩)
    else Option.map (fun l => { s with continuous := l }) (push p.holdTime s.continuous ⟨stamp, pts⟩)) = q at h
  cases q with
  | none => simp at h
  | some s1 =>
    have hst : ((single = true → push 0 s.single ⟨stamp, pts⟩ = some s1.single ∧ s1.continuous = s.continuous) ∧
        (single = false → push p.holdTime s.continuous ⟨stamp, pts⟩ = some s1.continuous ∧ s1.single = s.single)) ∧
        s1.published = s.published := by
      cases single with
      | true =>
        simp only [if_true] at hp
        rw [Option.map_eq_some_iff] at hp
        obtain ⟨l, hl, rfl⟩ := hp
        exact ⟨⟨fun _ => ⟨hl, rfl⟩, (fun h => by cases h)⟩, rfl⟩
      | false =>
        simp only [Bool.false_eq_true, if_false] at hp
        rw [Option.map_eq_some_iff] at hp
        obtain ⟨l, hl, rfl⟩ := hp
        exact ⟨⟨(fun h => by cases h), fun _ => ⟨hl, rfl⟩⟩, rfl⟩
    obtain ⟨⟨a1, a2⟩, a3⟩ := hst
    simp only at h
    split at h
    · rename_i hlt
      simp only [Option.some.injEq, Prod.mk.injEq] at h
      obtain ⟨rfl, rfl⟩ := h
      refine ⟨a1, a2, ?_⟩
      simp only [Option.isSome_none, Bool.false_eq_true, false_iff]
      rintro ⟨-, h⟩
      omega
    · rename_i hlt
      cases robot with
      | none =>
        simp only [Option.some.injEq, Prod.mk.injEq] at h
        obtain ⟨rfl, rfl⟩ := h
        exact ⟨a1, a2, by simp⟩
      | some r =>
        simp only [Option.some.injEq, Prod.mk.injEq] at h
        obtain ⟨rfl, rfl⟩ := h
        refine ⟨a1, a2, ?_⟩
        simp only [Option.isSome_some, true_and, true_iff]
        omega

/-- **C32**: the scans a map is made from, and when a map is published, for the laser scan node.  (A scan that cannot be
transformed enters as an empty cloud with stamp zero.) -/
theorem scan_stored (p : Params K) (s s' : St K) (stamp : Int) (tf : Option (List (P3 K)))
    (robot : Option (P3 K)) (o : Option (Grid K)) (h : cbScan p s stamp tf robot = some (s', o)) :
    (∀ pts, tf = some pts → push p.holdTime s.continuous ⟨stamp, pts⟩ = some s'.continuous) ∧
    (tf = none → push p.holdTime s.continuous ⟨0, []⟩ = some s'.continuous) ∧
    (o.isSome ↔ robot.isSome ∧ s.published + p.interval ≤ stamp) ∧
    (s'.published = if s.published + p.interval ≤ stamp then stamp else s.published) := by
  unfold cbScan at h
  simp only at h
  split at h
  · cases h
  · rename_i l hl
    have h1 : ∀ pts, tf = some pts → push p.holdTime s.continuous ⟨stamp, pts⟩ = some l := by
      rintro pts rfl
      exact hl
    have h2 : tf = none → push p.holdTime s.continuous ⟨0, []⟩ = some l := by
      rintro rfl
      exact hl
    split at h
    · rename_i hlt
      simp only [Option.some.injEq, Prod.mk.injEq] at h
      obtain ⟨rfl, rfl⟩ := h
      refine ⟨h1, h2, ?_, ?_⟩
      · simp only [Option.isSome_none, Bool.false_eq_true, false_iff]
        rintro ⟨-, h⟩
        omega
      · rw [if_neg (by omega)]
    · rename_i hlt
      cases robot with
      | none =>
        simp only [Option.some.injEq, Prod.mk.injEq] at h
        obtain ⟨rfl, rfl⟩ := h
        refine ⟨h1, h2, by simp, ?_⟩
        rw [if_pos (by omega)]
      | some r =>
        simp only [Option.some.injEq, Prod.mk.injEq] at h
        obtain ⟨rfl, rfl⟩ := h
        refine ⟨h1, h2, ?_, ?_⟩
        · simp only [Option.isSome_some, true_and, true_iff]
          omega
        · rw [if_pos (by omega)]

/-! ### Concrete cases -/

/-- 4 × 4 cells of size 1, heights from 0 to 2, one map per 10 ns, hold time 100 ns. -/
def p0 : Params ℚ := ⟨0, 2, 4, 4, 1, 10, 100⟩

/-- A cloud published at stamp 20 with the robot at (0.5, 0.5): its points hit cells (3, 2) and — folded — (0, 2). -/
example : ∃ s' g, cbCloud p0 .init 20 (some [⟨1.5, 0.5, 1⟩, ⟨-2.5, 0.5, 1⟩, ⟨0.5, 0.5, 5⟩]) false (some ⟨1 / 2, 1 / 2, 0⟩) =
    some (s', some g) ∧ g.cell 3 2 = 100 ∧ g.cell 0 2 = 100 ∧ g.cell 2 2 = 0 := by
  refine ⟨_, _, rfl, ?_, ?_, ?_⟩ <;> decide +kernel

/-- The folded point of the example is not in the cell it marks: the property fails in the first column. -/
example : ¬ InCell (-2 : ℚ) 1 0 (-2.5) := by unfold InCell; norm_num

/-- A scan whose first point is too high hides an obstacle at an acceptable height. -/
example : ∃ s' g, cbScan p0 .init 20 (some [⟨0.5, 0.5, 5⟩, ⟨1.5, 0.5, 1⟩]) (some ⟨1 / 2, 1 / 2, 0⟩) =
    some (s', some g) ∧ g.cell 3 2 = 0 := by
  refine ⟨_, _, rfl, ?_⟩
  decide +kernel

end Verif.LocalMap
