import Verif.CyclicVec.Model
import Verif.CyclicVec.Spec
import Mathlib.Tactic.Ring
import Mathlib.Tactic.Linarith

/-! # C01: cyclic coordinates normalise to a unique representative; C61: range test -/
namespace Verif.CyclicVec
open Spec

theorem tmod_same (e res : Int) : SameHeading res (e.tmod res) e :=
  ⟨-(e.tdiv res), by
    have h := Int.mul_tdiv_add_tmod e res
    have h2 : e.tmod res = e - res * e.tdiv res := by omega
    rw [h2]; ring⟩

/-- C01 (element, signed): for every integer and every positive resolution the result exists, lies in
the signed range and denotes the same heading. -/
theorem cycleElement_spec (e res : Int) (hr : 0 < res) :
    ∃ e', cycleElement e res = some e' ∧ InSignedRange res e' ∧ SameHeading res e' e := by
  obtain ⟨k, hk⟩ := tmod_same e res
  have hlt : e.tmod res < res := Int.tmod_lt_of_pos e hr
  have hgt : -res < e.tmod res := by
    have := Int.lt_tmod_of_pos e hr
    exact this
  have hd : res.tdiv 2 = res / 2 := Int.tdiv_eq_ediv_of_nonneg (by omega)
  unfold cycleElement InSignedRange
  simp only [hd, show res ≠ 0 by omega, if_false]
  by_cases h1 : e.tmod res < res / 2 - res
  · refine ⟨e.tmod res + res, by simp [h1], by omega, k + 1, ?_⟩
    rw [hk]; ring
  · by_cases h2 : e.tmod res ≥ res / 2
    · refine ⟨e.tmod res - res, by simp [h1, h2], by omega, k - 1, ?_⟩
      rw [hk]; ring
    · exact ⟨e.tmod res, by simp [h1, h2], by omega, k, hk⟩

/-- C01 (element, unsigned). -/
theorem cycleUnsignedElement_spec (e res : Int) (hr : 0 < res) :
    ∃ e', cycleUnsignedElement e res = some e' ∧ InUnsignedRange res e' ∧ SameHeading res e' e := by
  obtain ⟨k, hk⟩ := tmod_same e res
  have hlt : e.tmod res < res := Int.tmod_lt_of_pos e hr
  have hgt : -res < e.tmod res := Int.lt_tmod_of_pos e hr
  unfold cycleUnsignedElement InUnsignedRange
  simp only [show res ≠ 0 by omega, if_false]
  by_cases h1 : e.tmod res < 0
  · refine ⟨e.tmod res + res, by simp [h1], by omega, k + 1, ?_⟩
    rw [hk]; ring
  · exact ⟨e.tmod res, by simp [h1], by omega, k, hk⟩

/-- C01: the representative is unique — at most one value of each range denotes a given heading. -/
theorem signed_unique (res a b : Int) (ha : InSignedRange res a) (hb : InSignedRange res b)
    (h : SameHeading res a b) : a = b := by
  obtain ⟨k, hk⟩ := h
  unfold InSignedRange at *
  have h1 : -res < k * res := by omega
  have h2 : k * res < res := by omega
  have : k = 0 := by
    rcases lt_trichotomy k 0 with h | h | h
    · nlinarith
    · exact h
    · nlinarith
  subst this; omega

theorem unsigned_unique (res a b : Int) (ha : InUnsignedRange res a) (hb : InUnsignedRange res b)
    (h : SameHeading res a b) : a = b := by
  obtain ⟨k, hk⟩ := h
  unfold InUnsignedRange at *
  have h1 : -res < k * res := by omega
  have h2 : k * res < res := by omega
  have : k = 0 := by
    rcases lt_trichotomy k 0 with h | h | h
    · nlinarith
    · exact h
    · nlinarith
  subst this; omega

theorem Spec.SameHeading.symm {res a b : Int} (h : SameHeading res a b) : SameHeading res b a := by
  obtain ⟨k, hk⟩ := h; exact ⟨-k, by rw [hk]; ring⟩
theorem Spec.SameHeading.trans {res a b c : Int} (h : SameHeading res a b) (h' : SameHeading res b c) :
    SameHeading res a c := by
  obtain ⟨k, hk⟩ := h; obtain ⟨l, hl⟩ := h'; exact ⟨k + l, by rw [hk, hl]; ring⟩

/-- C01: two coordinates denote the same heading exactly when their normal forms are equal
(signed form). -/
theorem cycleElement_eq_iff (a b res : Int) (hr : 0 < res) :
    cycleElement a res = cycleElement b res ↔ SameHeading res a b := by
  obtain ⟨a', ha, har, has⟩ := cycleElement_spec a res hr
  obtain ⟨b', hb, hbr, hbs⟩ := cycleElement_spec b res hr
  rw [ha, hb]
  constructor
  · intro h
    have : a' = b' := by simpa using h
    subst this
    exact (SameHeading.symm has).trans hbs
  · intro h
    rw [signed_unique res a' b' har hbr ((has.trans h).trans hbs.symm)]

/-- C01: the same for the unsigned form. -/
theorem cycleUnsignedElement_eq_iff (a b res : Int) (hr : 0 < res) :
    cycleUnsignedElement a res = cycleUnsignedElement b res ↔ SameHeading res a b := by
  obtain ⟨a', ha, har, has⟩ := cycleUnsignedElement_spec a res hr
  obtain ⟨b', hb, hbr, hbs⟩ := cycleUnsignedElement_spec b res hr
  rw [ha, hb]
  constructor
  · intro h
    have : a' = b' := by simpa using h
    subst this
    exact (SameHeading.symm has).trans hbs
  · intro h
    rw [unsigned_unique res a' b' har hbr ((has.trans h).trans hbs.symm)]

/-- C01: normalising twice changes nothing. -/
theorem cycleElement_idem (e e' res : Int) (hr : 0 < res) (h : cycleElement e res = some e') :
    cycleElement e' res = some e' := by
  obtain ⟨a, ha, har, has⟩ := cycleElement_spec e res hr
  obtain rfl : a = e' := by rw [ha] at h; simpa using h
  rw [← ha, cycleElement_eq_iff _ _ _ hr]; exact has

theorem cycleUnsignedElement_idem (e e' res : Int) (hr : 0 < res)
    (h : cycleUnsignedElement e res = some e') : cycleUnsignedElement e' res = some e' := by
  obtain ⟨a, ha, har, has⟩ := cycleUnsignedElement_spec e res hr
  obtain rfl : a = e' := by rw [ha] at h; simpa using h
  rw [← ha, cycleUnsignedElement_eq_iff _ _ _ hr]; exact has

/-- C01: resolution 0 is undefined behaviour. -/
theorem cycleElement_zero (e : Int) : cycleElement e 0 = none ∧ cycleUnsignedElement e 0 = none := by
  simp [cycleElement, cycleUnsignedElement]

theorem cycleWith_spec (f : Int → Int → Option Int) (range : Int → Int → Prop)
    (hf : ∀ e res, 0 < res → ∃ e', f e res = some e' ∧ range res e' ∧ SameHeading res e' e) :
    ∀ (nonc : Nat) (v res : List Int), v.length = res.length →
      (∀ i (h : i < res.length), nonc ≤ i → 0 < res[i]) →
      ∃ w, cycleWith f nonc v res = some w ∧ VecNormalised range nonc res v w
  | _, [], [], _, _ => ⟨[], by cases ‹Nat› <;> rfl, by simp [VecNormalised]⟩
  | nonc + 1, e :: es, r :: rs, hl, hp => by
    obtain ⟨w, hw, hl2, hn⟩ := cycleWith_spec f range hf nonc es rs (by simpa using hl)
      (fun i h hi => hp (i + 1) (by simp; omega) (by omega))
    refine ⟨e :: w, by simp [cycleWith, hw], by simp [hl2], ?_⟩
    intro i h hr hw'
    cases i with
    | zero => simp
    | succ i => simpa using hn i (by simpa using h) (by simpa using hr) (by simpa using hw')
  | 0, e :: es, r :: rs, hl, hp => by
    obtain ⟨w, hw, hl2, hn⟩ := cycleWith_spec f range hf 0 es rs (by simpa using hl)
      (fun i h hi => hp (i + 1) (by simp; omega) (by omega))
    obtain ⟨e', he, her, hes⟩ := hf e r (hp 0 (by simp) (by omega))
    refine ⟨e' :: w, by simp [cycleWith, hw, he], by simp [hl2], ?_⟩
    intro i h hr hw'
    cases i with
    | zero => simp [her, hes]
    | succ i => simpa using hn i (by simpa using h) (by simpa using hr) (by simpa using hw')

/-- C01 (vector, signed): every vector of every dimension, any number of leading metric elements.
Metric elements are untouched, cyclic ones become the unique representative in range. -/
theorem cycle_spec (nonc : Nat) (v res : List Int) (hl : v.length = res.length)
    (hp : ∀ i (h : i < res.length), nonc ≤ i → 0 < res[i]) :
    ∃ w, cycle nonc v res = some w ∧ VecNormalised InSignedRange nonc res v w :=
  cycleWith_spec _ _ cycleElement_spec nonc v res hl hp

/-- C01 (vector, unsigned). -/
theorem cycleUnsigned_spec (nonc : Nat) (v res : List Int) (hl : v.length = res.length)
    (hp : ∀ i (h : i < res.length), nonc ≤ i → 0 < res[i]) :
    ∃ w, cycleUnsigned nonc v res = some w ∧ VecNormalised InUnsignedRange nonc res v w :=
  cycleWith_spec _ _ cycleUnsignedElement_spec nonc v res hl hp

/-- Non-vacuity: 3-DOF vector, heading -37 at 16 headings. -/
example : cycle 2 [7, -3, -37] [10, 10, 16] = some [7, -3, -5] ∧
    cycleUnsigned 2 [7, -3, -37] [10, 10, 16] = some [7, -3, 11] := by decide
/-- Non-vacuity: odd resolution. -/
example : cycleElement 3 5 = some (-2) ∧ cycleElement 1 5 = some 1 ∧ cycleElement 2 5 = some (-3) := by
  decide

/-- C61: the single unsigned comparison used as the in-map test is exactly "some metric coordinate is
negative or not below the (non-negative) size", for all 32-bit values. -/
theorem isExceeded_iff (nonc : Nat) (pos size : List (BitVec 32))
    (hl : pos.length = size.length) (hs : ∀ s ∈ size, 0 ≤ s.toInt) :
    isExceeded nonc pos size = true ↔
      ∃ i, i < nonc ∧ ∃ (h : i < pos.length) (h' : i < size.length),
        pos[i].toInt < 0 ∨ size[i].toInt ≤ pos[i].toInt := by
  induction nonc generalizing pos size with
  | zero => simp [isExceeded]
  | succ n ih =>
    cases pos with
    | nil => simp [isExceeded]
    | cons e es =>
      cases size with
      | nil => simp at hl
      | cons v vs =>
        have ih' := ih es vs (by simpa using hl) (fun s h => hs s (by simp [h]))
        have hv := hs v (by simp)
        have key : v.toNat ≤ e.toNat ↔ (e.toInt < 0 ∨ v.toInt ≤ e.toInt) := by
          have h1 := BitVec.toInt_eq_toNat_cond e
          have h2 := BitVec.toInt_eq_toNat_cond v
          have h3 := e.isLt
          have h4 := v.isLt
          split at h1 <;> split at h2 <;> omega
        unfold isExceeded
        by_cases hc : v.toNat ≤ e.toNat
        · simp only [hc, if_true, true_iff]
          exact ⟨0, by omega, by simp, by simp, key.mp hc⟩
        · simp only [hc, if_false, ih']
          constructor
          · rintro ⟨i, hi, h, h', hx⟩
            exact ⟨i + 1, by omega, by simpa using h, by simpa using h', by simpa using hx⟩
          · rintro ⟨i, hi, h, h', hx⟩
            cases i with
            | zero => exact absurd (key.mpr (by simpa using hx)) hc
            | succ i => exact ⟨i, by omega, by simpa using h, by simpa using h', by simpa using hx⟩

example : isExceeded 2 [5#32, -1#32] [10#32, 10#32] = true ∧
    isExceeded 2 [5#32, 9#32] [10#32, 10#32] = false := by decide

/-- The squared length is the sum of the squares of the position elements; headings do not count. -/
theorem sqlen_sum (nonc : Nat) (v : List Int) : sqlen nonc v = ((v.take nonc).map fun e => e ^ 2).sum := by
  have key : ∀ (l : List Int) (a : Int), l.foldl (fun out e => out + e * e) a = a + (l.map fun e => e ^ 2).sum := by
    intro l
    induction l with
    | nil => simp
    | cons e l ih => intro a; rw [List.foldl_cons, ih, List.map_cons, List.sum_cons, pow_two]; omega
  unfold sqlen
  rw [key, Int.zero_add]

/-- The squared length is not negative, and zero only if all position elements are. -/
theorem sqlen_zero (nonc : Nat) (v : List Int) : 0 ≤ sqlen nonc v ∧ (sqlen nonc v = 0 ↔ ∀ e ∈ v.take nonc, e = 0) := by
  rw [sqlen_sum]
  generalize v.take nonc = l
  induction l with
  | nil => simp
  | cons e l ih =>
    rw [List.map_cons, List.sum_cons, List.forall_mem_cons]
    have h : 0 ≤ e ^ 2 := by rw [pow_two]; rcases Int.le_total 0 e with k | k <;> nlinarith
    refine ⟨by omega, ?_⟩
    rw [← ih.2]
    constructor
    · intro k
      have : e ^ 2 = 0 := by omega
      exact ⟨by simpa using this, by omega⟩
    · rintro ⟨rfl, k⟩
      rw [k]; rfl

example : sqlen 2 [3, -4, 7] = 25 := by decide

end Verif.CyclicVec
