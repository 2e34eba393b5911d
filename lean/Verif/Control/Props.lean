import Verif.Control.Spec
import Mathlib.Tactic.Ring
import Mathlib.Tactic.Linarith
import Mathlib.Tactic.Positivity
import Mathlib.Algebra.Order.Archimedean.Basic
import Mathlib.Data.Rat.Floor
/-! # Properties of the velocity limiter and of angle normalisation (C39, C45, C69) -/
set_option linter.unusedSectionVars false
namespace Verif.Control
open Verif.Num Verif.Num.Ext Spec

variable {K : Type} [Field K] [LinearOrder K] [IsStrictOrderedRing K]

theorem isFin_iff (v : Ext K) : isFin v = true ↔ ∃ x, v = .fin x := by
  cases v <;> simp [isFin]

theorem finite_ite (w : Ext K) : ∃ x : K, (if isFin w then w else fin 0) = .fin x := by
  cases w <;> simp [isFin]

/-- **C39** (no NaN or infinity ever reaches the output).  Whatever is passed to the limiter in whatever
order, its value is finite. -/
theorem calls_finite (cs : List (Call K)) : ∃ x : K, calls cs = .fin x := by
  have hset : ∀ p v w a d : Ext K, ∃ x : K, vset p v w a d = .fin x := by
    intro p v w a d
    exact finite_ite _
  have key : ∀ (cs : List (Call K)) (p : Ext K), (∃ x, p = .fin x) → ∃ x : K, cs.foldl call p = .fin x := by
    intro cs
    induction cs with
    | nil => intro p h; exact h
    | cons c cs ih =>
      intro p _
      apply ih
      cases c with
      | set v w a d => exact hset p v w a d
      | increment v w a d => exact hset p (add p v) w a d
      | clear => exact ⟨0, rfl⟩
  exact key cs _ ⟨0, rfl⟩

/-- **C39** (exact effect of one call).  For a non-NaN target the new value is the value reachable within acceleration
times time that is nearest to the target clipped to the velocity limit. -/
theorem vset_spec {p vel a d : K} (hv : 0 ≤ vel) (ha : 0 ≤ a) (hd : 0 ≤ d) {v : Ext K} {t : K}
    (ht : target vel v = some t) :
    vset (.fin p) v (.fin vel) (.fin a) (.fin d) =
      .fin (nearest (p - d * a) (p + d * a) (nearest (-vel) vel t)) := by
  have hda : 0 ≤ d * a := mul_nonneg hd ha
  have hclip : clip v (.fin vel) = .fin (nearest (-vel) vel t) := by
    cases v with
    | nan => cases ht
    | pinf =>
      cases ht
      simp only [clip, lt, if_true, nearest, min_self]
      rw [max_eq_right (by linarith)]
    | ninf =>
      cases ht
      simp only [clip, lt, neg, if_true, nearest, Bool.false_eq_true, if_false]
      rw [min_eq_right (by linarith), max_self]
    | fin x =>
      cases ht
      simp only [clip, lt, neg, decide_eq_true_eq, nearest]
      by_cases h1 : vel < t
      · rw [if_pos h1, min_eq_left h1.le, max_eq_right (by linarith)]
      · rw [if_neg h1, min_eq_right (not_lt.mp h1)]
        by_cases h2 : t < -vel
        · rw [if_pos h2, max_eq_left h2.le]
        · rw [if_neg h2, max_eq_right (not_lt.mp h2)]
  unfold vset
  simp only [hclip, mul, add, sub, neg, lt, decide_eq_true_eq]
  generalize nearest (-vel) vel t = x
  simp only [nearest, ← sub_eq_add_neg]
  by_cases h1 : p + d * a < x
  · rw [if_pos h1, min_eq_left h1.le, max_eq_right (by linarith)]; rfl
  · rw [if_neg h1, min_eq_right (not_lt.mp h1)]
    by_cases h2 : x < p - d * a
    · rw [if_pos h2, max_eq_left h2.le]; rfl
    · rw [if_neg h2, max_eq_right (not_lt.mp h2)]; rfl

theorem nearest_mem {lo hi : K} (h : lo ≤ hi) (x : K) : lo ≤ nearest lo hi x ∧ nearest lo hi x ≤ hi :=
  ⟨le_max_left _ _, max_le h (min_le_left _ _)⟩

theorem target_some {vel : K} {v : Ext K} (h : v ≠ .nan) : ∃ t, target vel v = some t := by
  cases v with
  | nan => exact absurd rfl h
  | fin x => exact ⟨_, rfl⟩
  | pinf => exact ⟨_, rfl⟩
  | ninf => exact ⟨_, rfl⟩

theorem add_ne_nan {p : K} {v : Ext K} (h : v ≠ .nan) : add (.fin p) v ≠ .nan := by
  cases v <;> simp_all [add]

/-- **C39** (acceleration limit).  In every history, a call with a non-NaN target and finite
non-negative limits changes the value by at most acceleration times time. -/
theorem step_bounded_partial {vel : K} (hv : 0 ≤ vel) (cs : List (Call K)) (c : Call K) (hc : Proper vel c)
    (hcn : NotNan c)
    {b : K} (hb : allowance c = some b) :
    ∃ x y : K, calls cs = .fin x ∧ calls (cs ++ [c]) = .fin y ∧ |y - x| ≤ b := by
  obtain ⟨x, hx⟩ := calls_finite cs
  have hcat : calls (cs ++ [c]) = call (.fin x) c := by
    rw [← hx]; simp [calls]
  have fin : ∀ (v : Ext K) (a' d' : K), v ≠ .nan → 0 ≤ a' → 0 ≤ d' →
      ∃ y, vset (.fin x) v (.fin vel) (.fin a') (.fin d') = .fin y ∧ |y - x| ≤ d' * a' := by
    intro v a' d' hn ha hd
    obtain ⟨t, ht⟩ := target_some (vel := vel) hn
    refine ⟨_, vset_spec hv ha hd ht, ?_⟩
    have := mul_nonneg hd ha
    have h := nearest_mem (lo := x - d' * a') (hi := x + d' * a') (by linarith) (nearest (-vel) vel t)
    rw [abs_le]
    constructor <;> linarith [h.1, h.2]
  cases c with
  | clear => cases hb
  | set v w a d =>
    obtain ⟨rfl, a', d', rfl, rfl, ha, hd⟩ := hc
    have hn : v ≠ .nan := hcn
    obtain ⟨y, hy, hyb⟩ := fin v a' d' hn ha hd
    cases hb
    exact ⟨x, y, hx, hcat.trans hy, hyb⟩
  | increment v w a d =>
    obtain ⟨rfl, a', d', rfl, rfl, ha, hd⟩ := hc
    have hn : v ≠ .nan := hcn
    obtain ⟨y, hy, hyb⟩ := fin _ a' d' (add_ne_nan hn) ha hd
    cases hb
    exact ⟨x, y, hx, hcat.trans hy, hyb⟩

theorem nearest_bound {vel p e t : K} (hv : 0 ≤ vel) (he : 0 ≤ e) :
    |nearest (p - e) (p + e) (nearest (-vel) vel t)| ≤ max vel (|p| - e) := by
  have h := nearest_mem (lo := -vel) (hi := vel) (by linarith) t
  generalize nearest (-vel) vel t = x at h
  have hx : |x| ≤ vel := abs_le.mpr h
  unfold nearest
  by_cases h1 : p + e < x
  · rw [min_eq_left h1.le, max_eq_right (by linarith)]
    rcases le_or_gt 0 (p + e) with h2 | h2
    · exact le_max_of_le_left (by rw [abs_of_nonneg h2]; linarith)
    · rw [abs_of_neg h2, abs_of_neg (by linarith)]
      exact le_max_of_le_right (by linarith)
  · rw [min_eq_right (not_lt.mp h1)]
    by_cases h2 : x < p - e
    · rw [max_eq_left h2.le]
      rcases le_or_gt 0 (p - e) with h3 | h3
      · rw [abs_of_nonneg h3, abs_of_nonneg (by linarith)]
        exact le_max_of_le_right le_rfl
      · exact le_max_of_le_left (by rw [abs_of_neg h3]; linarith)
    · rw [max_eq_right (not_lt.mp h2)]
      exact le_max_of_le_left hx

/-- **C39** (violation).  A NaN target makes the value jump to zero at once, whatever the acceleration limit. -/
theorem nan_jumps (p vel a d : K) : vset (.fin p) .nan (.fin vel) (.fin a) (.fin d) = .fin 0 := by
  simp [vset, clip, lt, add, mul, sub, neg, isFin]

/-- **C39** (velocity limit).  With a fixed velocity limit and any targets, NaN included, every value of every
history is within the limit. -/
theorem velocity_bounded {vel : K} (hv : 0 ≤ vel) (cs : List (Call K)) (hc : ∀ c ∈ cs, Proper vel c) :
    ∃ x : K, calls cs = .fin x ∧ |x| ≤ vel := by
  have key : ∀ (cs : List (Call K)) (p : K), |p| ≤ vel → (∀ c ∈ cs, Proper vel c) →
      ∃ x : K, cs.foldl call (.fin p) = .fin x ∧ |x| ≤ vel := by
    intro cs
    induction cs with
    | nil => intro p hp _; exact ⟨p, rfl, hp⟩
    | cons c cs ih =>
      intro p hp hc
      have fin : ∀ (v : Ext K) (a' d' : K), 0 ≤ a' → 0 ≤ d' →
          ∃ y, vset (.fin p) v (.fin vel) (.fin a') (.fin d') = .fin y ∧ |y| ≤ vel := by
        intro v a' d' ha hd
        by_cases hn : v = .nan
        · subst hn; exact ⟨0, nan_jumps _ _ _ _, by simpa using hv⟩
        obtain ⟨t, ht⟩ := target_some (vel := vel) hn
        have hda := mul_nonneg hd ha
        refine ⟨_, vset_spec hv ha hd ht, (nearest_bound hv hda).trans ?_⟩
        exact max_le le_rfl (by linarith)
      have ⟨y, hy, hyb⟩ : ∃ y, call (.fin p) c = .fin y ∧ |y| ≤ vel := by
        have := hc c (by simp)
        cases c with
        | clear => exact ⟨0, rfl, by simpa using hv⟩
        | set v w a d =>
          obtain ⟨rfl, a', d', rfl, rfl, ha, hd⟩ := this
          exact fin v a' d' ha hd
        | increment v w a d =>
          obtain ⟨rfl, a', d', rfl, rfl, ha, hd⟩ := this
          exact fin _ a' d' ha hd
      simp only [List.foldl_cons, hy]
      exact ih y hyb (fun c h => hc c (by simp [h]))
  exact key cs 0 (by simpa using hv) hc

/-- **C39** (a lowered limit).  If the value exceeds the limit (because the limit was lowered), each step brings it
back by acceleration times time until it is within the limit. -/
theorem recovers {p vel a d : K} (hv : 0 ≤ vel) (ha : 0 ≤ a) (hd : 0 ≤ d) {v : Ext K} (hn : v ≠ .nan) :
    ∃ y, vset (.fin p) v (.fin vel) (.fin a) (.fin d) = .fin y ∧ |y| ≤ max vel (|p| - d * a) := by
  obtain ⟨t, ht⟩ := target_some (vel := vel) hn
  exact ⟨_, vset_spec hv ha hd ht, nearest_bound hv (mul_nonneg hd ha)⟩

theorem toward {p e t : K} (he : 0 ≤ e) :
    |t - nearest (p - e) (p + e) t| = max 0 (|t - p| - e) := by
  unfold nearest
  by_cases h1 : p + e < t
  · rw [min_eq_left h1.le, max_eq_right (by linarith), abs_of_pos (by linarith), abs_of_pos (by linarith),
      max_eq_right (by linarith)]; ring
  · rw [min_eq_right (not_lt.mp h1)]
    by_cases h2 : t < p - e
    · rw [max_eq_left h2.le, abs_of_neg (by linarith), abs_of_neg (by linarith), max_eq_right (by linarith)]
      ring
    · rw [max_eq_right (not_lt.mp h2), sub_self, abs_zero]
      have : |t - p| ≤ e := by rw [abs_le]; constructor <;> linarith [not_lt.mp h1, not_lt.mp h2]
      rw [max_eq_left (by linarith)]

/-- **C39** (the target is reached).  Repeating the call with a constant admissible target brings the
value to the target after as many steps as the acceleration limit requires, and no later. -/
theorem reaches {vel a d t : K} (ha : 0 ≤ a) (hd : 0 ≤ d) (ht : |t| ≤ vel) (p : K) (n : Nat) :
    ∃ x, (List.replicate n (Call.set (.fin t) (.fin vel) (.fin a) (.fin d))).foldl call (.fin p) = .fin x ∧
      |t - x| = max 0 (|t - p| - n * (d * a)) := by
  have hda := mul_nonneg hd ha
  have hv : 0 ≤ vel := (abs_nonneg t).trans ht
  induction n generalizing p with
  | zero => exact ⟨p, rfl, by simp⟩
  | succ n ih =>
    rw [List.replicate_succ, List.foldl_cons]
    have h1 : nearest (-vel) vel t = t := by
      have := abs_le.mp ht
      unfold nearest; rw [min_eq_right this.2, max_eq_right this.1]
    have hs := vset_spec (p := p) hv ha hd (v := .fin t) (t := t) rfl
    rw [h1] at hs
    simp only [call, hs]
    obtain ⟨x, hx, hxe⟩ := ih (nearest (p - d * a) (p + d * a) t)
    refine ⟨x, hx, ?_⟩
    rw [hxe, toward hda]
    push_cast
    rcases le_or_gt (|t - p|) (d * a) with h | h
    · have hn : 0 ≤ (n : K) * (d * a) := mul_nonneg n.cast_nonneg hda
      rw [max_eq_left (by linarith : |t - p| - d * a ≤ 0), max_eq_left (by linarith),
        max_eq_left (by nlinarith)]
    · rw [max_eq_right (by linarith : 0 ≤ |t - p| - d * a)]
      congr 1; ring

/-- **C39** refutation of the unconditional claim: a history where the value changes from 1 to 0 although
acceleration times time is 1/10. -/
theorem nan_violates_acceleration :
    calls [Call.set (.fin (1 : ℚ)) (.fin 1) (.fin 10) (.fin 1)] = .fin 1 ∧
    calls [Call.set (.fin (1 : ℚ)) (.fin 1) (.fin 10) (.fin 1),
      Call.set .nan (.fin 1) (.fin 1) (.fin (1 / 10))] = .fin 0 := by
  decide +kernel

/-- **C69**.  The commanded angular velocity is directed against the angle error and is exactly the speed from which
a constant deceleration `acc` stops after turning by the error. -/
theorem timeOptimal_spec {acc : ℝ} (ha : 0 < acc) (angle : ℝ) :
    timeOptimalControl angle acc * angle ≤ 0 ∧
    timeOptimalControl angle acc ^ 2 / (2 * acc) = |angle| := by
  unfold timeOptimalControl
  have hs := Real.sqrt_nonneg |2 * angle * acc|
  constructor
  · split
    · rename_i h; nlinarith
    · rename_i h; nlinarith [not_lt.mp h]
  · have hsq : (-(if angle < 0 then (-1 : ℝ) else 1) * Real.sqrt |2 * angle * acc|) ^ 2 = |2 * angle * acc| := by
      rw [mul_pow, Real.sq_sqrt (abs_nonneg _)]
      split <;> norm_num
    rw [hsq, show 2 * angle * acc = angle * (2 * acc) by ring, abs_mul, abs_of_pos (by positivity : 0 < 2 * acc)]
    field_simp

/-! ## Angles -/

theorem up_total [Archimedean K] {pi : K} (hp : 0 < pi) (a : K) : ∃ r, Up id pi a r := by
  obtain ⟨n, hn⟩ := exists_nat_ge ((-pi - a) / (2 * pi))
  rw [div_le_iff₀ (by positivity)] at hn
  induction n generalizing a with
  | zero => exact ⟨a, .stop (by simp at hn; linarith)⟩
  | succ n ih =>
    by_cases h : a < -pi
    · obtain ⟨r, hr⟩ := ih (a + 2 * pi) (by push_cast at hn; linarith)
      exact ⟨r, .go h hr⟩
    · exact ⟨a, .stop h⟩

theorem down_total [Archimedean K] {pi : K} (hp : 0 < pi) (a : K) : ∃ r, Down id pi a r := by
  obtain ⟨n, hn⟩ := exists_nat_ge ((a - pi) / (2 * pi))
  rw [div_le_iff₀ (by positivity)] at hn
  induction n generalizing a with
  | zero => exact ⟨a, .stop (by simp at hn; linarith)⟩
  | succ n ih =>
    by_cases h : a > pi
    · obtain ⟨r, hr⟩ := ih (a - 2 * pi) (by push_cast at hn; linarith)
      exact ⟨r, .go h hr⟩
    · exact ⟨a, .stop h⟩

theorem up_spec {pi a r : K} (h : Up id pi a r) :
    (∃ k : Int, r = a + k * (2 * pi)) ∧ -pi ≤ r ∧ (a < -pi → r < pi) ∧ (¬ a < -pi → r = a) := by
  induction h with
  | stop h => exact ⟨⟨0, by simp⟩, not_lt.mp h, fun h' => absurd h' h, fun _ => rfl⟩
  | @go a r h hr ih =>
    obtain ⟨⟨k, hk⟩, h1, h2, h3⟩ := ih
    simp only [id] at hk h2 h3
    refine ⟨⟨k + 1, ?_⟩, h1, fun _ => ?_, fun h' => absurd h h'⟩
    · rw [hk]; push_cast; ring
    · by_cases hh : a + 2 * pi < -pi
      · exact h2 hh
      · rw [h3 hh]; linarith

theorem down_spec {pi a r : K} (h : Down id pi a r) (ha : -pi ≤ a) :
    (∃ k : Int, r = a + k * (2 * pi)) ∧ -pi ≤ r ∧ r ≤ pi := by
  induction h with
  | stop h => exact ⟨⟨0, by simp⟩, ha, not_lt.mp h⟩
  | @go a r h hr ih =>
    obtain ⟨⟨k, hk⟩, h1, h2⟩ := ih (by simp only [id]; linarith)
    simp only [id] at hk
    refine ⟨⟨k - 1, ?_⟩, h1, h2⟩
    rw [hk]; push_cast; ring

theorem up_det {rnd : K → K} {pi a r r' : K} (h : Up rnd pi a r) (h' : Up rnd pi a r') : r = r' := by
  induction h with
  | stop h => cases h' with
    | stop => rfl
    | go hh => exact absurd hh h
  | go h hr ih => cases h' with
    | stop hh => exact absurd h hh
    | go _ hr' => exact ih hr'

theorem down_det {rnd : K → K} {pi a r r' : K} (h : Down rnd pi a r) (h' : Down rnd pi a r') : r = r' := by
  induction h with
  | stop h => cases h' with
    | stop => rfl
    | go hh => exact absurd hh h
  | go h hr ih => cases h' with
    | stop hh => exact absurd h hh
    | go _ hr' => exact ih hr'

/-- **C45** (exact arithmetic).  `angleNormalized` always returns, and its result is the same angle up to full turns,
within half a turn. -/
theorem angleNormalized_spec [Archimedean K] {pi : K} (hp : 0 < pi) (a : K) :
    (∃ r, Normalized id pi a r) ∧ ∀ r, Normalized id pi a r → IsNormal pi a r := by
  constructor
  · obtain ⟨m, hm⟩ := up_total hp a
    obtain ⟨r, hr⟩ := down_total hp m
    exact ⟨r, m, hm, hr⟩
  · rintro r ⟨m, hm, hr⟩
    obtain ⟨⟨k, hk⟩, h1, -, -⟩ := up_spec hm
    obtain ⟨⟨j, hj⟩, h2, h3⟩ := down_spec hr h1
    exact ⟨⟨k + j, by rw [hj, hk]; push_cast; ring⟩, h2, h3⟩

/-- **C45** An angle already within half a turn is returned unchanged. -/
theorem angleNormalized_id {rnd : K → K} {pi a : K} (h1 : -pi ≤ a) (h2 : a ≤ pi) :
    ∀ r, Normalized rnd pi a r ↔ r = a := by
  intro r
  constructor
  · rintro ⟨m, hm, hr⟩
    have := up_det hm (.stop (not_lt.mpr h1))
    subst this
    exact down_det hr (.stop (not_lt.mpr h2))
  · rintro rfl; exact ⟨_, .stop (not_lt.mpr h1), .stop (not_lt.mpr h2)⟩

/-- **C45** (rounding).  If adding a full turn is absorbed by rounding, the loop never ends. -/
theorem absorbed_diverges {rnd : K → K} {pi a : K} (h : a < -pi) (hr : rnd (a + 2 * pi) = a) :
    ¬ ∃ r, Normalized rnd pi a r := by
  rintro ⟨r, m, hm, -⟩
  have key : ∀ x y, Up rnd pi x y → x = a → False := by
    intro x y hxy
    induction hxy with
    | stop hh => rintro rfl; exact hh h
    | go hh hrr ih => rintro rfl; exact ih hr
  exact key a m hm rfl

/-- **C45** (refutation for `float`).  At `-2^28` neighbouring floats are 32 (towards zero 16) apart; adding `2·M_PI` is
absorbed and the call never returns. -/
theorem float_diverges : ¬ ∃ r, Normalized (toGrid 16) mPi (-268435456) r :=
  absorbed_diverges (by decide +kernel) (by decide +kernel)

/-- **C45** (`normalizeFloatAngle`).  One correction suffices exactly for angles up to one and a half turns. -/
theorem normalizeFloatAngle_spec {pi : K} (hp : 0 < pi) (a : K) :
    (∃ k : Int, normalizeFloatAngle pi a = a + k * (2 * pi)) ∧
    (IsNormal pi a (normalizeFloatAngle pi a) ↔ -(3 * pi) ≤ a ∧ a ≤ 3 * pi) := by
  have h0 : ∃ k : Int, normalizeFloatAngle pi a = a + k * (2 * pi) := by
    unfold normalizeFloatAngle
    split
    · exact ⟨-1, by push_cast; ring⟩
    · split
      · exact ⟨1, by push_cast; ring⟩
      · exact ⟨0, by simp⟩
  refine ⟨h0, ?_⟩
  unfold IsNormal
  rw [and_iff_right h0]
  unfold normalizeFloatAngle
  split
  · rename_i h
    constructor
    · rintro ⟨h1, h2⟩; constructor <;> linarith
    · rintro ⟨h1, h2⟩; constructor <;> linarith
  · rename_i h
    split
    · rename_i h'
      constructor
      · rintro ⟨h1, h2⟩; constructor <;> linarith
      · rintro ⟨h1, h2⟩; constructor <;> linarith
    · rename_i h'
      constructor
      · rintro ⟨h1, h2⟩; constructor <;> linarith
      · intro _; constructor <;> linarith

/-! ## Concrete cases -/

example : vset (.fin (0 : ℚ)) (.fin 3) (.fin 2) (.fin 1) (.fin (1 / 2)) = .fin (1 / 2) := by decide +kernel
example : vset (.fin (0 : ℚ)) .pinf (.fin 2) (.fin 100) (.fin 1) = .fin 2 := by decide +kernel
example : Proper (2 : ℚ) (.set (.fin 3) (.fin 2) (.fin 1) (.fin (1 / 2))) :=
  ⟨rfl, 1, 1 / 2, rfl, rfl, by decide +kernel, by decide +kernel⟩
example : Normalized id (1 : ℚ) 4 0 :=
  ⟨4, .stop (by decide +kernel), .go (by decide +kernel) (.go (by decide +kernel)
    (by norm_num; exact Down.stop (by decide +kernel)))⟩

end Verif.Control
