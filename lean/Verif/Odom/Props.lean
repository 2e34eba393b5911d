import Verif.Odom.Spec
import Mathlib.Tactic.Ring
import Mathlib.Tactic.FieldSimp
import Mathlib.Tactic.Linarith
import Mathlib.Tactic.Positivity
import Mathlib.Algebra.Order.Field.Rat
/-! # Properties of the state estimate filter and of the odometry correction (C49, C50, C70, C71) -/
set_option linter.unusedSectionVars false
namespace Verif.Odom
open Verif.Num Verif.Num.Ext Spec

variable {K : Type} [Field K] [LinearOrder K] [IsStrictOrderedRing K]

/-! ## Kalman filter -/

theorem measure_fin {x s z m : K} (h : s * s + m * m ≠ 0) :
    (KF.mk (.fin x) (.fin s)).measure (.fin z) (.fin m) =
      ⟨.fin ((m * m * x + s * s * z) / (s * s + m * m)), .fin (m * m * s / (s * s + m * m))⟩ := by
  have h2 : s ^ 2 + m ^ 2 ≠ 0 := by rwa [sq, sq]
  simp only [KF.measure, isInf, mul_fin, add_fin, sub_fin, div_fin h, Bool.false_eq_true, if_false, KF.mk.injEq,
    Ext.fin.injEq]
  constructor <;> field_simp <;> ring

/-- **C49** (one measurement).  With finite uncertainties, not both zero, the new estimate is the average of old
estimate and measurement weighted by the inverse squares of their uncertainties; it lies between them, and the new
uncertainty is at most the old one and at most half the measurement's. -/
theorem measure_spec {x s z m : K} (hs : 0 ≤ s) (hm : 0 ≤ m) (h : s ≠ 0 ∨ m ≠ 0) :
    ∃ x' s' : K, (KF.mk (.fin x) (.fin s)).measure (.fin z) (.fin m) = ⟨.fin x', .fin s'⟩ ∧
      x' * (s ^ 2 + m ^ 2) = m ^ 2 * x + s ^ 2 * z ∧
      min x z ≤ x' ∧ x' ≤ max x z ∧ 0 ≤ s' ∧ s' ≤ s ∧ s' ≤ m / 2 := by
  have hpos : 0 < s * s + m * m := by
    rcases h with h | h
    · have := mul_self_pos.mpr h; have := mul_self_nonneg m; linarith
    · have := mul_self_pos.mpr h; have := mul_self_nonneg s; linarith
  refine ⟨_, _, measure_fin hpos.ne', ?_, ?_, ?_, ?_, ?_, ?_⟩
  · rw [sq, sq, div_mul_cancel₀ _ hpos.ne']
  · rw [le_div_iff₀ hpos]
    have h1 := min_le_left x z
    have h2 := min_le_right x z
    nlinarith [mul_self_nonneg s, mul_self_nonneg m]
  · rw [div_le_iff₀ hpos]
    have h1 := le_max_left x z
    have h2 := le_max_right x z
    nlinarith [mul_self_nonneg s, mul_self_nonneg m]
  · positivity
  · rw [div_le_iff₀ hpos]
    nlinarith [mul_self_nonneg s, mul_nonneg hs (mul_self_nonneg s)]
  · rw [div_le_iff₀ hpos]
    nlinarith [mul_nonneg hm (mul_self_nonneg (s - m))]

/-- **C49** (prediction adds uncertainty). -/
theorem predict_spec (x s dx ds : K) (h : 0 ≤ ds) :
    ∃ s', (KF.mk (.fin x) (.fin s)).predict (.fin dx) (.fin ds) = ⟨.fin (x + dx), .fin s'⟩ ∧ s ≤ s' :=
  ⟨s + ds, rfl, by linarith⟩

/-- **C49** (an infinitely uncertain measurement changes nothing). -/
theorem measure_inf (f : KF K) (z : Ext K) : f.measure z .pinf = f := by
  simp [KF.measure, isInf]

/-- **C49** (an infinitely uncertain estimate takes over the measurement). -/
theorem inf_takes (x : Ext K) (z m : K) :
    (KF.mk x .pinf).measure (.fin z) (.fin m) = ⟨.fin z, .fin m⟩ := by
  simp [KF.measure, isInf]

/-- **C49** (all histories).  Starting from a finite estimate with non-negative or infinite uncertainty, after
any sequence of sensible inputs the estimate is finite and the uncertainty is non-negative or infinite. -/
theorem kf_history (x0 : K) (s0 : Option K) (h0 : ∀ s, s0 = some s → 0 ≤ s) (is : List (In K))
    (hi : ∀ i ∈ is, Sensible i) :
    ∃ (x : K) (s : Option K), is.foldl feed ⟨.fin x0, sig s0⟩ = ⟨.fin x, sig s⟩ ∧ ∀ t, s = some t → 0 ≤ t := by
  induction is generalizing x0 s0 with
  | nil => exact ⟨x0, s0, rfl, h0⟩
  | cons i is ih =>
    simp only [List.foldl_cons]
    have hi0 := hi i (by simp)
    have hr := fun j hj => hi j (List.mem_cons_of_mem _ hj)
    cases i with
    | predict dx ds =>
      cases s0 with
      | none => exact ih (x0 + dx) none (by simp) hr
      | some s =>
        exact ih (x0 + dx) (some (s + ds)) (by
          rintro t ⟨⟩; exact add_nonneg (h0 s rfl) hi0) hr
    | measure z m =>
      cases m with
      | none =>
        have : feed ⟨.fin x0, sig s0⟩ (.measure z none) = ⟨.fin x0, sig s0⟩ := measure_inf _ _
        rw [this]; exact ih x0 s0 h0 hr
      | some m =>
        have hm : 0 < m := hi0
        cases s0 with
        | none =>
          have : feed ⟨.fin x0, sig none⟩ (.measure z (some m)) = ⟨.fin z, sig (some m)⟩ := inf_takes _ _ _
          rw [this]; exact ih z (some m) (by rintro t ⟨⟩; exact hm.le) hr
        | some s =>
          obtain ⟨x', s', he, -, -, -, h1, -, -⟩ := measure_spec (x := x0) (z := z) (h0 s rfl) hm.le (.inr hm.ne')
          have : feed ⟨.fin x0, sig (some s)⟩ (.measure z (some m)) = ⟨.fin x', sig (some s')⟩ := he
          rw [this]; exact ih x' (some s') (by rintro t ⟨⟩; exact h1) hr

/-- **C49** (all histories).  If start value and measurements lie in an interval and predictions do not move the
estimate, it stays in the interval. -/
theorem kf_hull {lo hi : K} (x0 : K) (hx : lo ≤ x0 ∧ x0 ≤ hi) (s0 : Option K)
    (h0 : ∀ s, s0 = some s → 0 ≤ s) (is : List (In K)) (hs : ∀ i ∈ is, Sensible i)
    (hi' : ∀ i ∈ is, Inside lo hi i) :
    ∃ (x : K) (s : Option K), is.foldl feed ⟨.fin x0, sig s0⟩ = ⟨.fin x, sig s⟩ ∧ lo ≤ x ∧ x ≤ hi := by
  induction is generalizing x0 s0 with
  | nil => exact ⟨x0, s0, rfl, hx⟩
  | cons i is ih =>
    simp only [List.foldl_cons]
    have hi0 := hs i (by simp)
    have hin := hi' i (by simp)
    have hr := fun j hj => hs j (List.mem_cons_of_mem _ hj)
    have hr' := fun j hj => hi' j (List.mem_cons_of_mem _ hj)
    cases i with
    | predict dx ds =>
      cases hin
      cases s0 with
      | none => exact ih (x0 + 0) (by simpa using hx) none (by simp) hr hr'
      | some s =>
        exact ih (x0 + 0) (by simpa using hx) (some (s + ds)) (by
          rintro t ⟨⟩; exact add_nonneg (h0 s rfl) hi0) hr hr'
    | measure z m =>
      cases m with
      | none =>
        have : feed ⟨.fin x0, sig s0⟩ (.measure z none) = ⟨.fin x0, sig s0⟩ := measure_inf _ _
        rw [this]; exact ih x0 hx s0 h0 hr hr'
      | some m =>
        have hm : 0 < m := hi0
        cases s0 with
        | none =>
          have : feed ⟨.fin x0, sig none⟩ (.measure z (some m)) = ⟨.fin z, sig (some m)⟩ := inf_takes _ _ _
          rw [this]; exact ih z hin (some m) (by rintro t ⟨⟩; exact hm.le) hr hr'
        | some s =>
          obtain ⟨x', s', he, -, hl, hu, h1, -, -⟩ :=
            measure_spec (x := x0) (z := z) (h0 s rfl) hm.le (.inr hm.ne')
          have : feed ⟨.fin x0, sig (some s)⟩ (.measure z (some m)) = ⟨.fin x', sig (some s')⟩ := he
          rw [this]
          exact ih x' ⟨(le_min hx.1 hin.1).trans hl, hu.trans (max_le hx.2 hin.2)⟩ (some s')
            (by rintro t ⟨⟩; exact h1) hr hr'

/-- **C49** (limit of the claim).  An exact measurement of an exact estimate gives NaN, even when they agree. -/
theorem both_exact_nan (x z : K) :
    ((KF.mk (.fin x) (.fin 0)).measure (.fin z) (.fin 0)).x = .nan := by
  simp [KF.measure, isInf, mul, add, div, sgn, ofSgn, sub, neg]

/-! ## Node -/

variable {Q : Type}

theorem slipUpdate_fin (c : Cfg K) (hc : 0 < c.sigmaOdom) (x s dt wi wo : K) :
    ∃ x' s' : K, slipUpdate c ⟨.fin x, .fin s⟩ dt wi wo = ⟨.fin x', .fin s'⟩ := by
  unfold slipUpdate
  simp only [KF.predict, neg_fin, mul_fin, add_fin]
  generalize (if wi * wo < 0 ∧ c.negativeSlip = false then wo else wi) = wi'
  generalize x + -x * dt * c.predictFilterTc = x1
  generalize s + dt * c.sigmaPredict = s1
  by_cases h1 : |wo| < c.sigmaOdom
  · rw [if_pos h1, measure_inf]; exact ⟨_, _, rfl⟩
  · rw [if_neg h1]
    have hw : wo ≠ 0 := by
      rintro rfl; simp at h1; linarith
    by_cases h2 : (wo * wo - c.sigmaOdom * c.sigmaOdom) ^ 2 = 0
    · have hne : 2 * wo * c.sigmaOdom ≠ 0 := by
        have := hc.ne'
        simp [hw, this]
      have : mul (.fin c.sigmaOdom) (Ext.abs (div (.fin (2 * wo * c.sigmaOdom))
          (.fin ((wo * wo - c.sigmaOdom * c.sigmaOdom) ^ 2)))) = .pinf := by
        simp only [div, if_pos h2]
        rcases lt_or_gt_of_ne hne with h | h
        · have h' : ¬ 0 < 2 * wo * c.sigmaOdom := by linarith
          simp [sgn, h, h', ofSgn, Ext.abs, mul, hc]
        · simp [sgn, h, ofSgn, Ext.abs, mul, hc]
      rw [this, measure_inf]; exact ⟨_, _, rfl⟩
    · have h3 : wo * |wo| ≠ 0 := mul_ne_zero hw (abs_ne_zero.mpr hw)
      simp only [div_fin h2, div_fin h3, abs_fin, mul_fin]
      have hm : 0 < c.sigmaOdom * |2 * wo * c.sigmaOdom / (wo * wo - c.sigmaOdom * c.sigmaOdom) ^ 2| := by
        apply mul_pos hc
        apply abs_pos.mpr
        exact div_ne_zero (mul_ne_zero (mul_ne_zero two_ne_zero hw) hc.ne') h2
      have hd := measure_fin (x := x1) (s := s1)
        (z := (wo - wi') / (wo * |wo|))
        (m := c.sigmaOdom * |2 * wo * c.sigmaOdom / (wo * wo - c.sigmaOdom * c.sigmaOdom) ^ 2|) (by
          have := mul_pos hm hm
          have := mul_self_nonneg s1
          linarith)
      exact ⟨_, _, hd⟩

theorem factor_fin (c : Cfg K) (hc : 0 < c.sigmaOdom) (x : K) (s : Ext K) (wi wo : K) :
    ∃ k : K, factor c ⟨.fin x, s⟩ wi wo = .fin k := by
  unfold factor
  simp only
  split
  · exact ⟨_, rfl⟩
  · split
    · rename_i h
      have : wo ≠ 0 := by
        rintro rfl; simp at h; linarith
      exact ⟨_, div_fin this _⟩
    · exact ⟨1, rfl⟩

theorem slipAfter_fin (c : Cfg K) (hc : 0 < c.sigmaOdom) (is : List (Inc K Q)) :
    ∃ x s : K, slipAfter c is = ⟨.fin x, .fin s⟩ := by
  induction is with
  | nil => exact ⟨_, _, rfl⟩
  | cons i is ih =>
    obtain ⟨x, s, h⟩ := ih
    obtain ⟨x', s', h'⟩ := slipUpdate_fin c hc x s i.dt i.wImu i.wOdom
    exact ⟨x', s', by rw [slipAfter, h, h']⟩

theorem gain_eq (c : Cfg K) (hc : 0 < c.sigmaOdom) (i : Inc K Q) (is : List (Inc K Q)) :
    factor c (slipAfter c (i :: is)) i.wImu i.wOdom = .fin (gain c (i :: is)) := by
  obtain ⟨x, s, h⟩ := slipAfter_fin c hc (i :: is)
  obtain ⟨k, hk⟩ := factor_fin c hc x (.fin s) i.wImu i.wOdom
  simp only [gain, h, hk]

/-- The node state in terms of the history. -/
structure Matches (c : Cfg K) (h : List (Event K Q)) (s : St K Q) : Prop where
  hasOdom : s.hasOdom = decide (odoms h ≠ 0)
  base : s.base = decide (baseKnown c h)
  hasImu : s.hasImu = (imuOf c h).isSome
  imu : ∀ w q, imuOf c h = some (w, q) → s.imuW = w ∧ s.imuQ = some q
  raw : s.rawPrev = lastUsed c h
  slip : s.slip = slipAfter c (incs c h)

theorem lastUsed_isSome (c : Cfg K) (h : List (Event K Q)) : (lastUsed c h).isSome ↔ odoms h ≠ 0 := by
  induction h with
  | nil => simp [lastUsed, odoms]
  | cons e h ih =>
    cases e with
    | imu r => simpa [lastUsed, odoms] using ih
    | resetZ z => simpa [lastUsed, odoms] using ih
    | odom m =>
      simp only [lastUsed, odoms]
      split
      · simp
      · rename_i hh; push Not at hh; simp [ih, hh.1]

theorem imu_odoms (c : Cfg K) (hb : c.baseGiven = false) (h : List (Event K Q)) (hi : (imuOf c h).isSome) :
    2 ≤ odoms h := by
  induction h with
  | nil => simp [imuOf] at hi
  | cons e h ih =>
    cases e with
    | resetZ z => exact ih (by simpa [imuOf] using hi)
    | odom m => have := ih (by simpa [imuOf] using hi); simp only [odoms]; omega
    | imu r =>
      simp only [imuOf] at hi
      split at hi
      · rename_i h'; rcases h' with h' | h'
        · rw [hb] at h'; cases h'
        · exact h'
      · exact ih hi

/-- Simulation: the state is determined by the history and every message is handled. -/
theorem run_matches (R : Rot K Q) (c : Cfg K) (hc : 0 < c.sigmaOdom) (h : List (Event K Q)) :
    ∃ s, run R c h = some s ∧ Matches c h s := by
  induction h with
  | nil =>
    refine ⟨init c, rfl, ⟨rfl, ?_, rfl, by simp [imuOf], rfl, rfl⟩⟩
    simp [init, baseKnown, odoms]
  | cons e h ih =>
    obtain ⟨s, hs, hm⟩ := ih
    simp only [run, hs, Option.bind_some]
    cases e with
    | resetZ z =>
      refine ⟨_, rfl, ⟨hm.hasOdom, hm.base, hm.hasImu, hm.imu, hm.raw, hm.slip⟩⟩
    | imu r =>
      refine ⟨_, rfl, ?_⟩
      have hb := hm.base
      simp only [cbImu]
      by_cases hk : baseKnown c h
      · rw [decide_eq_true hk] at hb
        rw [hb, if_neg (by simp)]
        cases r with
        | none => exact ⟨hm.hasOdom, (decide_eq_true (show baseKnown c (Event.imu _ :: h) from hk)).symm ▸ rfl, by simp [imuOf, hk],
            by simp [imuOf, hk], hm.raw, hm.slip⟩
        | some r => exact ⟨hm.hasOdom, (decide_eq_true (show baseKnown c (Event.imu _ :: h) from hk)).symm ▸ rfl, by simp [imuOf, hk],
            by rintro w q hq; simp only [imuOf, if_pos hk] at hq; cases hq; exact ⟨rfl, rfl⟩, hm.raw, hm.slip⟩
      · rw [decide_eq_false hk] at hb
        rw [if_pos hb]
        exact ⟨hm.hasOdom, hm.base, by simpa [imuOf, hk] using hm.hasImu, by simpa [imuOf, hk] using hm.imu, hm.raw, hm.slip⟩
    | odom m =>
      simp only [step, cbOdom]
      have hl := lastUsed_isSome c h
      by_cases h0 : odoms h = 0
      · have hn : lastUsed c h = none := by
          cases hh : lastUsed c h with
          | none => rfl
          | some p => simp [hh, h0] at hl
        have ho : s.hasOdom = false := by rw [hm.hasOdom]; simp [h0]
        rw [ho]
        refine ⟨_, rfl, ⟨by simp [odoms], ?_, ?_, ?_, ?_, ?_⟩⟩
        · rw [hm.base]; simp [baseKnown, odoms, h0]
        · exact hm.hasImu
        · exact hm.imu
        · simp [lastUsed, h0]
        · rw [incs, hn]; exact hm.slip
      · have ho : s.hasOdom = true := by rw [hm.hasOdom]; simp [h0]
        obtain ⟨p, hp⟩ := Option.isSome_iff_exists.mp (hl.mpr h0)
        have hbk : baseKnown c (Event.odom m :: h) := .inr (by simp only [odoms]; omega)
        rw [ho, hm.raw, hp]
        simp only
        cases hi : imuOf c h with
        | none =>
          have : s.hasImu = false := by rw [hm.hasImu, hi]; rfl
          rw [this]
          refine ⟨_, rfl, ⟨by simp [odoms], by simp [hbk], ?_, ?_, ?_, ?_⟩⟩
          · simp [imuOf, hi]
          · simp [imuOf, hi]
          · simp only [lastUsed, h0, hi, hp]; simp
          · rw [incs, hp, hi]; exact hm.slip
        | some wq =>
          obtain ⟨w, q⟩ := wq
          have h1 : s.hasImu = true := by rw [hm.hasImu, hi]; rfl
          obtain ⟨h2, h3⟩ := hm.imu w q hi
          rw [h1, h3, h2, hm.slip]
          simp only
          have hinc : incs c (Event.odom m :: h) =
              ⟨Pos.sub m.pos p.pos, m.stamp - p.stamp, q, m.ori, w, m.wz⟩ :: incs c h := by
            rw [incs, hp, hi]
          have hg := gain_eq c hc ⟨Pos.sub m.pos p.pos, m.stamp - p.stamp, q, m.ori, w, m.wz⟩ (incs c h)
          simp only [slipAfter] at hg
          simp only [hg]
          refine ⟨_, rfl, ⟨by simp [odoms], by simp [hbk], ?_, ?_, ?_, ?_⟩⟩
          · simp [imuOf, hi]
          · intro w' q' hq; simp only [imuOf, hi] at hq; cases hq; exact ⟨rfl, rfl⟩
          · simp [lastUsed, hi]
          · rw [hinc]; rfl

/-- **C70**.  With a positive odometry noise parameter no input history whatsoever makes the node publish a
non-finite pose. -/
theorem never_nonfinite (R : Rot K Q) (c : Cfg K) (hc : 0 < c.sigmaOdom) (h : List (Event K Q)) (e : Event K Q) :
    (output R c h e).isSome := by
  obtain ⟨s, hs, -⟩ := run_matches R c hc (e :: h)
  simp only [run] at hs
  cases hr : run R c h with
  | none => rw [hr] at hs; cases hs
  | some s' =>
    rw [hr] at hs
    simp only [Option.bind_some, Option.map_eq_some_iff] at hs
    obtain ⟨r, hr', -⟩ := hs
    simp [output, hr, hr']

/-- **C70** (necessity).  With the noise parameter zero, a single message with zero angular velocity destroys the
estimate. -/
theorem zero_noise_nan (R : Rot ℚ Unit) (m : Raw ℚ Unit) (hz : m.wz = 0) :
    let c : Cfg ℚ := ⟨0, 1 / 2, 1, -1, true, false, true⟩
    output R c [.odom m, .imu (some (0, ()))] (.odom m) = none := by
  have h : slipUpdate (⟨0, 1 / 2, 1, -1, true, false, true⟩ : Cfg ℚ) ⟨.fin 0, .fin (1 / 10)⟩ 0 0 0 =
      ⟨.nan, .nan⟩ := by decide +kernel
  simp only [output, run, step, cbImu, init, cbOdom, Option.bind_some, Option.map_some, Bool.true_eq_false,
    if_false, hz, sub_self, h]
  rfl

/-- **C50** (when the node publishes).  An odometry message is answered by a pose exactly when it is not the
first and a valid IMU reading is in force, and the published orientation is the IMU's. -/
theorem publishes_iff (R : Rot K Q) (c : Cfg K) (hc : 0 < c.sigmaOdom) (h : List (Event K Q)) (m : Raw K Q) (q : Q) :
    (∃ p, output R c h (.odom m) = some (some (p, q))) ↔ odoms h ≠ 0 ∧ ∃ w, imuOf c h = some (w, q) := by
  obtain ⟨s, hs, hm⟩ := run_matches R c hc h
  simp only [output, hs, Option.bind_some, step, cbOdom]
  have hl := lastUsed_isSome c h
  by_cases h0 : odoms h = 0
  · have ho : s.hasOdom = false := by rw [hm.hasOdom]; simp [h0]
    rw [ho]
    simp [h0]
  · have ho : s.hasOdom = true := by rw [hm.hasOdom]; simp [h0]
    obtain ⟨p, hp⟩ := Option.isSome_iff_exists.mp (hl.mpr h0)
    rw [ho, hm.raw, hp]
    simp only
    cases hi : imuOf c h with
    | none =>
      have : s.hasImu = false := by rw [hm.hasImu, hi]; rfl
      rw [this]
      simp
    | some wq =>
      obtain ⟨w, q'⟩ := wq
      have h1 : s.hasImu = true := by rw [hm.hasImu, hi]; rfl
      obtain ⟨h2, h3⟩ := hm.imu w q' hi
      rw [h1, h3, h2, hm.slip]
      simp only
      have hg := gain_eq c hc ⟨Pos.sub m.pos p.pos, m.stamp - p.stamp, q', m.ori, w, m.wz⟩ (incs c h)
      simp only [slipAfter] at hg
      simp only [hg, Option.map_some, Option.some.injEq, Prod.mk.injEq]
      constructor
      · rintro ⟨_, _, rfl⟩; exact ⟨h0, _, rfl, rfl⟩
      · rintro ⟨_, _, _, rfl⟩; exact ⟨_, rfl, rfl⟩

theorem pos_of_run (R : Rot K Q) (c : Cfg K) (hc : 0 < c.sigmaOdom) (hz : c.zFilterTimeconst ≤ 0)
    (h : List (Event K Q)) (hn : NoReset h) {s : St K Q} (hs : run R c h = some s) {p0 : Pos K}
    (hp0 : firstPos h = some p0) : s.odomPrev = total R c p0 (incs c h) := by
  induction h generalizing s p0 with
  | nil => simp [firstPos] at hp0
  | cons e h ih =>
    obtain ⟨s1, hs1, hm⟩ := run_matches R c hc h
    have hn' : NoReset h := fun e he => hn e (by simp [he])
    simp only [run, hs1, Option.bind_some] at hs
    cases e with
    | resetZ z => exact absurd rfl (hn _ (by simp) z)
    | imu r =>
      simp only [step, Option.map_some, Option.some.injEq] at hs
      subst hs
      show _ = total R c p0 (incs c h)
      have := ih hn' hs1 hp0
      · unfold cbImu; split
        · exact this
        · split <;> exact this
    | odom m =>
      simp only [step, cbOdom] at hs
      have hl := lastUsed_isSome c h
      by_cases h0 : odoms h = 0
      · have hnl : lastUsed c h = none := by
          cases hh : lastUsed c h with
          | none => rfl
          | some p => simp [hh, h0] at hl
        have ho : s1.hasOdom = false := by rw [hm.hasOdom]; simp [h0]
        rw [ho] at hs
        simp only [Option.map_some, Option.some.injEq] at hs
        subst hs
        have hinc : ∀ h : List (Event K Q), odoms h = 0 → incs c h = [] ∧ firstPos h = none := by
          intro h
          induction h with
          | nil => intro _; exact ⟨rfl, rfl⟩
          | cons e h ih =>
            intro hh
            cases e with
            | odom m => simp [odoms] at hh
            | imu r => exact ih hh
            | resetZ z => exact ih hh
        rw [incs, hnl, (hinc h h0).1]
        simp only [firstPos, (hinc h h0).2, Option.none_or, Option.some.injEq] at hp0
        simp [total, hp0]
      · have ho : s1.hasOdom = true := by rw [hm.hasOdom]; simp [h0]
        obtain ⟨p, hp⟩ := Option.isSome_iff_exists.mp (hl.mpr h0)
        have hfirst : firstPos h = some p0 := by
          have : ∀ h : List (Event K Q), odoms h ≠ 0 → (firstPos h).isSome := by
            intro h
            induction h with
            | nil => intro hh; simp [odoms] at hh
            | cons e h ih =>
              intro hh
              cases e with
              | odom m => simp only [firstPos]; cases firstPos h <;> simp
              | imu r => exact ih hh
              | resetZ z => exact ih hh
          obtain ⟨x, hx⟩ := Option.isSome_iff_exists.mp (this h h0)
          simp only [firstPos, hx, Option.some_or] at hp0
          rw [hx, hp0]
        have hprev := ih hn' hs1 hfirst
        rw [ho, hm.raw, hp] at hs
        simp only at hs
        cases hi : imuOf c h with
        | none =>
          have : s1.hasImu = false := by rw [hm.hasImu, hi]; rfl
          rw [this] at hs
          simp only [Option.map_some, Option.some.injEq] at hs
          subst hs
          rw [incs, hp, hi]
          exact hprev
        | some wq =>
          obtain ⟨w, q⟩ := wq
          have h1 : s1.hasImu = true := by rw [hm.hasImu, hi]; rfl
          obtain ⟨h2, h3⟩ := hm.imu w q hi
          rw [h1, h3, h2, hm.slip] at hs
          simp only at hs
          have hg := gain_eq c hc ⟨Pos.sub m.pos p.pos, m.stamp - p.stamp, q, m.ori, w, m.wz⟩ (incs c h)
          simp only [slipAfter] at hg
          simp only [hg, if_neg (not_lt.mpr hz), Option.map_some, Option.some.injEq] at hs
          subst hs
          rw [incs, hp, hi]
          simp only [total, hprev]

theorem raw_telescopes (c : Cfg K) (h : List (Event K Q)) {p0 : Pos K} (hp0 : firstPos h = some p0) {l : Raw K Q}
    (hl : lastUsed c h = some l) : rawTotal p0 (incs c h) = l.pos := by
  induction h generalizing p0 l with
  | nil => simp [firstPos] at hp0
  | cons e h ih =>
    cases e with
    | resetZ z => exact ih hp0 hl
    | imu r => exact ih hp0 hl
    | odom m =>
      by_cases h0 : odoms h = 0
      · have hinc : ∀ h : List (Event K Q), odoms h = 0 → incs c h = [] ∧ firstPos h = none ∧ lastUsed c h = none := by
          intro h
          induction h with
          | nil => intro _; exact ⟨rfl, rfl, rfl⟩
          | cons e h ih =>
            intro hh
            cases e with
            | odom m => simp [odoms] at hh
            | imu r => exact ih hh
            | resetZ z => exact ih hh
        obtain ⟨e1, e2, e3⟩ := hinc h h0
        simp only [lastUsed, h0, true_or, if_true, Option.some.injEq] at hl
        simp only [firstPos, e2, Option.none_or, Option.some.injEq] at hp0
        rw [incs, e3, e1]
        simp [rawTotal, ← hl, hp0]
      · obtain ⟨p, hp⟩ := Option.isSome_iff_exists.mp ((lastUsed_isSome c h).mpr h0)
        have hfirst : firstPos h = some p0 := by
          have : ∀ h : List (Event K Q), odoms h ≠ 0 → (firstPos h).isSome := by
            intro h
            induction h with
            | nil => intro hh; simp [odoms] at hh
            | cons e h ih =>
              intro hh
              cases e with
              | odom m => simp only [firstPos]; cases firstPos h <;> simp
              | imu r => exact ih hh
              | resetZ z => exact ih hh
          obtain ⟨x, hx⟩ := Option.isSome_iff_exists.mp (this h h0)
          simp only [firstPos, hx, Option.some_or] at hp0
          rw [hx, hp0]
        have hprev := ih hfirst hp
        cases hi : imuOf c h with
        | none =>
          simp only [lastUsed, h0, hi, Option.isSome_none, Bool.false_eq_true, or_false, if_false] at hl
          rw [hp] at hl
          rw [incs, hp, hi]
          simp only
          cases hl
          exact hprev
        | some wq =>
          simp only [lastUsed, hi, Option.isSome_some, or_true, if_true, Option.some.injEq] at hl
          rw [incs, hp, hi]
          simp only [rawTotal, hprev, ← hl, Pos.add, Pos.sub]
          cases hm : m.pos
          simp

/-- **C50**.  With the height filter off and no height reset, every published position is the first raw position
plus all increments since, each rotated and scaled by its own factor; and these increments add up to the whole
raw displacement up to the message just handled, including every interval in which the IMU was missing. -/
theorem published_position (R : Rot K Q) (c : Cfg K) (hc : 0 < c.sigmaOdom) (hz : c.zFilterTimeconst ≤ 0)
    (h : List (Event K Q)) (hn : NoReset h) (m : Raw K Q) {p : Pos K} {q : Q}
    (ho : output R c h (.odom m) = some (some (p, q))) :
    ∃ p0, firstPos h = some p0 ∧ p = total R c p0 (incs c (.odom m :: h)) ∧
      rawTotal p0 (incs c (.odom m :: h)) = m.pos := by
  obtain ⟨h0, w, hi⟩ := (publishes_iff R c hc h m q).mp ⟨p, ho⟩
  have hsome : ∀ h : List (Event K Q), odoms h ≠ 0 → (firstPos h).isSome := by
    intro h
    induction h with
    | nil => intro hh; simp [odoms] at hh
    | cons e h ih =>
      intro hh
      cases e with
      | odom m => simp only [firstPos]; cases firstPos h <;> simp
      | imu r => exact ih hh
      | resetZ z => exact ih hh
  obtain ⟨p0, hp0⟩ := Option.isSome_iff_exists.mp (hsome h h0)
  have hp0' : firstPos (Event.odom m :: h) = some p0 := by simp [firstPos, hp0]
  have hn' : NoReset (Event.odom m :: h) := by
    intro e he z
    rcases List.mem_cons.mp he with rfl | he
    · simp
    · exact hn e he z
  obtain ⟨s, hs, hm⟩ := run_matches R c hc (Event.odom m :: h)
  have hpos := pos_of_run R c hc hz (Event.odom m :: h) hn' hs hp0'
  have hlu : lastUsed c (Event.odom m :: h) = some m := by simp [lastUsed, hi]
  refine ⟨p0, hp0, ?_, raw_telescopes c _ hp0' hlu⟩
  rw [← hpos]
  -- the published position is the stored one
  simp only [run] at hs
  simp only [output] at ho
  cases hr : run R c h with
  | none => rw [hr] at hs; cases hs
  | some s1 =>
    rw [hr] at hs ho
    simp only [Option.bind_some, Option.map_eq_some_iff] at hs ho
    obtain ⟨r, h1, h2⟩ := hs
    obtain ⟨r', h3, h4⟩ := ho
    rw [h1] at h3; cases h3
    subst h2
    have key : ∀ (s : St K Q) (r : St K Q × Option (Pos K × Q)), cbOdom R c s m = some r →
        ∀ p q, r.2 = some (p, q) → r.1.odomPrev = p := by
      intro s r hr p q hpq
      unfold cbOdom at hr
      split at hr
      · simp only at hr
        split at hr
        · split at hr
          · cases hr; cases hpq; rfl
          · cases hr
        · cases hr; cases hpq
      · cases hr; cases hpq
    exact (key s1 r h1 p q h4).symm

/-- **C50** (no slip, agreeing orientations).  If wheel odometry and IMU always agree in orientation, the filter is off
and the angular velocity stays within three times its noise, the published position is the raw position. -/
theorem published_is_raw (R : Rot K Q) (hR : ∀ q v, R.rot q q v = v) (c : Cfg K) (hc : 0 < c.sigmaOdom)
    (hz : c.zFilterTimeconst ≤ 0) (hk : c.useKf = false) (h : List (Event K Q)) (hn : NoReset h) (m : Raw K Q)
    (hag : ∀ i ∈ incs c (.odom m :: h), i.q = i.raw ∧ |i.wOdom| ≤ c.sigmaOdom * 3)
    {p : Pos K} {q : Q} (ho : output R c h (.odom m) = some (some (p, q))) : p = m.pos := by
  obtain ⟨p0, -, hp, hr⟩ := published_position R c hc hz h hn m ho
  rw [hp, ← hr]
  generalize incs c (.odom m :: h) = is at hag
  induction is with
  | nil => rfl
  | cons i is ih =>
    obtain ⟨h1, h2⟩ := hag i (by simp)
    have hg : gain c (i :: is) = 1 := by
      simp only [gain, factor, hk, Bool.false_eq_true, if_false, if_neg (not_lt.mpr h2)]
    simp only [total, rawTotal, ih (fun j hj => hag j (by simp [hj])), hg, h1, hR, Pos.smul, one_mul]

/-- **C50** (start-up).  After two odometry messages the first IMU reading with a valid transform makes every following
odometry message published, until a transform fails. -/
theorem starts (R : Rot K Q) (c : Cfg K) (hc : 0 < c.sigmaOdom) (h : List (Event K Q)) (h2 : 2 ≤ odoms h) (w : K) (q : Q)
    (later : List (Event K Q)) (hl : ∀ e ∈ later, ∀ r, e ≠ .imu r) (m : Raw K Q) :
    ∃ p, output R c (later ++ .imu (some (w, q)) :: h) (.odom m) = some (some (p, q)) := by
  rw [publishes_iff R c hc]
  have key : odoms (later ++ .imu (some (w, q)) :: h) ≠ 0 ∧
      imuOf c (later ++ .imu (some (w, q)) :: h) = some (w, q) := by
    induction later with
    | nil => exact ⟨by simp only [List.nil_append, odoms]; omega, by simp [imuOf, baseKnown, h2]⟩
    | cons e l ih =>
      obtain ⟨i1, i2⟩ := ih (fun e he => hl e (by simp [he]))
      cases e with
      | imu r => exact absurd rfl (hl _ (by simp) r)
      | odom m => exact ⟨by simp [odoms], by simpa [imuOf] using i2⟩
      | resetZ z => exact ⟨by simpa [odoms] using i1, by simpa [imuOf] using i2⟩
  exact ⟨key.1, w, key.2⟩

/-- **C71**.  The projected frame lies in the projection surface: in the surface's own coordinates its height is zero
and its horizontal position is that of the source frame. -/
theorem projection_spec (r rinv : Pos K → Pos K) (hr : ∀ v, rinv (r v) = v) (o trans : Pos K) :
    rinv (Pos.sub (projectTranslation r o trans) o) = ⟨trans.x, trans.y, 0⟩ := by
  have : Pos.sub (projectTranslation r o trans) o = r { trans with z := 0 } := by
    simp only [projectTranslation, Pos.sub, Pos.add]
    cases h : r { trans with z := 0 }
    simp
  rw [this, hr]

/-! ## Concrete cases -/

section Examples
def exR : Rot ℚ Unit := ⟨fun _ _ v => v⟩
def exC : Cfg ℚ := ⟨1 / 200, 1 / 2, 1, -1, false, false, false⟩
def exM (t x w : ℚ) : Raw ℚ Unit := ⟨t, ⟨x, 0, 0⟩, (), w⟩

/-- Three messages, the second without IMU; the third publishes the whole displacement. -/
example : output exR exC [.imu (some (0, ())), .odom (exM 1 3 0), .imu (some (0, ())), .odom (exM 0 1 0)]
    (.odom (exM 2 7 0)) = some (some (⟨7, 0, 0⟩, ())) := by decide +kernel
example : (0 : ℚ) < exC.sigmaOdom ∧ exC.zFilterTimeconst ≤ 0 ∧ exC.useKf = false := by decide +kernel
example : (KF.mk (.fin (0 : ℚ)) (.fin 1)).measure (.fin 4) (.fin 1) = ⟨.fin 2, .fin (1 / 2)⟩ := by decide +kernel
example : Sensible (In.measure (1 : ℚ) (some 2)) ∧ Inside (0 : ℚ) 3 (In.measure 1 (some 2)) :=
  ⟨by show (0 : ℚ) < 2; decide +kernel, by decide +kernel, by decide +kernel⟩
end Examples

end Verif.Odom
