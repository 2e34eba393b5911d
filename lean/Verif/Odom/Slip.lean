import Verif.Odom.Props
/-! # C140: what the slip correction does to a displacement

`Spec.gain` is the factor by which the newest displacement is scaled when it is added to the published position (`published_position`). -/
set_option linter.unusedSectionVars false
namespace Verif.Odom
open Verif.Num Verif.Num.Ext Spec

variable {K : Type} [Field K] [LinearOrder K] [IsStrictOrderedRing K] {Q : Type}

namespace Spec

/-- The turn rate of the gyro as far as it is believed: without `enable_negative_slip`, a gyro turning against the wheels is not. -/
def believed (c : Cfg K) (i : Inc K Q) : K := if i.wImu * i.wOdom < 0 ∧ c.negativeSlip = false then i.wOdom else i.wImu

/-- Share of the wheels' turning that the gyro does not confirm. -/
def slipRatio (c : Cfg K) (i : Inc K Q) : K := 1 - believed c i / i.wOdom

end Spec

/-- One message: the estimate first forgets, then moves a part `k` of the way to the measurement. -/
theorem slip_step (c : Cfg K) (hc : 0 < c.sigmaOdom) (x s : K) (i : Inc K Q) :
    ∃ k s' : K, 0 ≤ k ∧ k ≤ 1 ∧ (|i.wOdom| < c.sigmaOdom → k = 0) ∧
      slipUpdate c ⟨.fin x, .fin s⟩ i.dt i.wImu i.wOdom =
        ⟨.fin ((1 - k) * (x * (1 - i.dt * c.predictFilterTc)) + k * (slipRatio c i / |i.wOdom|)), .fin s'⟩ := by
  have hx : x + -x * i.dt * c.predictFilterTc = x * (1 - i.dt * c.predictFilterTc) := by ring
  unfold slipUpdate slipRatio
  simp only [KF.predict, neg_fin, mul_fin, add_fin, hx]
  show ∃ k s' : K, _ ∧ _ ∧ _ ∧ KF.measure _ (div (.fin (i.wOdom - believed c i)) _) _ = _
  generalize believed c i = wi'
  generalize x * (1 - i.dt * c.predictFilterTc) = x1
  generalize s + i.dt * c.sigmaPredict = s1
  generalize i.wOdom = wo
  by_cases h1 : |wo| < c.sigmaOdom
  · rw [if_pos h1, measure_inf]
    exact ⟨0, s1, le_refl _, zero_le_one, fun _ => rfl, by simp⟩
  · rw [if_neg h1]
    have hw : wo ≠ 0 := by
      rintro rfl; simp at h1; linarith
    by_cases h2 : (wo * wo - c.sigmaOdom * c.sigmaOdom) ^ 2 = 0
    · have hne : 2 * wo * c.sigmaOdom ≠ 0 := by
        have := hc.ne'
        simp [hw, this]
      have : mul (.fin c.sigmaOdom) (Ext.abs (div (.fin (2 * wo * c.sigmaOdom))
          (.fin ((wo * wo - c.sigmaOdom * c.sigmaOdom) ^ 2)))) = .pinf := by
        simp only [div, if_pos h2]
        rcases lt_or_gt_of_ne hne with h | h
        · have h' : ¬ 0 < 2 * wo * c.sigmaOdom := by linarith
          simp [sgn, h, h', ofSgn, Ext.abs, mul, hc]
        · simp [sgn, h, ofSgn, Ext.abs, mul, hc]
      rw [this, measure_inf]
      exact ⟨0, s1, le_refl _, zero_le_one, fun _ => rfl, by simp⟩
    · have h3 : wo * |wo| ≠ 0 := mul_ne_zero hw (abs_ne_zero.mpr hw)
      simp only [div_fin h2, div_fin h3, abs_fin, mul_fin]
      have hm : 0 < c.sigmaOdom * |2 * wo * c.sigmaOdom / (wo * wo - c.sigmaOdom * c.sigmaOdom) ^ 2| := by
        apply mul_pos hc
        apply abs_pos.mpr
        exact div_ne_zero (mul_ne_zero (mul_ne_zero two_ne_zero hw) hc.ne') h2
      generalize c.sigmaOdom * |2 * wo * c.sigmaOdom / (wo * wo - c.sigmaOdom * c.sigmaOdom) ^ 2| = m at hm
      have hpos : 0 < s1 * s1 + m * m := by
        have := mul_pos hm hm
        have := mul_self_nonneg s1
        linarith
      rw [measure_fin hpos.ne']
      refine ⟨s1 * s1 / (s1 * s1 + m * m), m * m * s1 / (s1 * s1 + m * m), div_nonneg (mul_self_nonneg _) hpos.le, ?_, fun h => absurd h h1, ?_⟩
      · rw [div_le_one hpos]
        have := mul_self_nonneg m
        linarith
      · have hz : (wo - wi') / (wo * |wo|) = (1 - wi' / wo) / |wo| := by
          have := abs_ne_zero.mpr hw
          field_simp
        have hk : 1 - s1 * s1 / (s1 * s1 + m * m) = m * m / (s1 * s1 + m * m) := by
          rw [eq_div_iff hpos.ne', sub_mul, div_mul_cancel₀ _ hpos.ne']; ring
        rw [hz, hk]
        generalize (1 - wi' / wo) / |wo| = z
        have hx' : (m * m * x1 + s1 * s1 * z) / (s1 * s1 + m * m) =
            m * m / (s1 * s1 + m * m) * x1 + s1 * s1 / (s1 * s1 + m * m) * z := by ring
        rw [hx']

/-- With the Kalman filter the factor is one minus the estimate. -/
theorem gain_kf (c : Cfg K) (hk : c.useKf = true) (is : List (Inc K Q)) {x s : K} (h : slipAfter c is = ⟨.fin x, .fin s⟩) :
    gain c is = 1 - x := by
  cases is with
  | nil =>
    simp only [slipAfter, KF.mk.injEq, Ext.fin.injEq] at h
    rw [← h.1, sub_zero]; rfl
  | cons i is =>
    simp only [gain, factor, hk, if_true, h, sub_fin]

/-- **C140**, without the Kalman filter: the factor is the share of the wheels' turning confirmed by the gyro, or 1 when the wheels hardly turn. -/
theorem ratio_without_filter (c : Cfg K) (hc : 0 < c.sigmaOdom) (hk : c.useKf = false) (i : Inc K Q) (is : List (Inc K Q)) :
    gain c (i :: is) = if |i.wOdom| ≤ c.sigmaOdom * 3 then 1 else 1 - slipRatio c i := by
  unfold slipRatio believed
  rw [sub_sub_cancel]
  by_cases h : |i.wOdom| ≤ c.sigmaOdom * 3
  · rw [if_pos h]
    simp only [gain, factor, hk, Bool.false_eq_true, if_false, if_neg (not_lt.mpr h)]
  · rw [if_neg h]
    push Not at h
    have : i.wOdom ≠ 0 := by
      intro h0; rw [h0] at h; simp at h; linarith
    simp only [gain, factor, hk, Bool.false_eq_true, if_false, if_pos h, div_fin this]

theorem believed_ratio (c : Cfg K) (hn : c.negativeSlip = false) (i : Inc K Q) : 0 ≤ believed c i / i.wOdom := by
  unfold believed
  by_cases h : i.wImu * i.wOdom < 0
  · rw [if_pos ⟨h, hn⟩]
    by_cases h0 : i.wOdom = 0
    · rw [h0]; simp
    · rw [div_self h0]; exact zero_le_one
  · rw [if_neg (fun x => h x.1)]
    push Not at h
    exact div_nonneg_iff.mpr (mul_nonneg_iff.mp h |>.imp id id)

theorem believed_le (c : Cfg K) (i : Inc K Q) (h : |i.wImu| ≤ |i.wOdom|) : believed c i / i.wOdom ≤ 1 := by
  unfold believed
  by_cases h0 : i.wOdom = 0
  · rw [h0]; simp
  · split
    · rw [div_self h0]
    · calc i.wImu / i.wOdom ≤ |i.wImu / i.wOdom| := le_abs_self _
        _ = |i.wImu| / |i.wOdom| := abs_div _ _
        _ ≤ 1 := (div_le_one (abs_pos.mpr h0)).mpr h

/-- **C140**, without the Kalman filter and without `enable_negative_slip`: a displacement is never turned round. -/
theorem never_reversed_partial (c : Cfg K) (hc : 0 < c.sigmaOdom) (hk : c.useKf = false) (hn : c.negativeSlip = false) (is : List (Inc K Q)) :
    0 ≤ gain c is := by
  cases is with
  | nil => exact zero_le_one
  | cons i is =>
    rw [ratio_without_filter c hc hk]
    split
    · exact zero_le_one
    · unfold slipRatio
      rw [sub_sub_cancel]
      exact believed_ratio c hn i

/-- **C140**: when the gyro always agrees with the wheels, displacements are not scaled. -/
theorem agreeing_rates (c : Cfg K) (hc : 0 < c.sigmaOdom) (is : List (Inc K Q)) (h : ∀ i ∈ is, i.wImu = i.wOdom) : gain c is = 1 := by
  have hb : ∀ i ∈ is, believed c i = i.wOdom := fun i hi => by
    unfold believed
    rw [h i hi, ite_self]
  cases hk : c.useKf with
  | false =>
    cases is with
    | nil => rfl
    | cons i is =>
      rw [ratio_without_filter c hc hk]
      split
      · rfl
      · rename_i hw
        push Not at hw
        have h0 : i.wOdom ≠ 0 := by
          intro h0; rw [h0] at hw; simp at hw; linarith
        unfold slipRatio
        rw [hb i (by simp), div_self h0]; ring
  | true =>
    have : ∃ s : K, slipAfter c is = ⟨.fin 0, .fin s⟩ := by
      clear h
      induction is with
      | nil => exact ⟨_, rfl⟩
      | cons i is ih =>
        obtain ⟨s, hs⟩ := ih (fun j hj => hb j (by simp [hj]))
        obtain ⟨k, s', -, -, h3, h4⟩ := slip_step c hc 0 s i
        refine ⟨s', ?_⟩
        rw [slipAfter, hs, h4]
        congr 2
        by_cases h0 : i.wOdom = 0
        · rw [h3 (by rw [h0]; simpa using hc)]; ring
        · unfold slipRatio
          rw [hb i (by simp), div_self h0]; ring
    obtain ⟨s, hs⟩ := this
    rw [gain_kf c hk is hs, sub_zero]

/-- **C140**: when gyro and wheels always agree in orientation and turn rate, the published position is the raw one, with or without the Kalman filter. -/
theorem agreeing_is_raw (R : Rot K Q) (hR : ∀ q v, R.rot q q v = v) (c : Cfg K) (hc : 0 < c.sigmaOdom) (hz : c.zFilterTimeconst ≤ 0)
    (h : List (Event K Q)) (hn : NoReset h) (m : Raw K Q) (hag : ∀ i ∈ incs c (.odom m :: h), i.q = i.raw ∧ i.wImu = i.wOdom)
    {p : Pos K} {q : Q} (ho : output R c h (.odom m) = some (some (p, q))) : p = m.pos := by
  obtain ⟨p0, -, hp, hr⟩ := published_position R c hc hz h hn m ho
  rw [hp, ← hr]
  generalize incs c (.odom m :: h) = is at hag
  induction is with
  | nil => rfl
  | cons i is ih =>
    have hg := agreeing_rates c hc (i :: is) (fun j hj => (hag j hj).2)
    simp only [total, rawTotal, ih (fun j hj => hag j (by simp [hj])), hg, (hag i (by simp)).1, hR, Pos.smul, one_mul]

/-- **C140**, with the Kalman filter: while the wheels hardly turn, the correction fades by the part `dt · predict_filter_tc` with each message. -/
theorem correction_fades (c : Cfg K) (hc : 0 < c.sigmaOdom) (hk : c.useKf = true) (i : Inc K Q) (is : List (Inc K Q)) (hw : |i.wOdom| < c.sigmaOdom) :
    1 - gain c (i :: is) = (1 - gain c is) * (1 - i.dt * c.predictFilterTc) := by
  obtain ⟨x, s, hx⟩ := slipAfter_fin c hc is
  obtain ⟨k, s', -, -, h3, h4⟩ := slip_step c hc x s i
  rw [gain_kf c hk is hx, gain_kf c hk (i :: is) (by rw [slipAfter, hx]; exact h4), h3 hw]
  ring

/-- **C140**, with the Kalman filter: if the gyro never turns faster than the wheels, and the share of slip is never more than `L` times the wheels' turn rate, the correction
shortens displacements by at most the part `L`, and never lengthens them. -/
theorem filter_bounds_partial (c : Cfg K) (hc : 0 < c.sigmaOdom) (hk : c.useKf = true) (L : K) (hL : 0 ≤ L) (is : List (Inc K Q))
    (hdt : ∀ i ∈ is, 0 ≤ i.dt * c.predictFilterTc ∧ i.dt * c.predictFilterTc ≤ 1) (hslow : ∀ i ∈ is, |i.wImu| ≤ |i.wOdom|)
    (hslip : ∀ i ∈ is, c.sigmaOdom ≤ |i.wOdom| → slipRatio c i ≤ L * |i.wOdom|) : 1 - L ≤ gain c is ∧ gain c is ≤ 1 := by
  have : ∃ x s : K, slipAfter c is = ⟨.fin x, .fin s⟩ ∧ 0 ≤ x ∧ x ≤ L := by
    induction is with
    | nil => exact ⟨_, _, rfl, le_refl _, hL⟩
    | cons i is ih =>
      obtain ⟨x, s, hs, l1, l2⟩ := ih (fun j hj => hdt j (by simp [hj])) (fun j hj => hslow j (by simp [hj])) (fun j hj => hslip j (by simp [hj]))
      obtain ⟨k, s', h1, h2, h3, h4⟩ := slip_step c hc x s i
      refine ⟨_, s', by rw [slipAfter, hs, h4], ?_⟩
      obtain ⟨d1, d2⟩ := hdt i (by simp)
      have a1 : 0 ≤ x * (1 - i.dt * c.predictFilterTc) := mul_nonneg l1 (by linarith)
      have a2 : x * (1 - i.dt * c.predictFilterTc) ≤ L := by nlinarith
      generalize x * (1 - i.dt * c.predictFilterTc) = a at a1 a2
      by_cases hw : |i.wOdom| < c.sigmaOdom
      · rw [h3 hw]; constructor <;> linarith
      · push Not at hw
        have hwp : 0 < |i.wOdom| := lt_of_lt_of_le hc hw
        have z1 : 0 ≤ slipRatio c i / |i.wOdom| := by
          refine div_nonneg ?_ hwp.le
          have := believed_le c i (hslow i (by simp))
          unfold slipRatio
          linarith
        have z2 : slipRatio c i / |i.wOdom| ≤ L := (div_le_iff₀ hwp).mpr (hslip i (by simp) hw)
        generalize slipRatio c i / |i.wOdom| = z at z1 z2
        constructor
        · have := mul_nonneg (by linarith : 0 ≤ 1 - k) a1
          have := mul_nonneg h1 z1
          linarith
        · have := mul_le_mul_of_nonneg_left a2 (by linarith : 0 ≤ 1 - k)
          have := mul_le_mul_of_nonneg_left z2 h1
          linarith
  obtain ⟨x, s, hs, l1, l2⟩ := this
  rw [gain_kf c hk is hs]
  constructor <;> linarith

section Examples
/-- The default parameters. -/
def defaults : Cfg ℚ := ⟨1 / 200, 1 / 2, 1, -1, true, false, false⟩

/-- **C140**, finding: with the default parameters, wheels turning at 0.2 rad/s of which the gyro confirms half make the node publish a displacement of more than the
whole length backwards: the estimate is a slip per rad/s but is applied without the turn rate. -/
theorem filter_reverses : ∃ p, output exR defaults [.imu (some (1 / 10, ())), .odom (exM (1 / 50) 0 (1 / 5)), .odom (exM 0 0 (1 / 5))] (.odom (exM (1 / 25) 1 (1 / 5))) =
    some (some (p, ())) ∧ p.x < -1 := by
  refine ⟨((output exR defaults [.imu (some (1 / 10, ())), .odom (exM (1 / 50) 0 (1 / 5)), .odom (exM 0 0 (1 / 5))]
    (.odom (exM (1 / 25) 1 (1 / 5)))).join.getD (Pos.zero, ())).1, ?_, ?_⟩
  · decide +kernel
  · decide +kernel

/-- A displacement of 1 m in 1/50 s with the given rates. -/
def exInc (wi wo : ℚ) : Inc ℚ Unit := ⟨⟨1, 0, 0⟩, 1 / 50, (), (), wi, wo⟩

/-- The hypotheses of `filter_bounds_partial` can be met with a real slip: a tenth of a turn rate of 1 rad/s is not confirmed. -/
example : (0 : ℚ) < defaults.sigmaOdom ∧ defaults.useKf = true ∧ |(exInc (9 / 10) 1).wImu| ≤ |(exInc (9 / 10) 1).wOdom| ∧
    slipRatio defaults (exInc (9 / 10) 1) ≤ 1 / 10 * |(exInc (9 / 10) 1).wOdom| ∧ (exInc (9 / 10) 1).dt * defaults.predictFilterTc ≤ 1 ∧
    gain defaults [exInc (9 / 10) 1, exInc 1 1] < 1 := by decide +kernel
/-- The hypotheses of the theorems without the filter: half of the turning is not confirmed, the displacement is halved. -/
example : (0 : ℚ) < exC.sigmaOdom ∧ exC.useKf = false ∧ exC.negativeSlip = false ∧ gain exC [exInc (1 / 2) 1] = 1 / 2 ∧ gain exC [exInc (-1 / 2) 1] = 1 := by
  decide +kernel
/-- The hypotheses of `correction_fades`, with a correction that is not zero. -/
example : |(exInc 0 0).wOdom| < defaults.sigmaOdom ∧ gain defaults [exInc (9 / 10) 1] < gain defaults [exInc 0 0, exInc (9 / 10) 1] := by decide +kernel
/-- The hypotheses of `agreeing_is_raw`, with the filter, for a turning robot. -/
example : output exR defaults [.imu (some (1, ())), .odom (exM (1 / 50) 3 1), .odom (exM 0 1 1)] (.odom (exM (1 / 25) 7 1)) = some (some (⟨7, 0, 0⟩, ())) := by
  decide +kernel

end Examples

end Verif.Odom
