import Verif.Safety.Spec
import Verif.Polygon.Props
import Mathlib.Tactic.Ring
import Mathlib.Tactic.Linarith
import Mathlib.Tactic.LinearCombination
import Mathlib.Tactic.Positivity
import Mathlib.Tactic.FieldSimp
/-! # Helper lemmas for the safety limiter -/
namespace Verif.Safety
open Spec
open Verif.Polygon hiding dist

/-! ### Geometry -/

theorem motion_motionInv (c : Cfg) (t : Twist) (q : Pt ℝ) : motion c t (motionInv c t q) = q := by
  have h := Real.sin_sq_add_cos_sq (t.az * c.dt)
  simp only [motion, motionInv, neg_mul, Real.cos_neg, Real.sin_neg]
  refine Prod.ext ?_ ?_
  · show _ = q.1
    linear_combination q.1 * h
  · show _ = q.2
    linear_combination q.2 * h

theorem motionInv_motion (c : Cfg) (t : Twist) (p : Pt ℝ) : motionInv c t (motion c t p) = p := by
  have h := Real.sin_sq_add_cos_sq (t.az * c.dt)
  simp only [motion, motionInv, neg_mul, Real.cos_neg, Real.sin_neg]
  refine Prod.ext ?_ ?_
  · show _ = p.1
    linear_combination (p.1 - t.lx * c.dt) * h
  · show _ = p.2
    linear_combination (p.2 - t.ly * c.dt) * h

theorem moveN_moveInvN (c : Cfg) (t : Twist) (k : Nat) (q : Pt ℝ) : moveN c t k (moveInvN c t k q) = q := by
  unfold moveN moveInvN
  exact Function.LeftInverse.iterate (motion_motionInv c t) k q

theorem moveInvN_moveN (c : Cfg) (t : Twist) (k : Nat) (p : Pt ℝ) : moveInvN c t k (moveN c t k p) = p := by
  unfold moveN moveInvN
  exact Function.LeftInverse.iterate (motionInv_motion c t) k p

theorem moveInvN_eq (c : Cfg) (t : Twist) (k : Nat) (q : Pt ℝ) : moveInvN c t k q = (pose t c.dt k).toWorld q := by
  induction k generalizing q with
  | zero => simp [moveInvN, pose, Pose.toWorld]
  | succ k ih =>
    have : moveInvN c t (k + 1) q = moveInvN c t k (motionInv c t q) := by simp [moveInvN, Function.iterate_succ_apply]
    rw [this, ih]
    simp only [pose, Pose.toWorld, motionInv, Real.cos_add, Real.sin_add]
    refine Prod.ext ?_ ?_ <;> simp only <;> ring

theorem toWorld_dist (p : Pose) (q : Pt ℝ) :
    hypot ((p.toWorld q).1 - (p.toWorld (0, 0)).1) ((p.toWorld q).2 - (p.toWorld (0, 0)).2) = hypot q.1 q.2 := by
  have h := Real.sin_sq_add_cos_sq p.yaw
  unfold hypot Pose.toWorld
  congr 1
  simp only
  linear_combination (q.1 ^ 2 + q.2 ^ 2) * h

theorem colliding_iff (e : Env) (c : Cfg) (t : Twist) (pc : List (Pt ℝ)) (k : Nat) :
    colliding e c t pc k = true ↔ Hits e.footprint t c.dt pc k := by
  unfold colliding Hits
  simp only [List.any_filter, List.any_eq_true, Bool.and_eq_true, decide_eq_true_eq]
  constructor
  · rintro ⟨p, hp, -, hin⟩
    refine ⟨p, hp, moveN c t k p, hin, ?_⟩
    rw [← moveInvN_eq, moveInvN_moveN]
  · rintro ⟨p, hp, q, hq, rfl⟩
    refine ⟨_, hp, ?_, ?_⟩
    · rw [moveInvN_eq, toWorld_dist]
      exact inside_within_radius _ _ hq
    · rw [← moveInvN_eq, moveN_moveInvN]
      exact hq

/-! ### The loop -/

/-- Stopping condition of the loop in closed form. -/
def Bl (c : Cfg) (v w : ℝ) (col : Nat → Bool) (n : Nat) : Prop :=
  col n = true ∧ (col 0 = false ∨ c.dEscape ≤ n * (v * c.dt) ∨ c.yawEscape ≤ n * (|w| * c.dt))

theorem loop_free (c : Cfg) (v w : ℝ) (hv : 0 ≤ v * c.dt) (col : Nat → Bool) :
    ∀ (n k : Nat) (a : Acc), a.dEsc ≤ 0 → a.atNow = false → a.hasCol = false →
      a.d = (k : ℝ) * (v * c.dt) → a.yaw = (k : ℝ) * (w * c.dt) →
      (loop c v w col (k + 1) n a).atNow = false ∧
      (((∀ j, k + 1 ≤ j → j < k + 1 + n → col j = false) ∧ (loop c v w col (k + 1) n a).hasCol = false) ∨
        ∃ j, k + 1 ≤ j ∧ j < k + 1 + n ∧ col j = true ∧ (∀ i, k + 1 ≤ i → i < j → col i = false) ∧
          (loop c v w col (k + 1) n a).hasCol = true ∧
          (loop c v w col (k + 1) n a).d = ((j : ℝ) - 1) * (v * c.dt) ∧
          (loop c v w col (k + 1) n a).yaw = ((j : ℝ) - 1) * (w * c.dt)) := by
  intro n
  induction n with
  | zero =>
    intro k a _ h2 h3 _ _
    refine ⟨by simpa [loop] using h2, Or.inl ⟨fun j h h' => by omega, by simpa [loop] using h3⟩⟩
  | succ n ih =>
    intro k a h1 h2 h3 h4 h5
    by_cases hc : col (k + 1) = true
    · have e : loop c v w col (k + 1) (n + 1) a =
          { a with d := a.d + v * c.dt - v * c.dt, dEsc := a.dEsc - v * c.dt, yaw := a.yaw + w * c.dt - w * c.dt,
                   yawEsc := a.yawEsc - |w| * c.dt, hasCol := true } := by
        have : a.dEsc - v * c.dt ≤ 0 := by linarith
        simp [loop, hc, h2, this]
      rw [e]
      refine ⟨h2, Or.inr ⟨k + 1, le_refl _, by omega, hc, fun i h h' => by omega, rfl, ?_, ?_⟩⟩
      · simp only [h4]; push_cast; ring
      · simp only [h5]; push_cast; ring
    · have hc' : col (k + 1) = false := by simpa using hc
      have e : loop c v w col (k + 1) (n + 1) a = loop c v w col (k + 1 + 1) n
          { a with d := a.d + v * c.dt, dEsc := a.dEsc - v * c.dt, yaw := a.yaw + w * c.dt,
                   yawEsc := a.yawEsc - |w| * c.dt } := by
        simp [loop, hc']
      rw [e]
      obtain ⟨r1, r2⟩ := ih (k + 1) ⟨a.d + v * c.dt, a.yaw + w * c.dt, a.dEsc - v * c.dt, a.yawEsc - |w| * c.dt,
        a.atNow, a.hasCol⟩ (by simp only; linarith) h2 h3 (by simp only [h4]; push_cast; ring)
        (by simp only [h5]; push_cast; ring)
      refine ⟨r1, ?_⟩
      rcases r2 with ⟨r2, r3⟩ | ⟨j, a1, a2, a3, a4, a5⟩
      · refine Or.inl ⟨fun j h h' => ?_, r3⟩
        rcases Nat.lt_or_ge (k + 1) j with hj | hj
        · exact r2 j (by omega) (by omega)
        · obtain rfl : j = k + 1 := by omega
          exact hc'
      · refine Or.inr ⟨j, by omega, by omega, a3, fun i h h' => ?_, a5⟩
        rcases Nat.lt_or_ge (k + 1) i with hj | hj
        · exact a4 i (by omega) (by omega)
        · obtain rfl : i = k + 1 := by omega
          exact hc'

theorem loop_hit (c : Cfg) (v w : ℝ) (col : Nat → Bool) (h0 : col 0 = true) :
    ∀ (n k : Nat) (a : Acc), a.dEsc = c.dEscape - (k : ℝ) * (v * c.dt) →
      a.yawEsc = c.yawEscape - (k : ℝ) * (|w| * c.dt) → a.atNow = true → a.hasCol = false →
      (loop c v w col (k + 1) n a).atNow = true ∧
      (((∀ j, k + 1 ≤ j → j < k + 1 + n → ¬ Bl c v w col j) ∧ (loop c v w col (k + 1) n a).hasCol = false) ∨
        ∃ j, k + 1 ≤ j ∧ j < k + 1 + n ∧ Bl c v w col j ∧ (∀ i, k + 1 ≤ i → i < j → ¬ Bl c v w col i) ∧
          (loop c v w col (k + 1) n a).hasCol = true ∧
          (loop c v w col (k + 1) n a).d = 0 ∧ (loop c v w col (k + 1) n a).yaw = 0) := by
  intro n
  induction n with
  | zero =>
    intro k a _ _ h2 h3
    refine ⟨by simpa [loop] using h2, Or.inl ⟨fun j h h' => by omega, by simpa [loop] using h3⟩⟩
  | succ n ih =>
    intro k a h1 h1' h2 h3
    have d1 : a.dEsc - v * c.dt = c.dEscape - ((k + 1 : Nat) : ℝ) * (v * c.dt) := by rw [h1]; push_cast; ring
    have d2 : a.yawEsc - |w| * c.dt = c.yawEscape - ((k + 1 : Nat) : ℝ) * (|w| * c.dt) := by rw [h1']; push_cast; ring
    have cont : ∀ a' : Acc, a'.dEsc = a.dEsc - v * c.dt → a'.yawEsc = a.yawEsc - |w| * c.dt → a'.atNow = true →
        a'.hasCol = false → ¬ Bl c v w col (k + 1) →
        loop c v w col (k + 1) (n + 1) a = loop c v w col (k + 1 + 1) n a' →
        (loop c v w col (k + 1) (n + 1) a).atNow = true ∧
        (((∀ j, k + 1 ≤ j → j < k + 1 + (n + 1) → ¬ Bl c v w col j) ∧
            (loop c v w col (k + 1) (n + 1) a).hasCol = false) ∨
          ∃ j, k + 1 ≤ j ∧ j < k + 1 + (n + 1) ∧ Bl c v w col j ∧ (∀ i, k + 1 ≤ i → i < j → ¬ Bl c v w col i) ∧
            (loop c v w col (k + 1) (n + 1) a).hasCol = true ∧
            (loop c v w col (k + 1) (n + 1) a).d = 0 ∧ (loop c v w col (k + 1) (n + 1) a).yaw = 0) := by
      intro a' e1 e2 e3 e4 hn e
      rw [e]
      obtain ⟨r1, r2⟩ := ih (k + 1) a' (e1.trans d1) (e2.trans d2) e3 e4
      refine ⟨r1, ?_⟩
      rcases r2 with ⟨r2, r3⟩ | ⟨j, a1, a2, a3, a4, a5⟩
      · refine Or.inl ⟨fun j h h' => ?_, r3⟩
        rcases Nat.lt_or_ge (k + 1) j with hj | hj
        · exact r2 j (by omega) (by omega)
        · obtain rfl : j = k + 1 := by omega
          exact hn
      · refine Or.inr ⟨j, by omega, by omega, a3, fun i h h' => ?_, a5⟩
        rcases Nat.lt_or_ge (k + 1) i with hj | hj
        · exact a4 i (by omega) (by omega)
        · obtain rfl : i = k + 1 := by omega
          exact hn
    by_cases hc : col (k + 1) = true
    · by_cases hb : a.dEsc - v * c.dt ≤ 0 ∨ a.yawEsc - |w| * c.dt ≤ 0
      · have e : loop c v w col (k + 1) (n + 1) a =
            { a with d := 0, dEsc := a.dEsc - v * c.dt, yaw := 0,
                     yawEsc := a.yawEsc - |w| * c.dt, hasCol := true } := by
          simp only [loop, hc, h2, if_true, if_false, hb, ne_eq, Nat.succ_ne_zero, not_false_eq_true]
        rw [e]
        refine ⟨h2, Or.inr ⟨k + 1, le_refl _, by omega, ⟨hc, Or.inr ?_⟩, fun i h h' => by omega, rfl, rfl, rfl⟩⟩
        rw [d1, d2] at hb
        exact hb.imp (fun h => by linarith) (fun h => by linarith)
      · refine cont { a with d := a.d + v * c.dt - v * c.dt, dEsc := a.dEsc - v * c.dt,
                             yaw := a.yaw + w * c.dt - w * c.dt, yawEsc := a.yawEsc - |w| * c.dt }
          rfl rfl h2 h3 ?_ ?_
        · rintro ⟨-, h | h⟩
          · simp [h0] at h
          · rw [d1, d2] at hb
            exact hb (h.imp (fun h => by linarith) (fun h => by linarith))
        · simp only [loop, hc, if_true, if_false, hb, ne_eq, Nat.succ_ne_zero, not_false_eq_true]
    · have hc' : col (k + 1) = false := by simpa using hc
      refine cont { a with d := a.d + v * c.dt, dEsc := a.dEsc - v * c.dt,
                           yaw := a.yaw + w * c.dt, yawEsc := a.yawEsc - |w| * c.dt } rfl rfl h2 h3 ?_ ?_
      · rintro ⟨h, -⟩
        exact hc h
      · simp [loop, hc']

/-- The result of the loop in closed form. -/
theorem loop_spec (c : Cfg) (v w : ℝ) (hv : 0 ≤ v * c.dt) (col : Nat → Bool) (N : Nat) :
    (loop c v w col 0 N .init).atNow = (decide (0 < N) && col 0) ∧
    (((∀ j, j < N → ¬ Bl c v w col j) ∧ (loop c v w col 0 N .init).hasCol = false) ∨
      ∃ j, j < N ∧ Bl c v w col j ∧ (∀ i, i < j → ¬ Bl c v w col i) ∧
        (loop c v w col 0 N .init).hasCol = true ∧
        (loop c v w col 0 N .init).d = (if col 0 then 0 else ((j : ℝ) - 1) * (v * c.dt)) ∧
        (loop c v w col 0 N .init).yaw = (if col 0 then 0 else ((j : ℝ) - 1) * (w * c.dt))) := by
  cases N with
  | zero => exact ⟨by simp [loop, Acc.init], Or.inl ⟨fun j h => by omega, by simp [loop, Acc.init]⟩⟩
  | succ n =>
    by_cases h0 : col 0 = true
    · by_cases hb : c.dEscape ≤ 0 ∨ c.yawEscape ≤ 0
      · have e : loop c v w col 0 (n + 1) .init = ⟨0, 0, c.dEscape, c.yawEscape, true, true⟩ := by
          simp [loop, h0, hb, Acc.init]
        rw [e]
        refine ⟨by simp [h0], Or.inr ⟨0, by omega, ⟨h0, Or.inr ?_⟩, fun i h => by omega, rfl, by simp [h0], by simp [h0]⟩⟩
        simpa using hb
      · have e : loop c v w col 0 (n + 1) .init =
            loop c v w col (0 + 1) n ⟨0 - v * c.dt, 0 - w * c.dt, c.dEscape, c.yawEscape, true, false⟩ := by
          simp only [loop, h0, if_true, hb, if_false, Acc.init, ne_eq, not_true_eq_false]
        have hn : ¬ Bl c v w col 0 := by
          rintro ⟨-, h | h⟩
          · simp [h0] at h
          · exact hb (by simpa using h)
        rw [e]
        obtain ⟨r1, r2⟩ := loop_hit c v w col h0 n 0 ⟨0 - v * c.dt, 0 - w * c.dt, c.dEscape, c.yawEscape, true, false⟩
          (by simp) (by simp) rfl rfl
        refine ⟨by rw [r1]; simp [h0], ?_⟩
        rcases r2 with ⟨r2, r3⟩ | ⟨j, a1, a2, a3, a4, a5, a6, a7⟩
        · refine Or.inl ⟨fun j h => ?_, r3⟩
          rcases Nat.eq_zero_or_pos j with rfl | hj
          · exact hn
          · exact r2 j (by omega) (by omega)
        · refine Or.inr ⟨j, by omega, a3, fun i h => ?_, a5, by rw [a6]; simp [h0], by rw [a7]; simp [h0]⟩
          rcases Nat.eq_zero_or_pos i with rfl | hj
          · exact hn
          · exact a4 i (by omega) (by omega)
    · have h0' : col 0 = false := by simpa using h0
      have e : loop c v w col 0 (n + 1) .init = loop c v w col (0 + 1) n .init := by
        simp [loop, h0']
      rw [e]
      obtain ⟨r1, r2⟩ := loop_free c v w hv col n 0 .init (by simp [Acc.init]) rfl rfl (by simp [Acc.init])
        (by simp [Acc.init])
      refine ⟨by rw [r1]; simp [h0'], ?_⟩
      rcases r2 with ⟨r2, r3⟩ | ⟨j, a1, a2, a3, a4, a5, a6, a7⟩
      · refine Or.inl ⟨fun j h => ?_, r3⟩
        rintro ⟨hc, -⟩
        rcases Nat.eq_zero_or_pos j with rfl | hj
        · exact h0 hc
        · rw [r2 j (by omega) (by omega)] at hc
          cases hc
      · refine Or.inr ⟨j, by omega, ⟨a3, Or.inl h0'⟩, fun i h => ?_, a5, by rw [a6]; simp [h0'], by rw [a7]; simp [h0']⟩
        rintro ⟨hc, -⟩
        rcases Nat.eq_zero_or_pos i with rfl | hj
        · exact h0 hc
        · rw [a4 i (by omega) (by omega)] at hc
          cases hc

/-! ### Braking -/

/-- The speed allowed by the delay compensation stops in time. -/
theorem compensate_stops (acc margin delay d u : ℝ) (ha : 0 < acc) (hm : 0 ≤ margin)
    (hu : 0 ≤ u) (hle : u ≤ Real.sqrt |2 * acc * compensate acc margin delay d|) :
    u = 0 ∨ stoppingDistance u acc delay ≤ |d| - margin := by
  unfold compensate at hle
  simp only at hle
  set a := acc * delay ^ 2 with hadef
  set S := Real.sqrt (a ^ 2 + 2 * a * |d|) with hS
  have ha0 : 0 ≤ a := by positivity
  have hS0 : 0 ≤ S := Real.sqrt_nonneg _
  have hS2 : S ^ 2 = a ^ 2 + 2 * a * |d| := Real.sq_sqrt (by positivity)
  rcases le_or_gt (|d| - margin + a - S) 0 with hle0 | hpos
  · left
    rw [max_eq_left hle0] at hle
    simp at hle
    linarith
  · right
    rw [max_eq_right hpos.le] at hle
    have hd0 := abs_nonneg d
    generalize |d| = D at *
    -- the square root used for the speed
    have hD : 0 < D + a - S := by linarith
    -- (D + a - S) = s² / (2 acc) with delay * s = S - a
    have hs : u ^ 2 ≤ 2 * acc * (D - margin + a - S) := by
      have h1 : 0 ≤ 2 * acc * (D - margin + a - S) := by positivity
      rw [abs_of_nonneg h1] at hle
      calc u ^ 2 ≤ (Real.sqrt (2 * acc * (D - margin + a - S))) ^ 2 := by gcongr
        _ = _ := Real.sq_sqrt h1
    -- delay * u ≤ S - a
    have hSa : a ≤ S := by
      apply le_of_sq_le_sq _ hS0
      nlinarith [mul_nonneg ha0 hd0]
    have hdu : delay * u ≤ S - a := by
      apply le_of_sq_le_sq _ (by linarith)
      have : (delay * u) ^ 2 ≤ delay ^ 2 * (2 * acc * (D + a - S)) := by
        rw [mul_pow]
        apply mul_le_mul_of_nonneg_left _ (by positivity)
        nlinarith
      have e : delay ^ 2 * (2 * acc * (D + a - S)) = (S - a) ^ 2 := by
        have : (S - a) ^ 2 = S ^ 2 - 2 * a * S + a ^ 2 := by ring
        rw [this, hS2, hadef]; ring
      linarith
    unfold stoppingDistance
    have hq : u ^ 2 / (2 * acc) ≤ D - margin + a - S := by
      rw [div_le_iff₀ (by positivity)]
      linarith
    linarith
where
  le_of_sq_le_sq {x y : ℝ} (h : x ^ 2 ≤ y ^ 2) (hy : 0 ≤ y) : x ≤ y := abs_le_of_sq_le_sq' h hy |>.2

theorem quotient_mul_le (acc dc v r : ℝ) (hv : 0 ≤ v) (hr : r ≤ quotient acc dc v) :
    v = 0 ∨ r * v ≤ Real.sqrt |2 * acc * dc| := by
  unfold quotient at hr
  split at hr
  · left; assumption
  · right
    rename_i hv'
    have : 0 < v := lt_of_le_of_ne hv (Ne.symm hv')
    rwa [le_div_iff₀ this] at hr

theorem quotient_nonneg (acc dc v : ℝ) (hv : 0 ≤ v) : 0 ≤ quotient acc dc v := by
  unfold quotient; split
  · exact zero_le_one
  · positivity

theorem compensate_zero (acc margin delay : ℝ) (ha : 0 ≤ acc) (hm : 0 ≤ margin) :
    compensate acc margin delay 0 = 0 := by
  unfold compensate
  have : 0 ≤ acc * delay ^ 2 := by positivity
  simp only [abs_zero, mul_zero, add_zero, Real.sqrt_sq this]
  rw [max_eq_left]; linarith

theorem speed_nonneg (t : Twist) : 0 ≤ speed t := Real.sqrt_nonneg _

theorem ratio_nonneg (c : Cfg) (v w : ℝ) (a : Acc) (hv : 0 ≤ v) : 0 ≤ ratio c v w a := by
  unfold ratio; split
  · exact le_min (quotient_nonneg _ _ _ hv) (quotient_nonneg _ _ _ (abs_nonneg _))
  · exact zero_le_one

theorem predict_nonneg (e : Env) (c : Cfg) (t : Twist) (cl : List P3) (tf) : 0 ≤ (predict e c t cl tf).ratio := by
  unfold predict
  split
  · simp only; split <;> norm_num
  · split
    · exact le_refl _
    · dsimp only
      split
      · simp only; split <;> norm_num
      · exact ratio_nonneg _ _ _ _ (speed_nonneg _)

theorem steps_iff (c : Cfg) (hdt : 0 < c.dt) (n : Nat) : n < c.steps ↔ (n : ℝ) * c.dt < c.tmax := by
  unfold Cfg.steps
  rw [Nat.lt_ceil, lt_div_iff₀ hdt]

end Verif.Safety
