import Verif.Control.Props
/-! # Braking before a point: the speed control of the tracker on a straight line

Arithmetic of one control step on a straight line: `r` is the distance the robot has still to go, `v` its speed. -/
namespace Verif.Tracker
open Verif.Control.Spec

/-- Numbers of the control: `A` acceleration assumed by the time optimal control, `a` acceleration limit, `T` period, `L` look-ahead time, `V`
speed limit, `tol` stop tolerance. -/
structure Gains where
  A : ℝ
  a : ℝ
  T : ℝ
  L : ℝ
  V : ℝ
  tol : ℝ

/-- They fit together. -/
structure Gains.Fit (g : Gains) : Prop where
  A_pos : 0 < g.A
  A_le : g.A ≤ g.a
  T_pos : 0 < g.T
  L_nonneg : 0 ≤ g.L
  V_pos : 0 < g.V
  room : g.T * g.V / 2 + g.A * g.T ^ 2 / 8 + g.L * g.a * g.T < g.tol

open Classical in
/-- The speed commanded next. -/
noncomputable def Gains.next (g : Gains) (v r : ℝ) : ℝ :=
  if |r - g.L * v| < g.tol then
    if |r| < g.tol then 0 else nearest (v - g.T * g.a) (v + g.T * g.a) (nearest (-g.V) g.V 0)
  else nearest (v - g.T * g.a) (v + g.T * g.a) (nearest (-g.V) g.V (Control.timeOptimalControl (-(r - g.L * v)) g.A))

/-- The robot can still brake. -/
structure Gains.Can (g : Gains) (v r : ℝ) : Prop where
  nonneg : 0 ≤ v
  le : v ≤ g.V
  room : v ^ 2 - g.A * g.T * v ≤ 2 * g.A * r + g.A * g.T * g.V

/-- The robot is stopped here. -/
def Gains.Stop (g : Gains) (v r : ℝ) : Prop := |r - g.L * v| < g.tol ∧ |r| < g.tol

/-- Least speed with which a distant goal is approached. -/
noncomputable def Gains.least (g : Gains) : ℝ := min (g.T * g.a) (min (Real.sqrt (2 * g.tol * g.A)) g.V)

/-- Number of steps left, up to a constant. -/
noncomputable def Gains.rank (g : Gains) (v r : ℝ) : ℝ := 2 / (g.least * g.T) * r + ⌈v / (g.T * g.a)⌉

variable {g : Gains}

theorem Gains.Fit.a_pos (h : g.Fit) : 0 < g.a := lt_of_lt_of_le h.A_pos h.A_le
theorem Gains.Fit.Ta_pos (h : g.Fit) : 0 < g.T * g.a := mul_pos h.T_pos h.a_pos
theorem Gains.Fit.tol_pos (h : g.Fit) : 0 < g.tol := by
  have h1 := mul_pos h.T_pos h.V_pos
  have h2 : 0 ≤ g.A * g.T ^ 2 := by have := h.A_pos; positivity
  have h3 : 0 ≤ g.L * g.a * g.T := mul_nonneg (mul_nonneg h.L_nonneg h.a_pos.le) h.T_pos.le
  have := h.room
  linarith
theorem Gains.Fit.least_pos (h : g.Fit) : 0 < g.least := by
  unfold Gains.least
  refine lt_min h.Ta_pos (lt_min (Real.sqrt_pos.2 ?_) h.V_pos)
  have := h.tol_pos; have := h.A_pos; positivity

/-- The robot never goes far beyond the goal. -/
theorem can_lower (h : g.Fit) {v r : ℝ} (hc : g.Can v r) : -(g.T * g.V / 2 + g.A * g.T ^ 2 / 8) ≤ r := by
  have h1 := hc.room
  have hA := h.A_pos
  have h2 : 0 ≤ (v - g.A * g.T / 2) ^ 2 := sq_nonneg _
  have h3 : -(g.A * (g.A * g.T ^ 2 / 4 + g.T * g.V)) ≤ g.A * (2 * r) := by nlinarith
  have h4 := (mul_le_mul_iff_right₀ hA).1 (show g.A * (-(g.A * g.T ^ 2 / 4 + g.T * g.V)) ≤ g.A * (2 * r) by linarith)
  linarith

theorem can_tol (h : g.Fit) {v r : ℝ} (hc : g.Can v r) : -g.tol + g.L * g.a * g.T < r := by
  have := can_lower h hc
  have := h.room
  linarith

/-- Braking with the full deceleration keeps the room. -/
theorem brake_room (h : g.Fit) {v r : ℝ} (hc : g.Can v r) (hv : 0 ≤ v - g.T * g.a) :
    g.Can (v - g.T * g.a) (r - (v - g.T * g.a) * g.T) := by
  have hTa := h.Ta_pos
  have hT := h.T_pos
  refine ⟨hv, by linarith [hc.le], ?_⟩
  have h1 := hc.room
  set u := v - g.T * g.a with hu
  have hv' : v = u + g.T * g.a := by linarith
  rw [hv'] at h1
  have h2 : 0 ≤ (g.a - g.A) * (2 * g.T * u) := mul_nonneg (sub_nonneg.2 h.A_le) (by positivity)
  have h3 : 0 ≤ (g.a - g.A) * (g.a * g.T ^ 2) := mul_nonneg (sub_nonneg.2 h.A_le) (by have := h.a_pos; positivity)
  nlinarith

/-- Any speed up to the one the time optimal control asks for keeps the room. -/
theorem slow_room (h : g.Fit) {u r : ℝ} (h0 : 0 ≤ u) (hV : u ≤ g.V) (hu : u ^ 2 ≤ 2 * g.A * r) : g.Can u (r - u * g.T) := by
  refine ⟨h0, hV, ?_⟩
  have : g.A * g.T * u ≤ g.A * g.T * g.V := mul_le_mul_of_nonneg_left hV (mul_nonneg h.A_pos.le h.T_pos.le)
  nlinarith

theorem ceil_sub {x y d : ℝ} (hd : 0 < d) (h : y ≤ x - d) : (⌈y / d⌉ : ℝ) ≤ ⌈x / d⌉ - 1 := by
  have h1 : y / d ≤ x / d - 1 := by rw [div_le_iff₀ hd, sub_mul, div_mul_cancel₀ _ hd.ne', one_mul]; exact h
  have h2 : ⌈y / d⌉ ≤ ⌈x / d⌉ - 1 := by
    rw [Int.ceil_le]
    push_cast
    linarith [Int.le_ceil (x / d)]
  exact_mod_cast h2

theorem ceil_add {x y d : ℝ} (hd : 0 < d) (h : y ≤ x + d) : (⌈y / d⌉ : ℝ) ≤ ⌈x / d⌉ + 1 := by
  have h1 : y / d ≤ x / d + 1 := by rw [div_le_iff₀ hd, add_mul, div_mul_cancel₀ _ hd.ne', one_mul]; exact h
  have h2 : ⌈y / d⌉ ≤ ⌈x / d⌉ + 1 := by
    rw [Int.ceil_le]
    push_cast
    linarith [Int.le_ceil (x / d)]
  exact_mod_cast h2

/-- One control step while the robot is not to be stopped: it can still brake, and comes closer to the end. -/
theorem next_step (h : g.Fit) {v r : ℝ} (hc : g.Can v r) (hs : ¬ g.Stop v r) :
    g.Can (g.next v r) (r - g.next v r * g.T) ∧ g.rank (g.next v r) (r - g.next v r * g.T) ≤ g.rank v r - 1 ∧
    g.next v r ≤ v + g.T * g.a := by
  have hTa := h.Ta_pos
  have hT := h.T_pos
  have hA := h.A_pos
  have ha := h.a_pos
  have hL := h.L_nonneg
  have hV := h.V_pos
  have htol := h.tol_pos
  have hlo := can_tol h hc
  have hv := hc.nonneg
  have hLT : 0 ≤ g.L * g.a * g.T := mul_nonneg (mul_nonneg hL ha.le) hT.le
  have hcl := h.least_pos
  have hal : 0 < 2 / (g.least * g.T) := by positivity
  -- slowing down by the full deceleration, or to zero
  have slower : ∀ u, 0 ≤ u → (u ≤ v - g.T * g.a ∨ (u = 0 ∧ 0 < v)) → g.rank u (r - u * g.T) ≤ g.rank v r - 1 := by
    intro u hu h2
    have h3 : (⌈u / (g.T * g.a)⌉ : ℝ) ≤ ⌈v / (g.T * g.a)⌉ - 1 := by
      rcases h2 with h2 | ⟨rfl, h2⟩
      · exact ceil_sub hTa h2
      · rw [zero_div, Int.ceil_zero]
        have : 0 < ⌈v / (g.T * g.a)⌉ := Int.ceil_pos.2 (div_pos h2 hTa)
        have : (1 : ℝ) ≤ ⌈v / (g.T * g.a)⌉ := by exact_mod_cast this
        push_cast
        linarith
    have h4 : 2 / (g.least * g.T) * (r - u * g.T) ≤ 2 / (g.least * g.T) * r :=
      mul_le_mul_of_nonneg_left (by nlinarith) hal.le
    unfold Gains.rank
    linarith
  unfold Gains.Stop at hs
  unfold Gains.next
  by_cases he : |r - g.L * v| < g.tol
  · -- turning in place
    have hr : ¬ |r| < g.tol := fun h => hs ⟨he, h⟩
    rw [if_pos he, if_neg hr]
    have hrt : g.tol ≤ r := by
      by_contra hcon
      push Not at hcon
      exact hr (abs_lt.2 ⟨by linarith, hcon⟩)
    have hvp : 0 < v := by
      rcases hv.lt_or_eq with h | h
      · exact h
      · rw [← h, mul_zero, sub_zero] at he
        exact absurd he hr
    have e0 : nearest (-g.V) g.V 0 = 0 := by
      unfold nearest
      rw [min_eq_right hV.le, max_eq_right (by linarith)]
    have e1 : nearest (v - g.T * g.a) (v + g.T * g.a) 0 = max (v - g.T * g.a) 0 := by
      unfold nearest
      rw [min_eq_right (by linarith)]
    rw [e0, e1]
    rcases le_total 0 (v - g.T * g.a) with h1 | h1
    · rw [max_eq_left h1]
      exact ⟨brake_room h hc h1, slower _ h1 (.inl le_rfl), by linarith⟩
    · rw [max_eq_right h1]
      exact ⟨⟨le_rfl, hV.le, by have := mul_pos hA hT; nlinarith⟩, slower _ le_rfl (.inr ⟨rfl, hvp⟩), by linarith⟩
  · rw [if_neg he]
    rcases le_total 0 (r - g.L * v) with hpos | hneg
    · -- the goal is ahead
      have het : g.tol ≤ r - g.L * v := by
        by_contra hcon
        push Not at hcon
        exact he (abs_lt.2 ⟨by linarith, hcon⟩)
      set e := r - g.L * v with hee
      have htoc : Control.timeOptimalControl (-e) g.A = Real.sqrt (2 * e * g.A) := by
        unfold Control.timeOptimalControl
        rw [if_pos (by linarith), neg_neg, one_mul]
        congr 1
        rw [show 2 * -e * g.A = -(2 * e * g.A) by ring, abs_neg, abs_of_nonneg (by positivity)]
      rw [htoc]
      set s := Real.sqrt (2 * e * g.A) with hs'
      have hs0 : 0 ≤ s := Real.sqrt_nonneg _
      have hsq : s ^ 2 = 2 * e * g.A := Real.sq_sqrt (by positivity)
      have e0 : nearest (-g.V) g.V s = min g.V s := by
        unfold nearest
        rw [max_eq_right]
        have : 0 ≤ min g.V s := le_min hV.le hs0
        linarith
      rw [e0]
      have hm0 : 0 ≤ min g.V s := le_min hV.le hs0
      set u := nearest (v - g.T * g.a) (v + g.T * g.a) (min g.V s) with hu
      have hu1 : u ≤ v + g.T * g.a := by
        rw [hu]; unfold nearest
        exact max_le (by linarith) (min_le_left _ _)
      have hu0 : g.least ≤ u := by
        rw [hu]; unfold nearest
        refine le_trans ?_ (le_max_right _ _)
        refine le_min ?_ (le_min ?_ ?_)
        · exact le_trans (min_le_left _ _) (by linarith)
        · exact le_trans (min_le_right _ _) (min_le_right _ _)
        · refine le_trans (le_trans (min_le_right _ _) (min_le_left _ _)) (Real.sqrt_le_sqrt ?_)
          nlinarith
      have hrank : g.rank u (r - u * g.T) ≤ g.rank v r - 1 := by
        have h3 := ceil_add hTa hu1
        have h4 : 2 / (g.least * g.T) * (r - u * g.T) ≤ 2 / (g.least * g.T) * r - 2 := by
          have h5 : 2 / (g.least * g.T) * (g.least * g.T) = 2 := div_mul_cancel₀ _ (by positivity)
          have h6 : 2 / (g.least * g.T) * (g.least * g.T) ≤ 2 / (g.least * g.T) * (u * g.T) :=
            mul_le_mul_of_nonneg_left (mul_le_mul_of_nonneg_right hu0 hT.le) hal.le
          rw [mul_sub]
          linarith
        unfold Gains.rank
        linarith
      refine ⟨?_, hrank, hu1⟩
      have hup : 0 ≤ u := le_trans hcl.le hu0
      rcases le_total (v - g.T * g.a) (min (v + g.T * g.a) (min g.V s)) with h1 | h1
      · have hu' : u ≤ min g.V s := by
          rw [hu]; unfold nearest
          rw [max_eq_right h1]
          exact min_le_right _ _
        refine slow_room h hup (le_trans hu' (min_le_left _ _)) ?_
        have h2 : u ≤ s := le_trans hu' (min_le_right _ _)
        have h3 : u ^ 2 ≤ s ^ 2 := by nlinarith
        have h4 : 0 ≤ g.L * v := mul_nonneg hL hv
        have h5 : 2 * e * g.A ≤ 2 * g.A * r := by rw [hee]; nlinarith
        linarith
      · have hu' : u = v - g.T * g.a := by
          rw [hu]; unfold nearest
          rw [max_eq_left h1]
        rw [hu']
        exact brake_room h hc (by rw [← hu']; exact hup)
    · -- the look-ahead point is beyond the goal
      have het : r - g.L * v ≤ -g.tol := by
        by_contra hcon
        push Not at hcon
        exact he (abs_lt.2 ⟨hcon, by linarith⟩)
      have hlv : g.L * g.a * g.T < g.L * v := by linarith
      have hLpos : 0 < g.L := by
        rcases hL.lt_or_eq with h | h
        · exact h
        · rw [← h] at hlv; simp at hlv
      have hva : g.T * g.a < v := by
        have : g.L * (g.a * g.T) < g.L * v := by linarith
        have := (mul_lt_mul_iff_right₀ hLpos).1 this
        linarith
      set t := Control.timeOptimalControl (-(r - g.L * v)) g.A with ht
      have htn : t ≤ 0 := by
        rw [ht]
        unfold Control.timeOptimalControl
        rw [if_neg (by linarith)]
        have := Real.sqrt_nonneg |2 * -(r - g.L * v) * g.A|
        linarith
      have e1 : nearest (v - g.T * g.a) (v + g.T * g.a) (nearest (-g.V) g.V t) = v - g.T * g.a := by
        have : nearest (-g.V) g.V t ≤ 0 := by
          unfold nearest
          exact max_le (by linarith) (le_trans (min_le_right _ _) htn)
        unfold nearest at this ⊢
        refine max_eq_left (le_trans (min_le_right _ _) (by linarith))
      rw [e1]
      have h1 : 0 ≤ v - g.T * g.a := by linarith
      exact ⟨brake_room h hc h1, slower _ h1 (.inl le_rfl), by linarith⟩

theorem next_stop {v r : ℝ} (hs : g.Stop v r) : g.next v r = 0 := by
  unfold Gains.next
  rw [if_pos hs.1, if_pos hs.2]

/-- Once stopped, the robot stays. -/
theorem stop_stays {r : ℝ} (hr : |r| < g.tol) : g.Stop 0 r := by
  unfold Gains.Stop
  rw [mul_zero, sub_zero]
  exact ⟨hr, hr⟩

/-- The robot is stopped after finitely many steps. -/
theorem stops (h : g.Fit) {v r : Nat → ℝ} (h0 : g.Can (v 0) (r 0)) (hv : ∀ k, ¬ g.Stop (v k) (r k) → v (k + 1) = g.next (v k) (r k))
    (hr : ∀ k, ¬ g.Stop (v k) (r k) → r (k + 1) = r k - v (k + 1) * g.T) : ∃ N, g.Stop (v N) (r N) ∧ ∀ k ≤ N, g.Can (v k) (r k) ∧
      g.rank (v k) (r k) ≤ g.rank (v 0) (r 0) - k := by
  classical
  by_contra hno
  push Not at hno
  have key : ∀ k, (g.Can (v k) (r k) ∧ g.rank (v k) (r k) ≤ g.rank (v 0) (r 0) - k) := by
    intro k
    induction k using Nat.strong_induction_on with
    | _ k ih =>
      cases k with
      | zero => exact ⟨h0, by simp⟩
      | succ k =>
        have hk := ih k (by omega)
        have hns : ¬ g.Stop (v k) (r k) := by
          intro hst
          obtain ⟨j, hj, hbad⟩ := hno k hst
          have := ih j (by omega)
          exact absurd this.2 (not_le.2 (hbad this.1))
        obtain ⟨h1, h2, -⟩ := next_step h hk.1 hns
        rw [hr k hns, hv k hns]
        refine ⟨h1, ?_⟩
        push_cast
        linarith [hk.2]
  have hfar : ∃ n : Nat, g.rank (v 0) (r 0) + 2 / (g.least * g.T) * g.tol < n := exists_nat_gt _
  obtain ⟨n, hn⟩ := hfar
  obtain ⟨h1, h2⟩ := key n
  have hT := h.T_pos
  have hcl := h.least_pos
  have hlow : -(2 / (g.least * g.T) * g.tol) ≤ g.rank (v n) (r n) := by
    unfold Gains.rank
    have h3 : (0 : ℝ) ≤ ⌈v n / (g.T * g.a)⌉ := by
      have : 0 ≤ ⌈v n / (g.T * g.a)⌉ := Int.ceil_nonneg (div_nonneg h1.nonneg h.Ta_pos.le)
      exact_mod_cast this
    have h4 : 2 / (g.least * g.T) * (-g.tol) ≤ 2 / (g.least * g.T) * r n := by
      refine mul_le_mul_of_nonneg_left ?_ (by positivity)
      have := can_tol h h1
      have : 0 ≤ g.L * g.a * g.T := mul_nonneg (mul_nonneg h.L_nonneg h.a_pos.le) hT.le
      linarith
    linarith
  linarith

end Verif.Tracker
