import Verif.Safety.RideSpec
import Verif.Safety.Props
import Mathlib.Analysis.Calculus.Deriv.MeanValue
import Mathlib.Analysis.SpecialFunctions.ExpDeriv
/-! # A robot that obeys the safety limiter does not run into what the limiter sees (C120) -/
namespace Verif.Safety
open Spec
open Verif.Polygon hiding dist

/-! ### Kinematics -/

/-- A speed of at most `W - a s` at time `t0 + s` gives at most the corresponding distance. -/
theorem travel_le {x w : ℝ → ℝ} (hx : ∀ τ, HasDerivAt x (w τ) τ) {a W t0 t1 : ℝ} (h01 : t0 ≤ t1)
    (hw : ∀ τ, t0 ≤ τ → τ ≤ t1 → w τ ≤ W - a * (τ - t0)) : x t1 - x t0 ≤ W * (t1 - t0) - a * (t1 - t0) ^ 2 / 2 := by
  have hd : ∀ τ, HasDerivAt (fun τ => x τ - (W * (τ - t0) - a * (τ - t0) ^ 2 / 2)) (w τ - (W - a * (τ - t0))) τ := by
    intro τ
    have h1 : HasDerivAt (fun τ : ℝ => τ - t0) 1 τ := (hasDerivAt_id τ).sub_const t0
    have h2 := (h1.const_mul W).sub (((h1.pow 2).const_mul a).div_const 2)
    have h3 := (hx τ).sub h2
    refine h3.congr_deriv ?_
    norm_num
    ring
  have hanti : AntitoneOn (fun τ => x τ - (W * (τ - t0) - a * (τ - t0) ^ 2 / 2)) (Set.Icc t0 t1) := by
    refine antitoneOn_of_deriv_nonpos (convex_Icc t0 t1) (fun τ _ => (hd τ).continuousAt.continuousWithinAt)
      (fun τ _ => (hd τ).differentiableAt.differentiableWithinAt) ?_
    intro τ hτ
    rw [interior_Icc] at hτ
    rw [(hd τ).deriv]
    have := hw τ hτ.1.le hτ.2.le
    linarith
  have := hanti (Set.left_mem_Icc.mpr h01) (Set.right_mem_Icc.mpr h01) h01
  simp only [sub_self, mul_zero, zero_pow two_ne_zero, zero_div, sub_zero] at this
  linarith

theorem moves_mono {v : ℝ} {x w : ℝ → ℝ} (h : Moves v x w) {t0 t1 : ℝ} (h01 : t0 ≤ t1) : x t0 ≤ x t1 := by
  have hd : Monotone x := monotone_of_deriv_nonneg (fun τ => (h.speed τ).differentiableAt) (fun τ => by
    rw [(h.speed τ).deriv]; exact h.forward τ)
  exact hd h01

theorem moves_le {v : ℝ} {x w : ℝ → ℝ} (h : Moves v x w) {t0 t1 : ℝ} (h01 : t0 ≤ t1) : x t1 - x t0 ≤ v * (t1 - t0) := by
  have := travel_le h.speed (a := 0) (W := v) h01 (fun τ _ _ => by have := h.le τ; linarith)
  linarith

/-- One period: the robot could have stopped before the obstacle at `L` when it got a command `u`, and the command leaves room for one period.
Then it can stop before the obstacle at every moment of the period. -/
theorem period_safe {x w : ℝ → ℝ} (hx : ∀ τ, HasDerivAt x (w τ) τ) (hw0 : ∀ τ, 0 ≤ w τ) {a u L t0 t1 P : ℝ} (ha : 0 < a) (hu : 0 ≤ u)
    (hP : t1 ≤ t0 + P) (henv : ∀ τ, t0 ≤ τ → τ ≤ t1 → w τ ≤ max u (w t0 - a * (τ - t0))) (hJ : w t0 ^ 2 / (2 * a) ≤ L - x t0)
    (hroom : u = 0 ∨ u * P + u ^ 2 / (2 * a) + a * P ^ 2 / 2 ≤ L - x t0 ∨ (w t0 ≤ u ∧ u * P + u ^ 2 / (2 * a) ≤ L - x t0)) (τ : ℝ)
    (h0 : t0 ≤ τ) (h1 : τ ≤ t1) : w τ ^ 2 / (2 * a) ≤ L - x τ := by
  have ha2 : 0 < 2 * a := by linarith
  have sq : ∀ y z : ℝ, 0 ≤ y → y ≤ z → y ^ 2 / (2 * a) ≤ z ^ 2 / (2 * a) := fun y z hy hz =>
    div_le_div_of_nonneg_right (by nlinarith) ha2.le
  have hδ : 0 ≤ τ - t0 := by linarith
  rcases le_or_gt (w t0) u with hc | hc
  · have hle : ∀ s, t0 ≤ s → s ≤ τ → w s ≤ u - 0 * (s - t0) := fun s hs hs' => by
      have := henv s hs (by linarith)
      have h3 : w t0 - a * (s - t0) ≤ u := by nlinarith
      rw [max_eq_left h3] at this
      linarith
    have htr := travel_le hx h0 hle
    have hwτ := hle τ h0 le_rfl
    have hs := sq (w τ) u (hw0 τ) (by linarith)
    rcases hroom with rfl | hroom | ⟨-, hroom⟩
    · have : 0 ≤ w t0 ^ 2 / (2 * a) := by positivity
      have : (0 : ℝ) ^ 2 / (2 * a) = 0 := by simp
      linarith
    · have : u * (τ - t0) ≤ u * P := mul_le_mul_of_nonneg_left (by linarith) hu
      have : 0 ≤ a * P ^ 2 / 2 := by positivity
      linarith
    · have : u * (τ - t0) ≤ u * P := mul_le_mul_of_nonneg_left (by linarith) hu
      linarith
  · rcases le_or_gt (a * (τ - t0)) (w t0 - u) with hb | hb
    · have hle : ∀ s, t0 ≤ s → s ≤ τ → w s ≤ w t0 - a * (s - t0) := fun s hs hs' => by
        have := henv s hs (by linarith)
        have h3 : u ≤ w t0 - a * (s - t0) := by nlinarith
        rwa [max_eq_right h3] at this
      have htr := travel_le hx h0 hle
      have hs := sq (w τ) (w t0 - a * (τ - t0)) (hw0 τ) (hle τ h0 le_rfl)
      have e : (w t0 - a * (τ - t0)) ^ 2 / (2 * a) = w t0 ^ 2 / (2 * a) - w t0 * (τ - t0) + a * (τ - t0) ^ 2 / 2 := by
        field_simp
        ring
      linarith
    · set s1 := (w t0 - u) / a with hs1
      have e1 : a * s1 = w t0 - u := by rw [hs1]; field_simp
      have hs10 : 0 ≤ s1 := div_nonneg (by linarith) ha.le
      have hs1τ : s1 ≤ τ - t0 := by
        by_contra hcon
        push Not at hcon
        nlinarith
      have hle : ∀ s, t0 ≤ s → s ≤ t0 + s1 → w s ≤ w t0 - a * (s - t0) := fun s hs hs' => by
        have := henv s hs (by linarith)
        have h3 : u ≤ w t0 - a * (s - t0) := by nlinarith
        rwa [max_eq_right h3] at this
      have htr1 := travel_le hx (by linarith : t0 ≤ t0 + s1) hle
      have hle2 : ∀ s, t0 + s1 ≤ s → s ≤ τ → w s ≤ u - 0 * (s - (t0 + s1)) := fun s hs hs' => by
        have := henv s (by linarith) (by linarith)
        have h3 : w t0 - a * (s - t0) ≤ u := by nlinarith
        rw [max_eq_left h3] at this
        linarith
      have htr2 := travel_le hx (by linarith : t0 + s1 ≤ τ) hle2
      have hwτ := hle2 τ (by linarith) le_rfl
      have hs := sq (w τ) u (hw0 τ) (by linarith)
      have hW : w t0 = u + a * s1 := by linarith
      have eJ : w t0 ^ 2 / (2 * a) = u ^ 2 / (2 * a) + u * s1 + a * s1 ^ 2 / 2 := by
        rw [hW]; field_simp; ring
      rw [hW] at htr1
      have htot : x τ - x t0 ≤ u * (τ - t0) + a * s1 ^ 2 / 2 := by nlinarith
      rcases hroom with rfl | hroom | ⟨hroom, -⟩
      · have : (0 : ℝ) ^ 2 / (2 * a) = 0 := by simp
        linarith
      · have h3 : u * (τ - t0) ≤ u * P := mul_le_mul_of_nonneg_left (by linarith) hu
        have h4 : a * s1 ^ 2 / 2 ≤ a * P ^ 2 / 2 := by
          have : s1 ^ 2 ≤ P ^ 2 := by nlinarith
          nlinarith
        linarith
      · linarith

/-! ### The node -/

theorem log_config {e : Env} {c : Cfg} {v P Δ : ℝ} {l : Log} (h : Regular e c v P Δ l) (k : Nat) : config c (l.hist k) = c := by
  induction k with
  | zero => exact h.config
  | succ k ih =>
    rw [h.cycle]
    have : ∀ (m : List Ev), (∀ ev ∈ m, (∃ now, ev = .twist now (forward v)) ∨ ∃ s pts f, ev = .cloud s pts f) → ∀ d : Cfg,
        config d m = d := by
      intro m
      induction m with
      | nil => intro _ d; rfl
      | cons ev m ihm =>
        intro hm d
        rcases hm ev (List.mem_cons_self ..) with ⟨now, rfl⟩ | ⟨s, pts, f, rfl⟩ <;>
        exact ihm (fun x hx => hm x (List.mem_cons_of_mem _ hx)) d
    have e1 : config c (l.hist k ++ .predict (l.p k) (l.tf k) :: l.mid k) = config (config c (l.hist k)) (l.mid k) := by
      unfold config
      rw [List.foldl_append]
      rfl
    rw [e1, ih, this _ (h.only k)]

theorem cloud_twist_disable (v : ℝ) : ∀ (m : List Ev), (∀ ev ∈ m, (∃ now, ev = .twist now (forward v)) ∨ ∃ s pts f, ev = .cloud s pts f) →
    ∀ (c : Cfg) (h : List Ev), lastDisable (h ++ m) = lastDisable h ∧ config c (h ++ m) = config c h := by
  intro m
  induction m with
  | nil => intro _ c h; simp
  | cons ev m ihm =>
    intro hm c h
    have := ihm (fun x hx => hm x (List.mem_cons_of_mem _ hx)) c (h ++ [ev])
    rw [List.append_assoc, List.singleton_append] at this
    rw [this.1, this.2]
    unfold lastDisable config
    rw [List.foldl_append, List.foldl_append]
    rcases hm ev (List.mem_cons_self ..) with ⟨now, rfl⟩ | ⟨s, pts, f, rfl⟩ <;> exact ⟨rfl, rfl⟩

theorem disable_predict (c : Cfg) (h : List Ev) (T : ℝ) (tf : Option (P3 → P3)) :
    lastDisable (h ++ [.predict T tf]) = lastDisable h ∧ config c (h ++ [.predict T tf]) = config c h := by
  unfold lastDisable config
  rw [List.foldl_append, List.foldl_append]
  exact ⟨rfl, rfl⟩

theorem log_disable {e : Env} {c : Cfg} {v P Δ : ℝ} {l : Log} (h : Regular e c v P Δ l) (k : Nat) :
    lastDisable (l.hist k) = lastDisable (l.hist 0) := by
  induction k with
  | zero => rfl
  | succ k ih =>
    rw [h.cycle, show l.hist k ++ Ev.predict (l.p k) (l.tf k) :: l.mid k = (l.hist k ++ [.predict (l.p k) (l.tf k)]) ++ l.mid k by simp,
      (cloud_twist_disable v _ (h.only k) c _).1, (disable_predict c _ _ _).1, ih]

theorem twist_kept (e : Env) (v : ℝ) : ∀ (m : List Ev), (∀ ev ∈ m, (∃ now, ev = .twist now (forward v)) ∨ ∃ s pts f, ev = .cloud s pts f) →
    ∀ s : St, s.twist = forward v → (m.foldl (fun s ev => (step e s ev).1) s).twist = forward v := by
  intro m
  induction m with
  | nil => intro _ s hs; exact hs
  | cons ev m ihm =>
    intro hm s hs
    rw [List.foldl_cons]
    refine ihm (fun x hx => hm x (List.mem_cons_of_mem _ hx)) _ ?_
    rcases hm ev (List.mem_cons_self ..) with ⟨now, rfl⟩ | ⟨st, pts, f, rfl⟩
    · change (cbTwist s now (forward v)).1.twist = _
      unfold cbTwist
      dsimp only
      split
      · rfl
      · split
        · rfl
        · split <;> rfl
    · change (cbCloud s st pts f).twist = _
      unfold cbCloud
      dsimp only
      split
      · exact hs
      · split <;> exact hs

theorem predict_twist (e : Env) (s : St) (T : ℝ) (tf : Option (P3 → P3)) : (cbPredict e s T tf).1.twist = s.twist := by
  unfold cbPredict
  split
  · rfl
  · split
    · rfl
    · split
      · rfl
      · dsimp only
        split <;> rfl

theorem log_twist {e : Env} {c : Cfg} {v P Δ : ℝ} {l : Log} (h : Regular e c v P Δ l) (k : Nat) :
    (run e c (l.hist k)).twist = forward v := by
  induction k with
  | zero => exact h.command
  | succ k ih =>
    rw [h.cycle, show l.hist k ++ Ev.predict (l.p k) (l.tf k) :: l.mid k = (l.hist k ++ [.predict (l.p k) (l.tf k)]) ++ l.mid k by simp,
      run_append]
    refine twist_kept e v _ (h.only k) _ ?_
    rw [run_snoc]
    change (cbPredict e _ _ _).1.twist = _
    rw [predict_twist, ih]

theorem log_times {e : Env} {c : Cfg} {v P Δ : ℝ} {l : Log} (h : Regular e c v P Δ l) (k : Nat) : l.p 0 ≤ l.p k := by
  induction k with
  | zero => exact le_rfl
  | succ k ih => exact le_trans ih (le_trans (h.late k).1 (h.first_le k))

/-- The factor in force after a prediction. -/
noncomputable def factor (r : ℝ) : ℝ := open Classical in if r < 1 - 1e-6 then r else 1

/-- The commands sent in a cycle are slowed down by the factor of its prediction. -/
theorem sent_slow {e : Env} {c : Cfg} {v P Δ : ℝ} (hv : 0 ≤ v) (h0 : 0 ≤ c.maxLin) (h1 : 0 ≤ c.maxAng) {l : Log}
    (h : Regular e c v P Δ l) {k : Nat} {r : ℝ} (hp : Predicts e c (l.hist k) (l.p k) (l.tf k) r) {pre post : List Ev} {now : ℝ} {t : Twist}
    (hm : l.mid k = pre ++ .twist now t :: post) {o : Twist}
    (ho : outputs e c (l.hist k ++ .predict (l.p k) (l.tf k) :: pre) (.twist now t) = [.cmd o]) : o.lx ≤ v * factor r := by
  have hpre : ∀ ev ∈ pre, (∃ now, ev = .twist now (forward v)) ∨ ∃ s pts f, ev = .cloud s pts f := fun ev hev =>
    h.only k ev (by rw [hm]; exact List.mem_append_left _ hev)
  have hmem : Ev.twist now t ∈ l.mid k := by rw [hm]; simp
  have ht : t = forward v := by
    rcases h.only k _ hmem with ⟨n, hn⟩ | ⟨s, pts, f, hn⟩
    · cases hn; rfl
    · cases hn
  have happ : l.hist k ++ Ev.predict (l.p k) (l.tf k) :: pre = (l.hist k ++ [.predict (l.p k) (l.tf k)]) ++ pre := by simp
  have hcfg : config c (l.hist k ++ Ev.predict (l.p k) (l.tf k) :: pre) = c := by
    rw [happ, (cloud_twist_disable v _ hpre c _).2, (disable_predict c _ _ _).2, log_config h]
  have hdis : ¬ Disabled c (l.hist k ++ Ev.predict (l.p k) (l.tf k) :: pre) now := by
    unfold Disabled
    rw [hcfg, happ, (cloud_twist_disable v _ hpre c _).1, (disable_predict c _ _ _).1, log_disable h]
    have h2 := h.enabled
    have h3 := log_times h k
    have h4 := (h.times k now t hmem).1
    have h5 := (h.late k).1
    linarith
  obtain ⟨hn1, hn2⟩ := h.times k now t hmem
  by_cases hr : r < 1
  · obtain ⟨o', ho', a, b, a0, a1, b0, b1, e1, -, -⟩ := restriction_held_partial e c (l.hist k) pre (l.p k) (l.tf k) r hp hr
      (fun ev hev c' hc' => by
        rcases hpre ev hev with ⟨n, rfl⟩ | ⟨s, pts, f, rfl⟩ <;> cases hc') now t
      (fun ev hev τ hτ => by
        rcases hpre ev hev with ⟨n, rfl⟩ | ⟨s, pts, f, rfl⟩
        · cases hτ
          have hin : Ev.twist τ (forward v) ∈ l.mid k := by rw [hm]; exact List.mem_append_left _ hev
          exact ⟨le_trans (h.late k).1 (h.times k _ _ hin).1, h.ordered k pre now t post hm _ _ hev⟩
        · cases hτ)
      (by rw [log_config h]; exact le_trans hn2 (h.hold k)) (by rw [log_config h]; exact h0) (by rw [log_config h]; exact h1) hdis
    rw [ho] at ho'
    cases ho'
    rw [e1, ht]
    unfold factor
    change a * v ≤ _
    rw [mul_comm]
    refine mul_le_mul_of_nonneg_left (le_trans a1 (le_of_eq ?_)) hv
    congr
  · obtain ⟨o', ho', ⟨a, b, k', a0, a1, b0, b1, k0, k1, e1, -⟩, -⟩ := only_slows e c
      (l.hist k ++ Ev.predict (l.p k) (l.tf k) :: pre) now t (by rw [hcfg]; exact h0) (by rw [hcfg]; exact h1)
    rw [ho] at ho'
    cases ho'
    rw [e1, ht]
    unfold factor
    rw [if_neg (by norm_num; linarith)]
    change a * v ≤ _
    rw [mul_comm]
    exact mul_le_mul_of_nonneg_left a1 hv

/-! ### What a prediction sees -/

theorem pose_forward (v dt : ℝ) (n : Nat) : pose (forward v) dt n = ⟨n * (v * dt), 0, 0⟩ := by
  induction n with
  | zero => simp [pose]
  | succ n ih =>
    simp only [pose, ih]
    simp [forward]
    ring

theorem hits_forward (fp : List (Pt ℝ)) (v dt : ℝ) (pts : List (Pt ℝ)) (n : Nat) (x : ℝ) (obs : List (Pt ℝ))
    (hq : ∀ q, q ∈ pts ↔ ∃ o ∈ obs, q = (o.1 - x, o.2)) :
    Hits fp (forward v) dt pts n ↔ ∃ o ∈ obs, Touches fp (x + n * (v * dt)) o := by
  unfold Hits
  rw [pose_forward]
  simp only [Pose.toWorld, Real.cos_zero, Real.sin_zero]
  constructor
  · rintro ⟨p, hp, q, hin, rfl⟩
    obtain ⟨o, ho, he⟩ := (hq _).1 hp
    refine ⟨o, ho, ?_⟩
    unfold Touches
    have e1 := congrArg Prod.fst he
    have e2 := congrArg Prod.snd he
    simp only at e1 e2
    have : (o.1 - (x + n * (v * dt)), o.2) = q := Prod.ext (by simp only; linarith) (by simp only; linarith)
    rw [this]
    exact hin
  · rintro ⟨o, ho, ht⟩
    refine ⟨(o.1 - x, o.2), (hq _).2 ⟨o, ho, rfl⟩, _, ht, Prod.ext ?_ ?_⟩ <;> simp only <;> ring

/-- The next step of the prediction at which an obstacle ahead is hit, and no earlier one is beyond it. -/
theorem next_hit {fp : List (Pt ℝ)} {len : ℝ} (hlen : 0 < len) {o : Pt ℝ} {lo hi x : ℝ} (hw : lo + len ≤ hi)
    (ht : ∀ x, Touches fp x o ↔ lo < x ∧ x ≤ hi) (hx : x ≤ lo) :
    ∃ n : Nat, 1 ≤ n ∧ Touches fp (x + n * len) o ∧ ((n : ℝ) - 1) * len ≤ lo - x ∧ lo - x < n * len := by
  have h0 : 0 ≤ (lo - x) / len := div_nonneg (by linarith) hlen.le
  have h1 := Nat.floor_le h0
  have h2 := Nat.lt_floor_add_one ((lo - x) / len)
  rw [le_div_iff₀ hlen] at h1
  rw [div_lt_iff₀ hlen] at h2
  refine ⟨⌊(lo - x) / len⌋₊ + 1, by omega, ?_, ?_, ?_⟩
  · rw [ht]
    push_cast
    constructor
    · linarith
    · nlinarith
  · push_cast; linarith
  · push_cast; linarith

/-- The command sent after a prediction leaves room before every obstacle ahead. -/
theorem command_room {e : Env} {c : Cfg} {v P Δ : ℝ} (hv : 0 < v) (hdt : 0 < c.dt) (ha : 0 < c.linAcc) (hb : 0 < c.angAcc)
    (hy : 0 ≤ c.yawMargin) (hΔ : 0 ≤ Δ) (hP : 0 ≤ P) (hPD : P ≤ 1 / c.hz + c.dt) (hslack : slack c v P Δ ≤ c.dMargin)
    (hhor : P + v / (2 * c.linAcc) + c.dt + Δ ≤ c.tmax) {cloud : List P3} {tf : Option (P3 → P3)} {pts : List (Pt ℝ)} {b : Bool}
    (hpr : (predict e c (forward v) cloud tf).tested = some (pts, b)) {x : ℝ} {obs : List (Pt ℝ)}
    (hq : ∀ q, q ∈ pts ↔ ∃ o ∈ obs, q = (o.1 - x, o.2)) (hfree : ∀ o ∈ obs, ¬ Touches e.footprint x o) {o : Pt ℝ} (ho : o ∈ obs) {lo hi : ℝ}
    (hw : lo + v * c.dt ≤ hi) (ht : ∀ x, Touches e.footprint x o ↔ lo < x ∧ x ≤ hi) (hx : x ≤ lo) :
    let u := v * factor (predict e c (forward v) cloud tf).ratio
    0 ≤ u ∧ (u = 0 ∨ u * P + u ^ 2 / (2 * c.linAcc) + c.linAcc * P ^ 2 / 2 + v * Δ ≤ lo - x ∨
      (u = v ∧ u * P + u ^ 2 / (2 * c.linAcc) + v * Δ ≤ lo - x)) := by
  intro u
  have hr0 : 0 ≤ (predict e c (forward v) cloud tf).ratio := predict_nonneg _ _ _ _ _
  set r := (predict e c (forward v) cloud tf).ratio with hr
  have hsp : hypot (forward v).lx (forward v).ly = v := by
    unfold hypot forward
    simp [Real.sqrt_sq hv.le]
  have hu0 : 0 ≤ u := by
    refine mul_nonneg hv.le ?_
    unfold factor
    split
    · exact hr0
    · norm_num
  refine ⟨hu0, ?_⟩
  have hlen : 0 < v * c.dt := mul_pos hv hdt
  obtain ⟨n', hn1, htn, hn2, hn3⟩ := next_hit hlen hw ht hx
  have hhit' : Hits e.footprint (forward v) c.dt pts n' := (hits_forward _ _ _ _ _ x obs hq).2 ⟨o, ho, htn⟩
  have h0 : ¬ Hits e.footprint (forward v) c.dt pts 0 := by
    rw [hits_forward _ _ _ _ _ x obs hq]
    rintro ⟨o', ho', h⟩
    exact hfree o' ho' (by simpa using h)
  classical
  have hex : ∃ n, Hits e.footprint (forward v) c.dt pts n := ⟨n', hhit'⟩
  set n := Nat.find hex with hn
  have hnn' : n ≤ n' := Nat.find_min' hex hhit'
  have hfirst : ∀ i < n, ¬ Hits e.footprint (forward v) c.dt pts i := fun i hi => Nat.find_min hex hi
  have hnle : ((n : ℝ) - 1) * (v * c.dt) ≤ lo - x := by
    have : (n : ℝ) ≤ n' := by exact_mod_cast hnn'
    nlinarith
  have hA : 0 < 2 * c.linAcc := by linarith
  by_cases hhz : (n : ℝ) * c.dt < c.tmax
  · -- the margins
    have hD : 0 ≤ 1 / c.hz + c.dt := le_trans hP hPD
    have hs0 : 0 ≤ 1e-6 * (v * (1 / c.hz + c.dt) + v ^ 2 / c.linAcc) := by positivity
    have hm0 : 0 ≤ c.dMargin := by
      refine le_trans ?_ hslack
      unfold slack
      have : 0 ≤ c.linAcc * P ^ 2 / 2 := by positivity
      have : 0 ≤ v * Δ := by positivity
      linarith
    have key := fun r' h1 h2 => (stops_in_time e c (forward v) cloud tf pts b hdt ha hb hm0 hy hpr n hhz h0 hfirst (Nat.find_spec hex) r' h1 h2).1
    rw [hsp] at key
    unfold stoppingDistance at key
    unfold slack at hslack
    by_cases hr1 : r < 1 - 1e-6
    · have hu : u = r * v := by
        change v * factor r = _
        unfold factor
        rw [if_pos hr1, mul_comm]
      rcases key r hr0 le_rfl with h | h
      · exact .inl (by rw [hu]; exact h)
      · right; left
        rw [← hu] at h
        have : u * P ≤ u * (1 / c.hz + c.dt) := mul_le_mul_of_nonneg_left hPD hu0
        linarith
    · have hu : u = v := by
        change v * factor r = _
        unfold factor
        rw [if_neg hr1, mul_one]
      right; left
      rw [hu]
      rcases key (1 - 1e-6) (by norm_num) (by linarith) with h | h
      · exfalso
        have : (1 - 1e-6 : ℝ) * v ≠ 0 := mul_ne_zero (by norm_num) hv.ne'
        exact this h
      · have e1 : ((1 - 1e-6) * v) ^ 2 / (2 * c.linAcc) = v ^ 2 / (2 * c.linAcc) - 1e-6 * (v ^ 2 / c.linAcc) + (1e-6) ^ 2 * (v ^ 2 / (2 * c.linAcc)) := by
          field_simp
          ring
        have e2 : 0 ≤ (1e-6 : ℝ) ^ 2 * (v ^ 2 / (2 * c.linAcc)) := by positivity
        have : v * P ≤ v * (1 / c.hz + c.dt) := mul_le_mul_of_nonneg_left hPD hv.le
        rw [e1] at h
        have e3 : (1 - 1e-6) * v * (1 / c.hz + c.dt) = v * (1 / c.hz + c.dt) - 1e-6 * (v * (1 / c.hz + c.dt)) := by ring
        rw [e3] at h
        linarith
  · have hr1 : r = 1 := by
      refine clear_horizon e c (forward v) cloud tf pts b hdt hpr ?_
      rintro i hi ⟨hhi, -⟩
      refine hfirst i ?_ hhi
      by_contra hcon
      push Not at hcon
      apply hhz
      have : (n : ℝ) ≤ i := by exact_mod_cast hcon
      nlinarith
    have hu : u = v := by
      change v * factor r = _
      unfold factor
      rw [hr1, if_neg (by norm_num), mul_one]
    right; right
    refine ⟨hu, ?_⟩
    rw [hu]
    push Not at hhz
    have h1 : v * (P + v / (2 * c.linAcc) + c.dt + Δ) ≤ v * (n * c.dt) := mul_le_mul_of_nonneg_left (le_trans hhor hhz) hv.le
    have e1 : v * (v / (2 * c.linAcc)) = v ^ 2 / (2 * c.linAcc) := by ring
    nlinarith

/-- **C120**.  A robot is driven straight ahead with a constant command through the limiter.  If the margin leaves room for a reaction one
period late, the robot obeys the limited commands, brakes with the configured deceleration and could stop in time at the beginning, then it never
touches any of the obstacles the limiter sees, and it could stop before them at every moment. -/
theorem ride_safe {e : Env} {c : Cfg} {v P Δ : ℝ} (hv : 0 < v) (hdt : 0 < c.dt) (ha : 0 < c.linAcc) (hb : 0 < c.angAcc)
    (hy : 0 ≤ c.yawMargin) (hΔ : 0 ≤ Δ) (hPD : P ≤ 1 / c.hz + c.dt) (h0 : 0 ≤ c.maxLin) (h1 : 0 ≤ c.maxAng)
    (hslack : slack c v P Δ ≤ c.dMargin) (hhor : P + v / (2 * c.linAcc) + c.dt + Δ ≤ c.tmax) {l : Log} (hl : Regular e c v P Δ l)
    {x w force : ℝ → ℝ} (hm : Moves v x w) (hob : Obeys c.linAcc w force) (hf : Told e c l force) {obs : List (Pt ℝ)}
    (hsees : Sees e c l x obs) (hsolid : ∀ o ∈ obs, Solid e.footprint (v * c.dt) o)
    (hstart : ∀ o ∈ obs, ∀ y, x (l.p 0) ≤ y → y ≤ x (l.first 0) + w (l.first 0) ^ 2 / (2 * c.linAcc) → ¬ Touches e.footprint y o)
    (k : Nat) (τ : ℝ) (hτ0 : l.first k ≤ τ) (hτ1 : τ ≤ l.first (k + 1)) (o : Pt ℝ) (ho : o ∈ obs) (y : ℝ)
    (hy0 : x τ ≤ y) (hy1 : y ≤ x τ + w τ ^ 2 / (2 * c.linAcc)) : ¬ Touches e.footprint y o := by
  have hA : 0 < 2 * c.linAcc := by linarith
  have hord : ∀ k, l.first k ≤ l.first (k + 1) := fun k => le_trans (hl.first_le k) (hl.late (k + 1)).1
  have hP : 0 ≤ P := by have := hl.period 0; have := hord 0; linarith
  -- one cycle
  have cyc : ∀ k, (∀ o ∈ obs, ∀ y, x (l.p k) ≤ y → y ≤ x (l.first k) + w (l.first k) ^ 2 / (2 * c.linAcc) → ¬ Touches e.footprint y o) →
      ∀ τ, l.first k ≤ τ → τ ≤ l.first (k + 1) → ∀ o ∈ obs, ∀ y s, l.first k ≤ s → s ≤ τ → x s ≤ y →
        y ≤ x τ + w τ ^ 2 / (2 * c.linAcc) → ¬ Touches e.footprint y o := by
    intro k hk τ hτ0 hτ1 o ho y s hs0 hs1 hys hyτ
    rcases hsolid o ho with hno | ⟨lo, hi, hlen, ht⟩
    · exact hno y
    have hpk : x (l.p k) ≤ x (l.first k) := moves_mono hm (hl.late k).1
    have hw2 : 0 ≤ w (l.first k) ^ 2 / (2 * c.linAcc) := by positivity
    by_cases hpass : hi < x (l.p k)
    · rw [ht]
      rintro ⟨-, h⟩
      have := moves_mono hm hs0
      linarith
    push Not at hpass
    -- the obstacle is ahead
    have hlen0 : 0 < v * c.dt := mul_pos hv hdt
    have hahead : x (l.first k) + w (l.first k) ^ 2 / (2 * c.linAcc) ≤ lo := by
      by_contra hcon
      push Not at hcon
      by_cases h3 : lo < x (l.p k)
      · exact hk o ho _ le_rfl (by linarith) ((ht _).2 ⟨h3, hpass⟩)
      · push Not at h3
        have h4 : lo < min hi (x (l.first k) + w (l.first k) ^ 2 / (2 * c.linAcc)) := lt_min (by linarith) hcon
        exact hk o ho _ (by linarith) (min_le_right _ _) ((ht _).2 ⟨h4, min_le_left _ _⟩)
    obtain ⟨hc, hfr, pts, b, hpr, hq⟩ := hsees k
    rw [log_twist hl k] at hpr
    have hpred : Predicts e c (l.hist k) (l.p k) (l.tf k) (predict e c (forward v) (run e c (l.hist k)).cloud (l.tf k)).ratio := by
      refine ⟨hc, ?_, ?_⟩
      · rw [log_config hl]; exact hfr
      · rw [log_config hl, log_twist hl]
    have hroom := command_room hv hdt ha hb hy hΔ hP hPD hslack hhor hpr hq (fun o' ho' => hk o' ho' _ le_rfl (by linarith)) ho hlen ht
      (by linarith)
    simp only at hroom
    set u := v * factor (predict e c (forward v) (run e c (l.hist k)).cloud (l.tf k)).ratio with hu
    have henv := hob (l.first k) (l.first (k + 1)) u hroom.1 (fun s hs0 hs1 => by
      obtain ⟨pre, now, t, post, o', hm', ho', he⟩ := hf k s hs0 hs1
      rw [he]
      exact sent_slow hv.le h0 h1 hl hpred hm' ho')
    have hmove : x (l.first k) ≤ x (l.p k) + v * Δ := by
      have h3 := moves_le hm (hl.late k).1
      have h4 : v * (l.first k - l.p k) ≤ v * Δ := mul_le_mul_of_nonneg_left (by have := (hl.late k).2; linarith) hv.le
      linarith
    have hsafe := period_safe hm.speed hm.forward ha hroom.1 (hl.period k) henv (by linarith : _ ≤ lo - x (l.first k)) (by
      rcases hroom.2 with h | h | ⟨h, h'⟩
      · exact .inl h
      · exact .inr (.inl (by linarith))
      · exact .inr (.inr ⟨by rw [h]; exact hm.le _, by linarith⟩)) τ hτ0 hτ1
    rw [ht]
    rintro ⟨h, -⟩
    linarith
  have inv : ∀ k, ∀ o ∈ obs, ∀ y, x (l.p k) ≤ y → y ≤ x (l.first k) + w (l.first k) ^ 2 / (2 * c.linAcc) → ¬ Touches e.footprint y o := by
    intro k
    induction k with
    | zero => exact hstart
    | succ k ih =>
      intro o ho y hy0 hy1
      exact cyc k ih _ (hord k) le_rfl o ho y (l.p (k + 1)) (hl.first_le k) (hl.late (k + 1)).1 hy0 hy1
  exact cyc k (inv k) τ hτ0 hτ1 o ho y τ hτ0 le_rfl hy0 hy1

end Verif.Safety
