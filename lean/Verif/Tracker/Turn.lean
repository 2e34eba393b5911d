import Verif.Tracker.Arrive
/-! # A turn on the spot ends at the heading asked for -/
namespace Verif.Tracker
open Verif.Path2D Verif.Num Spec
open Verif.Control.Spec (nearest)

section arithmetic
variable {g : Gains}

/-- They fit together, for a turn: `r` is the angle still to be turned by, `v` the angular velocity. -/
structure Gains.FitTurn (g : Gains) : Prop where
  A_pos : 0 < g.A
  A_le : g.A ≤ g.a
  T_pos : 0 < g.T
  L_nonneg : 0 ≤ g.L
  V_pos : 0 < g.V
  room : g.T * g.V / 2 + g.A * g.T ^ 2 / 8 < g.tol
  wide : 4 * g.L * g.a * g.T ≤ g.tol

open Classical in
/-- The angular velocity commanded next. -/
noncomputable def Gains.turn (g : Gains) (v r : ℝ) : ℝ :=
  if |r| < g.tol then 0
  else nearest (v - g.T * g.a) (v + g.T * g.a) (nearest (-g.V) g.V (Control.timeOptimalControl (-(r - g.L * v)) g.A))

/-- Least angular velocity of a turn. -/
noncomputable def Gains.leastTurn (g : Gains) : ℝ := min (g.T * g.a) (min (Real.sqrt (g.tol * g.A)) g.V)

/-- Number of steps left, up to a constant. -/
noncomputable def Gains.rankTurn (g : Gains) (v r : ℝ) : ℝ := 2 / (g.leastTurn * g.T) * r + ⌈v / (g.T * g.a)⌉

theorem Gains.FitTurn.a_pos (h : g.FitTurn) : 0 < g.a := lt_of_lt_of_le h.A_pos h.A_le
theorem Gains.FitTurn.Ta_pos (h : g.FitTurn) : 0 < g.T * g.a := mul_pos h.T_pos h.a_pos
theorem Gains.FitTurn.tol_pos (h : g.FitTurn) : 0 < g.tol := by
  have h1 := mul_pos h.T_pos h.V_pos
  have h2 : 0 ≤ g.A * g.T ^ 2 := by have := h.A_pos; positivity
  have := h.room
  linarith
theorem Gains.FitTurn.least_pos (h : g.FitTurn) : 0 < g.leastTurn := by
  unfold Gains.leastTurn
  refine lt_min h.Ta_pos (lt_min (Real.sqrt_pos.2 ?_) h.V_pos)
  have := h.tol_pos; have := h.A_pos; positivity
/-- With a smaller look-ahead these are numbers of an approach. -/
theorem Gains.FitTurn.fit (h : g.FitTurn) : ({ g with L := 0 } : Gains).Fit where
  A_pos := h.A_pos
  A_le := h.A_le
  T_pos := h.T_pos
  L_nonneg := le_rfl
  V_pos := h.V_pos
  room := by simpa using h.room

theorem turn_tol (h : g.FitTurn) {v r : ℝ} (hc : g.Can v r) : -g.tol < r := by
  have hc' : ({ g with L := 0 } : Gains).Can v r := ⟨hc.nonneg, hc.le, hc.room⟩
  have h1 : -(g.T * g.V / 2 + g.A * g.T ^ 2 / 8) ≤ r := can_lower h.fit hc'
  linarith [h.room]

/-- One step of a turn. -/
theorem turn_step (h : g.FitTurn) {v r : ℝ} (hc : g.Can v r) (hs : ¬ |r| < g.tol) :
    g.Can (g.turn v r) (r - g.turn v r * g.T) ∧ g.rankTurn (g.turn v r) (r - g.turn v r * g.T) ≤ g.rankTurn v r - 1 ∧ 0 < g.turn v r := by
  have hTa := h.Ta_pos
  have hT := h.T_pos
  have hA := h.A_pos
  have ha := h.a_pos
  have hL := h.L_nonneg
  have hV := h.V_pos
  have htol := h.tol_pos
  have hlo := turn_tol h hc
  have hv := hc.nonneg
  have hcl := h.least_pos
  have hal : 0 < 2 / (g.leastTurn * g.T) := by positivity
  have brake : 0 ≤ v - g.T * g.a → g.Can (v - g.T * g.a) (r - (v - g.T * g.a) * g.T) := fun hb => by
    have := brake_room h.fit (v := v) (r := r) ⟨hc.nonneg, hc.le, hc.room⟩ hb
    exact ⟨this.nonneg, this.le, this.room⟩
  have hrt : g.tol ≤ r := by
    by_contra hcon
    push Not at hcon
    exact hs (abs_lt.2 ⟨hlo, hcon⟩)
  unfold Gains.turn
  rw [if_neg hs]
  -- a fast turn
  have fast : ∀ e, e < g.tol / 2 → e = r - g.L * v → 2 * (g.T * g.a) < v := by
    intro e he1 he2
    have h1 : g.L * (2 * (g.T * g.a)) < g.L * v := by
      have := h.wide
      linarith
    exact lt_of_mul_lt_mul_left h1 hL
  rcases le_total 0 (r - g.L * v) with hpos | hneg
  · set e := r - g.L * v with hee
    have htoc : Control.timeOptimalControl (-e) g.A = Real.sqrt (2 * e * g.A) := by
      unfold Control.timeOptimalControl
      rcases hpos.lt_or_eq with hp | hp
      · rw [if_pos (by linarith), neg_neg, one_mul]
        congr 1
        rw [show 2 * -e * g.A = -(2 * e * g.A) by ring, abs_neg, abs_of_nonneg (by positivity)]
      · rw [← hp]
        simp
    rw [htoc]
    set s := Real.sqrt (2 * e * g.A) with hs'
    have hs0 : 0 ≤ s := Real.sqrt_nonneg _
    have hsq : s ^ 2 = 2 * e * g.A := Real.sq_sqrt (by positivity)
    have e0 : nearest (-g.V) g.V s = min g.V s := by
      unfold nearest
      rw [max_eq_right]
      have : 0 ≤ min g.V s := le_min hV.le hs0
      linarith
    rw [e0]
    set u := nearest (v - g.T * g.a) (v + g.T * g.a) (min g.V s) with hu
    have hu1 : u ≤ v + g.T * g.a := by
      rw [hu]; unfold nearest
      exact max_le (by linarith) (min_le_left _ _)
    have hu0 : g.leastTurn ≤ u := by
      rw [hu]; unfold nearest
      rcases le_or_gt (g.tol / 2) e with hbig | hsmall
      · refine le_trans ?_ (le_max_right _ _)
        refine le_min ?_ (le_min ?_ ?_)
        · exact le_trans (min_le_left _ _) (by linarith)
        · exact le_trans (min_le_right _ _) (min_le_right _ _)
        · refine le_trans (le_trans (min_le_right _ _) (min_le_left _ _)) (Real.sqrt_le_sqrt ?_)
          nlinarith
      · refine le_trans ?_ (le_max_left _ _)
        have := fast e hsmall hee
        exact le_trans (min_le_left _ _) (by linarith)
    have hrank : g.rankTurn u (r - u * g.T) ≤ g.rankTurn v r - 1 := by
      have h3 := ceil_add hTa hu1
      have h4 : 2 / (g.leastTurn * g.T) * (r - u * g.T) ≤ 2 / (g.leastTurn * g.T) * r - 2 := by
        have h5 : 2 / (g.leastTurn * g.T) * (g.leastTurn * g.T) = 2 := div_mul_cancel₀ _ (by positivity)
        have h6 : 2 / (g.leastTurn * g.T) * (g.leastTurn * g.T) ≤ 2 / (g.leastTurn * g.T) * (u * g.T) :=
          mul_le_mul_of_nonneg_left (mul_le_mul_of_nonneg_right hu0 hT.le) hal.le
        rw [mul_sub]
        linarith
      unfold Gains.rankTurn
      linarith
    have hup : 0 < u := lt_of_lt_of_le hcl hu0
    refine ⟨?_, hrank, hup⟩
    rcases le_total (v - g.T * g.a) (min (v + g.T * g.a) (min g.V s)) with h1 | h1
    · have hu' : u ≤ min g.V s := by
        rw [hu]; unfold nearest
        rw [max_eq_right h1]
        exact min_le_right _ _
      have h2 : u ≤ s := le_trans hu' (min_le_right _ _)
      have h3 : u ^ 2 ≤ s ^ 2 := by nlinarith
      have h4 : 0 ≤ g.L * v := mul_nonneg hL hv
      have h5 : 2 * e * g.A ≤ 2 * g.A * r := by rw [hee]; nlinarith
      have := slow_room h.fit (u := u) (r := r) hup.le (le_trans hu' (min_le_left _ _)) (by change u ^ 2 ≤ 2 * g.A * r; linarith)
      exact ⟨this.nonneg, this.le, this.room⟩
    · have hu' : u = v - g.T * g.a := by
        rw [hu]; unfold nearest
        rw [max_eq_left h1]
      rw [hu']
      exact brake (by rw [← hu']; exact hup.le)
  · have hva := fast (r - g.L * v) (by linarith) rfl
    set t := Control.timeOptimalControl (-(r - g.L * v)) g.A with ht
    have htn : t ≤ 0 := by
      rw [ht]
      unfold Control.timeOptimalControl
      rw [if_neg (by linarith)]
      have := Real.sqrt_nonneg |2 * -(r - g.L * v) * g.A|
      linarith
    have e1 : nearest (v - g.T * g.a) (v + g.T * g.a) (nearest (-g.V) g.V t) = v - g.T * g.a := by
      have : nearest (-g.V) g.V t ≤ 0 := by
        unfold nearest
        exact max_le (by linarith) (le_trans (min_le_right _ _) htn)
      unfold nearest at this ⊢
      refine max_eq_left (le_trans (min_le_right _ _) (by linarith))
    rw [e1]
    have h1 : 0 < v - g.T * g.a := by linarith
    refine ⟨brake h1.le, ?_, h1⟩
    have h3 := ceil_sub hTa (le_refl (v - g.T * g.a))
    have h4 : 2 / (g.leastTurn * g.T) * (r - (v - g.T * g.a) * g.T) ≤ 2 / (g.leastTurn * g.T) * r :=
      mul_le_mul_of_nonneg_left (by nlinarith) hal.le
    unfold Gains.rankTurn
    linarith

/-- A turn ends. -/
theorem turn_stops (h : g.FitTurn) {v r : Nat → ℝ} (h0 : g.Can (v 0) (r 0)) (hv : ∀ k, ¬ |r k| < g.tol → v (k + 1) = g.turn (v k) (r k))
    (hr : ∀ k, ¬ |r k| < g.tol → r (k + 1) = r k - v (k + 1) * g.T) :
    ∃ N, |r N| < g.tol ∧ ∀ k ≤ N, g.Can (v k) (r k) ∧ g.rankTurn (v k) (r k) ≤ g.rankTurn (v 0) (r 0) - k := by
  classical
  by_contra hno
  push Not at hno
  have key : ∀ k, (g.Can (v k) (r k) ∧ g.rankTurn (v k) (r k) ≤ g.rankTurn (v 0) (r 0) - k) := by
    intro k
    induction k using Nat.strong_induction_on with
    | _ k ih =>
      cases k with
      | zero => exact ⟨h0, by simp⟩
      | succ k =>
        have hk := ih k (by omega)
        have hns : ¬ |r k| < g.tol := by
          intro hst
          obtain ⟨j, hj, hbad⟩ := hno k hst
          have := ih j (by omega)
          exact absurd this.2 (not_le.2 (hbad this.1))
        obtain ⟨h1, h2, -⟩ := turn_step h hk.1 hns
        rw [hr k hns, hv k hns]
        refine ⟨h1, ?_⟩
        push_cast
        linarith [hk.2]
  obtain ⟨n, hn⟩ : ∃ n : Nat, g.rankTurn (v 0) (r 0) + 2 / (g.leastTurn * g.T) * g.tol < n := exists_nat_gt _
  obtain ⟨h1, h2⟩ := key n
  have hT := h.T_pos
  have hcl := h.least_pos
  have hlow : -(2 / (g.leastTurn * g.T) * g.tol) ≤ g.rankTurn (v n) (r n) := by
    unfold Gains.rankTurn
    have h3 : (0 : ℝ) ≤ ⌈v n / (g.T * g.a)⌉ := by
      have : 0 ≤ ⌈v n / (g.T * g.a)⌉ := Int.ceil_nonneg (div_nonneg h1.nonneg h.Ta_pos.le)
      exact_mod_cast this
    have h4 : 2 / (g.leastTurn * g.T) * (-g.tol) ≤ 2 / (g.leastTurn * g.T) * r n :=
      mul_le_mul_of_nonneg_left (turn_tol h h1).le (by positivity)
    linarith
  linarith

theorem nearest_neg {lo hi x : ℝ} (h : lo ≤ hi) : nearest (-hi) (-lo) (-x) = -nearest lo hi x := by
  unfold nearest
  rcases le_total lo x with h1 | h1 <;> rcases le_total hi x with h2 | h2 <;>
    simp [max_def, min_def] <;> split_ifs <;> linarith

theorem toc_neg (y A : ℝ) : Control.timeOptimalControl (-y) A = -Control.timeOptimalControl y A := by
  unfold Control.timeOptimalControl
  rw [show 2 * -y * A = -(2 * y * A) by ring, abs_neg]
  rcases lt_trichotomy y 0 with h | h | h
  · rw [if_neg (by linarith), if_pos h]; ring
  · subst h; simp
  · rw [if_pos (by linarith), if_neg (by linarith)]; ring

end arithmetic

theorem angNorm_eq {a b : ℝ} (h : ∃ k : Int, a = b + k * (2 * Real.pi)) (hb : |b| < Real.pi) : angNorm a = b := by
  obtain ⟨k, rfl⟩ := h
  obtain ⟨⟨j, hj⟩, h1, h2⟩ := angNorm_spec (b + k * (2 * Real.pi))
  rw [hj] at h1 h2 ⊢
  rw [abs_lt] at hb
  have hpi := Real.pi_pos
  have e1 : ((k + j : Int) : ℝ) * (2 * Real.pi) < 1 * (2 * Real.pi) := by push_cast; linarith
  have e2 : (-1 : ℝ) * (2 * Real.pi) < ((k + j : Int) : ℝ) * (2 * Real.pi) := by push_cast; linarith
  have e3 := lt_of_mul_lt_mul_right e1 (by linarith)
  have e4 := lt_of_mul_lt_mul_right e2 (by linarith)
  have e5 : k + j < 1 := by exact_mod_cast e3
  have e6 : -1 < k + j := by exact_mod_cast e4
  have e7 : k + j = 0 := by omega
  have e8 : (k : ℝ) + j = 0 := by exact_mod_cast e7
  linear_combination (2 * Real.pi) * e8

variable {cfg : Config} {hz : ℝ} {p : ℂ} {φ0 φ1 : ℝ}

/-- What the node reads from a turn on the spot. -/
theorem geometry_spot (cfg : Config) (P : ℂ) (y0 y1 : ℝ) :
    (∃ geo, geometry cfg 1 [{ pos := P, yaw := y0, vel := .nan }, { pos := P, yaw := y1, vel := .nan }] 0 0 = some (some geo) ∧ geo.nearest = 1 ∧
      geo.localGoal = 2 ∧ geo.prevPose.pos = geo.nearPose.pos ∧ geo.nearPose.vel = .nan ∧ geo.goalYaw = y1) ∧
    (∃ geo, geometry cfg 0 [{ pos := P, yaw := y0, vel := .nan }, { pos := P, yaw := y1, vel := .nan }] 0 0 = some (some geo) ∧
      geo.localGoal = 1 ∧ geo.prevPose.pos = geo.nearPose.pos) := by
  set lp : List Pose := [{ pos := P, yaw := y0, vel := .nan }, { pos := P, yaw := y1, vel := .nan }] with hlp
  have hl : lp.length = 2 := rfl
  have g0 : lp[0]? = some { pos := P, yaw := y0, vel := .nan } := rfl
  have g1 : lp[1]? = some { pos := P, yaw := y1, vel := .nan } := rfl
  constructor
  · have h1 : findLocalGoal lp 1 2 cfg.allowBackward true microEps = some 2 := by
      unfold findLocalGoal localGoalLoop
      rw [if_neg (by omega)]
    have h2 : ∃ d, findNearest lp 1 2 0 (if 1 > 0 then 1 else 0) cfg.epsilon = some (1, d) := by
      unfold findNearest
      rw [if_neg (by omega), g1]
      simp only
      unfold nearestLoop
      rw [if_neg (by omega)]
      exact ⟨_, rfl⟩
    have h3 : ∀ t, ∃ d, remainedDistance lp 0 1 2 t = some d := by
      intro t
      unfold remainedDistance
      rw [g1]
      simp only
      rw [if_pos (by omega), if_neg (by omega), show lp[2 - 2]? = lp[0]? from rfl, g0]
      simp only
      split <;> exact ⟨_, rfl⟩
    obtain ⟨d, h2⟩ := h2
    obtain ⟨d1, h3a⟩ := h3 (projection P P 0)
    unfold geometry
    rw [hl, if_neg (by omega), h1]
    simp only [Option.bind_eq_bind, Option.bind_some, h2]
    rw [if_neg (by omega), show lp[1 - 1]? = lp[0]? from rfl, show lp[2 - 1]? = lp[1]? from rfl, g0, g1]
    simp only [Option.bind_some, h3a]
    exact ⟨_, rfl, rfl, rfl, rfl, rfl, rfl⟩
  · have h1 : findLocalGoal lp 0 2 cfg.allowBackward true microEps = some 1 := by
      unfold findLocalGoal localGoalLoop
      rw [if_pos (by omega), g0, g1]
      simp only
      rw [if_pos (by simp [microEps])]
      rfl
    have h2 : ∃ d, findNearest lp 0 1 0 (if 0 > 0 then 1 else 0) cfg.epsilon = some (0, d) := by
      unfold findNearest
      rw [if_neg (by omega), g0]
      simp only
      unfold nearestLoop
      rw [if_neg (by omega)]
      exact ⟨_, rfl⟩
    have h3 : ∀ t, remainedDistance lp 0 0 1 t = some 0 := by
      intro t
      unfold remainedDistance
      rw [g0]
      simp only
      rw [if_pos (by omega), if_pos (by omega)]
    have h4 : ∀ t, ∃ d, remainedDistance lp 0 0 2 t = some d := by
      intro t
      unfold remainedDistance
      rw [g0]
      simp only
      rw [if_neg (by omega)]
      unfold remainLoop
      rw [if_pos (by omega), g0, g1]
      simp only
      unfold remainLoop
      rw [if_neg (by omega)]
      exact ⟨_, rfl⟩
    obtain ⟨d, h2⟩ := h2
    obtain ⟨d1, h4a⟩ := h4 (projection P P 0)
    unfold geometry
    rw [hl, if_neg (by omega), h1]
    simp only [Option.bind_eq_bind, Option.bind_some, h2]
    rw [if_neg (by omega), show lp[0 - 1]? = lp[0]? from rfl, show lp[1 - 1]? = lp[0]? from rfl, g0]
    simp only [Option.bind_some, h3, h4a]
    exact ⟨_, rfl, rfl, rfl⟩

theorem inPlace_of {geo : Geo} (h : geo.prevPose.pos = geo.nearPose.pos) : InPlace geo := by
  unfold InPlace vec
  rw [h, sub_self]
  exact ⟨rfl, rfl⟩

/-- The node while the robot turns on the spot: `v` is the angular velocity in the direction `s`. -/
structure Spot (cfg : Config) (p : ℂ) (φ0 φ1 : ℝ) (st : State) : Prop where
  isCfg : st.cfg = cfg
  maxVel : st.maxVel = .fin cfg.maxVel
  path : st.path = spot p φ0 φ1
  frame : st.frame = true
  v : st.v = 0
  done : st.done = 1 ∧ st.updated = false ∨ st.done = 0 ∧ st.updated = true

theorem spot_local (h : Turns cfg hz) {st : State} (hs : Spot cfg p φ0 φ1 st) (tf : Tf) :
    localPath st.cfg.pathStep st.path tf = [{ pos := rotatePos (p - tf.pos) (-tf.yaw), yaw := -tf.yaw + φ0, vel := .nan },
      { pos := rotatePos (p - tf.pos) (-tf.yaw), yaw := -tf.yaw + φ1, vel := .nan }] := by
  rw [hs.isCfg, h.each, hs.path]
  unfold localPath
  rw [every_single]
  rfl

theorem spot_result (h : Turns cfg hz) {st : State} (hs : Spot cfg p φ0 φ1 st) (tf : Tf) {geo : Geo}
    (hg : geometry cfg st.done [{ pos := rotatePos (p - tf.pos) (-tf.yaw), yaw := -tf.yaw + φ0, vel := .nan },
      { pos := rotatePos (p - tf.pos) (-tf.yaw), yaw := -tf.yaw + φ1, vel := .nan }] 0 0 = some (some geo)) (hi : geo.prevPose.pos = geo.nearPose.pos) :
    ∃ len, getTrackingResult st (some tf) 0 0 0 0 = some (goalCheck cfg (rotateResult cfg (.fin cfg.maxVel) st.done geo len 2) geo 2 0 0) := by
  have hne : ¬ ((!st.frame) = true ∨ st.path = []) := by
    rw [hs.frame, hs.path]
    rintro (h | h)
    · simp at h
    · simp [spot] at h
  have hla : lookahead st = 0 := by
    unfold lookahead
    rw [hs.v]
    apply Complex.ext <;> simp
  refine ⟨length [{ pos := rotatePos (p - tf.pos) (-tf.yaw), yaw := -tf.yaw + φ0, vel := .nan },
      { pos := rotatePos (p - tf.pos) (-tf.yaw), yaw := -tf.yaw + φ1, vel := .nan }], ?_⟩
  unfold getTrackingResult
  rw [if_neg hne]
  simp only
  rw [spot_local h hs, hla, hs.isCfg, hg]
  simp only
  unfold decideResult
  rw [if_pos (.inr (.inr (.inr (inPlace_of hi)))), hs.maxVel]
  rfl

theorem spot_look (h : Turns cfg hz) {st : State} (hs : Spot cfg p φ0 φ1 st) (hd : st.done = 1) (tf : Tf) :
    ∃ res, getTrackingResult st (some tf) 0 0 0 0 = some res ∧ res.turning = true ∧ res.targetVel = .fin cfg.maxVel ∧ res.distance = 0 ∧
      res.distanceRaw = 0 ∧ res.angle = angNorm (tf.yaw - φ1) ∧ res.angleRaw = 0 ∧ res.done = 1 ∧ (res.status = .following ∨ res.status = .goal) ∧
      (|angNorm (tf.yaw - φ1)| < cfg.stopAng → res.status = .goal) := by
  obtain ⟨⟨geo, hg, g1, g2, g3, g4, g5⟩, -⟩ := geometry_spot cfg (rotatePos (p - tf.pos) (-tf.yaw)) (-tf.yaw + φ0) (-tf.yaw + φ1)
  obtain ⟨len, hlook⟩ := spot_result h hs tf (by rw [hd]; exact hg) g3
  have hip := inPlace_of g3
  have hto : ToGoal cfg geo len := .inr (.inr hip)
  set r0 := rotateResult cfg (.fin cfg.maxVel) st.done geo len 2 with hr0
  have q1 : r0.turning = true := rfl
  have q2 : r0.targetVel = .fin cfg.maxVel := by
    simp only [hr0, rotateResult]
    unfold linearVel
    rw [if_pos g4]
  have q3 : r0.distance = 0 := by
    simp only [hr0, rotateResult]
    rw [if_pos (.inr hip)]
  have q4 : r0.distanceRaw = 0 := by
    simp only [hr0, rotateResult]
    rw [if_pos (.inr hip)]
  have q5 : r0.angle = angNorm (tf.yaw - φ1) := by
    simp only [hr0, rotateResult]
    rw [if_pos hto, g5]
    congr 1
    ring
  have q6 : r0.angleRaw = 0 := rfl
  have q7 : r0.status = .following := rfl
  have q8 : r0.done = 1 := by
    simp only [hr0, rotateResult]
    rw [if_neg (fun hh => hh.2 g2), hd, g1]
    rfl
  refine ⟨_, hlook, ?_⟩
  unfold goalCheck
  split
  · exact ⟨q1, q2, q3, q4, q5, q6, q8, .inr rfl, fun _ => rfl⟩
  · rename_i hng
    refine ⟨q1, q2, q3, q4, q5, q6, q8, .inl q7, fun ha => absurd ?_ hng⟩
    have hsp : 0 < cfg.goalAng := lt_of_lt_of_le (lt_of_le_of_lt (abs_nonneg _) ha) h.goal
    unfold AtGoal
    rw [q3, q4, q5, q6, abs_zero]
    refine ⟨h.goalDist, lt_of_lt_of_le ha h.goal, h.goalDist, hsp, ?_, ?_, g2⟩
    · rcases h.goalLinVel.lt_or_eq with h | h
      · exact .inr h
      · exact .inl h.symm
    · rcases h.goalAngVel.lt_or_eq with h | h
      · exact .inr h
      · exact .inl h.symm

theorem spot_first (h : Turns cfg hz) {st : State} (hs : Spot cfg p φ0 φ1 st) (tf : Tf) :
    ∃ st1, firstLook st (some tf) 0 0 0 0 = some st1 ∧ Spot cfg p φ0 φ1 st1 ∧ st1.done = 1 ∧ st1.w = st.w ∧ st1.updated = false := by
  unfold firstLook
  rcases hs.done with ⟨h1, h2⟩ | ⟨h1, h2⟩
  · rw [h2, if_neg (by simp)]
    exact ⟨st, rfl, hs, h1, rfl, h2⟩
  · obtain ⟨-, geo, hg, g2, g3⟩ := geometry_spot cfg (rotatePos (p - tf.pos) (-tf.yaw)) (-tf.yaw + φ0) (-tf.yaw + φ1)
    obtain ⟨len, hlook⟩ := spot_result h hs tf (by rw [h1]; exact hg) g3
    have hto : ToGoal cfg geo len := .inr (.inr (inPlace_of g3))
    have hdone : (goalCheck cfg (rotateResult cfg (.fin cfg.maxVel) st.done geo len 2) geo 2 0 0).done = 1 := by
      have : (rotateResult cfg (.fin cfg.maxVel) st.done geo len 2).done = 1 := by
        simp only [rotateResult]
        rw [if_pos ⟨hto, by omega⟩, g2]
      unfold goalCheck
      split <;> exact this
    rw [if_pos h2, hlook]
    exact ⟨_, rfl, ⟨hs.isCfg, hs.maxVel, hs.path, hs.frame, hs.v, .inl ⟨hdone, rfl⟩⟩, hdone, rfl, rfl⟩

/-- The numbers of the control of a turn. -/
noncomputable def turnGains (cfg : Config) (hz : ℝ) : Gains :=
  { A := cfg.angAcc * cfg.angAccTocFactor, a := cfg.angAcc, T := 1 / hz, L := 1 / hz * cfg.tocFutureGain, V := cfg.maxAngVel, tol := cfg.stopAng }

theorem turns_fit (h : Turns cfg hz) : (turnGains cfg hz).FitTurn where
  A_pos := mul_pos h.angAcc h.factor
  A_le := by
    change cfg.angAcc * cfg.angAccTocFactor ≤ cfg.angAcc
    have := mul_le_mul_of_nonneg_left h.factor_le h.angAcc.le
    linarith
  T_pos := one_div_pos.2 h.rate
  L_nonneg := mul_nonneg (one_div_pos.2 h.rate).le h.gain
  V_pos := h.angVel
  room := by
    have := h.room
    change 1 / hz * cfg.maxAngVel / 2 + cfg.angAcc * cfg.angAccTocFactor * (1 / hz) ^ 2 / 8 < cfg.stopAng
    linarith
  wide := h.wide

theorem turn_drive (h : Turns cfg hz) {s v r : ℝ} (hs : s = 1 ∨ s = -1) {res : Result} (h1 : res.turning = true) (h2 : res.targetVel = .fin cfg.maxVel)
    (h3 : res.angle = -(s * r)) (hr : ¬ |r| < cfg.stopAng) : drive cfg 0 (s * v) res (1 / hz) = (0, s * (turnGains cfg hz).turn v r) := by
  have hT : 0 ≤ 1 / hz := (one_div_pos.2 h.rate).le
  have hTa : 0 ≤ 1 / hz * cfg.angAcc := mul_nonneg hT h.angAcc.le
  unfold drive
  rw [if_pos h1, h2, h3]
  simp only
  rw [if_pos h.toc, limSet_rest h.vel h.acc hT, limSet_fin h.angVel.le h.angAcc.le hT]
  congr 1
  unfold Gains.turn
  rw [if_neg (show ¬ |r| < (turnGains cfg hz).tol from hr)]
  change _ = s * nearest (v - 1 / hz * cfg.angAcc) (v + 1 / hz * cfg.angAcc) (nearest (-cfg.maxAngVel) cfg.maxAngVel
    (Control.timeOptimalControl (-(r - 1 / hz * cfg.tocFutureGain * v)) (cfg.angAcc * cfg.angAccTocFactor)))
  rcases hs with rfl | rfl
  · rw [one_mul, one_mul, one_mul, show -r + v * (1 / hz) * cfg.tocFutureGain = -(r - 1 / hz * cfg.tocFutureGain * v) by ring]
  · rw [show -(-1 * r) + -1 * v * (1 / hz) * cfg.tocFutureGain = -(-(r - 1 / hz * cfg.tocFutureGain * v)) by ring, toc_neg,
      show (-1 : ℝ) * v - 1 / hz * cfg.angAcc = -(v + 1 / hz * cfg.angAcc) by ring,
      show (-1 : ℝ) * v + 1 / hz * cfg.angAcc = -(v - 1 / hz * cfg.angAcc) by ring]
    have e1 : ∀ t, nearest (-cfg.maxAngVel) cfg.maxAngVel (-t) = -nearest (-cfg.maxAngVel) cfg.maxAngVel t := fun t => by
      have := nearest_neg (lo := -cfg.maxAngVel) (hi := cfg.maxAngVel) (x := t) (by linarith [h.angVel])
      rwa [neg_neg] at this
    rw [e1, nearest_neg (by linarith)]
    ring

/-- One step of the node. -/
theorem spot_step (h : Turns cfg hz) {st : State} (hs : Spot cfg p φ0 φ1 st) {s v r : ℝ} (hsg : s = 1 ∨ s = -1) (hw : st.w = s * v) (tf : Tf)
    (hr : angNorm (tf.yaw - φ1) = -(s * r)) :
    ∃ st' o, step st (.timer true hz (some tf) (some tf)) = some (st', some o) ∧ Spot cfg p φ0 φ1 st' ∧ st'.w = o.cmdW ∧ o.cmdV = 0 ∧
      (o.status = .following ∨ o.status = .goal) ∧ (¬ |r| < cfg.stopAng → o.cmdW = s * (turnGains cfg hz).turn v r) ∧
      (|r| < cfg.stopAng → o.cmdW = 0 ∧ o.status = .goal) := by
  obtain ⟨st1, f1, hs1, hd1, fw, -⟩ := spot_first h hs tf
  obtain ⟨res, h1, a1, a2, a3, a4, a5, a6, a7, a8, a9⟩ := spot_look h hs1 hd1 tf
  have habs : |s * r| = |r| := by rcases hsg with rfl | rfl <;> simp
  have hstatus : ¬ (res.status = .noPath ∨ res.status = .farFromPath) := by
    rcases a8 with hst | hst <;> rw [hst] <;> simp
  have hu : st1.updated = false := by
    rcases hs1.done with hh | hh
    · exact hh.2
    · omega
  have hstop : Stopping cfg res ↔ |r| < cfg.stopAng := by
    unfold Stopping
    rw [a3, a4, a5, a6, hr, abs_neg, habs, abs_zero]
    constructor
    · exact fun hh => hh.2.1
    · exact fun hh => ⟨h.stopDist, hh, h.stopDist, lt_of_le_of_lt (abs_nonneg _) hh⟩
  have hctl : Tracker.step st (.timer true hz (some tf) (some tf)) = some ((command st1 res (1 / hz)).1, some (command st1 res (1 / hz)).2) := by
    unfold Tracker.step
    simp only [if_true]
    unfold control
    rw [f1, Option.bind_some, h1]
    rfl
  refine ⟨_, _, hctl, ?_⟩
  unfold command
  rw [if_neg hstatus, hs1.isCfg]
  by_cases hst : |r| < cfg.stopAng
  · rw [if_pos (hstop.2 hst)]
    exact ⟨⟨rfl, hs1.maxVel, hs1.path, hs1.frame, rfl, .inl ⟨a7, hu⟩⟩, rfl, rfl, a8, fun hn => absurd hst hn, fun _ => ⟨rfl, a9 (by rwa [hr, abs_neg, habs])⟩⟩
  · rw [if_neg (fun hc => hst (hstop.1 hc)), hs1.v, fw, hw, turn_drive h hsg a1 a2 (a5.trans hr) hst]
    exact ⟨⟨rfl, hs1.maxVel, hs1.path, hs1.frame, rfl, .inl ⟨a7, hu⟩⟩, rfl, rfl, a8, fun _ => rfl, fun hn => absurd hn hst⟩

theorem received_spot (h : Turns cfg hz) (p : ℂ) (h0 : φ0 ∈ Set.Ioc (-Real.pi) Real.pi) (h1 : φ1 ∈ Set.Ioc (-Real.pi) Real.pi) :
    ∃ st0, step (start cfg) (.path false (toMsg false (spot p φ0 φ1)) true) = some (st0, none) ∧ Spot cfg p φ0 φ1 st0 ∧ st0.w = 0 := by
  have hid : (toMsg false (spot p φ0 φ1)).map (readPose false) = spot p φ0 φ1 := by
    unfold toMsg spot
    simp only [List.map_cons, List.map_nil]
    unfold readPose writePose
    simp only
    rw [read_write_yaw φ0 h0, read_write_yaw φ1 h1]
    rfl
  have hrec : fromMsg false cfg.epsilon (toMsg false (spot p φ0 φ1)) = spot p φ0 φ1 := by
    unfold fromMsg
    rw [hid]
    apply fromPoses_id
    refine .turn ?_ rfl
    rw [far_iff h.eps.le]
    simp only [sub_self, norm_zero]
    exact not_le.2 h.eps
  have hbad : ¬ ∃ q ∈ spot p φ0 φ1, ∃ y : ℝ, q.vel = .fin y ∧ y < 0 := by
    rintro ⟨q, hq, y, hy, -⟩
    simp only [spot, List.mem_cons, List.not_mem_nil, or_false] at hq
    rcases hq with rfl | rfl <;> cases hy
  refine ⟨{ start cfg with frame := true, updated := true, done := 0, path := spot p φ0 φ1 }, ?_, ⟨rfl, rfl, rfl, rfl, rfl, .inr ⟨rfl, rfl⟩⟩, rfl⟩
  unfold step
  simp only
  rw [show (start cfg).cfg = cfg from rfl, hrec, if_neg hbad]

theorem moved_spot (t : Tf) {o : Out} (hv : o.cmdV = 0) (T : ℝ) : moved t o T = { pos := t.pos, yaw := t.yaw + o.cmdW * T } := by
  unfold moved
  rw [hv, zero_mul]
  congr 1
  unfold rotatePos
  apply Complex.ext <;> simp

/-- The node and the robot while the robot turns: `d` is the angle to turn by, `s` its sign, `Θ0` the heading at the beginning. -/
structure Turning (cfg : Config) (hz : ℝ) (p : ℂ) (φ0 φ1 : ℝ) (d s Θ0 : ℝ) (st : State) (tf : Tf) : Prop where
  node : Spot cfg p φ0 φ1 st
  norm : angNorm (tf.yaw - φ1) = -(s * (|d| - s * (tf.yaw - Θ0)))
  speed : (turnGains cfg hz).Can (s * st.w) (|d| - s * (tf.yaw - Θ0)) ∨ st.w = 0 ∧ |(|d| - s * (tf.yaw - Θ0))| < cfg.stopAng

theorem Turning.step (h : Turns cfg hz) {d s Θ0 : ℝ} (hsg : s = 1 ∨ s = -1) (hd : d = s * |d|) (hn : ∃ j : Int, Θ0 - φ1 = -d + j * (2 * Real.pi))
    {st : State} {tf : Tf} (ht : Turning cfg hz p φ0 φ1 d s Θ0 st tf) :
    ∃ st' o, step st (.timer true hz (some tf) (some tf)) = some (st', some o) ∧ Turning cfg hz p φ0 φ1 d s Θ0 st' (moved tf o (1 / hz)) ∧
      st'.w = o.cmdW ∧ o.cmdV = 0 ∧ (o.status = .following ∨ o.status = .goal) ∧
      (¬ |(|d| - s * (tf.yaw - Θ0))| < cfg.stopAng → o.cmdW = s * (turnGains cfg hz).turn (s * st.w) (|d| - s * (tf.yaw - Θ0))) ∧
      (|(|d| - s * (tf.yaw - Θ0))| < cfg.stopAng → o.cmdW = 0 ∧ o.status = .goal) := by
  have hss : s * s = 1 := by rcases hsg with rfl | rfl <;> norm_num
  have hT : 0 < 1 / hz := one_div_pos.2 h.rate
  set r := |d| - s * (tf.yaw - Θ0) with hr
  obtain ⟨st', o, g1, g2, g3, g4, g5, g6, g7⟩ := spot_step h ht.node hsg (v := s * st.w) (r := r) (by linear_combination (-st.w) * hss) tf ht.norm
  refine ⟨st', o, g1, ?_, g3, g4, g5, g6, g7⟩
  rw [moved_spot tf g4]
  by_cases hst : |r| < cfg.stopAng
  · obtain ⟨e1, -⟩ := g7 hst
    rw [e1, zero_mul, add_zero]
    exact ⟨g2, ht.norm, .inr ⟨by rw [g3, e1], hst⟩⟩
  · have hcan : (turnGains cfg hz).Can (s * st.w) r := by
      rcases ht.speed with hc | hc
      · exact hc
      · exact absurd hc.2 hst
    obtain ⟨n1, -, n3⟩ := turn_step (turns_fit h) hcan hst
    have e1 := g6 hst
    set u := (turnGains cfg hz).turn (s * st.w) r with hu
    have e2 : |d| - s * (tf.yaw + o.cmdW * (1 / hz) - Θ0) = r - u * (turnGains cfg hz).T := by
      rw [e1, hr]
      change _ = |d| - s * (tf.yaw - Θ0) - u * (1 / hz)
      linear_combination (-u * (1 / hz)) * hss
    have e3 : s * st'.w = u := by rw [g3, e1]; linear_combination u * hss
    refine ⟨g2, ?_, .inl ?_⟩
    · simp only
      rw [e2]
      have hlow := turn_tol (turns_fit h) n1
      have hup : |r| ≤ Real.pi := by
        obtain ⟨-, b1, b2⟩ := angNorm_spec (tf.yaw - φ1)
        rw [ht.norm] at b1 b2
        have : |s * r| = |r| := by rcases hsg with rfl | rfl <;> simp
        rw [← this, abs_le]
        exact ⟨by linarith, by linarith⟩
      have hlow' : -cfg.stopAng < r - u * (turnGains cfg hz).T := hlow
      have hpos : 0 < u * (turnGains cfg hz).T := mul_pos n3 hT
      apply angNorm_eq
      · obtain ⟨j, hj⟩ := hn
        refine ⟨j, ?_⟩
        rw [← e2]
        linear_combination hj - hd + (tf.yaw + o.cmdW * (1 / hz) - Θ0) * (-hss)
      · have habs : |(-(s * (r - u * (turnGains cfg hz).T)))| = |r - u * (turnGains cfg hz).T| := by
          rw [abs_neg, abs_mul, show |s| = 1 by rcases hsg with h | h <;> rw [h] <;> simp, one_mul]
        rw [habs, abs_lt]
        have := h.stopAng
        have := le_abs_self r
        exact ⟨by linarith, by linarith⟩
    · simp only
      rw [e2, e3]
      exact n1

theorem turning_start (h : Turns cfg hz) {st : State} (hs : Spot cfg p φ0 φ1 st) (hw : st.w = 0) (tf : Tf) :
    ∃ d s, Control.Spec.IsNormal Real.pi (φ1 - tf.yaw) d ∧ (s = 1 ∨ s = -1) ∧ d = s * |d| ∧ (∃ j : Int, tf.yaw - φ1 = -d + j * (2 * Real.pi)) ∧
      Turning cfg hz p φ0 φ1 d s tf.yaw st tf := by
  obtain ⟨⟨j, hj⟩, h1, h2⟩ := angNorm_spec (tf.yaw - φ1)
  set b := angNorm (tf.yaw - φ1) with hb
  obtain ⟨s, hs1, hs2⟩ : ∃ s : ℝ, (s = 1 ∨ s = -1) ∧ -b = s * |(-b)| := by
    rcases le_total 0 (-b) with hh | hh
    · exact ⟨1, .inl rfl, by rw [abs_of_nonneg hh]; ring⟩
    · exact ⟨-1, .inr rfl, by rw [abs_of_nonpos hh]; ring⟩
  refine ⟨-b, s, ⟨⟨-j, by rw [hj]; push_cast; ring⟩, by linarith, by linarith⟩, hs1, hs2, ⟨-j, by rw [hj]; push_cast; ring⟩, hs, ?_, .inl ?_⟩
  · rw [sub_self, mul_zero, sub_zero, ← hs2, neg_neg]
  · rw [hw, mul_zero, sub_self, mul_zero, sub_zero]
    have hg := turns_fit h
    refine ⟨le_rfl, hg.V_pos.le, ?_⟩
    have hA := hg.A_pos
    have hT := hg.T_pos
    have hV := hg.V_pos
    have e1 : 0 ≤ 2 * (turnGains cfg hz).A * |(-b)| := by positivity
    have e2 : 0 ≤ (turnGains cfg hz).A * (turnGains cfg hz).T * (turnGains cfg hz).V := by positivity
    linarith

/-- **A turn on the spot.**  A robot at rest, wherever it stands and looks, which receives a path that turns on the spot and executes the commands of
the node: it never leaves its place, it turns the shorter way only and not faster than allowed, it never turns beyond the heading asked for by the
stop tolerance, and after a number of steps which is bounded in terms of the angle it stands still within the stop tolerance of this heading, and the
node reports the goal from then on. -/
theorem turn_ends (h : Turns cfg hz) (h0 : φ0 ∈ Set.Ioc (-Real.pi) Real.pi) (h1 : φ1 ∈ Set.Ioc (-Real.pi) Real.pi)
    {st : Nat → State} {tf : Nat → Tf} {out : Nat → Out} (hst : step (start cfg) (.path false (toMsg false (spot p φ0 φ1)) true) = some (st 0, none))
    (hr : Ride hz st tf out) :
    (∀ k, (tf k).pos = (tf 0).pos ∧ (out k).cmdV = 0 ∧ ((out k).status = .following ∨ (out k).status = .goal)) ∧
    ∃ d s, Control.Spec.IsNormal Real.pi (φ1 - (tf 0).yaw) d ∧ (s = 1 ∨ s = -1) ∧ d = s * |d| ∧
      (∀ k, 0 ≤ s * (out k).cmdW ∧ s * (out k).cmdW ≤ cfg.maxAngVel ∧ s * ((tf k).yaw - (tf 0).yaw) < |d| + cfg.stopAng) ∧
      ∃ N : Nat, (N : ℝ) ≤ 2 * (|d| + cfg.stopAng) * hz /
          min (cfg.angAcc / hz) (min (Real.sqrt (cfg.stopAng * (cfg.angAcc * cfg.angAccTocFactor))) cfg.maxAngVel) ∧
        ∀ k, N ≤ k → (tf k).yaw = (tf N).yaw ∧ (∃ j : Int, |(tf k).yaw - (φ1 + j * (2 * Real.pi))| < cfg.stopAng) ∧ (out k).cmdW = 0 ∧
          (out k).status = .goal := by
  have hT : 0 < 1 / hz := one_div_pos.2 h.rate
  obtain ⟨st0, e0, hs0, hw0⟩ := received_spot h p h0 h1
  have est : st0 = st 0 := by rw [hst] at e0; exact (congrArg Prod.fst (Option.some.inj e0)).symm
  subst est
  obtain ⟨d, s, hdn, hsg, hds, hj, ht0⟩ := turning_start h hs0 hw0 (tf 0)
  have hss : s * s = 1 := by rcases hsg with rfl | rfl <;> norm_num
  set Θ := (tf 0).yaw with hΘ
  set r : Nat → ℝ := fun k => |d| - s * ((tf k).yaw - Θ) with hrd
  have key : ∀ k, Turning cfg hz p φ0 φ1 d s Θ (st k) (tf k) := by
    intro k
    induction k with
    | zero => exact ht0
    | succ k ih =>
      obtain ⟨st', o, g1, g2, -⟩ := ih.step h hsg hds hj
      have := hr.node k
      rw [g1] at this
      cases this
      rw [hr.robot k]
      exact g2
  have one : ∀ k, (st (k + 1)).w = (out k).cmdW ∧ (out k).cmdV = 0 ∧ ((out k).status = .following ∨ (out k).status = .goal) ∧
      (¬ |r k| < cfg.stopAng → (out k).cmdW = s * (turnGains cfg hz).turn (s * (st k).w) (r k)) ∧
      (|r k| < cfg.stopAng → (out k).cmdW = 0 ∧ (out k).status = .goal) := by
    intro k
    obtain ⟨st', o, g1, -, g3⟩ := (key k).step h hsg hds hj
    have := hr.node k
    rw [g1] at this
    cases this
    exact g3
  have hyaw : ∀ k, tf (k + 1) = { pos := (tf k).pos, yaw := (tf k).yaw + (out k).cmdW * (1 / hz) } := fun k => by
    rw [hr.robot k, moved_spot _ (one k).2.1]
  have hpos : ∀ k, (tf k).pos = (tf 0).pos := by
    intro k
    induction k with
    | zero => rfl
    | succ k ih => rw [hyaw k]; exact ih
  have hw : ∀ k, 0 ≤ s * (st k).w ∧ s * (st k).w ≤ cfg.maxAngVel := by
    intro k
    rcases (key k).speed with hc | hc
    · exact ⟨hc.nonneg, hc.le⟩
    · rw [hc.1, mul_zero]
      exact ⟨le_rfl, h.angVel.le⟩
  have hlow : ∀ k, -cfg.stopAng < r k := by
    intro k
    rcases (key k).speed with hc | hc
    · exact turn_tol (turns_fit h) hc
    · exact (abs_lt.1 hc.2).1
  refine ⟨fun k => ⟨hpos k, (one k).2.1, (one k).2.2.1⟩, d, s, hdn, hsg, hds, fun k => ⟨?_, ?_, ?_⟩, ?_⟩
  · rw [← (one k).1]; exact (hw (k + 1)).1
  · rw [← (one k).1]; exact (hw (k + 1)).2
  · have := hlow k
    simp only [hrd] at this
    linarith
  · have hcan0 : (turnGains cfg hz).Can (s * (st 0).w) (r 0) := by
      rcases (key 0).speed with hc | hc
      · exact hc
      · have hg := turns_fit h
        refine ⟨by rw [hw0, mul_zero], by rw [hw0, mul_zero]; exact hg.V_pos.le, ?_⟩
        have hA := hg.A_pos
        have hTT := hg.T_pos
        have hV := hg.V_pos
        have hr0 : 0 ≤ r 0 := by simp only [hrd, hΘ, sub_self, mul_zero, sub_zero]; exact abs_nonneg _
        have e1 : 0 ≤ 2 * (turnGains cfg hz).A * r 0 := by positivity
        have e2 : 0 ≤ (turnGains cfg hz).A * (turnGains cfg hz).T * (turnGains cfg hz).V := by positivity
        rw [hw0]
        linarith
    obtain ⟨N, hN, hrank⟩ := turn_stops (turns_fit h) (v := fun k => s * (st k).w) (r := r) hcan0
      (fun k hns => by
        rw [(one k).1, (one k).2.2.2.1 hns, ← mul_assoc, hss, one_mul])
      (fun k _ => by
        change |d| - s * ((tf (k + 1)).yaw - Θ) = |d| - s * ((tf k).yaw - Θ) - s * (st (k + 1)).w * (1 / hz)
        rw [hyaw k, (one k).1]
        ring)
    have hN' : |r N| < cfg.stopAng := hN
    have hafter : ∀ j, (tf (N + j)).yaw = (tf N).yaw := by
      intro j
      induction j with
      | zero => rfl
      | succ j ih =>
        have hst' : |r (N + j)| < cfg.stopAng := by
          simp only [hrd] at hN' ⊢
          rw [ih]; exact hN'
        rw [← Nat.add_assoc, hyaw, ((one (N + j)).2.2.2.2 hst').1, zero_mul, add_zero]
        exact ih
    refine ⟨N, ?_, ?_⟩
    · obtain ⟨hc, hk⟩ := hrank N le_rfl
      have hl := (turns_fit h).least_pos
      have hTT := (turns_fit h).T_pos
      have hceil : (0 : ℝ) ≤ ⌈s * (st N).w / ((turnGains cfg hz).T * (turnGains cfg hz).a)⌉ := by
        have : 0 ≤ ⌈s * (st N).w / ((turnGains cfg hz).T * (turnGains cfg hz).a)⌉ := Int.ceil_nonneg (div_nonneg hc.nonneg (turns_fit h).Ta_pos.le)
        exact_mod_cast this
      have hal : 0 < 2 / ((turnGains cfg hz).leastTurn * (turnGains cfg hz).T) := by positivity
      have hr0 : r 0 = |d| := by simp only [hrd, hΘ, sub_self, mul_zero, sub_zero]
      unfold Gains.rankTurn at hk
      simp only [hw0, mul_zero, zero_div, Int.ceil_zero, Int.cast_zero, add_zero, hr0] at hk
      have h3 : 2 / ((turnGains cfg hz).leastTurn * (turnGains cfg hz).T) * (-cfg.stopAng) ≤ 2 / ((turnGains cfg hz).leastTurn * (turnGains cfg hz).T) * r N :=
        mul_le_mul_of_nonneg_left (hlow N).le hal.le
      have h4 : (N : ℝ) ≤ 2 / ((turnGains cfg hz).leastTurn * (turnGains cfg hz).T) * (|d| + cfg.stopAng) := by
        rw [mul_add]
        linarith
      refine le_trans h4 (le_of_eq ?_)
      have e1 : (turnGains cfg hz).T = 1 / hz := rfl
      have e2 : (turnGains cfg hz).leastTurn =
          min (cfg.angAcc / hz) (min (Real.sqrt (cfg.stopAng * (cfg.angAcc * cfg.angAccTocFactor))) cfg.maxAngVel) := by
        unfold Gains.leastTurn
        change min (1 / hz * cfg.angAcc) _ = _
        rw [one_div_mul_eq_div]
        rfl
      rw [← e2, e1]
      have := h.rate
      field_simp
    · intro k hk
      obtain ⟨i, rfl⟩ := Nat.exists_eq_add_of_le hk
      have hst' : |r (N + i)| < cfg.stopAng := by
        simp only [hrd] at hN' ⊢
        rw [hafter i]; exact hN'
      obtain ⟨a1, a2⟩ := (one (N + i)).2.2.2.2 hst'
      refine ⟨hafter i, ?_, a1, a2⟩
      obtain ⟨j, hj⟩ := hj
      refine ⟨j, ?_⟩
      have : (tf (N + i)).yaw - (φ1 + j * (2 * Real.pi)) = -(s * r (N + i)) := by
        simp only [hrd]
        linear_combination hj - hds - ((tf (N + i)).yaw - Θ) * hss
      rw [this]
      have habs : |(-(s * r (N + i)))| = |r (N + i)| := by rcases hsg with rfl | rfl <;> simp
      rwa [habs]

/-- There is such a ride, from every pose of the robot. -/
theorem turn_exists (h : Turns cfg hz) (h0 : φ0 ∈ Set.Ioc (-Real.pi) Real.pi) (h1 : φ1 ∈ Set.Ioc (-Real.pi) Real.pi) (t : Tf) :
    ∃ (st : Nat → State) (tf : Nat → Tf) (out : Nat → Out),
      step (start cfg) (.path false (toMsg false (spot p φ0 φ1)) true) = some (st 0, none) ∧ tf 0 = t ∧ Ride hz st tf out := by
  obtain ⟨st0, e0, hs0, hw0⟩ := received_spot h p h0 h1
  obtain ⟨d, s, -, hsg, hds, hj, ht0⟩ := turning_start h hs0 hw0 t
  have nxt : ∀ x : {x : State × Tf // Turning cfg hz p φ0 φ1 d s t.yaw x.1 x.2}, ∃ x' : {x : State × Tf // Turning cfg hz p φ0 φ1 d s t.yaw x.1 x.2}, ∃ o : Out,
      Tracker.step x.1.1 (.timer true hz (some x.1.2) (some x.1.2)) = some (x'.1.1, some o) ∧ x'.1.2 = moved x.1.2 o (1 / hz) := by
    rintro ⟨⟨x, f⟩, hx⟩
    obtain ⟨st', o, g1, g2, -⟩ := hx.step h hsg hds hj
    exact ⟨⟨(st', moved f o (1 / hz)), g2⟩, o, g1, rfl⟩
  choose nx no hn using nxt
  let S : Nat → {x : State × Tf // Turning cfg hz p φ0 φ1 d s t.yaw x.1 x.2} := fun k => Nat.rec ⟨(st0, t), ht0⟩ (fun _ x => nx x) k
  exact ⟨fun k => (S k).1.1, fun k => (S k).1.2, fun k => no (S k), e0, rfl, ⟨fun k => (hn (S k)).1, fun k => (hn (S k)).2⟩⟩

end Verif.Tracker
