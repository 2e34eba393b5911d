import Verif.Tracker.Approach
import Verif.Tracker.Straight
/-! # A robot on a straight path drives to its end and stops there -/
namespace Verif.Tracker
open Verif.Path2D Verif.Num Spec
open Verif.Control.Spec (nearest)

/-- The numbers of the speed control. -/
noncomputable def gains (cfg : Config) (hz : ℝ) : Gains :=
  { A := cfg.acc * cfg.accTocFactor, a := cfg.acc, T := 1 / hz, L := cfg.lookForward, V := cfg.maxVel, tol := cfg.stopDist }

variable {cfg : Config} {hz : ℝ} {x : Nat → ℝ} {m : Nat} {lo hi : ℝ}

theorem suits_fit (h : Suits cfg hz x m lo hi) : (gains cfg hz).Fit where
  A_pos := mul_pos h.acc h.toc
  A_le := by
    change cfg.acc * cfg.accTocFactor ≤ cfg.acc
    have := mul_le_mul_of_nonneg_left h.toc_le h.acc.le
    linarith
  T_pos := one_div_pos.2 h.rate
  L_nonneg := h.look
  V_pos := h.vel
  room := by
    have := h.room
    change 1 / hz * cfg.maxVel / 2 + cfg.acc * cfg.accTocFactor * (1 / hz) ^ 2 / 8 + cfg.lookForward * cfg.acc * (1 / hz) < cfg.stopDist
    linarith

theorem lookahead_line {st : State} (hw : st.w = 0) : lookahead st = ((st.cfg.lookForward * st.v : ℝ) : ℂ) := by
  unfold lookahead
  rw [hw, zero_mul, zero_div, Real.cos_zero, Real.sin_zero]
  apply Complex.ext
  · simp; ring
  · simp

theorem ahead_len (hlo : 0 ≤ lo) (hx : Spaced x m lo hi) (X : ℝ) : length (ahead x X (m + 1)) = x m - x 0 := by
  have h := straight_length hlo hx X (n := 0) (k := m) (by omega)
  rw [Nat.zero_add] at h
  rw [← h]
  unfold lengthFromTo
  rw [List.take_of_length_le (by rw [List.drop_zero, ahead_length]; omega)]
  rfl

theorem lineDistance_line (a b c : ℝ) : lineDistance (a : ℂ) b c = 0 := by
  unfold lineDistance cross2
  simp

theorem limSet_fin {prev v vel acc dt : ℝ} (hv : 0 ≤ vel) (ha : 0 ≤ acc) (hd : 0 ≤ dt) :
    limSet prev (.fin v) (.fin vel) acc dt = nearest (prev - dt * acc) (prev + dt * acc) (nearest (-vel) vel v) := by
  unfold limSet
  rw [Control.vset_spec hv ha hd (v := .fin v) (t := v) rfl]
  rfl

theorem limSet_rest {vel acc dt : ℝ} (hv : 0 ≤ vel) (ha : 0 ≤ acc) (hd : 0 ≤ dt) : limSet 0 (.fin 0) (.fin vel) acc dt = 0 := by
  rw [limSet_fin hv ha hd]
  have := mul_nonneg hd ha
  unfold nearest
  rw [min_eq_right hv, max_eq_right (show -vel ≤ 0 by linarith), min_eq_right (by linarith), max_eq_right (by linarith)]

theorem limInc_rest {vel acc dt : ℝ} (hv : 0 ≤ vel) (ha : 0 ≤ acc) (hd : 0 ≤ dt) : limInc 0 (.fin 0) (.fin vel) acc dt = 0 := by
  have := limSet_rest hv ha hd
  unfold limSet at this
  unfold limInc Control.vincrement
  simpa [Ext.add] using this

theorem toc_rest (A : ℝ) : Control.timeOptimalControl 0 A = 0 := by
  unfold Control.timeOptimalControl
  simp

/-- What a look at a straight path tells. -/
structure Seen (cfg : Config) (e r : ℝ) (res : Result) : Prop where
  turning : res.turning = true ↔ |e| < cfg.stopDist
  vel : res.targetVel = .fin cfg.maxVel
  distance : res.distance = e
  raw : res.distanceRaw = r
  angle : res.angle = 0
  angleRaw : res.angleRaw = 0
  follow : ¬ |e| < cfg.stopDist → res.signedLocal = -e ∧ res.distanceFromTarget = 0 ∧ res.curv = 0
  status : res.status = .following ∨ res.status = .goal
  goal : |e| < cfg.stopDist → |r| < cfg.stopDist → res.status = .goal

/-- The command for it. -/
theorem drive_straight (h : Suits cfg hz x m lo hi) {v r : ℝ} {res : Result} (hs : Seen cfg (r - cfg.lookForward * v) r res) :
    (Stopping cfg res ↔ (gains cfg hz).Stop v r) ∧
    (¬ (gains cfg hz).Stop v r → drive cfg v 0 res (1 / hz) = ((gains cfg hz).next v r, 0)) := by
  have hT : 0 ≤ 1 / hz := (one_div_pos.2 h.rate).le
  constructor
  · unfold Stopping Gains.Stop
    rw [hs.distance, hs.raw, hs.angle, hs.angleRaw, abs_zero]
    exact ⟨fun a => ⟨a.1, a.2.2.1⟩, fun a => ⟨a.1, h.stopAng, a.2, h.stopAng⟩⟩
  · intro hns
    unfold Gains.Stop at hns
    unfold Gains.next
    by_cases ht : |r - cfg.lookForward * v| < cfg.stopDist
    · have hr : ¬ |r| < cfg.stopDist := fun hr => hns ⟨ht, hr⟩
      rw [if_pos (show |r - (gains cfg hz).L * v| < (gains cfg hz).tol from ht), if_neg (show ¬ |r| < (gains cfg hz).tol from hr)]
      unfold drive
      rw [if_pos (hs.turning.2 ht), hs.vel, hs.angle]
      simp only [zero_mul, add_zero, neg_zero, sub_zero, toc_rest, limSet_rest h.angVel h.angAcc hT, limInc_rest h.angVel h.angAcc hT,
        ite_self, limSet_fin h.vel.le h.acc.le hT]
      rfl
    · rw [if_neg (show ¬ |r - (gains cfg hz).L * v| < (gains cfg hz).tol from ht)]
      obtain ⟨f1, f2, f3⟩ := hs.follow ht
      unfold drive
      rw [if_neg (fun hc => ht (hs.turning.1 hc)), hs.vel, hs.angle, f1, f2, f3]
      have hov : ¬ (cfg.limitVelByAvel = true ∧ |(0 : ℝ)| > cfg.maxAngVel) := by
        rintro ⟨-, h2⟩
        rw [abs_zero] at h2
        exact absurd h.angVel (not_le.2 h2)
      have hk : ∀ K : Ext ℝ, (∃ y, K = .fin y) → Ext.mul (.fin (1 / hz)) (Ext.sub (Ext.sub (.fin (-(0 : ℝ) * cfg.kDist)) (Ext.mul (.fin 0) K))
          (.fin ((0 - 0) * cfg.kAvel))) = .fin 0 := by
        rintro _ ⟨y, rfl⟩
        simp [Ext.mul, Ext.sub, Ext.add, Ext.neg]
      have hfin : ∃ y, (if cfg.gainAtVel = 0 then (.fin cfg.kAng : Ext ℝ)
          else Ext.div (Ext.mul (.fin cfg.kAng) (.fin cfg.maxVel)) (.fin cfg.gainAtVel)) = .fin y := by
        split
        · exact ⟨_, rfl⟩
        · rename_i hg
          exact ⟨cfg.kAng * cfg.maxVel / cfg.gainAtVel, by simp only [Ext.mul, Ext.div, if_neg hg]⟩
      simp only [mul_zero, if_neg hov]
      rw [hk _ hfin, limInc_rest h.angVel h.angAcc hT, limSet_fin h.vel.le h.acc.le hT]
      rfl

/-- A look at the path: what it tells, and how far the robot counts as having come. -/
theorem look_straight (h : Suits cfg hz x m lo hi) {st : State} {p : ℂ} {φ X : ℝ} (hcfg : st.cfg = cfg) (hmv : st.maxVel = .fin cfg.maxVel)
    (hpath : st.path = line p φ x (m + 1)) (hframe : st.frame = true) (hw : st.w = 0) (hv : 0 ≤ st.v) (hvV : st.v ≤ cfg.maxVel)
    (hX : -cfg.stopDist ≤ x m - X) (hdone : st.done < m)
    (hvis : st.done = 0 ∨ st.done + 1 = m ∨ X + cfg.lookForward * st.v + hi ≤ x st.done + 1)
    (hlast : st.done + 1 = m → x m - X ≤ hi + cfg.epsilon + cfg.lookForward * cfg.maxVel) :
    ∃ res, getTrackingResult st (some (on p φ X)) 0 0 0 0 = some res ∧ Seen cfg (x m - X - cfg.lookForward * st.v) (x m - X) res ∧
      res.done < m ∧ (res.done + 1 = m ∨ X + cfg.lookForward * st.v ≤ x res.done + hi) ∧
      (res.done + 1 = m → x m - X ≤ hi + cfg.epsilon + cfg.lookForward * cfg.maxVel) := by
  have hlo0 : 0 ≤ lo := by linarith [h.apart]
  have hc0 : 0 ≤ cfg.lookForward * st.v := mul_nonneg h.look hv
  have hLv : cfg.lookForward * st.v ≤ cfg.lookForward * cfg.maxVel := mul_le_mul_of_nonneg_left hvV h.look
  have hT : 0 ≤ 1 / hz := (one_div_pos.2 h.rate).le
  have hd1 : 0 ≤ cfg.maxVel * (1 / hz) := mul_nonneg h.vel.le hT
  have hd2 : 0 ≤ cfg.lookForward * cfg.acc * (1 / hz) := mul_nonneg (mul_nonneg h.look h.acc.le) hT
  have hhi0 : 0 ≤ hi := by have := h.spaced 0 h.two; linarith [this.1, this.2]
  have hhi : hi ≤ 1 := by linarith [h.dense]
  obtain ⟨k, a, b, hg, hab, hb, ha, hk1, hk2, hk3, hk4⟩ := geometry_straight (cfg := cfg) h.eps h.eps_le h.apart h.spaced X
    (cfg.lookForward * st.v) hc0 (.inr hhi) hdone (hvis.imp id (fun h => h.imp id (fun h => by linarith)))
  have hne : ¬ ((!st.frame) = true ∨ st.path = []) := by
    rw [hframe, hpath]
    rintro (h | h)
    · simp at h
    · have := congrArg List.length h
      simp [line] at this
  have hlp : localPath st.cfg.pathStep st.path (on p φ X) = ahead x X (m + 1) := by rw [hcfg, h.each, hpath, localPath_line]
  have hlen := ahead_len hlo0 h.spaced X
  have hfull : st.path.length = m + 1 := by rw [hpath]; simp [line]
  have hget : getTrackingResult st (some (on p φ X)) 0 0 0 0 = some (decideResult cfg (.fin cfg.maxVel) st.done
      { nearest := k, localGoal := m + 1, prevPose := { pos := (a : ℝ), yaw := 0, vel := .nan }, nearPose := { pos := (b : ℝ), yaw := 0, vel := .nan },
        goalYaw := 0, remainLocal := x m - X - cfg.lookForward * st.v, remain := x m - X - cfg.lookForward * st.v, remainRaw := x m - X, curv := 0 }
      (x m - x 0) (m + 1) (m + 1) ((cfg.lookForward * st.v : ℝ) : ℂ) 0 0 0) := by
    unfold getTrackingResult
    rw [if_neg hne]
    simp only
    rw [hlp, lookahead_line hw, hcfg, hg, hlen, ahead_length, hfull, hmv]
  set geo : Geo :=
      { nearest := k, localGoal := m + 1, prevPose := { pos := (a : ℝ), yaw := 0, vel := .nan },
        nearPose := { pos := (b : ℝ), yaw := 0, vel := .nan },
        goalYaw := 0, remainLocal := x m - X - cfg.lookForward * st.v, remain := x m - X - cfg.lookForward * st.v, remainRaw := x m - X, curv := 0 } with hgeo
  set e := x m - X - cfg.lookForward * st.v with he
  set len := x m - x 0 with hlen'
  have hvec : vec geo = ((b - a : ℝ) : ℂ) := by
    unfold vec
    rw [hgeo]
    push_cast
    rfl
  have harg : Complex.arg (vec geo) = 0 := by rw [hvec]; exact Complex.arg_ofReal_of_nonneg (by linarith)
  have hback : ¬ Backward cfg geo := by
    unfold Backward
    rw [harg]
    simp [hgeo]
  have hpa : pathAngle cfg geo = 0 := by
    unfold pathAngle
    rw [if_neg hback, harg, neg_zero]
    exact angNorm_id (by linarith [Real.pi_pos]) Real.pi_pos.le
  have hsv : signVel cfg geo = 1 := by unfold signVel; rw [if_neg hback]
  have hip : ¬ InPlace geo := by
    unfold InPlace
    rw [hvec]
    rintro ⟨-, h2⟩
    rw [Complex.ofReal_re] at h2
    linarith
  have hla : ¬ LargeAngle cfg geo := by
    rintro ⟨-, h2⟩
    rw [hpa, Real.cos_zero] at h2
    exact absurd (Real.cos_le_one cfg.rotateAng) (not_le.2 h2)
  have hun : ∀ y, unlessShort cfg len y = y := fun y => by unfold unlessShort; rw [if_neg (not_lt.2 h.long2)]
  have hlvel : linearVel (.fin cfg.maxVel) geo = .fin cfg.maxVel := by unfold linearVel; rw [if_pos rfl]
  have hrot : Rotate cfg geo len ↔ |e| < cfg.stopDist := by
    unfold Rotate
    rw [hun]
    constructor
    · rintro (h1 | h1 | h1 | h1)
      · exact absurd h1 hla
      · exact h1
      · exact absurd h1 (not_lt.2 h.long1)
      · exact absurd h1 hip
    · exact fun h1 => .inr (.inl h1)
  have hderr : distErr geo ((cfg.lookForward * st.v : ℝ) : ℂ) = 0 := lineDistance_line a b _
  have hfar : ¬ |distFromPath geo (m + 1) ((cfg.lookForward * st.v : ℝ) : ℂ)| > cfg.dStop := by
    have hstop : 0 < cfg.stopDist := (suits_fit h).tol_pos
    have hdS : 0 ≤ cfg.dStop := by
      have := mul_nonneg h.look h.vel.le
      linarith [h.far, h.eps]
    unfold distFromPath
    rw [if_neg (show ¬ geo.nearest = 0 by simp only [hgeo]; omega)]
    by_cases hkm : k = m
    · rw [if_pos (show geo.nearest + 1 ≥ m + 1 by simp only [hgeo]; omega), abs_neg, abs_norm]
      change ¬ ‖((b : ℝ) : ℂ) - ((cfg.lookForward * st.v : ℝ) : ℂ)‖ > cfg.dStop
      rw [← Complex.ofReal_sub, norm_real, hb, hkm, not_lt, abs_le]
      have := h.far
      have := h.eps
      refine ⟨by linarith, ?_⟩
      rcases hk4 with h4 | h4
      · have := hlast (by omega)
        linarith
      · rw [hkm] at h4
        have := (h.spaced (m - 1) (by omega)).2
        rw [show m - 1 + 1 = m by omega] at this
        have := mul_nonneg h.look h.vel.le
        linarith
    · rw [if_neg (show ¬ geo.nearest + 1 ≥ m + 1 by simp only [hgeo]; omega), hderr, abs_zero, gt_iff_lt, not_lt]
      exact hdS
  have hdone' : max st.done (k - 1) = k - 1 := by omega
  have hgoalW : |e| < cfg.stopDist → |x m - X| < cfg.stopDist → ∀ r : Result, r.distance = e → r.distanceRaw = x m - X → r.angle = 0 → r.angleRaw = 0 →
      AtGoal cfg r geo (m + 1) 0 0 := by
    intro h1 h2 r r1 r2 r3 r4
    unfold AtGoal
    rw [r1, r2, r3, r4, abs_zero]
    refine ⟨lt_of_lt_of_le h1 h.goal, h.goalAng, lt_of_lt_of_le h2 h.goal, h.goalAng, ?_, ?_, rfl⟩
    · rcases h.goalLinVel.lt_or_eq with h | h
      · exact .inr h
      · exact .inl h.symm
    · rcases h.goalAngVel.lt_or_eq with h | h
      · exact .inr h
      · exact .inl h.symm
  have hfin : ∀ res : Result, res.done = k - 1 → res.done < m ∧ (res.done + 1 = m ∨ X + cfg.lookForward * st.v ≤ x res.done + hi) ∧
      (res.done + 1 = m → x m - X ≤ hi + cfg.epsilon + cfg.lookForward * cfg.maxVel) := by
    intro res hr
    rw [hr]
    refine ⟨by omega, ?_, ?_⟩
    · rcases hk3 with h3 | h3
      · right
        have := (h.spaced (k - 1) (by omega)).2
        rw [show k - 1 + 1 = k by omega] at this
        linarith
      · left; omega
    · intro hkm
      rcases hk4 with h4 | h4
      · exact hlast (by omega)
      · rw [show k = m by omega] at h4
        have := (h.spaced (m - 1) (by omega)).2
        rw [show m - 1 + 1 = m by omega] at this
        linarith
  refine ⟨_, hget, ?_⟩
  unfold decideResult
  by_cases ht : |e| < cfg.stopDist
  · rw [if_pos (hrot.2 ht)]
    have hg0 : angNorm (-geo.goalYaw) = 0 := by
      simp only [hgeo, neg_zero]
      exact angNorm_id (by linarith [Real.pi_pos]) Real.pi_pos.le
    set r0 := rotateResult cfg (.fin cfg.maxVel) st.done geo len (m + 1) with hr0
    have hno : ¬ (len < cfg.stopDist ∨ InPlace geo) := by
      rintro (h1 | h1)
      · exact absurd h1 (not_lt.2 h.long3)
      · exact hip h1
    have q1 : r0.turning = true := rfl
    have q2 : r0.targetVel = .fin cfg.maxVel := hlvel
    have q3 : r0.distance = e := by
      simp only [hr0, rotateResult]
      rw [if_neg hno, hun]
    have q4 : r0.distanceRaw = x m - X := by
      simp only [hr0, rotateResult]
      rw [if_neg hno, hun]
    have q5 : r0.angle = 0 := by
      simp only [hr0, rotateResult]
      rw [hg0, hpa, ite_self]
    have q6 : r0.angleRaw = 0 := rfl
    have q7 : r0.status = .following := rfl
    have q8 : r0.done = k - 1 := by
      simp only [hr0, rotateResult]
      rw [if_neg (fun hh => hh.2 rfl)]
      exact hdone'
    unfold goalCheck
    split
    · exact ⟨⟨by simp [q1, ht], q2, q3, q4, q5, q6, fun hh => absurd ht hh, .inr rfl, fun _ _ => rfl⟩, hfin _ q8⟩
    · rename_i hng
      exact ⟨⟨by simp [q1, ht], q2, q3, q4, q5, q6, fun hh => absurd ht hh, .inl q7,
        fun h1 h2 => absurd (hgoalW h1 h2 r0 q3 q4 q5 q6) hng⟩, hfin _ q8⟩
  · rw [if_neg (fun hh => ht (hrot.1 hh)), if_neg hfar]
    set r0 := followResult cfg (.fin cfg.maxVel) st.done geo len ((cfg.lookForward * st.v : ℝ) : ℂ) 0 with hr0
    have q1 : r0.turning = false := rfl
    have q2 : r0.targetVel = .fin cfg.maxVel := hlvel
    have q3 : r0.distance = e := hun _
    have q4 : r0.distanceRaw = x m - X := hun _
    have q5 : r0.angle = 0 := hpa
    have q6 : r0.angleRaw = 0 := by
      simp only [hr0, followResult]
      rw [hpa, add_zero]
    have q7 : r0.status = .following := rfl
    have q8 : r0.done = k - 1 := hdone'
    have q9 : r0.signedLocal = -e := by
      simp only [hr0, followResult]
      rw [hun, hsv, mul_one]
    have q10 : r0.distanceFromTarget = 0 := by
      simp only [hr0, followResult]
      rw [hderr]
      unfold clipReal
      rw [if_neg (not_lt.2 h.dLim), if_neg (by have := h.dLim; linarith)]
    have q11 : r0.curv = 0 := rfl
    unfold goalCheck
    split
    · exact ⟨⟨by simp [q1, ht], q2, q3, q4, q5, q6, fun _ => ⟨q9, q10, q11⟩, .inr rfl, fun _ _ => rfl⟩, hfin _ q8⟩
    · exact ⟨⟨by simp [q1, ht], q2, q3, q4, q5, q6, fun _ => ⟨q9, q10, q11⟩, .inl q7, fun h1 => absurd h1 ht⟩, hfin _ q8⟩

/-- The robot is on the path, can brake or is at rest at its end, and the node knows where on the path it is. -/
structure Here (cfg : Config) (hz : ℝ) (x : Nat → ℝ) (m : Nat) (hi : ℝ) (p : ℂ) (φ : ℝ) (st : State) (X : ℝ) : Prop where
  isCfg : st.cfg = cfg
  maxVel : st.maxVel = .fin cfg.maxVel
  path : st.path = line p φ x (m + 1)
  frame : st.frame = true
  w : st.w = 0
  speed : (gains cfg hz).Can st.v (x m - X) ∨ st.v = 0 ∧ |x m - X| < cfg.stopDist
  done : st.done < m
  vis : st.done = 0 ∨ st.done + 1 = m ∨ X + cfg.lookForward * st.v + hi ≤ x st.done + 1
  last : st.done + 1 = m → x m - X ≤ hi + cfg.epsilon + cfg.lookForward * cfg.maxVel

section here
variable {p : ℂ} {φ : ℝ} {st : State} {X : ℝ}

theorem Here.nonneg (hh : Here cfg hz x m hi p φ st X) : 0 ≤ st.v := by
  rcases hh.speed with h | h
  · exact h.nonneg
  · exact h.1.ge

theorem Here.le (h : Suits cfg hz x m lo hi) (hh : Here cfg hz x m hi p φ st X) : st.v ≤ cfg.maxVel := by
  rcases hh.speed with h' | h'
  · exact h'.le
  · rw [h'.1]; exact h.vel.le

theorem Here.tol (h : Suits cfg hz x m lo hi) (hh : Here cfg hz x m hi p φ st X) : -cfg.stopDist < x m - X := by
  rcases hh.speed with h' | h'
  · have h1 := can_tol (suits_fit h) h'
    have h2 : 0 ≤ cfg.lookForward * cfg.acc * (1 / hz) := mul_nonneg (mul_nonneg h.look h.acc.le) (one_div_pos.2 h.rate).le
    change -cfg.stopDist + cfg.lookForward * cfg.acc * (1 / hz) < x m - X at h1
    linarith
  · exact (abs_lt.1 h'.2).1

/-- One look, for a robot on its way. -/
theorem Here.look (h : Suits cfg hz x m lo hi) (hh : Here cfg hz x m hi p φ st X) :
    ∃ res, getTrackingResult st (some (on p φ X)) 0 0 0 0 = some res ∧ Seen cfg (x m - X - cfg.lookForward * st.v) (x m - X) res ∧
      res.done < m ∧ (res.done + 1 = m ∨ X + cfg.lookForward * st.v ≤ x res.done + hi) ∧
      (res.done + 1 = m → x m - X ≤ hi + cfg.epsilon + cfg.lookForward * cfg.maxVel) :=
  look_straight h hh.isCfg hh.maxVel hh.path hh.frame hh.w hh.nonneg (hh.le h) (hh.tol h).le hh.done hh.vis hh.last

theorem dense2 (h : Suits cfg hz x m lo hi) : 2 * hi ≤ 1 := by
  have hT : 0 ≤ 1 / hz := (one_div_pos.2 h.rate).le
  have hd1 : 0 ≤ cfg.maxVel * (1 / hz) := mul_nonneg h.vel.le hT
  have hd2 : 0 ≤ cfg.lookForward * cfg.acc * (1 / hz) := mul_nonneg (mul_nonneg h.look h.acc.le) hT
  linarith [h.dense]

theorem Here.first (h : Suits cfg hz x m lo hi) (hh : Here cfg hz x m hi p φ st X) :
    ∃ st1, firstLook st (some (on p φ X)) 0 0 0 0 = some st1 ∧ Here cfg hz x m hi p φ st1 X ∧ st1.v = st.v ∧ st1.updated = false := by
  unfold firstLook
  by_cases hu : st.updated = true
  · obtain ⟨res, h1, -, h2, h3, h4⟩ := hh.look h
    rw [if_pos hu, h1]
    refine ⟨_, rfl, ⟨hh.isCfg, hh.maxVel, hh.path, hh.frame, hh.w, hh.speed, h2, ?_, h4⟩, rfl, rfl⟩
    rcases h3 with h3 | h3
    · exact .inr (.inl h3)
    · refine .inr (.inr ?_)
      have := dense2 h
      change X + cfg.lookForward * st.v + hi ≤ x res.done + 1
      linarith
  · rw [if_neg hu]
    exact ⟨st, rfl, hh, rfl, by simpa using hu⟩

/-- One step of the node: the speed is the one of the speed control, the robot does not turn. -/
theorem Here.step (h : Suits cfg hz x m lo hi) (hh : Here cfg hz x m hi p φ st X) :
    ∃ st' o, step st (.timer true hz (some (on p φ X)) (some (on p φ X))) = some (st', some o) ∧
      Here cfg hz x m hi p φ st' (X + o.cmdV * (1 / hz)) ∧ o.cmdW = 0 ∧ o.cmdV = st'.v ∧ (o.status = .following ∨ o.status = .goal) ∧
      (¬ (gains cfg hz).Stop st.v (x m - X) → st'.v = (gains cfg hz).next st.v (x m - X)) ∧
      ((gains cfg hz).Stop st.v (x m - X) → st'.v = 0 ∧ o.status = .goal) := by
  have hT : 0 ≤ 1 / hz := (one_div_pos.2 h.rate).le
  obtain ⟨st1, f1, hh1, fv, -⟩ := hh.first h
  obtain ⟨res, h1, hs, h2, h3, h4⟩ := hh1.look h
  obtain ⟨hstop, hdrive⟩ := drive_straight h hs
  rw [← fv]
  have hstatus : ¬ (res.status = .noPath ∨ res.status = .farFromPath) := by
    rcases hs.status with hst | hst <;> rw [hst] <;> simp
  have hctl : Tracker.step st (.timer true hz (some (on p φ X)) (some (on p φ X))) =
      some ((command st1 res (1 / hz)).1, some (command st1 res (1 / hz)).2) := by
    unfold Tracker.step
    simp only [if_true]
    unfold control
    rw [f1, Option.bind_some, h1]
    rfl
  refine ⟨_, _, hctl, ?_⟩
  unfold command
  rw [if_neg hstatus, hh1.isCfg]
  by_cases hst : (gains cfg hz).Stop st1.v (x m - X)
  · rw [if_pos (hstop.2 hst)]
    simp only [zero_mul, add_zero]
    refine ⟨⟨rfl, hh1.maxVel, hh1.path, hh1.frame, rfl, .inr ⟨rfl, hst.2⟩, h2, ?_, h4⟩, trivial, trivial, hs.status, fun hn => absurd hst hn,
      fun _ => ⟨trivial, hs.goal hst.1 hst.2⟩⟩
    rcases h3 with h3 | h3
    · exact .inr (.inl h3)
    · refine .inr (.inr ?_)
      have := dense2 h
      have := mul_nonneg h.look hh1.nonneg
      change X + cfg.lookForward * 0 + hi ≤ x res.done + 1
      linarith
  · rw [if_neg (fun hc => hst (hstop.1 hc)), hh1.w, hdrive hst]
    have hcan : (gains cfg hz).Can st1.v (x m - X) := by
      rcases hh1.speed with hc | ⟨hc1, hc2⟩
      · exact hc
      · exfalso
        rw [hc1] at hst
        exact hst (stop_stays hc2)
    obtain ⟨n1, -, n3⟩ := next_step (suits_fit h) hcan hst
    set u := (gains cfg hz).next st1.v (x m - X) with hu
    have hu0 := n1.nonneg
    have huV : u ≤ cfg.maxVel := n1.le
    have hr' : x m - (X + u * (1 / hz)) = x m - X - u * (gains cfg hz).T := by
      change _ = x m - X - u * (1 / hz)
      ring
    refine ⟨⟨rfl, hh1.maxVel, hh1.path, hh1.frame, rfl, .inl (by rw [hr']; exact n1), h2, ?_, ?_⟩, rfl, rfl, hs.status, fun _ => rfl,
      fun hn => absurd hn hst⟩
    · rcases h3 with h3 | h3
      · exact .inr (.inl h3)
      · refine .inr (.inr ?_)
        have hd := h.dense
        have e1 : u * (1 / hz) ≤ cfg.maxVel * (1 / hz) := mul_le_mul_of_nonneg_right huV hT
        have n3' : u ≤ st1.v + 1 / hz * cfg.acc := n3
        have e2 : cfg.lookForward * u ≤ cfg.lookForward * (st1.v + 1 / hz * cfg.acc) := mul_le_mul_of_nonneg_left n3' h.look
        change X + u * (1 / hz) + cfg.lookForward * u + hi ≤ x res.done + 1
        nlinarith
    · intro hm
      have := h4 hm
      have := mul_nonneg hu0 hT
      change x m - (X + u * (1 / hz)) ≤ _
      linarith

theorem moved_on (p : ℂ) (φ X : ℝ) {o : Out} (hw : o.cmdW = 0) (T : ℝ) : moved (on p φ X) o T = on p φ (X + o.cmdV * T) := by
  unfold moved on
  rw [hw, zero_mul, add_zero]
  congr 1
  unfold rotatePos dir
  apply Complex.ext <;> simp <;> ring

end here

/-- Receiving the path. -/
theorem received_line {eps : ℝ} (he : 0 ≤ eps) (hel : eps ≤ lo) (hx : Spaced x m lo hi) (p : ℂ) {φ : ℝ} (hφ : φ ∈ Set.Ioc (-Real.pi) Real.pi) :
    fromMsg false eps (toMsg false (line p φ x (m + 1))) = line p φ x (m + 1) := by
  have hid : (toMsg false (line p φ x (m + 1))).map (readPose false) = line p φ x (m + 1) := by
    unfold toMsg
    rw [List.map_map]
    conv_rhs => rw [← List.map_id (line p φ x (m + 1))]
    apply List.map_congr_left
    intro q hq
    obtain ⟨i, -, rfl⟩ := List.mem_map.1 hq
    simp only [Function.comp, id]
    unfold readPose writePose
    simp only
    rw [read_write_yaw φ hφ]
    rfl
  unfold fromMsg
  rw [hid]
  apply fromPoses_id
  have hlo0 : 0 ≤ lo := he.trans hel
  have key : ∀ n a, a + n ≤ m + 1 → Canon eps ((List.range' a n).map fun i => ({ pos := p + x i * dir φ, yaw := φ, vel := .nan } : Pose)) := by
    intro n
    induction n with
    | zero => intro a _; exact .nil
    | succ n ih =>
      intro a ha
      cases n with
      | zero => exact .one _
      | succ n =>
        have := ih (a + 1) (by omega)
        simp only [List.range'_succ, List.map_cons] at this ⊢
        refine .far ?_ this
        rw [far_iff he]
        have hsp := hx a (by omega)
        have e1 : p + (x a : ℂ) * dir φ - (p + (x (a + 1) : ℂ) * dir φ) = ((x a - x (a + 1) : ℝ) : ℂ) * dir φ := by push_cast; ring
        have e2 : ‖dir φ‖ = 1 := by
          have : dir φ = Complex.exp (φ * Complex.I) := by
            rw [Complex.exp_mul_I]
            unfold dir
            apply Complex.ext
            · simp [Complex.cos_ofReal_re, Complex.sin_ofReal_im]
            · simp [Complex.cos_ofReal_im, Complex.sin_ofReal_re]
          rw [this, Complex.norm_exp_ofReal_mul_I]
        rw [e1, norm_mul, e2, mul_one, norm_real, abs_of_neg (by linarith)]
        linarith
  have := key (m + 1) 0 (by omega)
  unfold line
  rw [List.range_eq_range']
  exact this

theorem received_here (h : Suits cfg hz x m lo hi) (p : ℂ) {φ : ℝ} (hφ : φ ∈ Set.Ioc (-Real.pi) Real.pi) {X : ℝ} (h0 : x 0 ≤ X) (h1 : X ≤ x m) :
    ∃ st0, step (start cfg) (.path false (toMsg false (line p φ x (m + 1))) true) = some (st0, none) ∧ Here cfg hz x m hi p φ st0 X ∧ st0.v = 0 := by
  have hbad : ¬ ∃ q ∈ line p φ x (m + 1), ∃ y : ℝ, q.vel = .fin y ∧ y < 0 := by
    rintro ⟨q, hq, y, hy, -⟩
    obtain ⟨i, -, rfl⟩ := List.mem_map.1 hq
    cases hy
  refine ⟨{ start cfg with frame := true, updated := true, done := 0, path := line p φ x (m + 1) }, ?_, ⟨rfl, rfl, rfl, rfl, rfl, .inl ?_, h.two, .inl rfl, ?_⟩, rfl⟩
  · unfold step
    simp only
    rw [show (start cfg).cfg = cfg from rfl, received_line h.eps h.eps_le h.spaced p hφ, if_neg hbad]
  · refine ⟨le_rfl, h.vel.le, ?_⟩
    have hA := (suits_fit h).A_pos
    have hT := (suits_fit h).T_pos
    have hV := (suits_fit h).V_pos
    have e1 : 0 ≤ 2 * (gains cfg hz).A * (x m - X) := mul_nonneg (by linarith) (by linarith)
    have e2 : 0 ≤ (gains cfg hz).A * (gains cfg hz).T * (gains cfg hz).V := by positivity
    change (0 : ℝ) ^ 2 - (gains cfg hz).A * (gains cfg hz).T * 0 ≤ _
    linarith
  · intro hm
    change 0 + 1 = m at hm
    subst hm
    have := (h.spaced 0 (by omega)).2
    have := mul_nonneg h.look h.vel.le
    have := h.eps
    norm_num at *
    linarith

/-- **Arrival.**  A robot at rest on a straight path, looking along it, which receives this path and executes the commands of the node: it never
turns, never goes back, never exceeds the speed limit, never goes beyond the end of the path by the stop tolerance, and after a number of steps which
is bounded in terms of the distance it stands still within the stop tolerance of the end, and the node reports the goal from then on. -/
theorem arrives (h : Suits cfg hz x m lo hi) {p : ℂ} {φ : ℝ} (hφ : φ ∈ Set.Ioc (-Real.pi) Real.pi) {X0 : ℝ} (h0 : x 0 ≤ X0) (h1 : X0 ≤ x m)
    {st : Nat → State} {tf : Nat → Tf} {out : Nat → Out}
    (hst : step (start cfg) (.path false (toMsg false (line p φ x (m + 1))) true) = some (st 0, none)) (htf : tf 0 = on p φ X0)
    (hr : Ride hz st tf out) :
    ∃ X : Nat → ℝ, X 0 = X0 ∧ (∀ k, tf k = on p φ (X k)) ∧ (∀ k, X k ≤ X (k + 1) ∧ X k < x m + cfg.stopDist) ∧
      (∀ k, 0 ≤ (out k).cmdV ∧ (out k).cmdV ≤ cfg.maxVel ∧ (out k).cmdW = 0 ∧ ((out k).status = .following ∨ (out k).status = .goal)) ∧
      ∃ N : Nat, (N : ℝ) ≤ 2 * (x m - X0 + cfg.stopDist) * hz / min (cfg.acc / hz) (min (Real.sqrt (2 * cfg.stopDist * (cfg.acc * cfg.accTocFactor))) cfg.maxVel) ∧
        ∀ k, N ≤ k → X k = X N ∧ |x m - X k| < cfg.stopDist ∧ (out k).cmdV = 0 ∧ (out k).status = .goal := by
  have hT : 0 ≤ 1 / hz := (one_div_pos.2 h.rate).le
  obtain ⟨st0, e0, hh0, hv0⟩ := received_here h p hφ h0 h1
  have est : st0 = st 0 := by rw [hst] at e0; cases e0; rfl
  subst est
  set X : Nat → ℝ := fun k => Nat.rec X0 (fun i y => y + (out i).cmdV * (1 / hz)) k with hX
  have hXs : ∀ k, X (k + 1) = X k + (out k).cmdV * (1 / hz) := fun k => rfl
  have hX0 : X 0 = X0 := rfl
  have key : ∀ k, Here cfg hz x m hi p φ (st k) (X k) ∧ tf k = on p φ (X k) := by
    intro k
    induction k with
    | zero => exact ⟨hh0, htf⟩
    | succ k ih =>
      obtain ⟨st', o, g1, g2, g3, -⟩ := ih.1.step h
      have := hr.node k
      rw [ih.2, g1] at this
      cases this
      refine ⟨by rw [hXs]; exact g2, ?_⟩
      rw [hr.robot k, ih.2, moved_on _ _ _ g3, hXs]
  have one : ∀ k, (out k).cmdW = 0 ∧ (out k).cmdV = (st (k + 1)).v ∧ ((out k).status = .following ∨ (out k).status = .goal) ∧
      (¬ (gains cfg hz).Stop (st k).v (x m - X k) → (st (k + 1)).v = (gains cfg hz).next (st k).v (x m - X k)) ∧
      ((gains cfg hz).Stop (st k).v (x m - X k) → (st (k + 1)).v = 0 ∧ (out k).status = .goal) := by
    intro k
    obtain ⟨st', o, g1, -, g3, g4, g5, g6, g7⟩ := (key k).1.step h
    have := hr.node k
    rw [(key k).2, g1] at this
    cases this
    exact ⟨g3, g4, g5, g6, g7⟩
  have hcmd : ∀ k, 0 ≤ (out k).cmdV ∧ (out k).cmdV ≤ cfg.maxVel := fun k => by
    rw [(one k).2.1]
    exact ⟨(key (k + 1)).1.nonneg, (key (k + 1)).1.le h⟩
  refine ⟨X, rfl, fun k => (key k).2, fun k => ⟨?_, ?_⟩, fun k => ⟨(hcmd k).1, (hcmd k).2, (one k).1, (one k).2.2.1⟩, ?_⟩
  · rw [hXs]
    have := mul_nonneg (hcmd k).1 hT
    linarith
  · have := (key k).1.tol h
    linarith
  · have hcan0 : (gains cfg hz).Can (st 0).v (x m - X 0) := by
      rcases hh0.speed with hc | hc
      · exact hc
      · refine ⟨by rw [hv0], by rw [hv0]; exact h.vel.le, ?_⟩
        have hA := (suits_fit h).A_pos
        have hTT := (suits_fit h).T_pos
        have hV := (suits_fit h).V_pos
        have e1 : 0 ≤ 2 * (gains cfg hz).A * (x m - X 0) := mul_nonneg (by linarith) (by rw [hX0]; linarith)
        have e2 : 0 ≤ (gains cfg hz).A * (gains cfg hz).T * (gains cfg hz).V := by positivity
        rw [hv0]
        linarith
    obtain ⟨N, hN, hrank⟩ := stops (suits_fit h) (v := fun k => (st k).v) (r := fun k => x m - X k) hcan0
      (fun k hns => (one k).2.2.2.1 hns) (fun k _ => by
        change x m - X (k + 1) = x m - X k - (st (k + 1)).v * (1 / hz)
        rw [hXs, (one k).2.1]
        ring)
    have hafter : ∀ j, X (N + j) = X N ∧ (gains cfg hz).Stop (st (N + j)).v (x m - X (N + j)) := by
      intro j
      induction j with
      | zero => exact ⟨rfl, hN⟩
      | succ j ih =>
        have hz0 := ((one (N + j)).2.2.2.2 ih.2).1
        have hxx : X (N + (j + 1)) = X (N + j) := by
          rw [← Nat.add_assoc, hXs, (one (N + j)).2.1, hz0, zero_mul, add_zero]
        refine ⟨by rw [hxx, ih.1], ?_⟩
        rw [hxx, ← Nat.add_assoc, hz0]
        exact stop_stays ih.2.2
    refine ⟨N, ?_, ?_⟩
    · obtain ⟨hc, hk⟩ := hrank N le_rfl
      have hl := (suits_fit h).least_pos
      have hTT := (suits_fit h).T_pos
      have hlow := (key N).1.tol h
      have hceil : (0 : ℝ) ≤ ⌈(st N).v / ((gains cfg hz).T * (gains cfg hz).a)⌉ := by
        have : 0 ≤ ⌈(st N).v / ((gains cfg hz).T * (gains cfg hz).a)⌉ := Int.ceil_nonneg (div_nonneg hc.nonneg (suits_fit h).Ta_pos.le)
        exact_mod_cast this
      have hal : 0 < 2 / ((gains cfg hz).least * (gains cfg hz).T) := by positivity
      unfold Gains.rank at hk
      simp only [hv0, zero_div, Int.ceil_zero, Int.cast_zero, add_zero, hX0] at hk
      have h3 : 2 / ((gains cfg hz).least * (gains cfg hz).T) * (-cfg.stopDist) ≤ 2 / ((gains cfg hz).least * (gains cfg hz).T) * (x m - X N) :=
        mul_le_mul_of_nonneg_left hlow.le hal.le
      have h4 : (N : ℝ) ≤ 2 / ((gains cfg hz).least * (gains cfg hz).T) * (x m - X0 + cfg.stopDist) := by
        rw [mul_add]
        linarith
      refine le_trans h4 (le_of_eq ?_)
      have e1 : (gains cfg hz).T = 1 / hz := rfl
      have e2 : (gains cfg hz).least = min (cfg.acc / hz) (min (Real.sqrt (2 * cfg.stopDist * (cfg.acc * cfg.accTocFactor))) cfg.maxVel) := by
        unfold Gains.least
        change min (1 / hz * cfg.acc) _ = _
        rw [one_div_mul_eq_div]
        rfl
      rw [← e2, e1]
      have := h.rate
      field_simp
    · intro k hk
      obtain ⟨j, rfl⟩ := Nat.exists_eq_add_of_le hk
      obtain ⟨a1, a2⟩ := hafter j
      exact ⟨a1, a2.2, by rw [(one _).2.1]; exact ((one _).2.2.2.2 a2).1, ((one _).2.2.2.2 a2).2⟩

/-- There is such a ride: nothing the node does on the way is undefined. -/
theorem ride_exists (h : Suits cfg hz x m lo hi) {p : ℂ} {φ : ℝ} (hφ : φ ∈ Set.Ioc (-Real.pi) Real.pi) {X0 : ℝ} (h0 : x 0 ≤ X0) (h1 : X0 ≤ x m) :
    ∃ (st : Nat → State) (tf : Nat → Tf) (out : Nat → Out),
      step (start cfg) (.path false (toMsg false (line p φ x (m + 1))) true) = some (st 0, none) ∧ tf 0 = on p φ X0 ∧ Ride hz st tf out := by
  obtain ⟨st0, e0, hh0, -⟩ := received_here h p hφ h0 h1
  have nxt : ∀ s : {s : State × ℝ // Here cfg hz x m hi p φ s.1 s.2}, ∃ s' : {s : State × ℝ // Here cfg hz x m hi p φ s.1 s.2}, ∃ o : Out,
      Tracker.step s.1.1 (.timer true hz (some (on p φ s.1.2)) (some (on p φ s.1.2))) = some (s'.1.1, some o) ∧
      s'.1.2 = s.1.2 + o.cmdV * (1 / hz) ∧ o.cmdW = 0 := by
    rintro ⟨⟨s, X⟩, hs⟩
    obtain ⟨st', o, g1, g2, g3, -⟩ := hs.step h
    exact ⟨⟨(st', X + o.cmdV * (1 / hz)), g2⟩, o, g1, rfl, g3⟩
  choose nx no hn using nxt
  let S : Nat → {s : State × ℝ // Here cfg hz x m hi p φ s.1 s.2} := fun k => Nat.rec ⟨(st0, X0), hh0⟩ (fun _ s => nx s) k
  refine ⟨fun k => (S k).1.1, fun k => on p φ (S k).1.2, fun k => no (S k), e0, rfl, ⟨fun k => (hn (S k)).1, fun k => ?_⟩⟩
  rw [moved_on _ _ _ (hn (S k)).2.2]
  change on p φ (nx (S k)).1.2 = _
  rw [(hn (S k)).2.1]

end Verif.Tracker
