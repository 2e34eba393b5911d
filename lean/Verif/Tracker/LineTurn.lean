import Verif.Tracker.TurnEnd
import Verif.Tracker.Arrive
/-! # A straight path which ends with a turn on the spot -/
namespace Verif.Tracker
open Verif.Path2D Verif.Num Spec
open Verif.Control.Spec (nearest)

variable {cfg : Config} {hz : ℝ} {x : Nat → ℝ} {m : Nat} {lo hi : ℝ} {p : ℂ} {φ φ1 : ℝ}

/-- What a look at the straight part tells. -/
structure SeenTurn (cfg : Config) (e r : ℝ) (res : Result) : Prop where
  turning : res.turning = true ↔ |e| < cfg.stopDist
  vel : res.targetVel = .fin cfg.maxVel
  distance : |res.distance| = |e|
  raw : |res.distanceRaw| = |r|
  angle : res.angle = 0
  angleRaw : res.angleRaw = 0
  follow : ¬ |e| < cfg.stopDist → res.signedLocal = -e ∧ res.distanceFromTarget = 0 ∧ res.curv = 0
  status : res.status = .following

theorem drive_before (h : Suits cfg hz x m lo hi) {v r : ℝ} {res : Result} (hs : SeenTurn cfg (r - cfg.lookForward * v) r res) :
    (Stopping cfg res ↔ (gains cfg hz).Stop v r) ∧
    (¬ (gains cfg hz).Stop v r → drive cfg v 0 res (1 / hz) = ((gains cfg hz).next v r, 0)) := by
  have hs' : Seen cfg (r - cfg.lookForward * v) r { res with distance := r - cfg.lookForward * v, distanceRaw := r, status := .goal } :=
    ⟨hs.turning, hs.vel, rfl, rfl, hs.angle, hs.angleRaw, hs.follow, .inr rfl, fun _ _ => rfl⟩
  obtain ⟨h1, h2⟩ := drive_straight h hs'
  refine ⟨?_, h2⟩
  rw [← h1]
  unfold Stopping
  rw [hs.distance, hs.raw]

theorem lineTurn_local (p : ℂ) (φ : ℝ) (x : Nat → ℝ) (m : Nat) (φ1 X : ℝ) :
    localPath 1 (lineTurn p φ x m φ1) (on p φ X) = ahead x X (m + 1) ++ [{ pos := ((x m - X : ℝ) : ℂ), yaw := -φ + φ1, vel := .nan }] := by
  have h1 := localPath_line p φ x (m + 1) X
  unfold localPath at h1 ⊢
  rw [every_single] at h1 ⊢
  unfold lineTurn
  rw [List.map_append, h1]
  congr 1
  simp only [List.map_cons, List.map_nil]
  congr 2
  unfold on
  simp only
  rw [show p + (x m : ℂ) * dir φ - (p + (X : ℂ) * dir φ) = ((x m - X : ℝ) : ℂ) * dir φ by push_cast; ring, rotate_dir]

theorem ahead_last (x : Nat → ℝ) (X : ℝ) (m : Nat) :
    (ahead x X (m + 1))[(ahead x X (m + 1)).length - 1]? = some { pos := ((x m - X : ℝ) : ℂ), yaw := 0, vel := .nan } := by
  rw [ahead_length, Nat.add_sub_cancel, ahead_get _ _ _ _ (by omega)]

/-- A look at the straight part: what it tells, and how far the robot counts as having come. -/
theorem look_before (h : Suits cfg hz x m lo hi) {st : State} {X : ℝ} (hcfg : st.cfg = cfg) (hmv : st.maxVel = .fin cfg.maxVel)
    (hpath : st.path = lineTurn p φ x m φ1) (hframe : st.frame = true) (hw : st.w = 0) (hv : 0 ≤ st.v)
    (hdone : st.done < m) (hvis : st.done = 0 ∨ st.done + 1 = m ∨ X + cfg.lookForward * st.v + hi ≤ x st.done + 1) :
    ∃ res, getTrackingResult st (some (on p φ X)) 0 0 0 0 = some res ∧ SeenTurn cfg (x m - X - cfg.lookForward * st.v) (x m - X) res ∧
      (|x m - X - cfg.lookForward * st.v| < cfg.stopDist → res.done = m + 1) ∧
      (¬ |x m - X - cfg.lookForward * st.v| < cfg.stopDist →
        res.done < m ∧ (res.done + 1 = m ∨ X + cfg.lookForward * st.v ≤ x res.done + hi)) := by
  have hlo0 : 0 ≤ lo := by linarith [h.apart]
  have hc0 : 0 ≤ cfg.lookForward * st.v := mul_nonneg h.look hv
  have hT : 0 ≤ 1 / hz := (one_div_pos.2 h.rate).le
  have hd1 : 0 ≤ cfg.maxVel * (1 / hz) := mul_nonneg h.vel.le hT
  have hd2 : 0 ≤ cfg.lookForward * cfg.acc * (1 / hz) := mul_nonneg (mul_nonneg h.look h.acc.le) hT
  have hhi0 : 0 ≤ hi := by have := h.spaced 0 h.two; linarith [this.1, this.2]
  have hhi : hi ≤ 1 := by linarith [h.dense]
  obtain ⟨k, a, b, hg0, hab, hb, ha, hk1, hk2, hk3, hk4⟩ := geometry_straight (cfg := cfg) h.eps h.eps_le h.apart h.spaced X
    (cfg.lookForward * st.v) hc0 (.inr hhi) hdone (hvis.imp id (fun h => h.imp id (fun h => by linarith)))
  obtain ⟨r1, r2, hg, hr1, hr2⟩ := geometry_append (q := { pos := ((x m - X : ℝ) : ℂ), yaw := -φ + φ1, vel := .nan }) (ahead_last x X m) rfl
    (by rw [ahead_length]; have := h.two; omega) hg0 (by rw [ahead_length]) (by rw [ahead_length]; exact Nat.lt_succ_of_le hk2)
  simp only at hg hr1 hr2
  have hlp : localPath st.cfg.pathStep st.path (on p φ X) = ahead x X (m + 1) ++ [{ pos := ((x m - X : ℝ) : ℂ), yaw := -φ + φ1, vel := .nan }] := by
    rw [hcfg, h.each, hpath, lineTurn_local]
  have hne : ¬ ((!st.frame) = true ∨ st.path = []) := by
    rw [hframe, hpath]
    rintro (h | h)
    · simp at h
    · simp [lineTurn] at h
  have hlen : length (ahead x X (m + 1) ++ [{ pos := ((x m - X : ℝ) : ℂ), yaw := -φ + φ1, vel := .nan }]) = x m - x 0 := by
    rw [length_append (q := { pos := ((x m - X : ℝ) : ℂ), yaw := -φ + φ1, vel := .nan }) (ahead_last x X m) rfl, ahead_len hlo0 h.spaced X]
  have hsize : (ahead x X (m + 1) ++ [({ pos := ((x m - X : ℝ) : ℂ), yaw := -φ + φ1, vel := .nan } : Pose)]).length = m + 2 := by
    rw [List.length_append, ahead_length]
    rfl
  have hfull : st.path.length = m + 2 := by rw [hpath]; simp [lineTurn, line]
  set geo : Geo :=
      { nearest := k, localGoal := m + 1, prevPose := { pos := (a : ℝ), yaw := 0, vel := .nan },
        nearPose := { pos := (b : ℝ), yaw := 0, vel := .nan },
        goalYaw := 0, remainLocal := x m - X - cfg.lookForward * st.v, remain := r1, remainRaw := r2, curv := 0 } with hgeo
  have hget : getTrackingResult st (some (on p φ X)) 0 0 0 0 = some (decideResult cfg (.fin cfg.maxVel) st.done geo
      (x m - x 0) (m + 2) (m + 2) ((cfg.lookForward * st.v : ℝ) : ℂ) 0 0 0) := by
    unfold getTrackingResult
    rw [if_neg hne]
    simp only
    rw [hlp, lookahead_line hw, hcfg, hg, hlen, hsize, hfull, hmv]
  set e := x m - X - cfg.lookForward * st.v with he
  set len := x m - x 0 with hlen'
  have hvec : vec geo = ((b - a : ℝ) : ℂ) := by
    unfold vec
    rw [hgeo]
    push_cast
    rfl
  have harg : Complex.arg (vec geo) = 0 := by rw [hvec]; exact Complex.arg_ofReal_of_nonneg (by linarith)
  have hback : ¬ Backward cfg geo := by
    unfold Backward
    rw [harg]
    simp [hgeo]
  have hpa : pathAngle cfg geo = 0 := by
    unfold pathAngle
    rw [if_neg hback, harg, neg_zero]
    exact angNorm_id (by linarith [Real.pi_pos]) Real.pi_pos.le
  have hsv : signVel cfg geo = 1 := by unfold signVel; rw [if_neg hback]
  have hip : ¬ InPlace geo := by
    unfold InPlace
    rw [hvec]
    rintro ⟨-, h2⟩
    rw [Complex.ofReal_re] at h2
    linarith
  have hla : ¬ LargeAngle cfg geo := by
    rintro ⟨-, h2⟩
    rw [hpa, Real.cos_zero] at h2
    exact absurd (Real.cos_le_one cfg.rotateAng) (not_le.2 h2)
  have hun : ∀ y, unlessShort cfg len y = y := fun y => by unfold unlessShort; rw [if_neg (not_lt.2 h.long2)]
  have hlvel : linearVel (.fin cfg.maxVel) geo = .fin cfg.maxVel := by unfold linearVel; rw [if_pos rfl]
  have hrot : Rotate cfg geo len ↔ |e| < cfg.stopDist := by
    unfold Rotate
    rw [hun]
    constructor
    · rintro (h1 | h1 | h1 | h1)
      · exact absurd h1 hla
      · exact h1
      · exact absurd h1 (not_lt.2 h.long1)
      · exact absurd h1 hip
    · exact fun h1 => .inr (.inl h1)
  have hderr : distErr geo ((cfg.lookForward * st.v : ℝ) : ℂ) = 0 := lineDistance_line a b _
  have hfar : ¬ |distFromPath geo (m + 2) ((cfg.lookForward * st.v : ℝ) : ℂ)| > cfg.dStop := by
    have hstop : 0 < cfg.stopDist := (suits_fit h).tol_pos
    have hdS : 0 ≤ cfg.dStop := by
      have := mul_nonneg h.look h.vel.le
      linarith [h.far, h.eps]
    unfold distFromPath
    rw [if_neg (show ¬ geo.nearest = 0 by simp only [hgeo]; omega), if_neg (show ¬ geo.nearest + 1 ≥ m + 2 by simp only [hgeo]; omega), hderr,
      abs_zero, gt_iff_lt, not_lt]
    exact hdS
  have hdone' : max st.done (k - 1) = k - 1 := by omega
  have hng : ∀ r : Result, ¬ AtGoal cfg r geo (m + 2) 0 0 := by
    rintro r ⟨-, -, -, -, -, -, h7⟩
    simp only [hgeo] at h7
    omega
  refine ⟨_, hget, ?_⟩
  unfold decideResult
  by_cases ht : |e| < cfg.stopDist
  · rw [if_pos (hrot.2 ht)]
    have hg0' : angNorm (-geo.goalYaw) = 0 := by
      simp only [hgeo, neg_zero]
      exact angNorm_id (by linarith [Real.pi_pos]) Real.pi_pos.le
    set r0 := rotateResult cfg (.fin cfg.maxVel) st.done geo len (m + 2) with hr0
    have hno : ¬ (len < cfg.stopDist ∨ InPlace geo) := by
      rintro (h1 | h1)
      · exact absurd h1 (not_lt.2 h.long3)
      · exact hip h1
    have q1 : r0.turning = true := rfl
    have q2 : r0.targetVel = .fin cfg.maxVel := hlvel
    have q3 : r0.distance = r1 := by
      simp only [hr0, rotateResult]
      rw [if_neg hno, hun]
    have q4 : r0.distanceRaw = r2 := by
      simp only [hr0, rotateResult]
      rw [if_neg hno, hun]
    have q5 : r0.angle = 0 := by
      simp only [hr0, rotateResult]
      rw [hg0', hpa, ite_self]
    have q6 : r0.angleRaw = 0 := rfl
    have q7 : r0.status = .following := rfl
    have q8 : r0.done = m + 1 := by
      simp only [hr0, rotateResult]
      rw [if_pos ⟨.inr (.inl (by rw [hun]; exact ht)), by simp only [hgeo]; omega⟩]
    unfold goalCheck
    rw [if_neg (hng r0)]
    exact ⟨⟨by simp [q1, ht], q2, by rw [q3, hr1], by rw [q4, hr2], q5, q6, fun hh => absurd ht hh, q7⟩, fun _ => q8, fun hh => absurd ht hh⟩
  · rw [if_neg (fun hh => ht (hrot.1 hh)), if_neg hfar]
    set r0 := followResult cfg (.fin cfg.maxVel) st.done geo len ((cfg.lookForward * st.v : ℝ) : ℂ) 0 with hr0
    have q1 : r0.turning = false := rfl
    have q2 : r0.targetVel = .fin cfg.maxVel := hlvel
    have q3 : r0.distance = r1 := hun _
    have q4 : r0.distanceRaw = r2 := hun _
    have q5 : r0.angle = 0 := hpa
    have q6 : r0.angleRaw = 0 := by
      simp only [hr0, followResult]
      rw [hpa, add_zero]
    have q7 : r0.status = .following := rfl
    have q8 : r0.done = k - 1 := hdone'
    have q9 : r0.signedLocal = -e := by
      simp only [hr0, followResult]
      rw [hun, hsv, mul_one]
    have q10 : r0.distanceFromTarget = 0 := by
      simp only [hr0, followResult]
      rw [hderr]
      unfold clipReal
      rw [if_neg (not_lt.2 h.dLim), if_neg (by have := h.dLim; linarith)]
    have q11 : r0.curv = 0 := rfl
    unfold goalCheck
    rw [if_neg (hng r0)]
    refine ⟨⟨by simp [q1, ht], q2, by rw [q3, hr1], by rw [q4, hr2], q5, q6, fun _ => ⟨q9, q10, q11⟩, q7⟩, fun hh => absurd hh ht, fun _ => ?_⟩
    rw [q8]
    refine ⟨by omega, ?_⟩
    rcases hk3 with h3 | h3
    · right
      have := (h.spaced (k - 1) (by omega)).2
      rw [show k - 1 + 1 = k by omega] at this
      linarith
    · left; omega

/-- The robot is on the straight part and can brake, and the node knows where on the path it is. -/
structure Before (cfg : Config) (hz : ℝ) (x : Nat → ℝ) (m : Nat) (hi : ℝ) (p : ℂ) (φ φ1 : ℝ) (st : State) (X : ℝ) : Prop where
  isCfg : st.cfg = cfg
  maxVel : st.maxVel = .fin cfg.maxVel
  path : st.path = lineTurn p φ x m φ1
  frame : st.frame = true
  w : st.w = 0
  speed : (gains cfg hz).Can st.v (x m - X)
  done : st.done < m
  vis : st.done = 0 ∨ st.done + 1 = m ∨ X + cfg.lookForward * st.v + hi ≤ x st.done + 1

/-- The node has come to the turn. -/
abbrev AtTurn (cfg : Config) (x : Nat → ℝ) (m : Nat) (p : ℂ) (φ φ1 : ℝ) (st : State) : Prop :=
  After cfg (line p φ x (m + 1)) { pos := p + x m * dir φ, yaw := φ1, vel := .nan } st

section before
variable {st : State} {X : ℝ}

theorem Before.look (h : Suits cfg hz x m lo hi) (hh : Before cfg hz x m hi p φ φ1 st X) :
    ∃ res, getTrackingResult st (some (on p φ X)) 0 0 0 0 = some res ∧ SeenTurn cfg (x m - X - cfg.lookForward * st.v) (x m - X) res ∧
      (|x m - X - cfg.lookForward * st.v| < cfg.stopDist → res.done = m + 1) ∧
      (¬ |x m - X - cfg.lookForward * st.v| < cfg.stopDist →
        res.done < m ∧ (res.done + 1 = m ∨ X + cfg.lookForward * st.v ≤ x res.done + hi)) :=
  look_before h hh.isCfg hh.maxVel hh.path hh.frame hh.w hh.speed.nonneg hh.done hh.vis

theorem line_length (p : ℂ) (φ : ℝ) (x : Nat → ℝ) (n : Nat) : (line p φ x n).length = n := by simp [line]

theorem line_last (p : ℂ) (φ : ℝ) (x : Nat → ℝ) (m : Nat) :
    (line p φ x (m + 1))[(line p φ x (m + 1)).length - 1]? = some { pos := p + x m * dir φ, yaw := φ, vel := .nan } := by
  rw [line_length, Nat.add_sub_cancel]
  simp [line]

/-- The first look at a new path. -/
theorem Before.first (h : Suits cfg hz x m lo hi) (hh : Before cfg hz x m hi p φ φ1 st X) (hu : st.updated = true) :
    ∃ st1, firstLook st (some (on p φ X)) 0 0 0 0 = some st1 ∧ st1.updated = false ∧ st1.v = st.v ∧ st1.w = 0 ∧
      (|x m - X - cfg.lookForward * st.v| < cfg.stopDist ∧ AtTurn cfg x m p φ φ1 st1 ∨
        ¬ |x m - X - cfg.lookForward * st.v| < cfg.stopDist ∧ Before cfg hz x m hi p φ φ1 st1 X) := by
  obtain ⟨res, h1, -, h2, h3⟩ := hh.look h
  refine ⟨{ st with done := res.done, updated := false }, ?_, rfl, rfl, hh.w, ?_⟩
  · unfold firstLook
    rw [if_pos hu, h1]
    rfl
  · by_cases ht : |x m - X - cfg.lookForward * st.v| < cfg.stopDist
    · refine .inl ⟨ht, hh.isCfg, hh.maxVel, hh.path, hh.frame, hh.speed.nonneg, hh.speed.le, ?_, rfl⟩
      rw [line_length]
      exact h2 ht
    · obtain ⟨h4, h5⟩ := h3 ht
      refine .inr ⟨ht, hh.isCfg, hh.maxVel, hh.path, hh.frame, hh.w, hh.speed, h4, ?_⟩
      rcases h5 with h5 | h5
      · exact .inr (.inl h5)
      · refine .inr (.inr ?_)
        have := dense2 h
        change X + cfg.lookForward * st.v + hi ≤ x res.done + 1
        linarith

/-- One step on the straight part. -/
theorem Before.step (h : Suits cfg hz x m lo hi) (hh : Before cfg hz x m hi p φ φ1 st X) (hu : st.updated = false) :
    ∃ st' o, step st (.timer true hz (some (on p φ X)) (some (on p φ X))) = some (st', some o) ∧ st'.updated = false ∧ o.cmdW = 0 ∧
      o.cmdV = st'.v ∧ st'.w = 0 ∧ o.status = .following ∧ 0 ≤ o.cmdV ∧ o.cmdV ≤ cfg.maxVel ∧
      (¬ |x m - X - cfg.lookForward * st.v| < cfg.stopDist → Before cfg hz x m hi p φ φ1 st' (X + o.cmdV * (1 / hz)) ∧
        st'.v = (gains cfg hz).next st.v (x m - X)) ∧
      (|x m - X - cfg.lookForward * st.v| < cfg.stopDist → AtTurn cfg x m p φ φ1 st' ∧
        (|x m - X| < cfg.stopDist → o.cmdV = 0) ∧
        (¬ |x m - X| < cfg.stopDist → o.cmdV = max 0 (st.v - 1 / hz * cfg.acc) ∧ -cfg.stopDist < x m - (X + o.cmdV * (1 / hz)))) := by
  have hT : 0 ≤ 1 / hz := (one_div_pos.2 h.rate).le
  obtain ⟨res, h1, hs, h2, h3⟩ := hh.look h
  obtain ⟨hstop, hdrive⟩ := drive_before h hs
  have hstatus : ¬ (res.status = .noPath ∨ res.status = .farFromPath) := by
    rw [hs.status]; simp
  have hctl : Tracker.step st (.timer true hz (some (on p φ X)) (some (on p φ X))) =
      some ((command st res (1 / hz)).1, some (command st res (1 / hz)).2) := by
    unfold Tracker.step
    simp only [if_true]
    unfold control firstLook
    rw [hu, if_neg (by simp), Option.bind_some, h1]
    rfl
  refine ⟨_, _, hctl, ?_⟩
  unfold command
  rw [if_neg hstatus, hh.isCfg]
  by_cases ht : |x m - X - cfg.lookForward * st.v| < cfg.stopDist
  · by_cases hr : |x m - X| < cfg.stopDist
    · have hst : (gains cfg hz).Stop st.v (x m - X) := ⟨ht, hr⟩
      rw [if_pos (hstop.2 hst)]
      refine ⟨hu, rfl, rfl, rfl, hs.status, le_rfl, h.vel.le, fun hn => absurd ht hn, fun _ => ⟨⟨rfl, hh.maxVel, hh.path, hh.frame, le_rfl, h.vel.le, ?_, hu⟩,
        fun _ => rfl, fun hn => absurd hr hn⟩⟩
      rw [line_length]
      exact h2 ht
    · have hst : ¬ (gains cfg hz).Stop st.v (x m - X) := fun hc => hr hc.2
      have hnext : (gains cfg hz).next st.v (x m - X) = max 0 (st.v - 1 / hz * cfg.acc) := by
        unfold Gains.next
        rw [if_pos (show |x m - X - (gains cfg hz).L * st.v| < (gains cfg hz).tol from ht), if_neg (show ¬ |x m - X| < (gains cfg hz).tol from hr)]
        have := limSet_brake hh.speed.nonneg h.vel.le h.acc.le hT
        rw [limSet_fin h.vel.le h.acc.le hT] at this
        exact this
      have hlow : -cfg.stopDist < x m - (X + max 0 (st.v - 1 / hz * cfg.acc) * (1 / hz)) := by
        have h5 := can_tol (suits_fit h) (next_step (suits_fit h) hh.speed hst).1
        rw [hnext] at h5
        change -cfg.stopDist + cfg.lookForward * cfg.acc * (1 / hz) < x m - X - max 0 (st.v - 1 / hz * cfg.acc) * (1 / hz) at h5
        have h6 : 0 ≤ cfg.lookForward * cfg.acc * (1 / hz) := mul_nonneg (mul_nonneg h.look h.acc.le) hT
        linarith
      rw [if_neg (fun hc => hst (hstop.1 hc)), hh.w, hdrive hst, hnext]
      have hTa : 0 ≤ 1 / hz * cfg.acc := mul_nonneg hT h.acc.le
      have hle : max 0 (st.v - 1 / hz * cfg.acc) ≤ cfg.maxVel := max_le h.vel.le (by have := hh.speed.le; change st.v ≤ cfg.maxVel at this; linarith)
      refine ⟨hu, rfl, rfl, rfl, hs.status, le_max_left _ _, hle, fun hn => absurd ht hn,
        fun _ => ⟨⟨rfl, hh.maxVel, hh.path, hh.frame, le_max_left _ _, hle, ?_, hu⟩, fun hn => absurd hn hr, fun _ => ⟨rfl, hlow⟩⟩⟩
      rw [line_length]
      exact h2 ht
  · have hst : ¬ (gains cfg hz).Stop st.v (x m - X) := fun hc => ht hc.1
    rw [if_neg (fun hc => hst (hstop.1 hc)), hh.w, hdrive hst]
    obtain ⟨n1, -, n3⟩ := next_step (suits_fit h) hh.speed hst
    obtain ⟨h4, h5⟩ := h3 ht
    set u := (gains cfg hz).next st.v (x m - X) with hud
    have huV : u ≤ cfg.maxVel := n1.le
    refine ⟨hu, rfl, rfl, rfl, hs.status, n1.nonneg, n1.le, fun _ => ⟨⟨rfl, hh.maxVel, hh.path, hh.frame, rfl, ?_, h4, ?_⟩, rfl⟩, fun hn => absurd hn ht⟩
    · have hr' : x m - (X + u * (1 / hz)) = x m - X - u * (gains cfg hz).T := by
        change _ = x m - X - u * (1 / hz)
        ring
      change (gains cfg hz).Can u (x m - (X + u * (1 / hz)))
      rw [hr']
      exact n1
    · rcases h5 with h5 | h5
      · exact .inr (.inl h5)
      · refine .inr (.inr ?_)
        have hd := h.dense
        have e1 : u * (1 / hz) ≤ cfg.maxVel * (1 / hz) := mul_le_mul_of_nonneg_right huV hT
        have n3' : u ≤ st.v + 1 / hz * cfg.acc := n3
        have e2 : cfg.lookForward * u ≤ cfg.lookForward * (st.v + 1 / hz * cfg.acc) := mul_le_mul_of_nonneg_left n3' h.look
        change X + u * (1 / hz) + cfg.lookForward * u + hi ≤ x res.done + 1
        nlinarith

end before

/-- Receiving the path. -/
theorem received_lineTurn (h : Suits cfg hz x m lo hi) (heps : 0 < cfg.epsilon) (p : ℂ) (hφ : φ ∈ Set.Ioc (-Real.pi) Real.pi)
    (hφ1 : φ1 ∈ Set.Ioc (-Real.pi) Real.pi) {X : ℝ} (h1 : X ≤ x m) :
    ∃ st0, step (start cfg) (.path false (toMsg false (lineTurn p φ x m φ1)) true) = some (st0, none) ∧ Before cfg hz x m hi p φ φ1 st0 X ∧
      st0.v = 0 ∧ st0.updated = true := by
  have hid : (toMsg false (lineTurn p φ x m φ1)).map (readPose false) = lineTurn p φ x m φ1 := by
    unfold toMsg
    rw [List.map_map]
    conv_rhs => rw [← List.map_id (lineTurn p φ x m φ1)]
    apply List.map_congr_left
    intro q hq
    have hq' : ∃ P y, y ∈ Set.Ioc (-Real.pi) Real.pi ∧ q = { pos := P, yaw := y, vel := .nan } := by
      rcases List.mem_append.1 hq with hq | hq
      · obtain ⟨i, -, rfl⟩ := List.mem_map.1 hq
        exact ⟨_, _, hφ, rfl⟩
      · rw [List.mem_singleton] at hq
        exact ⟨_, _, hφ1, hq⟩
    obtain ⟨P, y, hy, rfl⟩ := hq'
    simp only [Function.comp, id]
    unfold readPose writePose
    simp only
    rw [read_write_yaw y hy]
    rfl
  have hrec : fromMsg false cfg.epsilon (toMsg false (lineTurn p φ x m φ1)) = lineTurn p φ x m φ1 := by
    unfold fromMsg
    rw [hid]
    apply fromPoses_id
    have key : ∀ n a, a + n = m + 1 → 0 < n → Canon cfg.epsilon (((List.range' a n).map fun i => ({ pos := p + x i * dir φ, yaw := φ, vel := .nan } : Pose)) ++
        [{ pos := p + x m * dir φ, yaw := φ1, vel := .nan }]) := by
      intro n
      induction n with
      | zero => intro a _ h0; omega
      | succ n ih =>
        intro a ha _
        cases n with
        | zero =>
          have : a = m := by omega
          subst this
          refine .turn ?_ rfl
          rw [far_iff heps.le, sub_self, norm_zero]
          exact not_le.2 heps
        | succ n =>
          have := ih (a + 1) (by omega) (by omega)
          simp only [List.range'_succ, List.map_cons, List.cons_append] at this ⊢
          refine .far ?_ this
          rw [far_iff heps.le]
          have hsp := h.spaced a (by omega)
          have hel := h.eps_le
          have e1 : p + (x a : ℂ) * dir φ - (p + (x (a + 1) : ℂ) * dir φ) = ((x a - x (a + 1) : ℝ) : ℂ) * dir φ := by push_cast; ring
          have e2 : ‖dir φ‖ = 1 := by
            have h3 : dir φ = rotatePos 1 φ := by
              unfold dir rotatePos
              apply Complex.ext <;> simp
            rw [h3, norm_rotatePos, norm_one]
          rw [e1, norm_mul, e2, mul_one, norm_real, abs_of_neg (by linarith)]
          linarith
    have := key (m + 1) 0 (by omega) (by omega)
    unfold lineTurn line
    rw [List.range_eq_range']
    exact this
  have hbad : ¬ ∃ q ∈ lineTurn p φ x m φ1, ∃ y : ℝ, q.vel = .fin y ∧ y < 0 := by
    rintro ⟨q, hq, y, hy, -⟩
    rcases List.mem_append.1 hq with hq | hq
    · obtain ⟨i, -, rfl⟩ := List.mem_map.1 hq
      cases hy
    · rw [List.mem_singleton] at hq
      subst hq
      cases hy
  refine ⟨{ start cfg with frame := true, updated := true, done := 0, path := lineTurn p φ x m φ1 }, ?_, ⟨rfl, rfl, rfl, rfl, rfl, ?_, h.two, .inl rfl⟩, rfl, rfl⟩
  · unfold Tracker.step
    simp only
    rw [show (start cfg).cfg = cfg from rfl, hrec, if_neg hbad]
  · refine ⟨le_rfl, h.vel.le, ?_⟩
    have hA := (suits_fit h).A_pos
    have hT := (suits_fit h).T_pos
    have hV := (suits_fit h).V_pos
    have e1 : 0 ≤ 2 * (gains cfg hz).A * (x m - X) := mul_nonneg (by linarith) (by linarith)
    have e2 : 0 ≤ (gains cfg hz).A * (gains cfg hz).T * (gains cfg hz).V := by positivity
    change (0 : ℝ) ^ 2 - (gains cfg hz).A * (gains cfg hz).T * 0 ≤ _
    linarith

/-- A new path is looked at before the step. -/
theorem step_first {st st1 : State} {tf : Tf} (h : firstLook st (some tf) 0 0 0 0 = some st1) (hu : st1.updated = false) (hz : ℝ) :
    step st (.timer true hz (some tf) (some tf)) = step st1 (.timer true hz (some tf) (some tf)) := by
  have h1 : firstLook st1 (some tf) 0 0 0 0 = some st1 := by
    unfold firstLook
    rw [hu, if_neg (by simp)]
  unfold Tracker.step
  simp only [if_true]
  unfold control
  rw [h, h1]

/-- Speed and distance on the straight part. -/
noncomputable def approach (g : Gains) (r0 : ℝ) : Nat → ℝ × ℝ
  | 0 => (0, r0)
  | k + 1 => (g.next (approach g r0 k).1 (approach g r0 k).2, (approach g r0 k).2 - g.next (approach g r0 k).1 (approach g r0 k).2 * g.T)

theorem approach_stops (h : Suits cfg hz x m lo hi) {r0 : ℝ} (hr : 0 ≤ r0) :
    ∃ N : Nat, (gains cfg hz).Stop (approach (gains cfg hz) r0 N).1 (approach (gains cfg hz) r0 N).2 ∧
      (N : ℝ) ≤ 2 * (r0 + cfg.stopDist) * hz / min (cfg.acc / hz) (min (Real.sqrt (2 * cfg.stopDist * (cfg.acc * cfg.accTocFactor))) cfg.maxVel) := by
  have hcan0 : (gains cfg hz).Can (approach (gains cfg hz) r0 0).1 (approach (gains cfg hz) r0 0).2 := by
    refine ⟨le_rfl, h.vel.le, ?_⟩
    have hA := (suits_fit h).A_pos
    have hT := (suits_fit h).T_pos
    have hV := (suits_fit h).V_pos
    have e1 : 0 ≤ 2 * (gains cfg hz).A * r0 := mul_nonneg (by linarith) hr
    have e2 : 0 ≤ (gains cfg hz).A * (gains cfg hz).T * (gains cfg hz).V := by positivity
    change (0 : ℝ) ^ 2 - (gains cfg hz).A * (gains cfg hz).T * 0 ≤ 2 * (gains cfg hz).A * r0 + _
    linarith
  obtain ⟨N, hN, hrank⟩ := stops (suits_fit h) (v := fun k => (approach (gains cfg hz) r0 k).1) (r := fun k => (approach (gains cfg hz) r0 k).2) hcan0
    (fun k _ => rfl) (fun k _ => rfl)
  refine ⟨N, hN, ?_⟩
  obtain ⟨hc, hk⟩ := hrank N le_rfl
  have hl := (suits_fit h).least_pos
  have hTT := (suits_fit h).T_pos
  have hlow := can_tol (suits_fit h) hc
  have hLa : 0 ≤ cfg.lookForward * cfg.acc * (1 / hz) := mul_nonneg (mul_nonneg h.look h.acc.le) (one_div_pos.2 h.rate).le
  change -cfg.stopDist + cfg.lookForward * cfg.acc * (1 / hz) < _ at hlow
  have hceil : (0 : ℝ) ≤ ⌈(approach (gains cfg hz) r0 N).1 / ((gains cfg hz).T * (gains cfg hz).a)⌉ := by
    have : 0 ≤ ⌈(approach (gains cfg hz) r0 N).1 / ((gains cfg hz).T * (gains cfg hz).a)⌉ :=
      Int.ceil_nonneg (div_nonneg hc.nonneg (suits_fit h).Ta_pos.le)
    exact_mod_cast this
  have hal : 0 < 2 / ((gains cfg hz).least * (gains cfg hz).T) := by positivity
  unfold Gains.rank at hk
  rw [show (approach (gains cfg hz) r0 0).1 = 0 from rfl, show (approach (gains cfg hz) r0 0).2 = r0 from rfl, zero_div, Int.ceil_zero, Int.cast_zero,
    add_zero] at hk
  have h3 : 2 / ((gains cfg hz).least * (gains cfg hz).T) * (-cfg.stopDist) ≤ 2 / ((gains cfg hz).least * (gains cfg hz).T) * (approach (gains cfg hz) r0 N).2 :=
    mul_le_mul_of_nonneg_left (by linarith) hal.le
  have h4 : (N : ℝ) ≤ 2 / ((gains cfg hz).least * (gains cfg hz).T) * (r0 + cfg.stopDist) := by
    rw [mul_add]
    linarith
  refine le_trans h4 (le_of_eq ?_)
  have e1 : (gains cfg hz).T = 1 / hz := rfl
  have e2 : (gains cfg hz).least = min (cfg.acc / hz) (min (Real.sqrt (2 * cfg.stopDist * (cfg.acc * cfg.accTocFactor))) cfg.maxVel) := by
    unfold Gains.least
    change min (1 / hz * cfg.acc) _ = _
    rw [one_div_mul_eq_div]
    rfl
  rw [← e2, e1]
  have := h.rate
  field_simp

/-- The node has come to the turn: the robot is on the line, has not turned, and is not far from its end. -/
structure Come (cfg : Config) (x : Nat → ℝ) (m : Nat) (p : ℂ) (φ φ1 X0 : ℝ) (st : State) (tf : Tf) : Prop where
  node : AtTurn cfg x m p φ φ1 st
  w : st.w = 0
  at_ : ∃ X, tf = on p φ X ∧ X0 ≤ X ∧ -cfg.stopDist < x m - X ∧ x m - X < cfg.stopDist + cfg.lookForward * cfg.maxVel

/-- The speed and the distance at the beginning of the turn: the point ahead of the robot has just come within the stop tolerance. -/
def Near (cfg : Config) (hz : ℝ) (x : Nat → ℝ) (m : Nat) (p : ℂ) (φ X0 : ℝ) (st : State) (tf : Tf) : Prop :=
  ∃ j X, tf = on p φ X ∧ |(approach (gains cfg hz) (x m - X0) j).2 - cfg.lookForward * (approach (gains cfg hz) (x m - X0) j).1| < cfg.stopDist ∧
    (∀ i < j, ¬ |(approach (gains cfg hz) (x m - X0) i).2 - cfg.lookForward * (approach (gains cfg hz) (x m - X0) i).1| < cfg.stopDist) ∧
    (approach (gains cfg hz) (x m - X0) j).2 - (approach (gains cfg hz) (x m - X0) j).1 * (1 / hz) ≤ x m - X ∧
    st.v ≤ (approach (gains cfg hz) (x m - X0) j).1

/-- The way along the straight part. -/
theorem comes (h : Suits cfg hz x m lo hi) {X0 : ℝ} (h1 : X0 ≤ x m) {st : Nat → State} {tf : Nat → Tf} {out : Nat → Out} (hr : Ride hz st tf out)
    (hst : (st 0).updated = false) (hv0 : (st 0).v = 0) (hb : Before cfg hz x m hi p φ φ1 (st 0) X0) (htf : tf 0 = on p φ X0) :
    ∃ K : Nat, (K : ℝ) ≤ 2 * (x m - X0 + cfg.stopDist) * hz /
        min (cfg.acc / hz) (min (Real.sqrt (2 * cfg.stopDist * (cfg.acc * cfg.accTocFactor))) cfg.maxVel) + 1 ∧
      Come cfg x m p φ φ1 X0 (st K) (tf K) ∧
      (∀ i < K, (out i).cmdW = 0 ∧ (out i).status = .following ∧ 0 ≤ (out i).cmdV ∧ (out i).cmdV ≤ cfg.maxVel) ∧
      Near cfg hz x m p φ X0 (st K) (tf K) := by
  have hT : 0 ≤ 1 / hz := (one_div_pos.2 h.rate).le
  obtain ⟨N, hN, hNb⟩ := approach_stops h (r0 := x m - X0) (by linarith)
  set ap := approach (gains cfg hz) (x m - X0) with hap
  set Good : Nat → Prop := fun i => (out i).cmdW = 0 ∧ (out i).status = .following ∧ 0 ≤ (out i).cmdV ∧ (out i).cmdV ≤ cfg.maxVel with hGood
  have key : ∀ k, (∃ K ≤ k, Come cfg x m p φ φ1 X0 (st K) (tf K) ∧ (∀ i < K, Good i) ∧ Near cfg hz x m p φ X0 (st K) (tf K)) ∨
      ∃ X, Before cfg hz x m hi p φ φ1 (st k) X ∧ tf k = on p φ X ∧ (st k).updated = false ∧ (st k).v = (ap k).1 ∧ x m - X = (ap k).2 ∧ X0 ≤ X ∧
        (∀ i < k, Good i) ∧ ∀ i < k, ¬ |(ap i).2 - cfg.lookForward * (ap i).1| < cfg.stopDist := by
    intro k
    induction k with
    | zero => exact .inr ⟨X0, hb, htf, hst, hv0, rfl, le_rfl, fun i hi => by omega, fun i hi => by omega⟩
    | succ k ih =>
      rcases ih with ⟨K, hK, hc, hg⟩ | ⟨X, hB, hX, hu, hv, hxr, hX0, hg, hgn⟩
      · exact .inl ⟨K, by omega, hc, hg⟩
      · obtain ⟨st', o, g1, g2, g3, g4, g5, g6, g7, g8, g9, g10⟩ := hB.step h hu
        have hn := hr.node k
        rw [hX, g1] at hn
        have en := Option.some.inj hn
        have es : st' = st (k + 1) := congrArg Prod.fst en
        have eo : o = out k := Option.some.inj (congrArg Prod.snd en)
        subst es eo
        have hgood : ∀ i < k + 1, Good i := by
          intro i hi
          rcases Nat.lt_succ_iff_lt_or_eq.1 hi with hi | rfl
          · exact hg i hi
          · exact ⟨g3, g6, g7, g8⟩
        have hmv : tf (k + 1) = on p φ (X + (out k).cmdV * (1 / hz)) := by
          rw [hr.robot k, hX, moved_on _ _ _ g3]
        have hstep : 0 ≤ (out k).cmdV * (1 / hz) := mul_nonneg g7 hT
        by_cases ht : |x m - X - cfg.lookForward * (st k).v| < cfg.stopDist
        · left
          obtain ⟨q1, q2, q3⟩ := g10 ht
          have hslow : (out k).cmdV ≤ (st k).v := by
            by_cases hc : |x m - X| < cfg.stopDist
            · rw [q2 hc]
              exact hB.speed.nonneg
            · rw [(q3 hc).1]
              have := mul_nonneg hT h.acc.le
              exact max_le hB.speed.nonneg (by linarith)
          refine ⟨k + 1, le_rfl, ⟨q1, g5, X + (out k).cmdV * (1 / hz), hmv, by linarith, ?_, ?_⟩, hgood,
            k, X + (out k).cmdV * (1 / hz), hmv, by rw [← hap, ← hv, ← hxr]; exact ht, hgn, ?_, by rw [← hap, ← hv, ← g4]; exact hslow⟩
          · by_cases hc : |x m - X| < cfg.stopDist
            · rw [q2 hc, zero_mul, add_zero]
              exact (abs_lt.1 hc).1
            · exact (q3 hc).2
          · have e1 := (abs_lt.1 ht).2
            have e2 : cfg.lookForward * (st k).v ≤ cfg.lookForward * cfg.maxVel := mul_le_mul_of_nonneg_left hB.speed.le h.look
            linarith
          · rw [← hap, ← hv, ← hxr]
            have := mul_le_mul_of_nonneg_right hslow hT
            linarith
        · right
          obtain ⟨q1, q2⟩ := g9 ht
          refine ⟨X + (out k).cmdV * (1 / hz), q1, hmv, g2, ?_, ?_, by linarith, hgood, fun i hi => ?_⟩
          · rw [q2, hv, hxr]
            rfl
          · change _ = (ap k).2 - (gains cfg hz).next (ap k).1 (ap k).2 * (1 / hz)
            rw [g4, q2, hv, ← hxr]
            ring
          · rcases Nat.lt_succ_iff_lt_or_eq.1 hi with hi | rfl
            · exact hgn i hi
            · rw [← hv, ← hxr]
              exact ht
  rcases key N with ⟨K, hK, hc, hg⟩ | ⟨X, hB, hX, hu, hv, hxr, hX0, hg⟩
  · refine ⟨K, ?_, hc, hg⟩
    have : (K : ℝ) ≤ N := by exact_mod_cast hK
    linarith
  · rcases key (N + 1) with ⟨K, hK, hc, hg'⟩ | ⟨X', hB', -⟩
    · refine ⟨K, ?_, hc, hg'⟩
      have : (K : ℝ) ≤ N + 1 := by exact_mod_cast hK
      linarith
    · exfalso
      obtain ⟨st', o, g1, -, -, -, -, -, -, -, -, g10⟩ := hB.step h hu
      have hn := hr.node N
      rw [hX, g1] at hn
      have es : st' = st (N + 1) := congrArg Prod.fst (Option.some.inj hn)
      rw [es] at g10
      have ht : |x m - X - cfg.lookForward * (st N).v| < cfg.stopDist := by
        rw [hv, hxr]
        exact hN.1
      have := (g10 ht).1.done
      rw [line_length] at this
      have := hB'.done
      omega

/-- The first look at the path. -/
theorem begins (h : Suits cfg hz x m lo hi) (ht : Turns cfg hz) (hφ : φ ∈ Set.Ioc (-Real.pi) Real.pi) (hφ1 : φ1 ∈ Set.Ioc (-Real.pi) Real.pi)
    {X0 : ℝ} (h1 : X0 ≤ x m) {st : Nat → State} {tf : Nat → Tf} {out : Nat → Out}
    (hst : step (start cfg) (.path false (toMsg false (lineTurn p φ x m φ1)) true) = some (st 0, none)) (htf : tf 0 = on p φ X0) (hr : Ride hz st tf out) :
    ∃ S : Nat → State, Ride hz S tf out ∧ (S 0).updated = false ∧ (S 0).v = 0 ∧ (S 0).w = 0 ∧
      (|x m - X0| < cfg.stopDist ∧ AtTurn cfg x m p φ φ1 (S 0) ∨ ¬ |x m - X0| < cfg.stopDist ∧ Before cfg hz x m hi p φ φ1 (S 0) X0) := by
  obtain ⟨st0, e0, hb, hv, hu⟩ := received_lineTurn h ht.eps p hφ hφ1 h1
  have est : st0 = st 0 := by rw [hst] at e0; exact (congrArg Prod.fst (Option.some.inj e0)).symm
  subst est
  obtain ⟨st1, f1, f2, f3, f4, f5⟩ := hb.first h hu
  rw [hv, mul_zero, sub_zero] at f5
  refine ⟨fun k => if k = 0 then st1 else st k, ⟨fun k => ?_, hr.robot⟩, f2, f3.trans hv, f4, f5⟩
  have hk := hr.node k
  rw [if_neg (by omega : ¬ k + 1 = 0)]
  rcases Nat.eq_zero_or_pos k with rfl | hkp
  · rw [if_pos rfl, ← hk, htf]
    exact (step_first f1 f2 hz).symm
  · rw [if_neg (by omega)]
    exact hk

theorem norm_dir (φ : ℝ) : ‖dir φ‖ = 1 := by
  have h3 : dir φ = rotatePos 1 φ := by
    unfold dir rotatePos
    apply Complex.ext <;> simp
  rw [h3, norm_rotatePos, norm_one]

theorem on_end (p : ℂ) (φ X Y : ℝ) : ‖(on p φ X).pos - (p + Y * dir φ)‖ = |Y - X| := by
  change ‖p + (X : ℂ) * dir φ - (p + Y * dir φ)‖ = _
  have e1 : p + (X : ℂ) * dir φ - (p + (Y : ℂ) * dir φ) = ((X - Y : ℝ) : ℂ) * dir φ := by push_cast; ring
  rw [e1, norm_mul, norm_dir, mul_one, norm_real, abs_sub_comm]

/-- **Arrival with a turn.**  A robot at rest on a straight path, looking along it, which receives this path with a turn on the spot at its end and
executes the commands of the node: it drives along the path without turning, starts the turn after a bounded number of steps, then turns the shorter
way only and not faster than allowed, and after a further bounded number of steps it stands still within the stop tolerance of the heading asked for,
and the node reports the goal from then on.  The place where it stands is within the stop tolerance, the way looked ahead and the braking distance of
the end of the path: the node does not correct the position any more once it has begun the turn. -/
theorem arrives_and_turns (h : Suits cfg hz x m lo hi) (ht : Turns cfg hz) (hφ : φ ∈ Set.Ioc (-Real.pi) Real.pi) (hφ1 : φ1 ∈ Set.Ioc (-Real.pi) Real.pi)
    {X0 : ℝ} (h1 : X0 ≤ x m) {st : Nat → State} {tf : Nat → Tf} {out : Nat → Out}
    (hst : step (start cfg) (.path false (toMsg false (lineTurn p φ x m φ1)) true) = some (st 0, none)) (htf : tf 0 = on p φ X0) (hr : Ride hz st tf out) :
    (∀ k, 0 ≤ (out k).cmdV ∧ (out k).cmdV ≤ cfg.maxVel ∧ ((out k).status = .following ∨ (out k).status = .goal)) ∧
    ∃ K : Nat, (K : ℝ) ≤ 2 * (x m - X0 + cfg.stopDist) * hz /
        min (cfg.acc / hz) (min (Real.sqrt (2 * cfg.stopDist * (cfg.acc * cfg.accTocFactor))) cfg.maxVel) + 1 ∧
      (∀ k < K, (out k).cmdW = 0 ∧ (out k).status = .following) ∧
      (∃ X, X0 ≤ X ∧ tf K = on p φ X ∧ -cfg.stopDist < x m - X ∧ x m - X < cfg.stopDist + cfg.lookForward * cfg.maxVel) ∧
      ∃ d s, Control.Spec.IsNormal Real.pi (φ1 - φ) d ∧ (s = 1 ∨ s = -1) ∧ d = s * |d| ∧
        (∀ k, K ≤ k → 0 ≤ s * (out k).cmdW ∧ s * (out k).cmdW ≤ cfg.maxAngVel ∧ s * ((tf k).yaw - φ) < |d| + cfg.stopAng) ∧
        ∃ N : Nat, (N : ℝ) ≤ K + 2 * (|d| + cfg.stopAng) * hz /
            min (cfg.angAcc / hz) (min (Real.sqrt (cfg.stopAng * (cfg.angAcc * cfg.angAccTocFactor))) cfg.maxAngVel) ∧
          ∀ k, N ≤ k → tf k = tf N ∧ (∃ j : Int, |(tf k).yaw - (φ1 + j * (2 * Real.pi))| < cfg.stopAng) ∧
            ‖(tf k).pos - (p + x m * dir φ)‖ < cfg.stopDist + cfg.lookForward * cfg.maxVel + cfg.maxVel ^ 2 / (2 * cfg.acc) ∧
            (out k).cmdV = 0 ∧ (out k).cmdW = 0 ∧ (out k).status = .goal := by
  obtain ⟨S, hride, f2, f3, f4, f5⟩ := begins h ht hφ hφ1 h1 hst htf hr
  have htol : 0 < cfg.stopDist := (suits_fit h).tol_pos
  have hLV : 0 ≤ cfg.lookForward * cfg.maxVel := mul_nonneg h.look h.vel.le
  have hcome : ∃ K : Nat, (K : ℝ) ≤ 2 * (x m - X0 + cfg.stopDist) * hz /
        min (cfg.acc / hz) (min (Real.sqrt (2 * cfg.stopDist * (cfg.acc * cfg.accTocFactor))) cfg.maxVel) + 1 ∧
      Come cfg x m p φ φ1 X0 (S K) (tf K) ∧
      ∀ i < K, (out i).cmdW = 0 ∧ (out i).status = .following ∧ 0 ≤ (out i).cmdV ∧ (out i).cmdV ≤ cfg.maxVel := by
    rcases f5 with ⟨c1, c2⟩ | ⟨-, c2⟩
    · refine ⟨0, ?_, ⟨c2, f4, X0, htf, le_rfl, ?_, ?_⟩, fun i hi => by omega⟩
      · have hrate := h.rate
        have e1 : 0 ≤ min (cfg.acc / hz) (min (Real.sqrt (2 * cfg.stopDist * (cfg.acc * cfg.accTocFactor))) cfg.maxVel) :=
          le_min (div_nonneg h.acc.le hrate.le) (le_min (Real.sqrt_nonneg _) h.vel.le)
        have e2 : 0 ≤ 2 * (x m - X0 + cfg.stopDist) * hz := mul_nonneg (by linarith) hrate.le
        have := div_nonneg e2 e1
        push_cast
        linarith
      · linarith
      · linarith [(abs_lt.1 c1).2]
    · obtain ⟨K, k1, k2, k3, -⟩ := comes h h1 hride f2 f3 c2 htf
      exact ⟨K, k1, k2, k3⟩
  obtain ⟨K, hK, hc, hbefore⟩ := hcome
  obtain ⟨X, hX1, hX2, hX3, hX4⟩ := hc.at_
  have hshift : Ride hz (fun k => S (K + k)) (fun k => tf (K + k)) (fun k => out (K + k)) :=
    ⟨fun k => hride.node (K + k), fun k => hride.robot (K + k)⟩
  obtain ⟨a1, d, s, a2, a3, a4, a5, N, a6, a7⟩ := after_ends (q := { pos := p + x m * dir φ, yaw := φ1, vel := .nan }) ht h.acc
    (line_last p φ x m) rfl rfl (st := fun k => S (K + k)) (tf := fun k => tf (K + k))
    (out := fun k => out (K + k)) hc.node hc.w hshift
  simp only [Nat.add_zero] at a1 a2 a5 a7
  have hyawK : (tf K).yaw = φ := by rw [hX1]; rfl
  rw [hyawK] at a2
  have hvK : (S K).v ≤ cfg.maxVel := hc.node.le
  have hend : ‖(tf K).pos - (p + x m * dir φ)‖ = |x m - X| := by rw [hX1, on_end]
  refine ⟨fun k => ?_, K, hK, fun k hk => ⟨(hbefore k hk).1, (hbefore k hk).2.1⟩, ⟨X, hX2, hX1, hX3, hX4⟩, d, s, a2, a3, a4, fun k hk => ?_, K + N, ?_, ?_⟩
  · rcases Nat.lt_or_ge k K with hk | hk
    · exact ⟨(hbefore k hk).2.2.1, (hbefore k hk).2.2.2, .inl (hbefore k hk).2.1⟩
    · obtain ⟨j, rfl⟩ := Nat.exists_eq_add_of_le hk
      exact ⟨(a1 j).1, (a1 j).2.1.trans hvK, (a1 j).2.2.1⟩
  · obtain ⟨j, rfl⟩ := Nat.exists_eq_add_of_le hk
    have := a5 j
    rw [hyawK] at this
    exact this
  · push_cast
    linarith
  · intro k hk
    obtain ⟨j, rfl⟩ := Nat.exists_eq_add_of_le (show K ≤ k by omega)
    obtain ⟨b1, b2, b3, b4, b5⟩ := a7 j (by omega)
    refine ⟨b1, b2, ?_, b3, b4, b5⟩
    have e1 := (a1 j).2.2.2 (p + x m * dir φ)
    rw [hend] at e1
    have e2 : |x m - X| < cfg.stopDist + cfg.lookForward * cfg.maxVel := by
      rw [abs_lt]
      exact ⟨by linarith, hX4⟩
    have e3 : (S K).v ^ 2 / (2 * cfg.acc) ≤ cfg.maxVel ^ 2 / (2 * cfg.acc) := by
      have := h.acc
      have := hc.node.nonneg
      gcongr
    linarith

end Verif.Tracker
