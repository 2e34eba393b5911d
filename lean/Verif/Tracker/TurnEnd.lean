import Verif.Tracker.Append
/-! # The turn on the spot at the end of a path, for a robot which may still roll -/
namespace Verif.Tracker
open Verif.Path2D Verif.Num Spec
open Verif.Control.Spec (nearest)

variable {cfg : Config} {hz : ℝ} {P : List Pose} {q l : Pose}

/-- The node has come to the turn `q` at the end of the path. -/
structure After (cfg : Config) (P : List Pose) (q : Pose) (st : State) : Prop where
  isCfg : st.cfg = cfg
  maxVel : st.maxVel = .fin cfg.maxVel
  path : st.path = P ++ [q]
  frame : st.frame = true
  nonneg : 0 ≤ st.v
  le : st.v ≤ cfg.maxVel
  done : st.done = P.length
  upd : st.updated = false

theorem after_look (h : Turns cfg hz) (hl : P[P.length - 1]? = some l) (hq : l.pos = q.pos) (hv : q.vel = .nan) {st : State} (ha : After cfg P q st)
    (tf : Tf) :
    ∃ res, getTrackingResult st (some tf) 0 0 0 0 = some res ∧ res.turning = true ∧ res.targetVel = .fin cfg.maxVel ∧ res.distance = 0 ∧
      res.distanceRaw = 0 ∧ res.angle = angNorm (tf.yaw - q.yaw) ∧ res.angleRaw = 0 ∧ res.done = P.length ∧
      (res.status = .following ∨ res.status = .goal) ∧ (|angNorm (tf.yaw - q.yaw)| < cfg.stopAng → res.status = .goal) := by
  have hP : 1 ≤ P.length := by
    cases P with
    | nil => simp at hl
    | cons a P => simp
  set f : Pose → Pose := fun p => { pos := rotatePos (p.pos - tf.pos) (-tf.yaw), yaw := -tf.yaw + p.yaw, vel := p.vel } with hf
  have hlp : localPath st.cfg.pathStep st.path tf = P.map f ++ [f q] := by
    rw [ha.isCfg, h.each, ha.path]
    unfold localPath
    rw [every_single, List.map_append]
    rfl
  have hlen : (P.map f).length = P.length := List.length_map _
  have hl' : (P.map f)[(P.map f).length - 1]? = some (f l) := by
    rw [hlen, List.getElem?_map, hl]
    rfl
  have hq' : (f l).pos = (f q).pos := by simp only [hf, hq]
  obtain ⟨geo, hg, g1, g2, g3, g4, g5⟩ := geometry_turn cfg hl' hq' (by omega) (lookahead st) 0
  rw [hlen] at hg g1 g2
  have hne : ¬ ((!st.frame) = true ∨ st.path = []) := by
    rw [ha.frame, ha.path]
    rintro (h | h)
    · simp at h
    · simp at h
  have hip := inPlace_of g3
  have hsize : (P.map f ++ [f q]).length = P.length + 1 := by simp
  have hlook : getTrackingResult st (some tf) 0 0 0 0 = some (goalCheck cfg (rotateResult cfg (.fin cfg.maxVel) st.done geo
      (length (P.map f ++ [f q])) (P.length + 1)) geo (P.length + 1) 0 0) := by
    unfold getTrackingResult
    rw [if_neg hne]
    simp only
    rw [hlp, ha.isCfg, ha.done, hg]
    simp only
    unfold decideResult
    rw [if_pos (.inr (.inr (.inr hip))), ha.maxVel, hsize]
  set len := length (P.map f ++ [f q])
  have hto : ToGoal cfg geo len := .inr (.inr hip)
  set r0 := rotateResult cfg (.fin cfg.maxVel) st.done geo len (P.length + 1) with hr0
  have q1 : r0.turning = true := rfl
  have q2 : r0.targetVel = .fin cfg.maxVel := by
    simp only [hr0, rotateResult]
    unfold linearVel
    rw [if_pos (by rw [g4]; exact hv)]
  have q3 : r0.distance = 0 := by
    simp only [hr0, rotateResult]
    rw [if_pos (.inr hip)]
  have q4 : r0.distanceRaw = 0 := by
    simp only [hr0, rotateResult]
    rw [if_pos (.inr hip)]
  have q5 : r0.angle = angNorm (tf.yaw - q.yaw) := by
    simp only [hr0, rotateResult]
    rw [if_pos hto, g5]
    congr 1
    simp only [hf]
    ring
  have q6 : r0.angleRaw = 0 := rfl
  have q7 : r0.status = .following := rfl
  have q8 : r0.done = P.length := by
    simp only [hr0, rotateResult]
    rw [if_neg (fun hh => hh.2 g2), ha.done, g1]
    omega
  refine ⟨_, hlook, ?_⟩
  unfold goalCheck
  split
  · exact ⟨q1, q2, q3, q4, q5, q6, q8, .inr rfl, fun _ => rfl⟩
  · rename_i hng
    refine ⟨q1, q2, q3, q4, q5, q6, q8, .inl q7, fun ha => absurd ?_ hng⟩
    have hsp : 0 < cfg.goalAng := lt_of_lt_of_le (lt_of_le_of_lt (abs_nonneg _) ha) h.goal
    unfold AtGoal
    rw [q3, q4, q5, q6, abs_zero]
    refine ⟨h.goalDist, lt_of_lt_of_le ha h.goal, h.goalDist, hsp, ?_, ?_, g2⟩
    · rcases h.goalLinVel.lt_or_eq with h | h
      · exact .inr h
      · exact .inl h.symm
    · rcases h.goalAngVel.lt_or_eq with h | h
      · exact .inr h
      · exact .inl h.symm

/-- Braking. -/
theorem limSet_brake {v V a T : ℝ} (h0 : 0 ≤ v) (hV : 0 ≤ V) (ha : 0 ≤ a) (hT : 0 ≤ T) :
    limSet v (.fin 0) (.fin V) a T = max 0 (v - T * a) := by
  rw [limSet_fin hV ha hT]
  have := mul_nonneg hT ha
  unfold nearest
  rw [min_eq_right hV, max_eq_right (show -V ≤ 0 by linarith), min_eq_right (by linarith), max_comm]

theorem brake_drive (h : Turns cfg hz) {v w : ℝ} (hv0 : 0 ≤ v) {res : Result} (h1 : res.turning = true) (h2 : res.targetVel = .fin cfg.maxVel) :
    drive cfg v w res (1 / hz) = (max 0 (v - 1 / hz * cfg.acc), (drive cfg 0 w res (1 / hz)).2) := by
  have hT : 0 ≤ 1 / hz := (one_div_pos.2 h.rate).le
  unfold drive
  rw [if_pos h1, if_pos h1, h2, limSet_brake hv0 h.vel h.acc hT]

/-- One step of the node. -/
theorem after_step (h : Turns cfg hz) (hl : P[P.length - 1]? = some l) (hq : l.pos = q.pos) (hv : q.vel = .nan) {st : State} (ha : After cfg P q st)
    {s v r : ℝ} (hsg : s = 1 ∨ s = -1) (hw : st.w = s * v) (tf : Tf) (hr : angNorm (tf.yaw - q.yaw) = -(s * r)) :
    ∃ st' o, step st (.timer true hz (some tf) (some tf)) = some (st', some o) ∧ After cfg P q st' ∧ st'.w = o.cmdW ∧ st'.v = o.cmdV ∧
      (o.status = .following ∨ o.status = .goal) ∧
      (¬ |r| < cfg.stopAng → o.cmdW = s * (turnGains cfg hz).turn v r ∧ o.cmdV = max 0 (st.v - 1 / hz * cfg.acc)) ∧
      (|r| < cfg.stopAng → o.cmdW = 0 ∧ o.cmdV = 0 ∧ o.status = .goal) := by
  obtain ⟨res, h1, a1, a2, a3, a4, a5, a6, a7, a8, a9⟩ := after_look h hl hq hv ha tf
  have habs : |s * r| = |r| := by rcases hsg with rfl | rfl <;> simp
  have hstatus : ¬ (res.status = .noPath ∨ res.status = .farFromPath) := by
    rcases a8 with hst | hst <;> rw [hst] <;> simp
  have hstop : Stopping cfg res ↔ |r| < cfg.stopAng := by
    unfold Stopping
    rw [a3, a4, a5, a6, hr, abs_neg, habs, abs_zero]
    constructor
    · exact fun hh => hh.2.1
    · exact fun hh => ⟨h.stopDist, hh, h.stopDist, lt_of_le_of_lt (abs_nonneg _) hh⟩
  have hctl : Tracker.step st (.timer true hz (some tf) (some tf)) = some ((command st res (1 / hz)).1, some (command st res (1 / hz)).2) := by
    unfold Tracker.step
    simp only [if_true]
    unfold control firstLook
    rw [ha.upd, if_neg (by simp), Option.bind_some, h1]
    rfl
  refine ⟨_, _, hctl, ?_⟩
  unfold command
  rw [if_neg hstatus, ha.isCfg]
  by_cases hst : |r| < cfg.stopAng
  · rw [if_pos (hstop.2 hst)]
    exact ⟨⟨rfl, ha.maxVel, ha.path, ha.frame, le_rfl, h.vel, a7, ha.upd⟩, rfl, rfl, a8, fun hn => absurd hst hn,
      fun _ => ⟨rfl, rfl, a9 (by rwa [hr, abs_neg, habs])⟩⟩
  · rw [if_neg (fun hc => hst (hstop.1 hc)), brake_drive h ha.nonneg a1 a2, hw, turn_drive h hsg a1 a2 (a5.trans hr) hst]
    have hTa : 0 ≤ 1 / hz * cfg.acc := mul_nonneg (one_div_pos.2 h.rate).le h.acc
    refine ⟨⟨rfl, ha.maxVel, ha.path, ha.frame, le_max_left _ _, max_le h.vel (by linarith [ha.le]), a7, ha.upd⟩, rfl, rfl, a8, fun _ => ⟨rfl, rfl⟩,
      fun hn => absurd hn hst⟩

/-- The node and the robot while the robot turns: `d` is the angle to turn by, `s` its sign, `Θ0` the heading at the beginning. -/
structure Ending (cfg : Config) (hz : ℝ) (P : List Pose) (q : Pose) (d s Θ0 : ℝ) (st : State) (tf : Tf) : Prop where
  node : After cfg P q st
  norm : angNorm (tf.yaw - q.yaw) = -(s * (|d| - s * (tf.yaw - Θ0)))
  speed : (turnGains cfg hz).Can (s * st.w) (|d| - s * (tf.yaw - Θ0)) ∨ st.w = 0 ∧ |(|d| - s * (tf.yaw - Θ0))| < cfg.stopAng

theorem Ending.step (h : Turns cfg hz) (hl : P[P.length - 1]? = some l) (hq : l.pos = q.pos) (hv : q.vel = .nan) {d s Θ0 : ℝ}
    (hsg : s = 1 ∨ s = -1) (hd : d = s * |d|) (hn : ∃ j : Int, Θ0 - q.yaw = -d + j * (2 * Real.pi))
    {st : State} {tf : Tf} (ht : Ending cfg hz P q d s Θ0 st tf) :
    ∃ st' o, step st (.timer true hz (some tf) (some tf)) = some (st', some o) ∧ Ending cfg hz P q d s Θ0 st' (moved tf o (1 / hz)) ∧
      st'.w = o.cmdW ∧ st'.v = o.cmdV ∧ (o.status = .following ∨ o.status = .goal) ∧
      (¬ |(|d| - s * (tf.yaw - Θ0))| < cfg.stopAng → o.cmdW = s * (turnGains cfg hz).turn (s * st.w) (|d| - s * (tf.yaw - Θ0)) ∧
        o.cmdV = max 0 (st.v - 1 / hz * cfg.acc)) ∧
      (|(|d| - s * (tf.yaw - Θ0))| < cfg.stopAng → o.cmdW = 0 ∧ o.cmdV = 0 ∧ o.status = .goal) := by
  have hss : s * s = 1 := by rcases hsg with rfl | rfl <;> norm_num
  have hT : 0 < 1 / hz := one_div_pos.2 h.rate
  set r := |d| - s * (tf.yaw - Θ0) with hr
  obtain ⟨st', o, g1, g2, g3, g4, g5, g6, g7⟩ := after_step h hl hq hv ht.node hsg (v := s * st.w) (r := r) (by linear_combination (-st.w) * hss) tf ht.norm
  refine ⟨st', o, g1, ?_, g3, g4, g5, g6, g7⟩
  have hyaw : (moved tf o (1 / hz)).yaw = tf.yaw + o.cmdW * (1 / hz) := rfl
  by_cases hst : |r| < cfg.stopAng
  · obtain ⟨e1, -⟩ := g7 hst
    have hy : (moved tf o (1 / hz)).yaw = tf.yaw := by rw [hyaw, e1, zero_mul, add_zero]
    refine ⟨g2, by rw [hy]; exact ht.norm, .inr ⟨by rw [g3, e1], by rw [hy]; exact hst⟩⟩
  · have hcan : (turnGains cfg hz).Can (s * st.w) r := by
      rcases ht.speed with hc | hc
      · exact hc
      · exact absurd hc.2 hst
    obtain ⟨n1, -, n3⟩ := turn_step (turns_fit h) hcan hst
    have e1 := (g6 hst).1
    set u := (turnGains cfg hz).turn (s * st.w) r with hu
    have e2 : |d| - s * (tf.yaw + o.cmdW * (1 / hz) - Θ0) = r - u * (turnGains cfg hz).T := by
      rw [e1, hr]
      change _ = |d| - s * (tf.yaw - Θ0) - u * (1 / hz)
      linear_combination (-u * (1 / hz)) * hss
    have e3 : s * st'.w = u := by rw [g3, e1]; linear_combination u * hss
    refine ⟨g2, ?_, .inl ?_⟩
    · rw [hyaw, e2]
      have hlow := turn_tol (turns_fit h) n1
      have hup : |r| ≤ Real.pi := by
        obtain ⟨-, b1, b2⟩ := angNorm_spec (tf.yaw - q.yaw)
        rw [ht.norm] at b1 b2
        have : |s * r| = |r| := by rcases hsg with rfl | rfl <;> simp
        rw [← this, abs_le]
        exact ⟨by linarith, by linarith⟩
      have hlow' : -cfg.stopAng < r - u * (turnGains cfg hz).T := hlow
      have hpos : 0 < u * (turnGains cfg hz).T := mul_pos n3 hT
      apply angNorm_eq
      · obtain ⟨j, hj⟩ := hn
        refine ⟨j, ?_⟩
        rw [← e2]
        linear_combination hj - hd + (tf.yaw + o.cmdW * (1 / hz) - Θ0) * (-hss)
      · have habs : |(-(s * (r - u * (turnGains cfg hz).T)))| = |r - u * (turnGains cfg hz).T| := by
          rw [abs_neg, abs_mul, show |s| = 1 by rcases hsg with h | h <;> rw [h] <;> simp, one_mul]
        rw [habs, abs_lt]
        have := h.stopAng
        have := le_abs_self r
        exact ⟨by linarith, by linarith⟩
    · rw [hyaw, e2, e3]
      exact n1

theorem ending_start (h : Turns cfg hz) {st : State} (ha : After cfg P q st) (hw : st.w = 0) (tf : Tf) :
    ∃ d s, Control.Spec.IsNormal Real.pi (q.yaw - tf.yaw) d ∧ (s = 1 ∨ s = -1) ∧ d = s * |d| ∧ (∃ j : Int, tf.yaw - q.yaw = -d + j * (2 * Real.pi)) ∧
      Ending cfg hz P q d s tf.yaw st tf := by
  obtain ⟨⟨j, hj⟩, h1, h2⟩ := angNorm_spec (tf.yaw - q.yaw)
  set b := angNorm (tf.yaw - q.yaw) with hb
  obtain ⟨s, hs1, hs2⟩ : ∃ s : ℝ, (s = 1 ∨ s = -1) ∧ -b = s * |(-b)| := by
    rcases le_total 0 (-b) with hh | hh
    · exact ⟨1, .inl rfl, by rw [abs_of_nonneg hh]; ring⟩
    · exact ⟨-1, .inr rfl, by rw [abs_of_nonpos hh]; ring⟩
  refine ⟨-b, s, ⟨⟨-j, by rw [hj]; push_cast; ring⟩, by linarith, by linarith⟩, hs1, hs2, ⟨-j, by rw [hj]; push_cast; ring⟩, ha, ?_, .inl ?_⟩
  · rw [sub_self, mul_zero, sub_zero, ← hs2, neg_neg]
  · rw [hw, mul_zero, sub_self, mul_zero, sub_zero]
    have hg := turns_fit h
    refine ⟨le_rfl, hg.V_pos.le, ?_⟩
    have hA := hg.A_pos
    have hT := hg.T_pos
    have hV := hg.V_pos
    have e1 : 0 ≤ 2 * (turnGains cfg hz).A * |(-b)| := by positivity
    have e2 : 0 ≤ (turnGains cfg hz).A * (turnGains cfg hz).T * (turnGains cfg hz).V := by positivity
    linarith

theorem norm_rotatePos (z : ℂ) (θ : ℝ) : ‖rotatePos z θ‖ = ‖z‖ := by
  have h1 : Complex.normSq (rotatePos z θ) = Complex.normSq z := by
    unfold rotatePos
    simp only [Complex.normSq_apply]
    have := Real.sin_sq_add_cos_sq θ
    linear_combination (z.re * z.re + z.im * z.im) * this
  rw [Complex.normSq_eq_norm_sq, Complex.normSq_eq_norm_sq] at h1
  exact (pow_left_inj₀ (norm_nonneg _) (norm_nonneg _) two_ne_zero).1 h1

/-- The way of a braking robot is at most `v ^ 2 / (2 * a)`. -/
theorem brake_way {a T v u : ℝ} (ha : 0 < a) (hT : 0 ≤ T) (hv : 0 ≤ v) (hu : u = 0 ∨ u = max 0 (v - T * a)) :
    0 ≤ u ∧ u ≤ v ∧ u * T + u ^ 2 / (2 * a) ≤ v ^ 2 / (2 * a) := by
  have hTa : 0 ≤ T * a := mul_nonneg hT ha.le
  have h0 : ∀ y : ℝ, 0 ≤ y ^ 2 / (2 * a) := fun y => by positivity
  have hz : u = 0 → 0 ≤ u ∧ u ≤ v ∧ u * T + u ^ 2 / (2 * a) ≤ v ^ 2 / (2 * a) := by
    rintro rfl
    refine ⟨le_rfl, hv, ?_⟩
    have := h0 v
    simpa using this
  rcases hu with h | h
  · exact hz h
  · rcases le_total (v - T * a) 0 with hc | hc
    · rw [max_eq_left hc] at h
      exact hz h
    · rw [max_eq_right hc] at h
      refine ⟨by linarith, by linarith, ?_⟩
      rw [← sub_nonneg]
      have : v ^ 2 / (2 * a) - (u * T + u ^ 2 / (2 * a)) = T ^ 2 * a / 2 := by
        rw [h]
        field_simp
        ring
      rw [this]
      positivity

/-- **The turn at the end.**  Whatever the path is, once the node has come to the turn on the spot at its end, the robot stops rolling, turns the
shorter way only and not faster than allowed, and after a number of steps which is bounded in terms of the angle it stands still within the stop
tolerance of the heading asked for, and the node reports the goal from then on.  It comes to rest within its braking distance. -/
theorem after_ends (h : Turns cfg hz) (hacc : 0 < cfg.acc) (hl : P[P.length - 1]? = some l) (hq : l.pos = q.pos) (hv : q.vel = .nan)
    {st : Nat → State} {tf : Nat → Tf} {out : Nat → Out} (ha : After cfg P q (st 0)) (hw0 : (st 0).w = 0) (hr : Ride hz st tf out) :
    (∀ k, 0 ≤ (out k).cmdV ∧ (out k).cmdV ≤ (st 0).v ∧ ((out k).status = .following ∨ (out k).status = .goal) ∧
      ∀ c, ‖(tf k).pos - c‖ ≤ ‖(tf 0).pos - c‖ + (st 0).v ^ 2 / (2 * cfg.acc) ∧
        ‖(tf 0).pos - c‖ - (st 0).v ^ 2 / (2 * cfg.acc) ≤ ‖(tf k).pos - c‖) ∧
    ∃ d s, Control.Spec.IsNormal Real.pi (q.yaw - (tf 0).yaw) d ∧ (s = 1 ∨ s = -1) ∧ d = s * |d| ∧
      (∀ k, 0 ≤ s * (out k).cmdW ∧ s * (out k).cmdW ≤ cfg.maxAngVel ∧ s * ((tf k).yaw - (tf 0).yaw) < |d| + cfg.stopAng) ∧
      ∃ N : Nat, (N : ℝ) ≤ 2 * (|d| + cfg.stopAng) * hz /
          min (cfg.angAcc / hz) (min (Real.sqrt (cfg.stopAng * (cfg.angAcc * cfg.angAccTocFactor))) cfg.maxAngVel) ∧
        ∀ k, N ≤ k → tf k = tf N ∧ (∃ j : Int, |(tf k).yaw - (q.yaw + j * (2 * Real.pi))| < cfg.stopAng) ∧ (out k).cmdV = 0 ∧ (out k).cmdW = 0 ∧
          (out k).status = .goal := by
  have hT : 0 < 1 / hz := one_div_pos.2 h.rate
  obtain ⟨d, s, hdn, hsg, hds, hj, ht0⟩ := ending_start h ha hw0 (tf 0)
  have hss : s * s = 1 := by rcases hsg with rfl | rfl <;> norm_num
  set Θ := (tf 0).yaw with hΘ
  set r : Nat → ℝ := fun k => |d| - s * ((tf k).yaw - Θ) with hrd
  have key : ∀ k, Ending cfg hz P q d s Θ (st k) (tf k) := by
    intro k
    induction k with
    | zero => exact ht0
    | succ k ih =>
      obtain ⟨st', o, g1, g2, -⟩ := ih.step h hl hq hv hsg hds hj
      have := hr.node k
      rw [g1] at this
      cases this
      rw [hr.robot k]
      exact g2
  have one : ∀ k, (st (k + 1)).w = (out k).cmdW ∧ (st (k + 1)).v = (out k).cmdV ∧ ((out k).status = .following ∨ (out k).status = .goal) ∧
      (¬ |r k| < cfg.stopAng → (out k).cmdW = s * (turnGains cfg hz).turn (s * (st k).w) (r k) ∧ (out k).cmdV = max 0 ((st k).v - 1 / hz * cfg.acc)) ∧
      (|r k| < cfg.stopAng → (out k).cmdW = 0 ∧ (out k).cmdV = 0 ∧ (out k).status = .goal) := by
    intro k
    obtain ⟨st', o, g1, -, g3⟩ := (key k).step h hl hq hv hsg hds hj
    have := hr.node k
    rw [g1] at this
    cases this
    exact g3
  have hyaw : ∀ k, (tf (k + 1)).yaw = (tf k).yaw + (out k).cmdW * (1 / hz) := fun k => by rw [hr.robot k]; rfl
  have hposk : ∀ k, (tf (k + 1)).pos = (tf k).pos + rotatePos (((out k).cmdV * (1 / hz) : ℝ) : ℂ) (tf k).yaw := fun k => by rw [hr.robot k]; rfl
  have hbr : ∀ k, 0 ≤ (st (k + 1)).v ∧ (st (k + 1)).v ≤ (st k).v ∧
      (st (k + 1)).v * (1 / hz) + (st (k + 1)).v ^ 2 / (2 * cfg.acc) ≤ (st k).v ^ 2 / (2 * cfg.acc) := by
    intro k
    refine brake_way hacc hT.le (key k).node.nonneg ?_
    rw [(one k).2.1]
    by_cases hc : |r k| < cfg.stopAng
    · exact .inl ((one k).2.2.2.2 hc).2.1
    · exact .inr ((one k).2.2.2.1 hc).2
  have hvk : ∀ k, (st k).v ≤ (st 0).v := by
    intro k
    induction k with
    | zero => exact le_rfl
    | succ k ih => exact (hbr k).2.1.trans ih
  have hway : ∀ c k, ‖(tf k).pos - c‖ + (st k).v ^ 2 / (2 * cfg.acc) ≤ ‖(tf 0).pos - c‖ + (st 0).v ^ 2 / (2 * cfg.acc) := by
    intro c k
    induction k with
    | zero => exact le_rfl
    | succ k ih =>
      obtain ⟨b1, b2, b3⟩ := hbr k
      have : ‖(tf (k + 1)).pos - c‖ ≤ ‖(tf k).pos - c‖ + (st (k + 1)).v * (1 / hz) := by
        rw [hposk, show (tf k).pos + rotatePos (((out k).cmdV * (1 / hz) : ℝ) : ℂ) (tf k).yaw - c =
          (tf k).pos - c + rotatePos (((out k).cmdV * (1 / hz) : ℝ) : ℂ) (tf k).yaw by ring]
        refine (norm_add_le _ _).trans ?_
        rw [norm_rotatePos, norm_real, ← (one k).2.1, abs_of_nonneg (mul_nonneg b1 hT.le)]
      linarith
  have hback : ∀ c k, ‖(tf 0).pos - c‖ - (st 0).v ^ 2 / (2 * cfg.acc) ≤ ‖(tf k).pos - c‖ - (st k).v ^ 2 / (2 * cfg.acc) := by
    intro c k
    induction k with
    | zero => exact le_rfl
    | succ k ih =>
      obtain ⟨b1, b2, b3⟩ := hbr k
      have : ‖(tf k).pos - c‖ - (st (k + 1)).v * (1 / hz) ≤ ‖(tf (k + 1)).pos - c‖ := by
        rw [hposk, show (tf k).pos + rotatePos (((out k).cmdV * (1 / hz) : ℝ) : ℂ) (tf k).yaw - c =
          (tf k).pos - c + rotatePos (((out k).cmdV * (1 / hz) : ℝ) : ℂ) (tf k).yaw by ring]
        refine le_trans ?_ (norm_sub_le_norm_add _ _)
        rw [norm_rotatePos, norm_real, ← (one k).2.1, abs_of_nonneg (mul_nonneg b1 hT.le)]
      linarith
  have hw : ∀ k, 0 ≤ s * (st k).w ∧ s * (st k).w ≤ cfg.maxAngVel := by
    intro k
    rcases (key k).speed with hc | hc
    · exact ⟨hc.nonneg, hc.le⟩
    · rw [hc.1, mul_zero]
      exact ⟨le_rfl, h.angVel.le⟩
  have hlow : ∀ k, -cfg.stopAng < r k := by
    intro k
    rcases (key k).speed with hc | hc
    · exact turn_tol (turns_fit h) hc
    · exact (abs_lt.1 hc.2).1
  refine ⟨fun k => ⟨?_, ?_, (one k).2.2.1, fun c => ?_⟩, d, s, hdn, hsg, hds, fun k => ⟨?_, ?_, ?_⟩, ?_⟩
  · rw [← (one k).2.1]; exact (hbr k).1
  · rw [← (one k).2.1]; exact hvk (k + 1)
  · have h1 := hway c k
    have h2 : 0 ≤ (st k).v ^ 2 / (2 * cfg.acc) := by positivity
    have h3 := hback c k
    exact ⟨by linarith, by linarith⟩
  · rw [← (one k).1]; exact (hw (k + 1)).1
  · rw [← (one k).1]; exact (hw (k + 1)).2
  · have := hlow k
    simp only [hrd] at this
    linarith
  · have hcan0 : (turnGains cfg hz).Can (s * (st 0).w) (r 0) := by
      rcases (key 0).speed with hc | hc
      · exact hc
      · have hg := turns_fit h
        refine ⟨by rw [hw0, mul_zero], by rw [hw0, mul_zero]; exact hg.V_pos.le, ?_⟩
        have hA := hg.A_pos
        have hTT := hg.T_pos
        have hV := hg.V_pos
        have hr0 : 0 ≤ r 0 := by simp only [hrd, hΘ, sub_self, mul_zero, sub_zero]; exact abs_nonneg _
        have e1 : 0 ≤ 2 * (turnGains cfg hz).A * r 0 := by positivity
        have e2 : 0 ≤ (turnGains cfg hz).A * (turnGains cfg hz).T * (turnGains cfg hz).V := by positivity
        rw [hw0]
        linarith
    obtain ⟨N, hN, hrank⟩ := turn_stops (turns_fit h) (v := fun k => s * (st k).w) (r := r) hcan0
      (fun k hns => by
        rw [(one k).1, ((one k).2.2.2.1 hns).1, ← mul_assoc, hss, one_mul])
      (fun k _ => by
        change |d| - s * ((tf (k + 1)).yaw - Θ) = |d| - s * ((tf k).yaw - Θ) - s * (st (k + 1)).w * (1 / hz)
        rw [hyaw k, (one k).1]
        ring)
    have hN' : |r N| < cfg.stopAng := hN
    have hafter : ∀ j, tf (N + j) = tf N := by
      intro j
      induction j with
      | zero => rfl
      | succ j ih =>
        have hst' : |r (N + j)| < cfg.stopAng := by
          simp only [hrd] at hN' ⊢
          rw [ih]; exact hN'
        obtain ⟨z1, z2, -⟩ := (one (N + j)).2.2.2.2 hst'
        rw [← Nat.add_assoc, hr.robot, moved_spot _ z2, z1, zero_mul, add_zero]
        exact ih
    refine ⟨N, ?_, ?_⟩
    · obtain ⟨hc, hk⟩ := hrank N le_rfl
      have hlp := (turns_fit h).least_pos
      have hTT := (turns_fit h).T_pos
      have hceil : (0 : ℝ) ≤ ⌈s * (st N).w / ((turnGains cfg hz).T * (turnGains cfg hz).a)⌉ := by
        have : 0 ≤ ⌈s * (st N).w / ((turnGains cfg hz).T * (turnGains cfg hz).a)⌉ := Int.ceil_nonneg (div_nonneg hc.nonneg (turns_fit h).Ta_pos.le)
        exact_mod_cast this
      have hal : 0 < 2 / ((turnGains cfg hz).leastTurn * (turnGains cfg hz).T) := by positivity
      have hr0 : r 0 = |d| := by simp only [hrd, hΘ, sub_self, mul_zero, sub_zero]
      unfold Gains.rankTurn at hk
      simp only [hw0, mul_zero, zero_div, Int.ceil_zero, Int.cast_zero, add_zero, hr0] at hk
      have h3 : 2 / ((turnGains cfg hz).leastTurn * (turnGains cfg hz).T) * (-cfg.stopAng) ≤ 2 / ((turnGains cfg hz).leastTurn * (turnGains cfg hz).T) * r N :=
        mul_le_mul_of_nonneg_left (hlow N).le hal.le
      have h4 : (N : ℝ) ≤ 2 / ((turnGains cfg hz).leastTurn * (turnGains cfg hz).T) * (|d| + cfg.stopAng) := by
        rw [mul_add]
        linarith
      refine le_trans h4 (le_of_eq ?_)
      have e1 : (turnGains cfg hz).T = 1 / hz := rfl
      have e2 : (turnGains cfg hz).leastTurn =
          min (cfg.angAcc / hz) (min (Real.sqrt (cfg.stopAng * (cfg.angAcc * cfg.angAccTocFactor))) cfg.maxAngVel) := by
        unfold Gains.leastTurn
        change min (1 / hz * cfg.angAcc) _ = _
        rw [one_div_mul_eq_div]
        rfl
      rw [← e2, e1]
      have := h.rate
      field_simp
    · intro k hk
      obtain ⟨i, rfl⟩ := Nat.exists_eq_add_of_le hk
      have hst' : |r (N + i)| < cfg.stopAng := by
        simp only [hrd] at hN' ⊢
        rw [hafter i]; exact hN'
      obtain ⟨a1, a2, a3⟩ := (one (N + i)).2.2.2.2 hst'
      refine ⟨hafter i, ?_, a2, a1, a3⟩
      obtain ⟨j, hj⟩ := hj
      refine ⟨j, ?_⟩
      have : (tf (N + i)).yaw - (q.yaw + j * (2 * Real.pi)) = -(s * r (N + i)) := by
        simp only [hrd]
        linear_combination hj - hds - ((tf (N + i)).yaw - Θ) * hss
      rw [this]
      have habs : |(-(s * r (N + i)))| = |r (N + i)| := by rcases hsg with rfl | rfl <;> simp
      rwa [habs]

end Verif.Tracker
