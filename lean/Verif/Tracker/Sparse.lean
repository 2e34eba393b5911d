import Verif.Tracker.Arrive
import Mathlib.Analysis.Real.Pi.Bounds
/-! # Straight paths: default parameters, and a path with few poses -/
namespace Verif.Tracker
open Verif.Path2D Verif.Num Spec
open Verif.Control.Spec (nearest)

/-- The default parameters of the node (trajectory_tracker/cfg/TrajectoryTracker.cfg). -/
noncomputable def defaults : Config :=
  { lookForward := 1 / 2, curvForward := 1 / 2, kDist := 1, kAng := 1, kAvel := 1, gainAtVel := 0, dLim := 1 / 2, dStop := 2,
    rotateAng := 78539816339 / 100000000000, maxVel := 1 / 2, maxAngVel := 1, acc := 1, angAcc := 2, accTocFactor := 9 / 10,
    angAccTocFactor := 9 / 10, pathStep := 1, goalDist := 1 / 5, goalAng := 1 / 10, stopDist := 1 / 10, stopAng := 1 / 20,
    noPosCntlDist := 0, minTrackPath := 0, allowBackward := true, limitVelByAvel := false, epsilon := 1 / 1000, useToc := true,
    tocFutureGain := 3 / 2, kAngRotation := 1, kAvelRotation := 1, goalLinVel := 0, goalAngVel := 0 }

/-- With these parameters and fifty steps per second, the theorem applies to every straight path of at least a tenth of a metre whose poses are more
than a millimetre and at most 48 centimetres apart. -/
theorem defaults_suit {x : Nat → ℝ} {m : Nat} (hm : 0 < m) (hx : Spaced x m (1 / 1000) (48 / 100)) (hl : 1 / 10 ≤ x m - x 0) :
    Suits defaults 50 x m (1 / 1000) (48 / 100) := by
  constructor
  all_goals first
    | exact hx
    | exact hm
    | rfl
    | norm_num [defaults]; done
    | (simp only [defaults]; linarith)

/-- For example a path of ten metres with a pose every ten centimetres, from a robot which stands in the middle of it. -/
example : ∃ (st : Nat → State) (tf : Nat → Tf) (out : Nat → Out) (X : Nat → ℝ) (N : Nat),
    step (start defaults) (.path false (toMsg false (line 0 1 (fun i => i / 10) 101)) true) = some (st 0, none) ∧ tf 0 = on 0 1 5 ∧ Ride 50 st tf out ∧
    (∀ k, tf k = on 0 1 (X k) ∧ X k < 10 + 1 / 10 ∧ (out k).cmdW = 0) ∧
    (∀ k, N ≤ k → |10 - X k| < 1 / 10 ∧ (out k).cmdV = 0 ∧ (out k).status = .goal) := by
  have hs : Suits defaults 50 (fun i => (i : ℝ) / 10) 100 (1 / 1000) (48 / 100) := by
    refine defaults_suit (by omega) (fun i _ => ?_) (by norm_num)
    push_cast
    constructor <;> linarith
  have hφ : (1 : ℝ) ∈ Set.Ioc (-Real.pi) Real.pi := ⟨by linarith [Real.pi_pos], by linarith [Real.pi_gt_three]⟩
  have h0 : (fun i : Nat => (i : ℝ) / 10) 0 ≤ 5 := by norm_num
  have h1 : (5 : ℝ) ≤ (fun i : Nat => (i : ℝ) / 10) 100 := by norm_num
  obtain ⟨st, tf, out, e1, e2, e3⟩ := ride_exists hs (p := 0) hφ h0 h1
  obtain ⟨X, -, a2, a3, a4, N, -, a5⟩ := arrives hs hφ h0 h1 e1 e2 e3
  have h10 : ((100 : Nat) : ℝ) / 10 = 10 := by norm_num
  refine ⟨st, tf, out, X, N, e1, e2, e3, fun k => ⟨a2 k, ?_, (a4 k).2.2.1⟩, fun k hk => ⟨?_, (a5 k hk).2.2⟩⟩
  · have := (a3 k).2
    rw [h10] at this
    exact this
  · have := (a5 k hk).2.1
    rw [h10] at this
    exact this

/-- Three poses, five metres apart. -/
noncomputable def sparse : Nat → ℝ := fun i => 5 * i

theorem sparse_spaced : Spaced sparse 2 1 5 := by
  intro i _
  unfold sparse
  push_cast
  constructor <;> linarith

/-- Once the robot counts as being on the second half, the node takes it to be on the first one. -/
theorem sparse_geometry (X c : ℝ) (h : 5 ≤ X + c) : ∃ a b : ℝ, geometry defaults 1 (ahead sparse X 3) c 0 = some (some
      { nearest := 1, localGoal := 3, prevPose := { pos := (a : ℝ), yaw := 0, vel := .nan }, nearPose := { pos := (b : ℝ), yaw := 0, vel := .nan },
        goalYaw := 0, remainLocal := X + c, remain := X + c, remainRaw := |5 - X| + 5, curv := 0 }) ∧ a < b := by
  refine ⟨0 - X, 5 - X, ?_, by linarith⟩
  have g0 : (ahead sparse X 3)[0]? = some { pos := ((0 - X : ℝ) : ℂ), yaw := 0, vel := .nan } := by
    rw [ahead_get _ _ _ _ (by omega)]; simp [sparse]
  have g1 : (ahead sparse X 3)[1]? = some { pos := ((5 - X : ℝ) : ℂ), yaw := 0, vel := .nan } := by
    rw [ahead_get _ _ _ _ (by omega)]; simp [sparse]
  have g2 : (ahead sparse X 3)[2]? = some { pos := ((10 - X : ℝ) : ℂ), yaw := 0, vel := .nan } := by
    rw [ahead_get _ _ _ _ (by omega)]; simp [sparse]; norm_num
  have hn : findNearest (ahead sparse X 3) 1 3 (c : ℂ) 1 (1 / 1000) = some (1, some (‖((5 - X : ℝ) : ℂ) - c‖ + 1 / 1000)) := by
    unfold findNearest
    rw [if_neg (by omega), g1]
    simp only
    unfold nearestLoop
    rw [if_pos (by omega), g1, g2]
    simp only
    rw [if_pos ⟨by norm_num, by rw [← Complex.ofReal_sub, norm_real, abs_of_pos (by linarith)]; norm_num⟩]
    rfl
  have hrem : ∀ t : ℝ, remainedDistance (ahead sparse X 3) 0 1 3 (t : ℂ) = some (|5 - X - t| + 5) := by
    intro t
    unfold remainedDistance
    rw [g1]
    simp only
    rw [if_neg (by omega)]
    unfold remainLoop
    rw [if_pos (by omega), g1, g2]
    simp only
    unfold remainLoop
    rw [if_neg (by omega), ← Complex.ofReal_sub, norm_real, ← Complex.ofReal_sub, norm_real]
    rw [show 5 - X - (10 - X) = -(5 : ℝ) by ring, abs_neg, abs_of_pos (by norm_num : (0 : ℝ) < 5)]
  have hp : ∀ t : ℝ, projection ((0 - X : ℝ) : ℂ) ((5 - X : ℝ) : ℂ) t = t := fun t => projection_line (by linarith) t
  have hcur : getCurvature microEps (((ahead sparse X 3).drop 1).take (3 - 1)) c defaults.curvForward = 0 := by
    refine curvature_line (by unfold microEps; norm_num) _ ?_ _ _
    intro q hq
    have hq := List.mem_of_mem_drop (List.mem_of_mem_take hq)
    unfold ahead at hq
    obtain ⟨i, -, rfl⟩ := List.mem_map.1 hq
    simp
  unfold geometry
  have hgoal : findLocalGoal (ahead sparse X 3) 1 3 defaults.allowBackward true microEps = some 3 :=
    straight_goal (m := 2) (by norm_num) sparse_spaced X (by omega) _
  rw [ahead_length, if_neg (by omega), hgoal]
  simp only [show (1 : Nat) > 0 by omega, if_true, show defaults.epsilon = 1 / 1000 from rfl, Nat.reduceAdd, Option.bind_eq_bind, Option.bind_some, hn]
  rw [if_neg (by omega)]
  have hp0 := hp 0
  rw [Complex.ofReal_zero] at hp0
  have hr0 := hrem 0
  rw [Complex.ofReal_zero, sub_zero] at hr0
  simp only [Nat.sub_self, g0, g1, Nat.reduceSub, g2, Option.bind_some, hp c, hp0, hrem c, hr0]
  rw [hcur]
  rw [show |5 - X - c| = X + c - 5 by rw [abs_of_nonpos (by linarith)]; ring]
  rw [show X + c - 5 + 5 = X + c by ring]

theorem sparse_decide {a b : ℝ} (hab : a < b) {e r c : ℝ} (he : 1 / 10 ≤ e) {k done : Nat} (hk : 0 < k) (hfar : k = 1 ∨ |b - c| ≤ 2) (hr : 1 / 5 ≤ r) :
    ∃ res, decideResult defaults (.fin (1 / 2)) done
      { nearest := k, localGoal := 3, prevPose := { pos := (a : ℝ), yaw := 0, vel := .nan }, nearPose := { pos := (b : ℝ), yaw := 0, vel := .nan },
        goalYaw := 0, remainLocal := e, remain := e, remainRaw := r, curv := 0 } 10 3 3 (c : ℂ) 0 0 0 = res ∧
      res.turning = false ∧ res.targetVel = .fin (1 / 2) ∧ res.distance = e ∧ res.distanceRaw = r ∧ res.angle = 0 ∧ res.signedLocal = -e ∧
      res.distanceFromTarget = 0 ∧ res.curv = 0 ∧ res.status = .following ∧ res.done = max done (k - 1) := by
  refine ⟨_, rfl, ?_⟩
  set geo : Geo :=
      { nearest := k, localGoal := 3, prevPose := { pos := (a : ℝ), yaw := 0, vel := .nan }, nearPose := { pos := (b : ℝ), yaw := 0, vel := .nan },
        goalYaw := 0, remainLocal := e, remain := e, remainRaw := r, curv := 0 } with hgeo
  have hvec : vec geo = ((b - a : ℝ) : ℂ) := by
    unfold vec
    rw [hgeo]
    push_cast
    rfl
  have harg : Complex.arg (vec geo) = 0 := by rw [hvec]; exact Complex.arg_ofReal_of_nonneg (by linarith)
  have hback : ¬ Backward defaults geo := by
    unfold Backward
    rw [harg]
    simp [hgeo]
  have hpa : pathAngle defaults geo = 0 := by
    unfold pathAngle
    rw [if_neg hback, harg, neg_zero]
    exact angNorm_id (by linarith [Real.pi_pos]) Real.pi_pos.le
  have hsv : signVel defaults geo = 1 := by unfold signVel; rw [if_neg hback]
  have hun : ∀ y, unlessShort defaults 10 y = y := fun y => by unfold unlessShort; rw [if_neg (by norm_num [defaults])]
  have hrot : ¬ Rotate defaults geo 10 := by
    unfold Rotate
    rw [hun]
    rintro (⟨-, h1⟩ | h1 | h1 | h1)
    · rw [hpa, Real.cos_zero] at h1
      exact absurd (Real.cos_le_one _) (not_le.2 h1)
    · change |e| < 1 / 10 at h1
      rw [abs_of_nonneg (by linarith)] at h1
      linarith
    · norm_num [defaults] at h1
    · unfold InPlace at h1
      rw [hvec] at h1
      have := h1.2
      rw [Complex.ofReal_re] at this
      linarith
  have hderr : distErr geo (c : ℂ) = 0 := lineDistance_line a b _
  have hnf : ¬ |distFromPath geo 3 (c : ℂ)| > defaults.dStop := by
    unfold distFromPath
    rw [if_neg (show ¬ geo.nearest = 0 by simp only [hgeo]; omega)]
    rcases hfar with h | h
    · rw [if_neg (show ¬ geo.nearest + 1 ≥ 3 by simp only [hgeo]; omega), hderr]
      norm_num [defaults]
    · split
      · rw [abs_neg, abs_norm]
        change ¬ ‖((b : ℝ) : ℂ) - (c : ℂ)‖ > 2
        rw [← Complex.ofReal_sub, norm_real]
        exact not_lt.2 h
      · rw [hderr]
        norm_num [defaults]
  unfold decideResult
  rw [if_neg hrot, if_neg hnf]
  unfold goalCheck
  have hq : (followResult defaults (.fin (1 / 2)) done geo 10 (c : ℂ) 0).distanceRaw = r := hun _
  rw [if_neg (show ¬ AtGoal defaults _ geo 3 0 0 by
    rintro ⟨-, -, h3, -⟩
    rw [hq] at h3
    change |r| < 1 / 5 at h3
    rw [abs_of_nonneg (by linarith)] at h3
    linarith)]
  refine ⟨rfl, ?_, hun _, hun _, hpa, ?_, ?_, rfl, rfl, rfl⟩
  · change linearVel (.fin (1 / 2)) geo = .fin (1 / 2)
    unfold linearVel
    rw [if_pos rfl]
  · change -(unlessShort defaults 10 e) * signVel defaults geo = -e
    rw [hun, hsv, mul_one]
  · change clipReal (distErr geo c) defaults.dLim = 0
    rw [hderr]
    unfold clipReal
    norm_num [defaults]

/-- The node while it takes the robot to be on the first half. -/
structure Lost (st : State) : Prop where
  isCfg : st.cfg = defaults
  maxVel : st.maxVel = .fin (1 / 2)
  path : st.path = line 0 0 sparse 3
  frame : st.frame = true
  done : st.done = 1
  w : st.w = 0
  nonneg : 0 ≤ st.v
  le : st.v ≤ 1 / 2

theorem sparse_look {st : State} {X : ℝ} (h1 : st.cfg = defaults) (h2 : st.maxVel = .fin (1 / 2)) (h3 : st.path = line 0 0 sparse 3) (h4 : st.frame = true)
    (h5 : st.w = 0) {geo : Geo} (hg : geometry defaults st.done (ahead sparse X 3) ((1 / 2 * st.v : ℝ) : ℂ) 0 = some (some geo)) :
    getTrackingResult st (some (on 0 0 X)) 0 0 0 0 = some (decideResult defaults (.fin (1 / 2)) st.done geo 10 3 3 ((1 / 2 * st.v : ℝ) : ℂ) 0 0 0) := by
  have hne : ¬ ((!st.frame) = true ∨ st.path = []) := by
    rw [h4, h3]
    rintro (h | h)
    · simp at h
    · have := congrArg List.length h
      simp [line] at this
  have hl : lookahead st = ((1 / 2 * st.v : ℝ) : ℂ) := by rw [lookahead_line h5, h1]; rfl
  have hlen := ahead_len (m := 2) (by norm_num) sparse_spaced X
  have h10 : sparse 2 - sparse 0 = 10 := by unfold sparse; norm_num
  rw [h10] at hlen
  unfold getTrackingResult
  rw [if_neg hne]
  simp only
  rw [h1, h3, show defaults.pathStep = 1 from rfl, localPath_line, hl, hg, hlen, ahead_length, h2]
  simp [line]

theorem sparse_drive {v e : ℝ} (hv : 0 ≤ v) (hv2 : v ≤ 1 / 2) (he : 5 ≤ e) {res : Result} (h1 : res.turning = false) (h2 : res.targetVel = .fin (1 / 2))
    (h3 : res.signedLocal = -e) (h4 : res.angle = 0) (h5 : res.distanceFromTarget = 0) (h6 : res.curv = 0) :
    drive defaults v 0 res (1 / 50) = (min (1 / 2) (v + 1 / 50), 0) := by
  unfold drive
  rw [if_neg (by simp [h1]), h2, h3, h4, h5, h6]
  have hov : ¬ (defaults.limitVelByAvel = true ∧ |(0 : ℝ)| > defaults.maxAngVel) := by rintro ⟨h, -⟩; simp [defaults] at h
  simp only [mul_zero, if_neg hov]
  have hg : defaults.gainAtVel = 0 := rfl
  rw [if_pos hg]
  have hk : Ext.mul (.fin (1 / 50 : ℝ)) (Ext.sub (Ext.sub (.fin (-(0 : ℝ) * defaults.kDist)) (Ext.mul (.fin 0) (.fin defaults.kAng)))
      (.fin ((0 - 0) * defaults.kAvel))) = .fin 0 := by simp [Ext.mul, Ext.sub, Ext.add, Ext.neg]
  rw [hk, limInc_rest (by norm_num [defaults]) (by norm_num [defaults]) (by norm_num), limSet_fin (by norm_num) (by norm_num [defaults]) (by norm_num)]
  congr 1
  have htoc : 1 / 2 ≤ Control.timeOptimalControl (-e) (defaults.acc * defaults.accTocFactor) := by
    unfold Control.timeOptimalControl
    rw [if_pos (by linarith), neg_neg, one_mul]
    apply Real.le_sqrt_of_sq_le
    rw [show 2 * -e * (defaults.acc * defaults.accTocFactor) = -(2 * e * (9 / 10)) by simp [defaults], abs_neg, abs_of_nonneg (by linarith)]
    linarith
  unfold nearest
  rw [min_eq_left htoc, max_eq_right (show -(1 / 2 : ℝ) ≤ 1 / 2 by norm_num), show defaults.acc = 1 from rfl, mul_one]
  rw [max_eq_right (le_min (by linarith) (by linarith)), min_comm]

theorem lost_look {st : State} (h : Lost st) {X : ℝ} (hX : 9 ≤ X) :
    ∃ res, getTrackingResult st (some (on 0 0 X)) 0 0 0 0 = some res ∧
      (command st res (1 / 50)).2.cmdV = min (1 / 2) (st.v + 1 / 50) ∧ (command st res (1 / 50)).2.cmdW = 0 ∧
      (command st res (1 / 50)).2.status = .following ∧ Lost (command st res (1 / 50)).1 ∧
      (command st res (1 / 50)).1.v = min (1 / 2) (st.v + 1 / 50) ∧ (command st res (1 / 50)).1.updated = st.updated := by
  have hv := h.nonneg
  obtain ⟨a, b, hg, hab⟩ := sparse_geometry X (1 / 2 * st.v) (by linarith)
  have hlook := sparse_look h.isCfg h.maxVel h.path h.frame h.w (by rw [h.done]; exact hg)
  obtain ⟨res, hres, q1, q2, q3, q4, q5, q6, q7, q8, q9, q10⟩ := sparse_decide (done := st.done) hab (e := X + 1 / 2 * st.v) (r := |5 - X| + 5) (c := 1 / 2 * st.v)
    (by linarith) (k := 1) (by omega) (.inl rfl) (by have := abs_nonneg (5 - X); linarith)
  rw [hres] at hlook
  refine ⟨res, hlook, ?_⟩
  unfold command
  rw [if_neg (by rw [q9]; simp), h.isCfg, h.w]
  rw [if_neg (show ¬ Stopping defaults res by
    rintro ⟨h1, -⟩
    rw [q3] at h1
    change |X + 1 / 2 * st.v| < 1 / 10 at h1
    rw [abs_of_nonneg (by linarith)] at h1
    linarith)]
  rw [sparse_drive hv h.le (by linarith) q1 q2 q6 q5 q7 q8]
  refine ⟨rfl, rfl, q9, ⟨rfl, h.maxVel, h.path, h.frame, ?_, rfl, le_min (by norm_num) (by linarith), min_le_left _ _⟩, rfl, rfl⟩
  change res.done = 1
  rw [q10, h.done]
  rfl

theorem lost_step {st : State} (h : Lost st) (hu : st.updated = false) {X : ℝ} (hX : 9 ≤ X) :
    ∃ st' o, step st (.timer true 50 (some (on 0 0 X)) (some (on 0 0 X))) = some (st', some o) ∧ o.cmdV = min (1 / 2) (st.v + 1 / 50) ∧ o.cmdW = 0 ∧
      o.status = .following ∧ Lost st' ∧ st'.v = min (1 / 2) (st.v + 1 / 50) ∧ st'.updated = false := by
  obtain ⟨res, h1, h2, h3, h4, h5, h6, h7⟩ := lost_look h hX
  refine ⟨(command st res (1 / 50)).1, (command st res (1 / 50)).2, ?_, h2, h3, h4, h5, h6, h7.trans hu⟩
  unfold step
  simp only [if_true]
  unfold control firstLook
  rw [hu, if_neg (by simp), Option.bind_some, h1]
  rfl

theorem sparse_first {st : State} (h1 : st.cfg = defaults) (h2 : st.maxVel = .fin (1 / 2)) (h3 : st.path = line 0 0 sparse 3) (h4 : st.frame = true)
    (h5 : st.w = 0) (h6 : st.v = 0) (h7 : st.done = 0) (h8 : st.updated = true) :
    ∃ st' o, step st (.timer true 50 (some (on 0 0 9)) (some (on 0 0 9))) = some (st', some o) ∧ o.cmdV = 1 / 50 ∧ o.cmdW = 0 ∧
      o.status = .following ∧ Lost st' ∧ st'.v = 1 / 50 ∧ st'.updated = false := by
  have h10 : sparse 2 - 9 = 1 := by unfold sparse; norm_num
  obtain ⟨k, a, b, hg, hab, hb, -, hk1, hk2, hk3, -⟩ := geometry_straight (cfg := defaults) (x := sparse) (m := 2) (lo := 1) (hi := 5)
    (by norm_num [defaults]) (by norm_num [defaults]) (by norm_num) sparse_spaced 9 (1 / 2 * st.v) (by rw [h6]; norm_num) (done := st.done) (.inl h7)
    (by omega) (.inl h7)
  have hk : k = 2 := by
    rcases hk3 with h | h
    · rw [h7] at hk1
      by_contra hne
      have : k = 1 := by omega
      rw [this, h6] at h
      unfold sparse at h
      norm_num at h
    · exact h
  subst hk
  rw [h10, h6, mul_zero, sub_zero] at hg
  have hlook := sparse_look h1 h2 h3 h4 h5 (X := 9) (by rw [h6, mul_zero]; exact hg)
  rw [h6, mul_zero] at hlook
  obtain ⟨res, hres, -, -, -, -, -, -, -, -, -, q10⟩ := sparse_decide (done := st.done) hab (e := 1) (r := 1) (c := 0)
    (by norm_num) (k := 2) (by omega) (.inr (by rw [hb, h10]; norm_num)) (by norm_num)
  rw [hres] at hlook
  have hl : Lost { st with done := res.done, updated := false } := by
    refine ⟨h1, h2, h3, h4, ?_, h5, ?_, ?_⟩
    · change res.done = 1
      rw [q10, h7]
      rfl
    · exact h6.ge
    · change st.v ≤ 1 / 2
      rw [h6]
      norm_num
  obtain ⟨res2, g1, g2, g3, g4, g5, g6, g7⟩ := lost_look hl (X := 9) le_rfl
  have hmin : min (1 / 2 : ℝ) (0 + 1 / 50) = 1 / 50 := by norm_num
  have hv : min (1 / 2 : ℝ) (({ st with done := res.done, updated := false } : State).v + 1 / 50) = 1 / 50 := by
    change min (1 / 2 : ℝ) (st.v + 1 / 50) = 1 / 50
    rw [h6, hmin]
  rw [hv] at g2 g6
  refine ⟨_, _, ?_, g2, g3, g4, g5, g6, g7⟩
  unfold step
  simp only [if_true]
  unfold control firstLook
  rw [if_pos h8, hlook, Option.map_some, Option.bind_some, g1]
  rfl

/-- **Overrun.**  A robot at rest one metre before the end of a straight path of three poses which are five metres apart receives this path: the node
takes the robot to be on the first half of the path, accelerates it to the full speed and drives it over the end of the path and away from it for
ever, and reports that it is following the path. -/
theorem sparse_path_overrun {st : Nat → State} {tf : Nat → Tf} {out : Nat → Out}
    (hst : step (start defaults) (.path false (toMsg false (line 0 0 sparse 3)) true) = some (st 0, none)) (htf : tf 0 = on 0 0 9) (hr : Ride 50 st tf out) :
    (∀ k, (out k).cmdV = min (1 / 2 : ℝ) (((k : ℝ) + 1) / 50) ∧ (out k).cmdW = 0 ∧ (out k).status = .following) ∧
    ∃ X : Nat → ℝ, (∀ k, tf k = on 0 0 (X k)) ∧ ∀ B, ∃ k, B < X k := by
  have hbad : ¬ ∃ q ∈ line 0 0 sparse 3, ∃ y : ℝ, q.vel = .fin y ∧ y < 0 := by
    rintro ⟨q, hq, y, hy, -⟩
    obtain ⟨i, -, rfl⟩ := List.mem_map.1 hq
    cases hy
  have h0 : st 0 = { start defaults with frame := true, updated := true, done := 0, path := line 0 0 sparse 3 } := by
    unfold step at hst
    simp only at hst
    rw [show (start defaults).cfg = defaults from rfl, received_line (m := 2) (lo := 1) (hi := 5) (by norm_num [defaults]) (by norm_num [defaults])
      sparse_spaced 0 ⟨by linarith [Real.pi_pos], Real.pi_pos.le⟩, if_neg hbad] at hst
    exact (congrArg Prod.fst (Option.some.inj hst)).symm
  set X : Nat → ℝ := fun k => Nat.rec 9 (fun i y => y + (out i).cmdV * (1 / 50)) k with hX
  have hXs : ∀ k, X (k + 1) = X k + (out k).cmdV * (1 / 50) := fun k => rfl
  have key : ∀ k : Nat, tf k = on 0 0 (X k) ∧ 9 ≤ X k ∧ Lost (st (k + 1)) ∧ (st (k + 1)).updated = false ∧ (st (k + 1)).v = min (1 / 2 : ℝ) (((k : ℝ) + 1) / 50) ∧
      (out k).cmdV = min (1 / 2 : ℝ) (((k : ℝ) + 1) / 50) ∧ (out k).cmdW = 0 ∧ (out k).status = .following := by
    intro k
    induction k with
    | zero =>
      obtain ⟨st', o, g1, g2, g3, g4, g5, g6, g7⟩ := sparse_first (st := st 0) (by rw [h0]; rfl) (by rw [h0]; rfl) (by rw [h0]) (by rw [h0])
        (by rw [h0]; rfl) (by rw [h0]; rfl) (by rw [h0]) (by rw [h0])
      have := hr.node 0
      rw [htf, g1] at this
      cases this
      have hm := show min (1 / 2 : ℝ) ((((0 : Nat) : ℝ) + 1) / 50) = 1 / 50 by norm_num
      exact ⟨htf, le_rfl, g5, g7, by rw [hm]; exact g6, by rw [hm]; exact g2, g3, g4⟩
    | succ k ih =>
      obtain ⟨i1, i2, i3, i4, i5, i6, i7, i8⟩ := ih
      have hpos : 0 ≤ (out k).cmdV := by rw [i6]; positivity
      have e1 : 9 ≤ X (k + 1) := by rw [hXs]; linarith
      have e2 : tf (k + 1) = on 0 0 (X (k + 1)) := by
        rw [hr.robot k, i1, moved_on _ _ _ i7, hXs]
      obtain ⟨st', o, g1, g2, g3, g4, g5, g6, g7⟩ := lost_step i3 i4 e1
      have := hr.node (k + 1)
      rw [e2, g1] at this
      cases this
      have hm : min (1 / 2 : ℝ) (min (1 / 2) (((k : ℝ) + 1) / 50) + 1 / 50) = min (1 / 2) ((((k + 1 : Nat) : ℝ) + 1) / 50) := by
        push_cast
        rcases le_total (1 / 2 : ℝ) (((k : ℝ) + 1) / 50) with h | h
        · rw [min_eq_left h, min_eq_left (by norm_num), min_eq_left (by linarith)]
        · rw [min_eq_right h]
          congr 1
          ring
      rw [i5] at g2 g6
      rw [hm] at g2 g6
      exact ⟨e2, e1, g5, g7, g6, g2, g3, g4⟩
  refine ⟨fun k => ⟨(key k).2.2.2.2.2.1, (key k).2.2.2.2.2.2.1, (key k).2.2.2.2.2.2.2⟩, X, fun k => (key k).1, ?_⟩
  have hgrow : ∀ k : Nat, 9 + k * (1 / 2500) ≤ X k := by
    intro k
    induction k with
    | zero => simp [hX]
    | succ k ih =>
      rw [hXs, (key k).2.2.2.2.2.1]
      have : (1 / 50 : ℝ) ≤ min (1 / 2 : ℝ) (((k : ℝ) + 1) / 50) := le_min (by norm_num) (by
        have : (0 : ℝ) ≤ k := Nat.cast_nonneg k
        linarith)
      push_cast
      linarith
  intro B
  obtain ⟨k, hk⟩ := exists_nat_gt (2500 * B)
  exact ⟨k, by have := hgrow k; linarith⟩

/-- There is such a ride. -/
theorem sparse_ride : ∃ (st : Nat → State) (tf : Nat → Tf) (out : Nat → Out),
    step (start defaults) (.path false (toMsg false (line 0 0 sparse 3)) true) = some (st 0, none) ∧ tf 0 = on 0 0 9 ∧ Ride 50 st tf out := by
  have hbad : ¬ ∃ q ∈ line 0 0 sparse 3, ∃ y : ℝ, q.vel = .fin y ∧ y < 0 := by
    rintro ⟨q, hq, y, hy, -⟩
    obtain ⟨i, -, rfl⟩ := List.mem_map.1 hq
    cases hy
  have e0 : step (start defaults) (.path false (toMsg false (line 0 0 sparse 3)) true) =
      some ({ start defaults with frame := true, updated := true, done := 0, path := line 0 0 sparse 3 }, none) := by
    unfold step
    simp only
    rw [show (start defaults).cfg = defaults from rfl, received_line (m := 2) (lo := 1) (hi := 5) (by norm_num [defaults]) (by norm_num [defaults])
      sparse_spaced 0 ⟨by linarith [Real.pi_pos], Real.pi_pos.le⟩, if_neg hbad]
  obtain ⟨s1, o0, f1, f2, f3, f4, f5, f6, f7⟩ := sparse_first (st := { start defaults with frame := true, updated := true, done := 0, path := line 0 0 sparse 3 })
    rfl rfl rfl rfl rfl rfl rfl rfl
  let G := {s : State × ℝ // Lost s.1 ∧ s.1.updated = false ∧ 9 ≤ s.2}
  have nxt : ∀ s : G, ∃ s' : G, ∃ o : Out,
      step s.1.1 (.timer true 50 (some (on 0 0 s.1.2)) (some (on 0 0 s.1.2))) = some (s'.1.1, some o) ∧ s'.1.2 = s.1.2 + o.cmdV * (1 / 50) ∧ o.cmdW = 0 := by
    rintro ⟨⟨s, X⟩, hs, hu, hX⟩
    obtain ⟨st', o, g1, g2, g3, -, g5, -, g7⟩ := lost_step hs hu hX
    have : 0 ≤ o.cmdV := by
      rw [g2]
      exact le_min (by norm_num) (by have := hs.nonneg; linarith)
    exact ⟨⟨(st', X + o.cmdV * (1 / 50)), g5, g7, by simp only at hX ⊢; linarith⟩, o, g1, rfl, g3⟩
  choose nx no hn using nxt
  let S : Nat → G := fun k => Nat.rec ⟨(s1, 9 + o0.cmdV * (1 / 50)), f5, f7, by simp only; rw [f2]; norm_num⟩ (fun _ s => nx s) k
  refine ⟨fun k => match k with | 0 => _ | k + 1 => (S k).1.1, fun k => match k with | 0 => on 0 0 9 | k + 1 => on 0 0 (S k).1.2,
    fun k => match k with | 0 => o0 | k + 1 => no (S k), e0, rfl, ⟨fun k => ?_, fun k => ?_⟩⟩
  · cases k with
    | zero => exact f1
    | succ k => exact (hn (S k)).1
  · cases k with
    | zero => exact (moved_on _ _ _ f3 _).symm
    | succ k =>
      change on 0 0 (nx (S k)).1.2 = moved (on 0 0 (S k).1.2) (no (S k)) (1 / 50)
      rw [moved_on _ _ _ (hn (S k)).2.2, (hn (S k)).2.1]

end Verif.Tracker
