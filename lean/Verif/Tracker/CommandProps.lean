import Verif.Tracker.CommandSpec
import Verif.Tracker.Limits
/-! # The command of every control cycle (C135) -/
namespace Verif.Tracker
open Verif.Num Verif.Path2D

theorem limSet_eq {p vel a d : ℝ} (hv : 0 ≤ vel) (ha : 0 ≤ a) (hd : 0 ≤ d) (t : ℝ) :
    limSet p (.fin t) (.fin vel) a d = approachTo a d vel p t := by
  unfold limSet
  rw [Control.vset_spec (t := t) hv ha hd rfl]
  rfl

theorem limInc_fin {p vel a d : ℝ} (hv : 0 ≤ vel) (ha : 0 ≤ a) (hd : 0 ≤ d) (t : ℝ) :
    limInc p (.fin t) (.fin vel) a d = approachTo a d vel p (p + t) := by
  rw [limInc_eq]
  exact limSet_eq hv ha hd (p + t)

theorem toc_forward (acc d : ℝ) : Control.timeOptimalControl (-d * 1) acc = brakingSpeed acc d := by
  unfold Control.timeOptimalControl brakingSpeed
  have e : |2 * (-d * 1) * acc| = 2 * |d| * |acc| := by
    rw [abs_mul, abs_mul, mul_one, abs_neg, abs_two]
  rw [e]
  by_cases h : 0 < d
  · rw [if_pos (by linarith), if_pos h]; ring
  · rw [if_neg (by linarith), if_neg h]; ring

theorem toc_reverse (acc d : ℝ) : Control.timeOptimalControl (-d * -1) acc = -brakingSpeed acc d := by
  unfold Control.timeOptimalControl brakingSpeed
  have e : |2 * (-d * -1) * acc| = 2 * |d| * |acc| := by
    rw [abs_mul, abs_mul, neg_mul_neg, mul_one, abs_two]
  rw [e]
  by_cases h : 0 < d
  · rw [if_neg (by linarith), if_pos h]; ring
  · rw [if_neg h]
    by_cases h0 : d = 0
    · subst h0; simp
    · have : d < 0 := lt_of_le_of_ne (not_lt.mp h) h0
      rw [if_pos (by linarith)]; ring

/-- Driving backwards is decided by the heading of the pose ahead. -/
theorem backward_iff {cfg : Config} {geo : Geo} (hne : geo.prevPose.pos ≠ geo.nearPose.pos) :
    Backward cfg geo ↔ Reverse cfg.allowBackward geo.prevPose geo.nearPose := by
  have hv : vec geo ≠ 0 := by unfold vec; exact sub_ne_zero.mpr (Ne.symm hne)
  have hn : 0 < ‖vec geo‖ := norm_pos_iff.mpr hv
  unfold Backward Reverse
  cases hb : cfg.allowBackward with
  | false =>
    simp only [Bool.false_eq_true, if_false, neg_neg, false_and, iff_false, not_lt]
    nlinarith [mul_self_nonneg (Real.cos (Complex.arg (vec geo))), mul_self_nonneg (Real.sin (Complex.arg (vec geo)))]
  | true =>
    simp only [if_true, neg_neg, true_and]
    rw [Complex.cos_arg hv, Complex.sin_arg]
    have e : (vec geo).re / ‖vec geo‖ * Real.cos geo.nearPose.yaw + (vec geo).im / ‖vec geo‖ * Real.sin geo.nearPose.yaw =
        forward geo.prevPose geo.nearPose / ‖vec geo‖ := by
      unfold forward vec
      rw [Complex.sub_re, Complex.sub_im]
      ring
    rw [e, div_neg_iff]
    constructor
    · rintro (⟨_, h⟩ | ⟨h, _⟩)
      · exact absurd hn (not_lt.mpr h.le)
      · exact h
    · intro h; exact .inr ⟨h, hn⟩

theorem pathAngle_bearing {cfg : Config} {geo : Geo} (hne : geo.prevPose.pos ≠ geo.nearPose.pos) :
    pathAngle cfg geo = angNorm (bearing cfg.allowBackward geo.prevPose geo.nearPose) := by
  unfold pathAngle bearing
  by_cases h : Reverse cfg.allowBackward geo.prevPose geo.nearPose
  · rw [if_pos ((backward_iff hne).mpr h), if_pos h]; rfl
  · rw [if_neg (fun h' => h ((backward_iff hne).mp h')), if_neg h, add_zero]; rfl

theorem cos_angNorm (a : ℝ) : Real.cos (angNorm a) = Real.cos a := by
  obtain ⟨⟨k, e⟩, _⟩ := angNorm_spec a
  rw [e]
  exact Real.cos_add_int_mul_two_pi a k

theorem inPlace_iff (geo : Geo) : InPlace geo ↔ geo.prevPose.pos = geo.nearPose.pos := by
  unfold InPlace vec
  constructor
  · rintro ⟨h1, h2⟩
    exact (sub_eq_zero.mp (Complex.ext h2 h1)).symm
  · intro h; rw [h]; simp

theorem rotate_iff {cfg : Config} {geo : Geo} {lp : List Pose} : Rotate cfg geo (length lp) ↔
    AtEnd cfg lp geo.prevPose geo.nearPose geo.remainLocal ∨ Askew cfg geo.prevPose geo.nearPose := by
  by_cases hp : geo.prevPose.pos = geo.nearPose.pos
  · exact ⟨fun _ => .inl (.inr (.inr hp)), fun _ => .inr (.inr (.inr ((inPlace_iff geo).mpr hp)))⟩
  · have hl : LargeAngle cfg geo ↔ Askew cfg geo.prevPose geo.nearPose := by
      unfold LargeAngle Askew
      rw [pathAngle_bearing hp, cos_angNorm]
    unfold Rotate AtEnd
    rw [hl, inPlace_iff]
    have : unlessShort cfg (length lp) geo.remainLocal = counted cfg lp geo.remainLocal := rfl
    rw [this]
    tauto

theorem toGoal_iff {cfg : Config} {geo : Geo} {lp : List Pose} : ToGoal cfg geo (length lp) ↔
    AtEnd cfg lp geo.prevPose geo.nearPose geo.remainLocal := by
  unfold ToGoal AtEnd
  rw [inPlace_iff]
  rfl

theorem clipReal_nearest (x m : ℝ) (hm : 0 ≤ m) : clipReal x m = Control.Spec.nearest (-m) m x := by
  unfold clipReal Control.Spec.nearest
  by_cases h1 : x > m
  · rw [if_pos h1, min_eq_left h1.le, max_eq_right (by linarith)]
  · rw [if_neg h1, min_eq_right (not_lt.mp h1)]
    by_cases h2 : x < -m
    · rw [if_pos h2, max_eq_left h2.le]
    · rw [if_neg h2, max_eq_right (not_lt.mp h2)]

theorem toc_eq (acc x : ℝ) : Control.timeOptimalControl x acc = -brakingSpeed acc x := by
  have := toc_reverse acc x
  rwa [show -x * -1 = x by ring] at this

/-- The command given for a result of turning on the spot. -/
theorem drive_turn {cfg : Config} (ha : 0 ≤ cfg.acc) (hb : 0 ≤ cfg.angAcc) (hw : 0 ≤ cfg.maxAngVel) {v w dt tv : ℝ} (hd : 0 ≤ dt)
    (htv : 0 ≤ tv) {r : Result} (ht : r.turning = true) (hv : r.targetVel = .fin tv) {o : Out}
    (h1 : o.cmdV = (drive cfg v w r dt).1) (h2 : o.cmdW = (drive cfg v w r dt).2) (h3 : o.angle = r.angle) :
    TurnsOnSpot cfg v w dt tv o := by
  unfold TurnsOnSpot
  rw [h1, h2, h3]
  unfold drive
  rw [if_pos ht, hv]
  refine ⟨limSet_eq htv ha hd 0, ?_⟩
  simp only
  by_cases hu : cfg.useToc = true
  · rw [if_pos hu, if_pos hu, limSet_eq hw hb hd, toc_eq]
  · rw [if_neg hu, if_neg hu, limInc_fin hw hb hd]

theorem sign1_mul {v κ : ℝ} (h : v * κ ≠ 0) : sign1 (|v| * κ) = if κ < 0 then -1 else 1 := by
  unfold sign1
  have hv : 0 < |v| := abs_pos.mpr (left_ne_zero_of_mul h)
  by_cases hk : κ < 0
  · rw [if_pos (mul_neg_of_pos_of_neg hv hk), if_pos hk]
  · rw [if_neg (not_lt.mpr (mul_nonneg hv.le (not_lt.mp hk))), if_neg hk]

/-- The command given for a result of following. -/
theorem drive_follow {cfg : Config} (ha : 0 ≤ cfg.acc) (hb : 0 ≤ cfg.angAcc) (hw : 0 ≤ cfg.maxAngVel) {v w dt tv : ℝ} (hd : 0 ≤ dt)
    (htv : 0 ≤ tv) {r : Result} (ht : r.turning = false) (hv : r.targetVel = .fin tv) {o : Out}
    (h1 : o.cmdV = (drive cfg v w r dt).1) (h2 : o.cmdW = (drive cfg v w r dt).2) (h3 : o.angle = r.angle) {u : ℝ}
    (hu : Control.timeOptimalControl r.signedLocal (cfg.acc * cfg.accTocFactor) = u) :
    Follows cfg v w dt tv u r.curv r.distanceFromTarget o := by
  unfold Follows
  rw [h1, h2, h3]
  unfold drive
  rw [if_neg (show ¬ r.turning = true by rw [ht]; simp), hv, hu]
  simp only [limSet_eq htv ha hd]
  generalize approachTo cfg.acc dt tv v u = v1
  have habs : |(|v1| * r.curv)| = |v1 * r.curv| := by rw [abs_mul, abs_abs, ← abs_mul]
  rw [habs]
  have hgain : (if cfg.gainAtVel = 0 then Ext.fin cfg.kAng else Ext.div (Ext.mul (.fin cfg.kAng) (.fin tv)) (.fin cfg.gainAtVel)) =
      .fin (angleGain cfg tv) := by
    unfold angleGain
    by_cases hg : cfg.gainAtVel = 0
    · rw [if_pos hg, if_pos hg]
    · rw [if_neg hg, if_neg hg]
      simp only [Ext.mul, Ext.div, if_neg hg]
  rw [hgain]
  simp only [Ext.mul, Ext.sub, Ext.neg, Ext.add, limInc_fin hw hb hd, ← sub_eq_add_neg]
  by_cases hover : cfg.limitVelByAvel = true ∧ cfg.maxAngVel < |v1 * r.curv|
  · have hne : v1 * r.curv ≠ 0 := by
      intro h0
      rw [h0, abs_zero] at hover
      linarith [hover.2]
    simp only [if_pos hover, sign1_mul hne]
    exact ⟨rfl, trivial⟩
  · simp only [if_neg hover]
    exact ⟨trivial, trivial⟩

open Classical in
/-- **C135**.  For every state, robot pose and prediction, and every control cycle that ends with the status FOLLOWING or GOAL: with `a`, `b`
the poses of the path (relative to the robot) between which the robot is, `l` the last pose of the stretch, and `L` the distance left to it,
* if the end of the stretch is reached or the robot is too far askew, it brakes, and turns to the heading of `l` respectively to the way;
* otherwise it takes the speed from which it can just stop at the end of the stretch (forwards where the heading of `b` points along the
  way, backwards where it points against it), as far as the speed limit at `b` and the acceleration allow, and leads its turn rate to that of
  the curve and against its lateral and angle errors.
Only within all the stop tolerances it stops at once. -/
theorem command_spec {k : Nat} {st : State} (h : Inv k st) {r1 r2 : Option Tf} {offset : ℂ} {yr ov ow dt : ℝ}
    (ha : 0 ≤ st.cfg.acc) (hb : 0 ≤ st.cfg.angAcc) (hw : 0 ≤ st.cfg.maxAngVel) (hdl : 0 ≤ st.cfg.dLim) (hd : 0 ≤ dt) {st' : State} {o : Out}
    (hc : control st r1 r2 offset yr ov ow dt = some (st', o)) (hs : o.status = .following ∨ o.status = .goal) :
    ∃ tf n g a b l L, r2 = some tf ∧ st.done ≤ n ∧ n < g ∧ g ≤ (localPath st.cfg.pathStep st.path tf).length ∧
      (localPath st.cfg.pathStep st.path tf)[n - 1]? = some a ∧ (localPath st.cfg.pathStep st.path tf)[n]? = some b ∧
      (localPath st.cfg.pathStep st.path tf)[g - 1]? = some l ∧
      remainedDistance (localPath st.cfg.pathStep st.path tf) 0 n g (projection a.pos b.pos (lookahead st)) = some L ∧
      (AtEnd st.cfg (localPath st.cfg.pathStep st.path tf) a b L → Control.Spec.IsNormal Real.pi (-l.yaw) o.angle) ∧
      (¬ AtEnd st.cfg (localPath st.cfg.pathStep st.path tf) a b L →
        Control.Spec.IsNormal Real.pi (bearing st.cfg.allowBackward a b) o.angle) ∧
      ∀ tv : ℝ, limitAt st.maxVel b = .fin tv → 0 ≤ tv →
        (AtEnd st.cfg (localPath st.cfg.pathStep st.path tf) a b L ∨ Askew st.cfg a b →
          TurnsOnSpot st.cfg st.v st.w dt tv o ∨ Halts st.cfg o) ∧
        (¬ AtEnd st.cfg (localPath st.cfg.pathStep st.path tf) a b L → ¬ Askew st.cfg a b →
          Follows st.cfg st.v st.w dt tv
            (if Reverse st.cfg.allowBackward a b
              then -brakingSpeed (st.cfg.acc * st.cfg.accTocFactor) (counted st.cfg (localPath st.cfg.pathStep st.path tf) L)
              else brakingSpeed (st.cfg.acc * st.cfg.accTocFactor) (counted st.cfg (localPath st.cfg.pathStep st.path tf) L))
            (getCurvature microEps (((localPath st.cfg.pathStep st.path tf).drop n).take (g - n))
              (projection a.pos b.pos (lookahead st)) st.cfg.curvForward)
            (Control.Spec.nearest (-st.cfg.dLim) st.cfg.dLim (lineDistance a.pos b.pos (lookahead st))) o ∨
          Halts st.cfg o) := by
  obtain ⟨st1, e1, i1, l1, p1, f1, c1, m1, u1⟩ := first_spec h r1 offset yr ov ow
  obtain ⟨r, hr, hs1, hs2, hs3⟩ := result_spec i1 r2 offset yr ov ow
  have hcontrol : control st r1 r2 offset yr ov ow dt = some (command st1 r dt) := by
    unfold control
    rw [e1, Option.bind_some, hr, Option.map_some]
  rw [hcontrol, Option.some.injEq] at hc
  have ho : o = (command st1 r dt).2 := by rw [hc]
  have hst : o.status = r.status ∧ o.distance = r.distance ∧ o.angle = r.angle := by
    rw [ho]
    unfold command
    split <;> exact ⟨rfl, rfl, rfl⟩
  have hv : st1.v = st.v ∧ st1.w = st.w := by
    unfold firstLook at e1
    split at e1
    · obtain ⟨r0, _, rfl⟩ := Option.map_eq_some_iff.mp e1; exact ⟨rfl, rfl⟩
    · cases e1; exact ⟨rfl, rfl⟩
  have hla : lookahead st1 = lookahead st := by unfold lookahead; rw [hv.1, hv.2, c1]
  rw [hst.1] at hs
  have hnn : r.status ≠ .noPath ∧ r.status ≠ .farFromPath := by rcases hs with e | e <;> rw [e] <;> simp
  obtain ⟨tf, geo, htf, hg, hdec⟩ := result_geo i1 hr hnn.1
  rw [c1, p1, hla] at hg
  rw [c1, p1, m1, hla] at hdec
  obtain ⟨l, hl, hyaw⟩ := hg.yaw
  have hcurv := hg.curv
  set lp := localPath st.cfg.pathStep st.path tf with hlp
  refine ⟨tf, geo.nearest, geo.localGoal, geo.prevPose, geo.nearPose, l, geo.remainLocal, htf, l1.trans hg.done_le, hg.near_lt, hg.goal_le,
    hg.prev, hg.near, hl, hg.remainLocal, ?_⟩
  have hvw : Halts st.cfg o ∨ (o.cmdV = (drive st.cfg st.v st.w r dt).1 ∧ o.cmdW = (drive st.cfg st.v st.w r dt).2) := by
    unfold Halts
    rw [hst.2.1, hst.2.2, ho]
    unfold command
    rw [if_neg (by push Not; exact hnn)]
    by_cases hstop : Stopping st1.cfg r
    · simp only [if_pos hstop]
      rw [← c1]
      exact .inl ⟨trivial, trivial, hstop.1, hstop.2.1⟩
    · simp only [if_neg hstop]
      rw [c1, hv.1, hv.2]
      exact .inr ⟨rfl, rfl⟩
  rcases result_cases st.cfg st.maxVel st1.done geo (length lp) lp.length st.path.length (lookahead st) yr ov ow with
    ⟨hrot, hres⟩ | ⟨_, _, hres⟩ | ⟨hrot, _, hres⟩
  · obtain ⟨q1, q2, q3, q4, _, _⟩ := goalCheck_fields st.cfg (rotateResult st.cfg st.maxVel st1.done geo (length lp) lp.length) geo
      lp.length ov ow
    rw [← hres, ← hdec] at q1 q2 q3 q4
    have hang : o.angle = if ToGoal st.cfg geo (length lp) then angNorm (-geo.goalYaw) else pathAngle st.cfg geo := by
      rw [hst.2.2, q3]; rfl
    refine ⟨fun he => ?_, fun he => ?_, fun tv htv htv0 => ⟨fun _ => ?_, fun h1 h2 => ((rotate_iff.mp hrot).elim h1 h2).elim⟩⟩
    · rw [hang, if_pos (toGoal_iff.mpr he), hyaw]; exact angNorm_spec _
    · rw [hang, if_neg (fun h' => he (toGoal_iff.mp h')), pathAngle_bearing (fun hp => he (.inr (.inr hp)))]
      exact angNorm_spec _
    · rcases hvw with hz | ⟨e, e'⟩
      · exact .inr hz
      · exact .inl (drive_turn ha hb hw hd htv0 (by rw [q1]; rfl) (by rw [q4]; exact htv) e e' hst.2.2)
  · rw [hres] at hdec
    exact absurd (by rw [hdec]; rfl) hnn.2
  · have hnr : ¬ (AtEnd st.cfg lp geo.prevPose geo.nearPose geo.remainLocal ∨ Askew st.cfg geo.prevPose geo.nearPose) :=
      fun h' => hrot (rotate_iff.mpr h')
    push Not at hnr
    have hne : geo.prevPose.pos ≠ geo.nearPose.pos := fun hp => hnr.1 (.inr (.inr hp))
    have hfields : r.turning = false ∧ r.angle = pathAngle st.cfg geo ∧ r.targetVel = linearVel st.maxVel geo ∧
        r.signedLocal = -(unlessShort st.cfg (length lp) geo.remainLocal) * signVel st.cfg geo ∧ r.curv = geo.curv ∧
        r.distanceFromTarget = clipReal (distErr geo (lookahead st)) st.cfg.dLim := by
      rw [hdec, hres]
      unfold goalCheck
      split <;> exact ⟨rfl, rfl, rfl, rfl, rfl, rfl⟩
    obtain ⟨q1, q2, q3, q4, q5, q6⟩ := hfields
    refine ⟨fun he => absurd he hnr.1, fun _ => ?_, fun tv htv htv0 => ⟨fun h' => (h'.elim hnr.1 hnr.2).elim, fun _ _ => ?_⟩⟩
    · rw [hst.2.2, q2, pathAngle_bearing hne]; exact angNorm_spec _
    · rcases hvw with hz | ⟨e, e'⟩
      · exact .inr hz
      · left
        have htoc : Control.timeOptimalControl r.signedLocal (st.cfg.acc * st.cfg.accTocFactor) =
            if Reverse st.cfg.allowBackward geo.prevPose geo.nearPose
              then -brakingSpeed (st.cfg.acc * st.cfg.accTocFactor) (counted st.cfg lp geo.remainLocal)
              else brakingSpeed (st.cfg.acc * st.cfg.accTocFactor) (counted st.cfg lp geo.remainLocal) := by
          rw [q4]
          have hcd : unlessShort st.cfg (length lp) geo.remainLocal = counted st.cfg lp geo.remainLocal := rfl
          rw [hcd]
          unfold signVel
          by_cases hb : Reverse st.cfg.allowBackward geo.prevPose geo.nearPose
          · rw [if_pos ((backward_iff hne).mpr hb), if_pos hb, toc_reverse]
          · rw [if_neg (fun h' => hb ((backward_iff hne).mp h')), if_neg hb, toc_forward]
        have := drive_follow ha hb hw hd htv0 q1 (by rw [q3]; exact htv) e e' hst.2.2 htoc
        rw [q5, q6, clipReal_nearest _ _ hdl, hcurv] at this
        exact this

theorem nearest_nonneg {lo hi x : ℝ} (h0 : 0 ≤ hi) (hx : 0 ≤ x) : 0 ≤ Control.Spec.nearest lo hi x :=
  le_max_of_le_right (le_min h0 hx)

theorem nearest_nonpos {lo hi x : ℝ} (h0 : lo ≤ 0) (hx : x ≤ 0) : Control.Spec.nearest lo hi x ≤ 0 :=
  max_le h0 ((min_le_right _ _).trans hx)

theorem approachTo_nonneg {a d lim p t : ℝ} (ha : 0 ≤ a) (hd : 0 ≤ d) (hl : 0 ≤ lim) (hp : 0 ≤ p) (ht : 0 ≤ t) :
    0 ≤ approachTo a d lim p t :=
  nearest_nonneg (by positivity) (nearest_nonneg hl ht)

theorem approachTo_nonpos {a d lim p t : ℝ} (ha : 0 ≤ a) (hd : 0 ≤ d) (hl : 0 ≤ lim) (hp : p ≤ 0) (ht : t ≤ 0) :
    approachTo a d lim p t ≤ 0 :=
  nearest_nonpos (by nlinarith [mul_nonneg hd ha]) (nearest_nonpos (by linarith) ht)

theorem brakingSpeed_nonneg {acc d : ℝ} (hd : 0 ≤ d) : 0 ≤ brakingSpeed acc d := by
  unfold brakingSpeed
  by_cases h : 0 < d
  · rw [if_pos h]; exact Real.sqrt_nonneg _
  · have : d = 0 := le_antisymm (not_lt.mp h) hd
    subst this; simp

/-- **C135** (direction).  For every state and control cycle with status FOLLOWING or GOAL: where the way is to be driven forwards (in
particular always, when driving backwards is not allowed) and the end of the stretch is still ahead, a robot that does not move backwards is
not made to; where the way is to be driven backwards, a robot that does not move forwards is not made to. -/
theorem command_direction {k : Nat} {st : State} (h : Inv k st) {r1 r2 : Option Tf} {offset : ℂ} {yr ov ow dt : ℝ}
    (ha : 0 ≤ st.cfg.acc) (hb : 0 ≤ st.cfg.angAcc) (hw : 0 ≤ st.cfg.maxAngVel) (hdl : 0 ≤ st.cfg.dLim) (hd : 0 ≤ dt) {st' : State} {o : Out}
    (hc : control st r1 r2 offset yr ov ow dt = some (st', o)) (hs : o.status = .following ∨ o.status = .goal) :
    ∃ tf n g a b L, r2 = some tf ∧ st.done ≤ n ∧ n < g ∧
      (localPath st.cfg.pathStep st.path tf)[n - 1]? = some a ∧ (localPath st.cfg.pathStep st.path tf)[n]? = some b ∧
      remainedDistance (localPath st.cfg.pathStep st.path tf) 0 n g (projection a.pos b.pos (lookahead st)) = some L ∧
      ∀ tv : ℝ, limitAt st.maxVel b = .fin tv → 0 ≤ tv → 0 ≤ L →
        (¬ Reverse st.cfg.allowBackward a b → 0 ≤ st.v → 0 ≤ o.cmdV) ∧
        (Reverse st.cfg.allowBackward a b → st.v ≤ 0 → o.cmdV ≤ 0) := by
  obtain ⟨tf, n, g, a, b, l, L, htf, h1, h2, _, h4, h5, _, h7, _, _, h10⟩ := command_spec h ha hb hw hdl hd hc hs
  refine ⟨tf, n, g, a, b, L, htf, h1, h2, h4, h5, h7, fun tv htv htv0 hL => ?_⟩
  obtain ⟨t1, t2⟩ := h10 tv htv htv0
  have hcnt : 0 ≤ counted st.cfg (localPath st.cfg.pathStep st.path tf) L := by
    unfold counted; split
    · exact le_refl _
    · exact hL
  by_cases hrot : AtEnd st.cfg (localPath st.cfg.pathStep st.path tf) a b L ∨ Askew st.cfg a b
  · rcases t1 hrot with e | e
    · rw [e.1]
      exact ⟨fun _ hv => approachTo_nonneg ha hd htv0 hv (le_refl _), fun _ hv => approachTo_nonpos ha hd htv0 hv (le_refl _)⟩
    · rw [e.1]
      exact ⟨fun _ _ => le_refl _, fun _ _ => le_refl _⟩
  · push Not at hrot
    rcases t2 hrot.1 hrot.2 with e | e
    · have e1 := e.1
      constructor
      · intro hf hv
        rw [if_neg hf] at e1
        have hv1 := approachTo_nonneg ha hd htv0 hv
          (brakingSpeed_nonneg (acc := st.cfg.acc * st.cfg.accTocFactor) hcnt)
        rw [e1]
        split
        · rw [if_neg (not_lt.mpr hv1)]
          exact approachTo_nonneg ha hd htv0 hv1 (by rw [one_mul]; exact abs_nonneg _)
        · exact hv1
      · intro hf hv
        rw [if_pos hf] at e1
        have hv1 := approachTo_nonpos ha hd htv0 hv
          (neg_nonpos.mpr (brakingSpeed_nonneg (acc := st.cfg.acc * st.cfg.accTocFactor) hcnt))
        rw [e1]
        split
        · rename_i hover
          have hz : approachTo st.cfg.acc dt tv st.v (-brakingSpeed (st.cfg.acc * st.cfg.accTocFactor)
              (counted st.cfg (localPath st.cfg.pathStep st.path tf) L)) < 0 := by
            refine lt_of_le_of_ne hv1 (fun h0 => ?_)
            have := hover.2
            rw [h0, zero_mul, abs_zero] at this
            linarith
          rw [if_pos hz]
          exact approachTo_nonpos ha hd htv0 hv1 (by have := abs_nonneg (st.cfg.maxAngVel / getCurvature microEps
            (((localPath st.cfg.pathStep st.path tf).drop n).take (g - n)) (projection a.pos b.pos (lookahead st)) st.cfg.curvForward); linarith)
        · exact hv1
    · rw [e.1]
      exact ⟨fun _ _ => le_refl _, fun _ _ => le_refl _⟩

/-- **C135** (short paths).  On a path shorter than the length from which positions are controlled the robot only brakes and turns. -/
theorem short_path_turns {k : Nat} {st : State} (h : Inv k st) {r1 r2 : Option Tf} {offset : ℂ} {yr ov ow dt : ℝ}
    (ha : 0 ≤ st.cfg.acc) (hb : 0 ≤ st.cfg.angAcc) (hw : 0 ≤ st.cfg.maxAngVel) (hdl : 0 ≤ st.cfg.dLim) (hd : 0 ≤ dt) (hstop : 0 < st.cfg.stopDist) {st' : State} {o : Out}
    (hc : control st r1 r2 offset yr ov ow dt = some (st', o)) (hs : o.status = .following ∨ o.status = .goal) :
    ∃ (tf : Tf) (n : Nat) (b : Pose), r2 = some tf ∧ (localPath st.cfg.pathStep st.path tf)[n]? = some b ∧
      ∀ tv : ℝ, limitAt st.maxVel b = .fin tv → 0 ≤ tv → length (localPath st.cfg.pathStep st.path tf) < st.cfg.noPosCntlDist →
        o.cmdV = approachTo st.cfg.acc dt tv st.v 0 ∨ (o.cmdV = 0 ∧ o.cmdW = 0) := by
  obtain ⟨tf, n, g, a, b, l, L, htf, h1, h2, _, h4, h5, _, h7, _, _, h10⟩ := command_spec h ha hb hw hdl hd hc hs
  refine ⟨tf, n, b, htf, h5, fun tv htv htv0 hl => ?_⟩
  have he : AtEnd st.cfg (localPath st.cfg.pathStep st.path tf) a b L := by
    right; left
    unfold counted
    rw [if_pos hl, abs_zero]
    exact hstop
  rcases (h10 tv htv htv0).1 (.inl he) with e | e
  · exact .inl e.1
  · exact .inr ⟨e.1, e.2.1⟩

end Verif.Tracker
