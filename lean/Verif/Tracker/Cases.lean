import Verif.Tracker.Limits
/-!
# Concrete histories of the path tracking node: cases in which it does not do what one expects, and cases which meet the
hypotheses of the theorems
-/
namespace Verif.Tracker
open Verif.Num Verif.Path2D

/-- A configuration in the range of the node's defaults, without look-ahead and merging distance. -/
noncomputable def cfg0 : Config :=
  { lookForward := 0, curvForward := 1 / 2, kDist := 1, kAng := 1, kAvel := 1, gainAtVel := 0, dLim := 1 / 2, dStop := 2,
    rotateAng := 4, maxVel := 1 / 2, maxAngVel := 1, acc := 1, angAcc := 1, accTocFactor := 9 / 10,
    angAccTocFactor := 9 / 10, pathStep := 1, goalDist := 1 / 5, goalAng := 1 / 2, stopDist := 1 / 10, stopAng := 1 / 20,
    noPosCntlDist := 0, minTrackPath := 0, allowBackward := false, limitVelByAvel := false, epsilon := 0, useToc := true,
    tocFutureGain := 3 / 2, kAngRotation := 1, kAvelRotation := 1, goalLinVel := 0, goalAngVel := 0 }

/-- A pose of a path message on the x axis, heading along it. -/
def onAxis (x : ℝ) : PoseMsg := { pos := x, qz := 0, qw := 1, vel := .nan }

/-- The robot on the x axis, heading along it. -/
def robotAt (x : ℝ) : Tf := { pos := x, yaw := 0 }

theorem read_onAxis (x : ℝ) : readPose false (onAxis x) = { pos := x, yaw := 0, vel := .nan } := by
  unfold readPose onAxis
  have : (⟨1 ^ 2 - 0 ^ 2, 2 * 1 * 0⟩ : ℂ) = 1 := by apply Complex.ext <;> simp
  simp only [this, Complex.arg_one, Bool.false_eq_true, if_false]

theorem local_onAxis (x r y : ℝ) (v : Ext ℝ) :
    ({ pos := rotatePos ((x : ℂ) - (robotAt r).pos) (-(robotAt r).yaw), yaw := -(robotAt r).yaw + y, vel := v } : Pose) =
      { pos := ((x - r : ℝ) : ℂ), yaw := y, vel := v } := by
  have : rotatePos ((x : ℂ) - (robotAt r).pos) (-(robotAt r).yaw) = ((x - r : ℝ) : ℂ) := by
    unfold rotatePos robotAt
    apply Complex.ext <;> simp
  rw [this]
  simp [robotAt]

theorem every_one (P : List Pose) : every 1 P = P := by
  have h := every_spec (le_refl 1) P
  apply List.ext_getElem?
  intro i
  rcases Nat.lt_or_ge i P.length with hi | hi
  · have := h.2 i (by omega)
    rwa [Nat.mul_one] at this
  · rw [List.getElem?_eq_none hi, List.getElem?_eq_none]
    have := (h.1 i).not
    omega

theorem norm_axis (x y : ℝ) : ‖((x : ℂ) - (y : ℂ))‖ = |x - y| := by
  rw [← Complex.ofReal_sub, Complex.norm_real, Real.norm_eq_abs]

theorem normSq_axis (x y : ℝ) : Complex.normSq ((x : ℂ) - (y : ℂ)) = (x - y) ^ 2 := by
  rw [← Complex.ofReal_sub, Complex.normSq_ofReal]; ring

theorem dot_axis (a b c d : ℝ) : dot ((a : ℂ) - (b : ℂ)) ((c : ℂ) - (d : ℂ)) = (a - b) * (c - d) := by
  simp [dot]

theorem strip_axis_before {a b c : ℝ} (h : (b - a) * (c - a) ≤ 0) : stripDistance a b c = -|c - a| := by
  unfold stripDistance
  rw [dot_axis, if_pos h, norm_axis]

theorem line_axis (a b c : ℝ) : lineDistance a b c = 0 := by
  unfold lineDistance cross2
  simp

theorem proj_axis {a b : ℝ} (h : a ≠ b) (c : ℝ) : projection a b c = (c : ℂ) := by
  unfold projection
  have hab : b - a ≠ 0 := sub_ne_zero.mpr (Ne.symm h)
  have hr : dot ((b : ℂ) - a) ((c : ℂ) - a) / Complex.normSq ((b : ℂ) - a) = (c - a) / (b - a) := by
    rw [dot_axis, normSq_axis]
    field_simp
  simp only [hr]
  rw [← Complex.ofReal_mul, ← Complex.ofReal_mul, ← Complex.ofReal_add]
  congr 1
  field_simp
  ring

/-- A pose on the x axis in the robot's frame. -/
noncomputable def axisPose (x y : ℝ) : Pose := { pos := (x : ℂ), yaw := y, vel := .nan }

theorem cfg0_valid : cfg0.Valid := ⟨le_refl _, le_refl _⟩

theorem lookahead0 {st : State} (h : st.cfg = cfg0) : lookahead st = 0 := by
  unfold lookahead
  rw [h]
  apply Complex.ext <;> simp [cfg0]

/-- Evaluation of the path once what is read from it is known. -/
theorem result_of_geometry {st : State} (hf : st.frame = true) (hp : st.path ≠ []) {tf : Tf} {offset : ℂ} {yr ov ow : ℝ}
    {geo : Geo} (hg : geometry st.cfg st.done (localPath st.cfg.pathStep st.path tf) (lookahead st) offset = some (some geo)) :
    getTrackingResult st (some tf) offset yr ov ow = some (decideResult st.cfg st.maxVel st.done geo
      (length (localPath st.cfg.pathStep st.path tf)) (localPath st.cfg.pathStep st.path tf).length st.path.length
      (lookahead st) yr ov ow) := by
  unfold getTrackingResult
  rw [if_neg (by simp [hf, hp])]
  simp only [hg]

/-- The state after a path message with poses on the axis. -/
theorem path_step (cfg : Config) (he : cfg.epsilon = 0) (ms : List PoseMsg) :
    step (start cfg) (.path false ms true) = some
      ({ start cfg with frame := true, updated := true, done := 0, path := ms.map (readPose false) }, none) := by
  have hconv : fromMsg false cfg.epsilon ms = ms.map (readPose false) := by
    unfold fromMsg; rw [he]; exact convert_exact _
  have hbad : ¬ ∃ q ∈ ms.map (readPose false), ∃ x : ℝ, q.vel = .fin x ∧ x < 0 := by
    rintro ⟨q, hq, x, hx, _⟩
    obtain ⟨m, _, rfl⟩ := List.mem_map.mp hq
    simp [readPose] at hx
  have hcfg : (start cfg).cfg = cfg := rfl
  have hbad' : ¬ ∃ q ∈ fromMsg false (start cfg).cfg.epsilon ms, ∃ x : ℝ, q.vel = .fin x ∧ x < 0 := by
    rw [hcfg, hconv]; exact hbad
  simp only [step, if_neg hbad']
  rw [hcfg, hconv]

/-- The output of a path message followed by a control cycle. -/
theorem two_outputs {s0 s1 : State} {e : Event} (h0 : step s0 e = some (s1, none)) {hz : ℝ} {r1 r2 : Option Tf} {x : State × Out}
    (hc : control s1 r1 r2 0 0 0 0 (1 / hz) = some x) : outputs s0 [e, .timer true hz r1 r2] = [x.2] := by
  have h1 : step s1 (.timer true hz r1 r2) = some (x.1, some x.2) := by
    simp only [step, if_true, hc, Option.map_some]
  unfold outputs
  rw [h0]
  simp only
  unfold outputs
  rw [h1]
  rfl

/-- No stretch of a path along the axis ends inside it. -/
theorem no_cut {lp : List Pose} (hgap : ∀ i a b, lp[i]? = some a → lp[i + 1]? = some b → 1 ≤ ‖b.pos - a.pos‖) {s i : Nat} :
    ¬ CutAt lp false true microEps s i := by
  rintro (⟨_, h0, a, b, ha, hb, hd⟩ | ⟨h, _⟩)
  · have := hgap (i - 1) a b ha (by rw [Nat.sub_add_cancel h0]; exact hb)
    unfold microEps at hd
    have : (1 : ℝ) ≤ ‖b.pos - a.pos‖ ^ 2 := by nlinarith
    linarith
  · cases h

/-! ### Driving along the line of the path, however far away -/

theorem near3 {a b c : ℝ} (h0 : 0 < a) (h1 : a < b) (h2 : b < c) (y : ℝ) :
    findNearest [axisPose a y, axisPose b y, axisPose c y] 0 3 0 0 0 = some (1, some a) := by
  have hz : (0 : ℂ) = ((0 : ℝ) : ℂ) := by simp
  unfold findNearest
  rw [if_neg (by omega), hz]
  simp only [List.getElem?_cons_zero]
  have n0 : ‖(axisPose a y).pos - ((0 : ℝ) : ℂ)‖ + 0 = a := by
    simp only [axisPose]; rw [norm_axis, sub_zero, abs_of_pos h0, add_zero]
  rw [n0]
  have s1 : stripDistance (axisPose a y).pos (axisPose b y).pos ((0 : ℝ) : ℂ) = -a := by
    simp only [axisPose]
    rw [strip_axis_before (by nlinarith), zero_sub, abs_neg, abs_of_pos h0]
  have s2 : stripDistance (axisPose b y).pos (axisPose c y).pos ((0 : ℝ) : ℂ) = -b := by
    simp only [axisPose]
    rw [strip_axis_before (by nlinarith), zero_sub, abs_neg, abs_of_pos (by linarith)]
  rw [nearestLoop, if_pos (by omega)]
  simp only [List.getElem?_cons_zero, List.getElem?_cons_succ, Nat.zero_add]
  have e1 : ∀ x : ℝ, 0 < x → (if -x > 0 then -x else - -x - 0) = x := by
    intro x hx; rw [if_neg (by linarith)]; ring
  rw [if_neg (by simp), s1, e1 a h0, if_pos (.inl (le_refl _))]
  rw [nearestLoop, if_pos (by omega)]
  simp only [List.getElem?_cons_zero, List.getElem?_cons_succ]
  rw [if_neg (by simp), s2, e1 b (by linarith), abs_neg, abs_neg, abs_of_pos h0, abs_of_pos (show 0 < b by linarith)]
  rw [if_neg (by rintro (h | h); linarith; linarith [h.2])]
  rw [nearestLoop, if_neg (by omega)]
  rfl

/-- The path from 0 to 2 along the axis. -/
noncomputable def straight3 : List PoseMsg := [onAxis 0, onAxis 1, onAxis 2]

/-- A state with that path. -/
noncomputable def atStraight (updated : Bool) : State :=
  { start cfg0 with frame := true, updated := updated, done := 0, path := straight3.map (readPose false) }

theorem straight_local (updated : Bool) : localPath (atStraight updated).cfg.pathStep (atStraight updated).path (robotAt (-100)) =
    [axisPose 100 0, axisPose 101 0, axisPose 102 0] := by
  have hk : (atStraight updated).cfg.pathStep = 1 := rfl
  rw [hk]
  unfold localPath
  rw [every_one]
  have hp : (atStraight updated).path = [⟨((0 : ℝ) : ℂ), 0, .nan⟩, ⟨((1 : ℝ) : ℂ), 0, .nan⟩, ⟨((2 : ℝ) : ℂ), 0, .nan⟩] := by
    simp only [atStraight, straight3, List.map_cons, List.map_nil, read_onAxis]
  rw [hp]
  simp only [List.map_cons, List.map_nil, local_onAxis, axisPose]
  norm_num

theorem straight_geo (updated : Bool) : ∃ geo,
    geometry (atStraight updated).cfg (atStraight updated).done
      (localPath (atStraight updated).cfg.pathStep (atStraight updated).path (robotAt (-100)))
      (lookahead (atStraight updated)) 0 = some (some geo) ∧ geo.nearest = 1 ∧ geo.localGoal = 3 ∧
      geo.prevPose = axisPose 100 0 ∧ geo.nearPose = axisPose 101 0 ∧ geo.remainLocal = 102 ∧ geo.remain = 102 ∧
      geo.remainRaw = 102 := by
  rw [lookahead0 rfl, straight_local]
  obtain ⟨geo, hg, hs⟩ := geometry_spec (cfg := cfg0) (done := 0)
    (lp := [axisPose 100 0, axisPose 101 0, axisPose 102 0]) (le_refl 0) (by simp) 0 0
  have hgoal : geo.localGoal = 3 := by
    rcases Nat.lt_or_ge geo.localGoal 3 with h | h
    · refine absurd (hs.cut h) (no_cut ?_)
      intro i a b ha hb
      match i with
      | 0 => simp at ha hb; subst ha; subst hb; simp only [axisPose]; rw [norm_axis]; norm_num
      | 1 => simp at ha hb; subst ha; subst hb; simp only [axisPose]; rw [norm_axis]; norm_num
      | i + 2 => simp at hb
    · have := hs.goal_le; simp at this; omega
  have hnear : geo.nearest = 1 := by
    obtain ⟨d, hd⟩ := hs.found
    rw [hgoal] at hd
    simp only [gt_iff_lt, lt_self_iff_false, if_false] at hd
    have heps : cfg0.epsilon = 0 := rfl
    rw [heps, near3 (by norm_num) (by norm_num) (by norm_num)] at hd
    simp only [Option.some.injEq, Prod.mk.injEq] at hd
    exact hd.1.symm
  have hprev : geo.prevPose = axisPose 100 0 := by
    have := hs.prev
    rw [hnear] at this
    simpa using this.symm
  have hnp : geo.nearPose = axisPose 101 0 := by
    have := hs.near
    rw [hnear] at this
    simpa using this.symm
  have hproj : projection (axisPose 100 0).pos (axisPose 101 0).pos 0 = ((0 : ℝ) : ℂ) := by
    have hz : (0 : ℂ) = ((0 : ℝ) : ℂ) := by simp
    rw [hz]
    exact proj_axis (by norm_num) 0
  have hrem : remainedDistance [axisPose 100 0, axisPose 101 0, axisPose 102 0] 0 1 3 ((0 : ℝ) : ℂ) = some 102 := by
    unfold remainedDistance
    simp only [List.getElem?_cons_zero, List.getElem?_cons_succ]
    rw [if_neg (by omega), remainLoop, if_pos (by omega)]
    simp only [List.getElem?_cons_zero, List.getElem?_cons_succ]
    rw [remainLoop, if_neg (by omega)]
    simp only [axisPose]
    rw [norm_axis, norm_axis]
    norm_num
  refine ⟨geo, hg, hnear, hgoal, hprev, hnp, ?_, ?_, ?_⟩
  · have := hs.remainLocal
    rw [hnear, hgoal, hprev, hnp, hproj, hrem] at this
    exact (Option.some.inj this).symm
  · have := hs.remain
    rw [hnear, hprev, hnp, hproj] at this
    simp only [List.length_cons, List.length_nil] at this
    rw [hrem] at this
    exact (Option.some.inj this).symm
  · have := hs.remainRaw
    rw [hnear, hprev, hnp, hproj] at this
    simp only [List.length_cons, List.length_nil] at this
    rw [hrem] at this
    exact (Option.some.inj this).symm

theorem not_largeAngle (geo : Geo) : ¬ LargeAngle cfg0 geo := by
  rintro ⟨h, _⟩
  have : |cfg0.rotateAng| = 4 := by simp [cfg0]
  rw [this] at h
  linarith [Real.pi_le_four]

theorem not_backward {cfg : Config} (h : cfg.allowBackward = false) (geo : Geo) : ¬ Backward cfg geo := by
  intro hb
  unfold Backward at hb
  simp only [h, Bool.false_eq_true, if_false] at hb
  have := Real.cos_sq_add_sin_sq (-(-Complex.arg (vec geo)))
  nlinarith

theorem straight_result (updated : Bool) (yr ov ow : ℝ) : ∃ r,
    getTrackingResult (atStraight updated) (some (robotAt (-100))) 0 yr ov ow = some r ∧ r.status = .following ∧
      r.turning = false ∧ r.done = 0 ∧ r.distance = 102 ∧ r.signedLocal = -102 ∧ r.targetVel = .fin (1 / 2) := by
  obtain ⟨geo, hg, h1, h2, h3, h4, h5, h6, h7⟩ := straight_geo updated
  have hp : (atStraight updated).path ≠ [] := by simp [atStraight, straight3]
  refine ⟨_, result_of_geometry rfl hp hg, ?_⟩
  have hlen : length (localPath (atStraight updated).cfg.pathStep (atStraight updated).path (robotAt (-100))) = 2 := by
    rw [straight_local]
    simp only [length, axisPose]
    rw [norm_axis, norm_axis]
    norm_num
  have hfull : (atStraight updated).path.length = 3 := by simp [atStraight, straight3]
  have hcfg : (atStraight updated).cfg = cfg0 := rfl
  rw [hlen, hfull, lookahead0 hcfg, hcfg]
  have hus : ∀ x, unlessShort cfg0 2 x = x := by
    intro x; unfold unlessShort; rw [if_neg (by simp [cfg0])]
  have hsd : cfg0.stopDist = 1 / 10 := rfl
  have hrot : ¬ Rotate cfg0 geo 2 := by
    rintro (h | h | h | h)
    · exact not_largeAngle geo h
    · rw [hus, h5, hsd] at h; norm_num [abs_of_pos] at h
    · simp [cfg0] at h; linarith
    · unfold InPlace vec at h
      rw [h3, h4] at h
      simp [axisPose] at h
      norm_num at h
  have hdist : ¬ |distFromPath geo 3 0| > cfg0.dStop := by
    unfold distFromPath
    rw [if_neg (by omega), if_neg (by omega)]
    unfold distErr
    rw [h3, h4]
    have hz : (0 : ℂ) = ((0 : ℝ) : ℂ) := by simp
    simp only [axisPose]
    rw [hz, line_axis]
    simp [cfg0]
  unfold decideResult
  rw [if_neg hrot, if_neg hdist]
  have hdis : (followResult cfg0 (atStraight updated).maxVel (atStraight updated).done geo 2 0 yr).distance = 102 := by
    simp only [followResult]; rw [hus, h6]
  unfold goalCheck
  rw [if_neg (by
    rintro ⟨h, _⟩
    rw [hdis] at h
    norm_num [cfg0, abs_of_pos] at h)]
  refine ⟨rfl, rfl, ?_, hdis, ?_, ?_⟩
  · simp only [followResult, h1, atStraight]; rfl
  · simp only [followResult, signVel]
    rw [hus, h5, if_neg (not_backward rfl geo)]; ring
  · simp only [followResult, linearVel]
    rw [h4, if_pos (by rfl)]
    rfl

/-- **C40**, negated.  A robot 100 m behind the start of a path of 2 m is not reported far from the path (the stop distance
being 2 m) and starts driving: only the distance to the line is looked at. -/
theorem drives_far_away : ∃ o, outputs (start cfg0) [.path false straight3 true,
    .timer true 10 (some (robotAt (-100))) (some (robotAt (-100)))] = [o] ∧ o.status = .following ∧ o.cmdV = 1 / 10 := by
  obtain ⟨r, hr, h1, h2, h3, h4, h5, h6⟩ := straight_result true 0 0 0
  obtain ⟨r', hr', k1, k2, k3, k4, k5, k6⟩ := straight_result false 0 0 0
  have hfirst : firstLook (atStraight true) (some (robotAt (-100))) 0 0 0 0 = some (atStraight false) := by
    unfold firstLook
    rw [if_pos (by rfl), hr, Option.map_some, h3]
    rfl
  have hctl : control (atStraight true) (some (robotAt (-100))) (some (robotAt (-100))) 0 0 0 0 (1 / 10) =
      some (command (atStraight false) r' (1 / 10)) := by
    unfold control
    rw [hfirst, Option.bind_some, hr', Option.map_some]
  have hdrive : (drive cfg0 0 0 r' (1 / 10)).1 = 1 / 10 := by
    unfold drive
    simp only [k2, Bool.false_eq_true, if_false]
    rw [if_neg (by simp [cfg0]), k6, k5]
    have hacc : cfg0.acc = 1 := rfl
    have htoc : 1 / 2 ≤ Control.timeOptimalControl (-102) (cfg0.acc * cfg0.accTocFactor) := by
      unfold Control.timeOptimalControl
      have hf : cfg0.accTocFactor = 9 / 10 := rfl
      rw [hacc, hf]
      rw [if_pos (by norm_num), neg_neg, one_mul]
      refine Real.le_sqrt_of_sq_le ?_
      rw [abs_of_neg (by norm_num)]
      norm_num
    generalize Control.timeOptimalControl (-102) (cfg0.acc * cfg0.accTocFactor) = t at htoc
    rw [hacc]
    unfold limSet
    rw [Control.vset_spec (p := (0 : ℝ)) (vel := 1 / 2) (a := 1) (d := 1 / 10) (v := .fin t) (t := t) (by norm_num)
      (by norm_num) (by norm_num) rfl]
    simp only [value, Control.Spec.nearest]
    rw [min_eq_left htoc]
    norm_num
  have hns : ¬ Stopping cfg0 r' := by
    rintro ⟨h, _⟩
    rw [k4] at h
    norm_num [cfg0, abs_of_pos] at h
  refine ⟨(command (atStraight false) r' (1 / 10)).2, ?_, ?_, ?_⟩
  · have hstep : step (start cfg0) (.path false straight3 true) = some (atStraight true, none) := path_step cfg0 rfl straight3
    exact two_outputs hstep hctl
  · unfold command
    rw [if_neg (by rw [k1]; simp)]
    exact k1
  · unfold command
    rw [if_neg (by rw [k1]; simp)]
    have hcfg : (atStraight false).cfg = cfg0 := rfl
    have hv : (atStraight false).v = 0 := rfl
    have hw : (atStraight false).w = 0 := rfl
    rw [if_neg (show ¬ Stopping (atStraight false).cfg r' from hns), hcfg, hv, hw]
    exact hdrive

/-! ### The goal of a path of one pose -/

/-- **C41**, negated.  For a path of a single pose the goal is reported from 100 m away: such a path counts as a turn in
place, for which only the heading is looked at. -/
theorem goal_far_away : ∃ o, outputs (start cfg0) [.path false [onAxis 0] true,
    .timer true 10 (some (robotAt (-100))) (some (robotAt (-100)))] = [o] ∧ o.status = .goal ∧ o.distance = 0 := by
  let st0 (u : Bool) : State := { start cfg0 with frame := true, updated := u, done := 0, path := [onAxis 0].map (readPose false) }
  have hstep : step (start cfg0) (.path false [onAxis 0] true) = some (st0 true, none) := path_step cfg0 rfl _
  have hlocal : ∀ u, localPath (st0 u).cfg.pathStep (st0 u).path (robotAt (-100)) = [axisPose 100 0] := by
    intro u
    have hk : (st0 u).cfg.pathStep = 1 := rfl
    have hp : (st0 u).path = [⟨((0 : ℝ) : ℂ), 0, .nan⟩] := by
      simp only [st0, List.map_cons, List.map_nil, read_onAxis]
    rw [hk, hp]
    unfold localPath
    rw [every_one]
    simp only [List.map_cons, List.map_nil, local_onAxis, axisPose]
    norm_num
  have hres : ∀ u, ∃ r, getTrackingResult (st0 u) (some (robotAt (-100))) 0 0 0 0 = some r ∧ r.status = .goal ∧ r.done = 0 ∧
      r.distance = 0 := by
    intro u
    have hcfg : (st0 u).cfg = cfg0 := rfl
    obtain ⟨geo, hg, hs⟩ := geometry_spec (cfg := cfg0) (done := 0) (lp := [axisPose 100 0]) (le_refl 0) (by simp)
      (lookahead (st0 u)) 0
    have hgl : geo.localGoal = 1 ∧ geo.nearest = 0 := by
      have := hs.goal_le
      have := hs.near_lt
      simp at *
      omega
    have hg' : geometry (st0 u).cfg (st0 u).done (localPath (st0 u).cfg.pathStep (st0 u).path (robotAt (-100)))
        (lookahead (st0 u)) 0 = some (some geo) := by
      rw [hlocal u]; exact hg
    refine ⟨_, result_of_geometry rfl (by simp [st0]) hg', ?_⟩
    rw [hlocal u, hcfg]
    have h3 : geo.prevPose = axisPose 100 0 := by
      have := hs.prev; rw [hgl.2] at this; simpa using this.symm
    have h4 : geo.nearPose = axisPose 100 0 := by
      have := hs.near; rw [hgl.2] at this; simpa using this.symm
    have hip : InPlace geo := by unfold InPlace vec; rw [h3, h4]; simp
    have hy : geo.goalYaw = 0 := by
      obtain ⟨l, hl, hy⟩ := hs.yaw
      rw [hgl.1] at hl
      simp at hl
      rw [hy, ← hl]; rfl
    unfold decideResult
    rw [if_pos (.inr (.inr (.inr hip)))]
    have hr1 : (rotateResult cfg0 (st0 u).maxVel (st0 u).done geo (length [axisPose 100 0]) [axisPose 100 0].length).distance = 0 := by
      simp only [rotateResult]; rw [if_pos (.inr hip)]
    have hr2 : (rotateResult cfg0 (st0 u).maxVel (st0 u).done geo (length [axisPose 100 0]) [axisPose 100 0].length).angle = 0 := by
      simp only [rotateResult]
      rw [if_pos (.inr (.inr hip)), hy, neg_zero]
      exact angNorm_id (by linarith [Real.pi_pos]) (by linarith [Real.pi_pos])
    have hr3 : (rotateResult cfg0 (st0 u).maxVel (st0 u).done geo (length [axisPose 100 0]) [axisPose 100 0].length).distanceRaw = 0 := by
      simp only [rotateResult]; rw [if_pos (.inr hip)]
    have hr4 : (rotateResult cfg0 (st0 u).maxVel (st0 u).done geo (length [axisPose 100 0]) [axisPose 100 0].length).angleRaw = 0 := rfl
    unfold goalCheck
    rw [if_pos (by
      unfold AtGoal
      rw [hr1, hr2, hr3, hr4, hgl.1]
      norm_num [cfg0])]
    refine ⟨rfl, ?_, hr1⟩
    simp only [rotateResult, hgl.1, hgl.2, List.length_cons, List.length_nil]
    rw [if_neg (by rintro ⟨_, h⟩; exact h hgl.1)]
    rfl
  obtain ⟨r, hr, _, h2, _⟩ := hres true
  obtain ⟨r', hr', k1, _, k3⟩ := hres false
  have hctl : control (st0 true) (some (robotAt (-100))) (some (robotAt (-100))) 0 0 0 0 (1 / 10) =
      some (command (st0 false) r' (1 / 10)) := by
    have hfirst : firstLook (st0 true) (some (robotAt (-100))) 0 0 0 0 = some (st0 false) := by
      unfold firstLook
      rw [if_pos (by rfl), hr, Option.map_some, h2]
    unfold control
    rw [hfirst, Option.bind_some, hr', Option.map_some]
  refine ⟨(command (st0 false) r' (1 / 10)).2, ?_, ?_, ?_⟩
  · exact two_outputs hstep hctl
  · unfold command
    rw [if_neg (by rw [k1]; simp)]
    exact k1
  · unfold command
    rw [if_neg (by rw [k1]; simp)]
    exact k3

/-! ### The final heading -/

/-- The last pose of the path below: at 1 m, heading 1 rad to the left. -/
noncomputable def turnedEnd : PoseMsg := { pos := ((1 : ℝ) : ℂ), qz := Real.sin (1 / 2), qw := Real.cos (1 / 2), vel := .nan }

theorem read_turnedEnd : readPose false turnedEnd = { pos := ((1 : ℝ) : ℂ), yaw := 1, vel := .nan } := by
  unfold readPose turnedEnd
  have h1 : Real.cos (1 / 2) ^ 2 - Real.sin (1 / 2) ^ 2 = Real.cos 1 := by
    have := Real.cos_sq_add_sin_sq (1 / 2 : ℝ)
    have h2 := Real.cos_two_mul (1 / 2 : ℝ)
    rw [show (2 : ℝ) * (1 / 2) = 1 by norm_num] at h2
    linarith
  have h2 : 2 * Real.cos (1 / 2) * Real.sin (1 / 2) = Real.sin 1 := by
    have h2 := Real.sin_two_mul (1 / 2 : ℝ)
    rw [show (2 : ℝ) * (1 / 2) = 1 by norm_num] at h2
    linarith
  have h3 : Complex.arg ⟨Real.cos (1 / 2) ^ 2 - Real.sin (1 / 2) ^ 2, 2 * Real.cos (1 / 2) * Real.sin (1 / 2)⟩ = 1 := by
    rw [h1, h2]
    have h4 := Complex.arg_cos_add_sin_mul_I (θ := (1 : ℝ)) ⟨by linarith [Real.pi_pos], by linarith [Real.two_le_pi]⟩
    have h5 : (⟨Real.cos 1, Real.sin 1⟩ : ℂ) = Complex.cos ((1 : ℝ) : ℂ) + Complex.sin ((1 : ℝ) : ℂ) * Complex.I := by
      rw [← Complex.ofReal_cos, ← Complex.ofReal_sin]
      generalize Real.cos 1 = c
      generalize Real.sin 1 = d
      apply Complex.ext <;> simp
    rw [h5]; exact h4
  simp only [h3, Bool.false_eq_true, if_false]

theorem near2 {a b : ℝ} (h0 : a < 0) (h1 : 0 < b) (y z : ℝ) :
    findNearest [axisPose a y, axisPose b z] 0 2 0 0 0 = some (1, some 0) := by
  have hz : (0 : ℂ) = ((0 : ℝ) : ℂ) := by simp
  unfold findNearest
  rw [if_neg (by omega), hz]
  simp only [List.getElem?_cons_zero]
  have n0 : ‖(axisPose a y).pos - ((0 : ℝ) : ℂ)‖ + 0 = -a := by
    simp only [axisPose]; rw [norm_axis, sub_zero, abs_of_neg h0, add_zero]
  rw [n0]
  have s1 : stripDistance (axisPose a y).pos (axisPose b z).pos ((0 : ℝ) : ℂ) = 0 := by
    simp only [axisPose]
    unfold stripDistance
    rw [dot_axis, if_neg (by nlinarith), dot_axis, if_neg (by nlinarith), line_axis, abs_zero]
  rw [nearestLoop, if_pos (by omega)]
  simp only [List.getElem?_cons_zero, List.getElem?_cons_succ, Nat.zero_add]
  rw [if_neg (by simp), s1, if_pos (.inl (by simp; linarith)), nearestLoop, if_neg (by omega)]
  simp

/-- **C41**, negated.  The goal is reported although the robot's heading differs from the final heading by 1 rad, twice the
tolerance of 0.5 rad: outside the stop distance the heading is compared with the direction of the path. -/
theorem goal_heading_ignored : ∃ o, outputs (start cfg0) [.path false [onAxis 0, turnedEnd] true,
    .timer true 10 (some (robotAt (85 / 100))) (some (robotAt (85 / 100)))] = [o] ∧ o.status = .goal ∧
    (readPose false turnedEnd).yaw - (robotAt (85 / 100)).yaw = 1 ∧ cfg0.goalAng = 1 / 2 := by
  let st0 (u : Bool) : State :=
    { start cfg0 with frame := true, updated := u, done := 0, path := [onAxis 0, turnedEnd].map (readPose false) }
  have hstep : step (start cfg0) (.path false [onAxis 0, turnedEnd] true) = some (st0 true, none) := path_step cfg0 rfl _
  have hlocal : ∀ u, localPath (st0 u).cfg.pathStep (st0 u).path (robotAt (85 / 100)) =
      [axisPose (-85 / 100) 0, axisPose (15 / 100) 1] := by
    intro u
    have hk : (st0 u).cfg.pathStep = 1 := rfl
    have hp : (st0 u).path = [⟨((0 : ℝ) : ℂ), 0, .nan⟩, ⟨((1 : ℝ) : ℂ), 1, .nan⟩] := by
      simp only [st0, List.map_cons, List.map_nil, read_onAxis, read_turnedEnd]
    rw [hk, hp]
    unfold localPath
    rw [every_one]
    simp only [List.map_cons, List.map_nil, local_onAxis, axisPose]
    norm_num
  have hres : ∀ u, ∃ r, getTrackingResult (st0 u) (some (robotAt (85 / 100))) 0 0 0 0 = some r ∧ r.status = .goal ∧
      r.done = 0 := by
    intro u
    have hcfg : (st0 u).cfg = cfg0 := rfl
    obtain ⟨geo, hg, hs⟩ := geometry_spec (cfg := cfg0) (done := 0) (lp := [axisPose (-85 / 100) 0, axisPose (15 / 100) 1])
      (le_refl 0) (by simp) 0 0
    have hgoal : geo.localGoal = 2 := by
      rcases Nat.lt_or_ge geo.localGoal 2 with h | h
      · refine absurd (hs.cut h) (no_cut ?_)
        intro i a b ha hb
        match i with
        | 0 => simp at ha hb; subst ha; subst hb; simp only [axisPose]; rw [norm_axis]; norm_num
        | i + 1 => simp at hb
      · have := hs.goal_le; simp at this; omega
    have hnear : geo.nearest = 1 := by
      obtain ⟨d, hd⟩ := hs.found
      rw [hgoal] at hd
      simp only [gt_iff_lt, lt_self_iff_false, if_false] at hd
      have heps : cfg0.epsilon = 0 := rfl
      rw [heps, near2 (by norm_num) (by norm_num)] at hd
      simp only [Option.some.injEq, Prod.mk.injEq] at hd
      exact hd.1.symm
    have hprev : geo.prevPose = axisPose (-85 / 100) 0 := by
      have := hs.prev; rw [hnear] at this; simpa using this.symm
    have hnp : geo.nearPose = axisPose (15 / 100) 1 := by
      have := hs.near; rw [hnear] at this; simpa using this.symm
    have hproj : projection (axisPose (-85 / 100) 0).pos (axisPose (15 / 100) 1).pos 0 = ((0 : ℝ) : ℂ) := by
      have hz : (0 : ℂ) = ((0 : ℝ) : ℂ) := by simp
      rw [hz]
      exact proj_axis (by norm_num) 0
    have hrem : remainedDistance [axisPose (-85 / 100) 0, axisPose (15 / 100) 1] 0 1 2 ((0 : ℝ) : ℂ) = some (15 / 100) := by
      unfold remainedDistance
      simp only [List.getElem?_cons_zero, List.getElem?_cons_succ]
      rw [if_pos (by omega), if_neg (by omega)]
      simp only [axisPose, Nat.sub_self, List.getElem?_cons_zero]
      rw [dot_axis, norm_axis, if_pos (by norm_num)]
      norm_num
    have h5 : geo.remainLocal = 15 / 100 := by
      have := hs.remainLocal
      rw [hnear, hgoal, hprev, hnp, hproj, hrem] at this
      exact (Option.some.inj this).symm
    have h6 : geo.remain = 15 / 100 := by
      have := hs.remain
      rw [hnear, hprev, hnp, hproj] at this
      simp only [List.length_cons, List.length_nil] at this
      rw [hrem] at this
      exact (Option.some.inj this).symm
    have h7 : geo.remainRaw = 15 / 100 := by
      have := hs.remainRaw
      rw [hnear, hprev, hnp, hproj] at this
      simp only [List.length_cons, List.length_nil] at this
      rw [hrem] at this
      exact (Option.some.inj this).symm
    have hg' : geometry (st0 u).cfg (st0 u).done (localPath (st0 u).cfg.pathStep (st0 u).path (robotAt (85 / 100)))
        (lookahead (st0 u)) 0 = some (some geo) := by
      rw [hlocal u, lookahead0 hcfg]; exact hg
    refine ⟨_, result_of_geometry rfl (by simp [st0]) hg', ?_⟩
    have hlen : length [axisPose (-85 / 100) 0, axisPose (15 / 100) 1] = 1 := by
      simp only [length, axisPose]
      rw [norm_axis]
      norm_num
    rw [hlocal u, hlen, lookahead0 hcfg, hcfg]
    have hus : ∀ x, unlessShort cfg0 1 x = x := by
      intro x; unfold unlessShort; rw [if_neg (by simp [cfg0])]
    have hvec : vec geo = 1 := by
      unfold vec
      rw [hprev, hnp]
      simp only [axisPose]
      rw [← Complex.ofReal_sub]
      norm_num
    have hrot : ¬ Rotate cfg0 geo 1 := by
      rintro (h | h | h | h)
      · exact not_largeAngle geo h
      · rw [hus, h5] at h; norm_num [cfg0, abs_of_pos] at h
      · simp [cfg0] at h; linarith
      · unfold InPlace at h; rw [hvec] at h; simp at h
    have hfl : (st0 u).path.length = 2 := by simp [st0]
    have hdist : ¬ |distFromPath geo 2 0| > cfg0.dStop := by
      unfold distFromPath
      rw [if_neg (by omega), if_pos (by omega), hnp]
      have hz : (0 : ℂ) = ((0 : ℝ) : ℂ) := by simp
      simp only [axisPose]
      rw [hz, norm_axis]
      norm_num [cfg0]
    have hang : pathAngle cfg0 geo = 0 := by
      unfold pathAngle
      rw [if_neg (not_backward rfl geo), hvec, Complex.arg_one, neg_zero]
      exact angNorm_id (by linarith [Real.pi_pos]) (by linarith [Real.pi_pos])
    unfold decideResult
    rw [hfl, if_neg hrot, if_neg hdist]
    unfold goalCheck
    rw [if_pos (by
      unfold AtGoal
      simp only [followResult, hus, hang, h6, h7, hgoal]
      norm_num [cfg0])]
    refine ⟨rfl, ?_⟩
    simp only [followResult, hnear]
    rfl
  obtain ⟨r, hr, _, h2⟩ := hres true
  obtain ⟨r', hr', k1, _⟩ := hres false
  have hctl : control (st0 true) (some (robotAt (85 / 100))) (some (robotAt (85 / 100))) 0 0 0 0 (1 / 10) =
      some (command (st0 false) r' (1 / 10)) := by
    have hfirst : firstLook (st0 true) (some (robotAt (85 / 100))) 0 0 0 0 = some (st0 false) := by
      unfold firstLook
      rw [if_pos (by rfl), hr, Option.map_some, h2]
    unfold control
    rw [hfirst, Option.bind_some, hr', Option.map_some]
  refine ⟨(command (st0 false) r' (1 / 10)).2, two_outputs hstep hctl, ?_, ?_, rfl⟩
  · unfold command
    rw [if_neg (by rw [k1]; simp)]
    exact k1
  · rw [read_turnedEnd]; simp [robotAt]

/-! ### Changing the path step -/

/-- A path starting with a turn in place. -/
noncomputable def turnFirst : List PoseMsg := [onAxis 1, turnedEnd, onAxis 2]

/-- **C42**, negated when the path step changes.  After a path starting with a turn in place has been followed for one cycle,
raising the path step to 3 makes the next cycle read outside the path. -/
theorem step_change_reads_outside : ∃ st, run (start cfg0) [.path false turnFirst true,
      .timer true 10 (some (robotAt 1)) (some (robotAt 1))] = some st ∧ 1 ≤ st.done ∧
    run (start cfg0) [.path false turnFirst true, .timer true 10 (some (robotAt 1)) (some (robotAt 1)),
      .reconfigure { cfg0 with pathStep := 3 }, .timer true 10 (some (robotAt 1)) (some (robotAt 1))] = none := by
  let st0 : State := { start cfg0 with frame := true, updated := true, done := 0, path := turnFirst.map (readPose false) }
  have hstep : step (start cfg0) (.path false turnFirst true) = some (st0, none) := path_step cfg0 rfl _
  have hk : st0.cfg.pathStep = 1 := rfl
  have hcfg : st0.cfg = cfg0 := rfl
  have hpath : st0.path = [⟨((1 : ℝ) : ℂ), 0, .nan⟩, ⟨((1 : ℝ) : ℂ), 1, .nan⟩, ⟨((2 : ℝ) : ℂ), 0, .nan⟩] := by
    simp only [st0, turnFirst, List.map_cons, List.map_nil, read_onAxis, read_turnedEnd]
  have hlocal : localPath st0.cfg.pathStep st0.path (robotAt 1) = [axisPose 0 0, axisPose 0 1, axisPose 1 0] := by
    rw [hk, hpath]
    unfold localPath
    rw [every_one]
    simp only [List.map_cons, List.map_nil, local_onAxis, axisPose]
    norm_num
  have hinv : Inv 1 st0 := by
    refine ⟨cfg0_valid, rfl, fun _ => ?_, fun _ => rfl⟩
    rw [hpath]; simp [st0]
  obtain ⟨r, hr, hdone⟩ : ∃ r, getTrackingResult st0 (some (robotAt 1)) 0 0 0 0 = some r ∧ r.done = 1 := by
    obtain ⟨geo, hg, hs⟩ := geometry_spec (cfg := cfg0) (done := 0) (lp := [axisPose 0 0, axisPose 0 1, axisPose 1 0])
      (le_refl 0) (by simp) 0 0
    have hcut : CutAt [axisPose 0 0, axisPose 0 1, axisPose 1 0] cfg0.allowBackward true microEps 0 1 := by
      left
      refine ⟨rfl, by omega, axisPose 0 0, axisPose 0 1, by simp, by simp, ?_⟩
      simp only [axisPose, sub_self, norm_zero]
      have := micro_pos
      simpa using this
    have hgoal : geo.localGoal = 1 := by
      have h1 := hs.near_lt
      by_contra hne
      exact hs.noCut 1 (by omega) (by omega) hcut
    have hnear : geo.nearest = 0 := by have := hs.near_lt; omega
    have hprev : geo.prevPose = axisPose 0 0 := by
      have := hs.prev; rw [hnear] at this; simpa using this.symm
    have hnp : geo.nearPose = axisPose 0 0 := by
      have := hs.near; rw [hnear] at this; simpa using this.symm
    have hip : InPlace geo := by unfold InPlace vec; rw [hprev, hnp]; simp
    have hg' : geometry st0.cfg st0.done (localPath st0.cfg.pathStep st0.path (robotAt 1)) (lookahead st0) 0 =
        some (some geo) := by
      rw [hlocal, lookahead0 hcfg]; exact hg
    refine ⟨_, result_of_geometry rfl (by simp [st0, turnFirst]) hg', ?_⟩
    rw [hlocal, hcfg]
    unfold decideResult
    rw [if_pos (.inr (.inr (.inr hip)))]
    have hd : (rotateResult cfg0 st0.maxVel st0.done geo (length [axisPose 0 0, axisPose 0 1, axisPose 1 0])
        [axisPose 0 0, axisPose 0 1, axisPose 1 0].length).done = 1 := by
      simp only [rotateResult]
      rw [if_pos ⟨.inr (.inr hip), by rw [hgoal]; simp⟩, hgoal]
    unfold goalCheck
    split <;> exact hd
  let st1 : State := { st0 with done := 1, updated := false }
  have hfirst : firstLook st0 (some (robotAt 1)) 0 0 0 0 = some st1 := by
    unfold firstLook
    rw [if_pos (by rfl), hr, Option.map_some, hdone]
  have hinv1 : Inv 1 st1 := by
    refine ⟨cfg0_valid, rfl, fun _ => ?_, fun h => by cases h⟩
    change 1 * 1 < st0.path.length
    rw [hpath]; simp
  obtain ⟨st', o, hc, hi, hd, hp', _⟩ := control_spec hinv1 (some (robotAt 1)) (some (robotAt 1)) 0 0 0 0 (1 / 10)
  have hsame : control st0 (some (robotAt 1)) (some (robotAt 1)) 0 0 0 0 (1 / 10) =
      control st1 (some (robotAt 1)) (some (robotAt 1)) 0 0 0 0 (1 / 10) := by
    have h2 : firstLook st1 (some (robotAt 1)) 0 0 0 0 = some st1 := by unfold firstLook; rw [if_neg (by simp [st1])]
    unfold control
    rw [hfirst, h2]
  have htimer : step st0 (.timer true 10 (some (robotAt 1)) (some (robotAt 1))) = some (st', some o) := by
    simp only [step, if_true, hsame, hc, Option.map_some]
  have hd1 : 1 ≤ st'.done := hd
  refine ⟨st', by simp only [run]; rw [hstep, Option.bind_some]; simp only; rw [htimer, Option.bind_some], hd1, ?_⟩
  -- the cycle after the change
  let st2 : State := { st' with cfg := { cfg0 with pathStep := 3 }, maxVel := .fin cfg0.maxVel }
  have hrec : step st' (.reconfigure { cfg0 with pathStep := 3 }) = some (st2, none) := rfl
  have hpath2 : st2.path = st0.path := hp'
  have hlast : step st2 (.timer true 10 (some (robotAt 1)) (some (robotAt 1))) = none := by
    have hlen : (localPath st2.cfg.pathStep st2.path (robotAt 1)).length ≤ 1 := by
      rw [localPath_length]
      have h3 : st2.cfg.pathStep = 3 := rfl
      rw [h3, hpath2]
      by_contra hlt
      have := (every_spec (k := 3) (by omega) st0.path).1 1
      have h4 := this.mp (by omega)
      rw [hpath] at h4
      simp at h4
    have hgeo : ∀ o1 o2, geometry st2.cfg st2.done (localPath st2.cfg.pathStep st2.path (robotAt 1)) o1 o2 = none := by
      intro o1 o2
      unfold geometry
      rw [if_pos (le_trans hlen hd1)]
    have hget : ∀ s : State, s.cfg = st2.cfg → s.done = st2.done → s.path = st2.path → s.frame = true →
        getTrackingResult s (some (robotAt 1)) 0 0 0 0 = none := by
      intro s h1 h2 h3 h4
      unfold getTrackingResult
      rw [if_neg (by rw [h3, hpath2, hpath]; simp [h4])]
      simp only
      rw [h1, h2, h3, hgeo]
    have hframe : st2.frame = true := by
      obtain ⟨st'', o', hc', _, _, _, hf', _⟩ := control_spec hinv1 (some (robotAt 1)) (some (robotAt 1)) 0 0 0 0 (1 / 10)
      rw [hc] at hc'
      cases hc'
      exact hf'
    have hctl : control st2 (some (robotAt 1)) (some (robotAt 1)) 0 0 0 0 (1 / 10) = none := by
      unfold control firstLook
      split
      · rw [hget st2 rfl rfl rfl hframe]; rfl
      · rw [Option.bind_some, hget st2 rfl rfl rfl hframe]; rfl
    simp only [step, if_true, hctl, Option.map_none]
  simp only [run]
  rw [hstep, Option.bind_some]
  simp only
  rw [htimer, Option.bind_some]
  simp only
  rw [hrec, Option.bind_some]
  simp only
  rw [hlast]
  rfl

/-! ### Cases meeting the hypotheses of the theorems -/

/-- A history with a path, control cycles, a speed change and a lost odometry. -/
noncomputable def history : List Event :=
  [.path false straight3 true, .timer true 10 (some (robotAt 0)) (some (robotAt 0)), .speed (.fin (1 / 4)),
   .odometry true 1 5 5 0 0 (some (robotAt 0)) (some (robotAt 0)),
   .odometry true 1 6 6 1 0 (some (robotAt (1 / 2))) (some (robotAt (1 / 2))), .odomTimeout]

theorem history_keeps : ∀ e ∈ history, e.KeepsStep cfg0.pathStep := by
  intro e he
  simp only [history, List.mem_cons, List.not_mem_nil, or_false] at he
  rcases he with rfl | rfl | rfl | rfl | rfl | rfl <;> trivial

theorem history_bounded : ∀ e ∈ history, e.Bounded (1 / 2) 1 := by
  intro e he
  simp only [history, List.mem_cons, List.not_mem_nil, or_false] at he
  rcases he with rfl | rfl | rfl | rfl | rfl | rfl
  · intro h; cases h
  · change (0 : ℝ) < 10; norm_num
  · exact ⟨1 / 4, rfl, by norm_num, by norm_num⟩
  · exact zero_le_one
  · exact zero_le_one
  · trivial

/-- C42: the history stays inside the path, and its path is not empty. -/
example : ∃ st, run (start cfg0) history = some st ∧ st.done * 1 < 3 ∧ st.path.length = 3 := by
  obtain ⟨st, hr, h1⟩ := never_outside cfg0_valid history history_keeps
  have hs : run (start cfg0) [.path false straight3 true] = some (atStraight true) := by
    simp only [run]
    have := path_step cfg0 rfl straight3
    rw [this]; rfl
  have hrest : run (atStraight true) history.tail = some st := by
    have hstep := path_step cfg0 rfl straight3
    have h2 : run (start cfg0) history = run (atStraight true) history.tail := by
      change (step (start cfg0) (.path false straight3 true)).bind _ = _
      rw [hstep]; rfl
    rw [← h2]; exact hr
  have hp := (progress_monotone cfg0_valid [.path false straight3 true] history.tail history_keeps (by
    intro e he
    simp only [history, List.tail_cons, List.mem_cons, List.not_mem_nil, or_false] at he
    rcases he with rfl | rfl | rfl | rfl | rfl <;> trivial) hs hrest).2
  have hlen : st.path.length = 3 := by rw [hp]; simp [atStraight, straight3]
  refine ⟨st, hr, ?_, hlen⟩
  have := h1 (by intro h; rw [h] at hlen; simp at hlen)
  rw [hlen] at this
  exact this

/-- C40: a message with a negative speed is met by `invalid_path_silent`. -/
example : ∀ es' : List Event, (∀ e ∈ es', e.KeepsStep 1) → (∀ e ∈ es', e.NotPath) →
    ∀ st' o, step (start cfg0) (.path true [{ onAxis 0 with vel := .fin (-1) }] true) = some (st', o) →
    ∀ out ∈ outputs st' es', out.Zero := by
  intro es' hk hn st' o hs
  refine invalid_path_silent cfg0_valid [] es' (fun e he => hk e (by simpa using he)) hn rfl true _ true (.inr ?_) hs
  have hz : (start cfg0).cfg.epsilon = 0 := rfl
  rw [hz]
  unfold fromMsg
  rw [convert_exact]
  exact ⟨_, List.mem_map.mpr ⟨_, List.mem_singleton.mpr rfl, rfl⟩, -1, rfl, by norm_num⟩

/-- C86: the commands of the history are within 0.5 m/s and 1 rad/s. -/
example : ∀ out ∈ outputs (start cfg0) history, |out.cmdV| ≤ 1 / 2 ∧ |out.cmdW| ≤ 1 := by
  refine commands_bounded cfg0_valid ⟨by simp [cfg0], by simp [cfg0], by simp [cfg0], by simp [cfg0]⟩ (by simp [cfg0])
    (by simp [cfg0]) history history_keeps history_bounded ?_
  refine ⟨fun t h => (by cases h), fun t h => ?_, trivial⟩
  cases h; norm_num

end Verif.Tracker
