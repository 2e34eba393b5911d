import Verif.Tracker.Lemmas
/-!
# Theorems on the path tracking node (C40, C41, C42, C86)
-/
namespace Verif.Tracker
open Verif.Num Verif.Path2D

/-! ## C42: progress along the path -/

/-- Invariant of the node while the path step is `k`: the completed part of the path ends within the path. -/
structure Inv (k : Nat) (st : State) : Prop where
  valid : st.cfg.Valid
  step : st.cfg.pathStep = k
  inPath : st.path ≠ [] → st.done * k < st.path.length
  fresh : st.updated = true → st.done = 0

/-- One evaluation of the path by a node in a valid state. -/
theorem result_spec {k : Nat} {st : State} (h : Inv k st) (robot : Option Tf) (offset : ℂ) (yr ov ow : ℝ) :
    ∃ r, getTrackingResult st robot offset yr ov ow = some r ∧
      (r.status = .noPath ↔ st.frame = false ∨ st.path = [] ∨ robot = none) ∧
      (r.status = .noPath ∨ r.status = .farFromPath → r.done = 0) ∧
      (r.status ≠ .noPath → r.status ≠ .farFromPath → st.done ≤ r.done ∧ r.done * k < st.path.length) := by
  unfold getTrackingResult
  by_cases h1 : (!st.frame) = true ∨ st.path = []
  · rw [if_pos h1]
    refine ⟨_, rfl, ?_, fun _ => rfl, fun h => absurd rfl h⟩
    simp only [Result.init, true_iff]
    rcases h1 with h1 | h1
    · left; simpa using h1
    · exact .inr (.inl h1)
  · rw [if_neg h1]
    push Not at h1
    cases robot with
    | none => exact ⟨_, rfl, by simp [Result.init], fun _ => rfl, fun h => absurd rfl h⟩
    | some tf =>
      simp only
      have hk : 1 ≤ k := by rw [← h.step]; exact h.valid.step
      have hev := (every_spec hk st.path).1
      have hlen : (localPath st.cfg.pathStep st.path tf).length = (every k st.path).length := by
        rw [localPath_length, h.step]
      have hd : st.done < (localPath st.cfg.pathStep st.path tf).length := by
        rw [hlen, hev]; exact h.inPath h1.2
      obtain ⟨geo, hg, hs⟩ := geometry_spec h.valid.eps hd (lookahead st) offset
      rw [hg]
      simp only
      obtain ⟨d1, d2, d3⟩ := decide_done (cfg := st.cfg) (mv := st.maxVel) (done := st.done) (geo := geo)
        (len := length (localPath st.cfg.pathStep st.path tf)) (size := (localPath st.cfg.pathStep st.path tf).length)
        (full := st.path.length) (o := lookahead st) (yr := yr) (ov := ov) (ow := ow)
        hs.done_le hs.near_lt hs.goal_le
      refine ⟨_, rfl, ?_, ?_, ?_⟩
      · constructor
        · intro hh; exact absurd hh d1
        · rintro (hh | hh | hh)
          · rw [hh] at h1; simp at h1
          · exact absurd hh h1.2
          · cases hh
      · rintro (hh | hh)
        · exact absurd hh d1
        · exact d2 hh
      · intro _ hfar
        have := d3 hfar
        exact ⟨this.1, (hev _).mp (hlen ▸ this.2)⟩

/-- The evaluation of a new path leaves a valid state. -/
theorem first_spec {k : Nat} {st : State} (h : Inv k st) (r1 : Option Tf) (offset : ℂ) (yr ov ow : ℝ) :
    ∃ st1, firstLook st r1 offset yr ov ow = some st1 ∧ Inv k st1 ∧ st.done ≤ st1.done ∧ st1.path = st.path ∧
      st1.frame = st.frame ∧ st1.cfg = st.cfg ∧ st1.maxVel = st.maxVel ∧ st1.updated = false := by
  unfold firstLook
  cases hu : st.updated with
  | false => exact ⟨st, by simp, h, le_refl _, rfl, rfl, rfl, rfl, hu⟩
  | true =>
    obtain ⟨r, hr, hs1, hs2, hs3⟩ := result_spec h r1 offset yr ov ow
    have hd0 := h.fresh hu
    refine ⟨{ st with done := r.done, updated := false }, by simp [hr], ⟨h.valid, h.step, ?_, ?_⟩, ?_, rfl, rfl, rfl,
      rfl, rfl⟩
    · intro hp
      by_cases hz : r.status = .noPath ∨ r.status = .farFromPath
      · have := hs2 hz
        simp only [this, Nat.zero_mul]
        exact List.length_pos_iff.mpr hp
      · push Not at hz
        exact (hs3 hz.1 hz.2).2
    · intro hh; cases hh
    · rw [hd0]; exact Nat.zero_le _

/-- Facts on one control cycle of a node in a valid state. -/
theorem control_spec {k : Nat} {st : State} (h : Inv k st) (r1 r2 : Option Tf) (offset : ℂ) (yr ov ow dt : ℝ) :
    ∃ st' o, control st r1 r2 offset yr ov ow dt = some (st', o) ∧ Inv k st' ∧ st.done ≤ st'.done ∧
      st'.path = st.path ∧ st'.frame = st.frame ∧ st'.cfg = st.cfg ∧ st'.maxVel = st.maxVel ∧
      (o.status = .noPath ↔ st.frame = false ∨ st.path = [] ∨ r2 = none) ∧
      (o.status = .noPath ∨ o.status = .farFromPath → o.Zero ∧ st'.v = 0 ∧ st'.w = 0) ∧
      (o.cmdV = st'.v ∧ o.cmdW = st'.w) := by
  obtain ⟨st1, e1, i1, l1, p1, f1, c1, m1, u1⟩ := first_spec h r1 offset yr ov ow
  obtain ⟨r, hr, hs1, hs2, hs3⟩ := result_spec i1 r2 offset yr ov ow
  have hcontrol : control st r1 r2 offset yr ov ow dt = some (command st1 r dt) := by
    unfold control
    rw [e1, Option.bind_some, hr, Option.map_some]
  refine ⟨(command st1 r dt).1, (command st1 r dt).2, hcontrol, ?_⟩
  unfold command
  by_cases hz : r.status = .noPath ∨ r.status = .farFromPath
  · simp only [if_pos hz]
    refine ⟨⟨i1.valid, i1.step, i1.inPath, i1.fresh⟩, l1, p1, f1, c1, m1, ?_, fun _ => ⟨⟨rfl, rfl⟩, trivial, trivial⟩,
      trivial, trivial⟩
    rw [← f1, ← p1]; exact hs1
  · simp only [if_neg hz]
    have hz' := hz
    push Not at hz'
    obtain ⟨d1, d2⟩ := hs3 hz'.1 hz'.2
    refine ⟨⟨i1.valid, i1.step, fun _ => d2, fun hh => ?_⟩, le_trans l1 d1, p1, f1, c1, m1, ?_,
      fun hh => absurd hh hz, trivial, trivial⟩
    · simp only [u1] at hh; cases hh
    · rw [← f1, ← p1]; exact hs1

/-- One callback of a node in a valid state. -/
theorem step_spec {k : Nat} {st : State} (h : Inv k st) (e : Event) (he : e.KeepsStep k) :
    ∃ st' o, step st e = some (st', o) ∧ Inv k st' ∧ (e.NotPath → st.done ≤ st'.done ∧ st'.path = st.path ∧
      st'.frame = st.frame) := by
  cases e with
  | path v ps f =>
    refine ⟨_, _, rfl, ⟨h.valid, h.step, ?_, fun _ => rfl⟩, fun hh => absurd hh (by simp [Event.NotPath])⟩
    intro hp
    simp only [Nat.zero_mul]
    exact List.length_pos_iff.mpr hp
  | speed v => exact ⟨_, _, rfl, ⟨h.valid, h.step, h.inPath, h.fresh⟩, fun _ => ⟨le_refl _, rfl, rfl⟩⟩
  | reconfigure c => exact ⟨_, _, rfl, ⟨he.1, he.2, h.inPath, h.fresh⟩, fun _ => ⟨le_refl _, rfl, rfl⟩⟩
  | odometry po md s n ov ow r1 r2 =>
    cases hp : st.prevStamp with
    | none =>
      refine ⟨{ st with prevStamp := some s }, none, by simp [step, hp], ⟨h.valid, h.step, h.inPath, h.fresh⟩,
        fun _ => ⟨le_refl _, rfl, rfl⟩⟩
    | some prev =>
      obtain ⟨st', o, hc, hi, hd, hpath, hf, _⟩ := control_spec h
        (r1.map (predict (if po then max 0 (min md (n - s)) else 0) ov ow))
        (r2.map (predict (if po then max 0 (min md (n - s)) else 0) ov ow))
        ((ov * (if po then max 0 (min md (n - s)) else 0) : ℝ) : ℂ) (ow * (if po then max 0 (min md (n - s)) else 0)) ov ow
        (min md (s - prev))
      refine ⟨{ st' with prevStamp := some s }, some o, ?_, ⟨hi.valid, hi.step, hi.inPath, hi.fresh⟩,
        fun _ => ⟨hd, hpath, hf⟩⟩
      simp only [step, hp]
      rw [hc]; rfl
  | timer found hz r1 r2 =>
    cases found with
    | false => exact ⟨st, none, by simp [step], h, fun _ => ⟨le_refl _, rfl, rfl⟩⟩
    | true =>
      obtain ⟨st', o, hc, hi, hd, hpath, hf, _⟩ := control_spec h r1 r2 0 0 0 0 (1 / hz)
      exact ⟨st', some o, by simp only [step, if_true, hc, Option.map_some], hi, fun _ => ⟨hd, hpath, hf⟩⟩
  | odomTimeout => exact ⟨_, _, rfl, ⟨h.valid, h.step, h.inPath, h.fresh⟩, fun _ => ⟨le_refl _, rfl, rfl⟩⟩

theorem run_inv {k : Nat} (es : List Event) : ∀ {st : State}, Inv k st → (∀ e ∈ es, e.KeepsStep k) →
    ∃ st', run st es = some st' ∧ Inv k st' := by
  induction es with
  | nil => intro st h _; exact ⟨st, rfl, h⟩
  | cons e es ih =>
    intro st h he
    obtain ⟨st', o, hs, hi, _⟩ := step_spec h e (he e (by simp))
    obtain ⟨st'', hr, hi'⟩ := ih hi (fun x hx => he x (by simp [hx]))
    exact ⟨st'', by simp [run, hs, hr], hi'⟩

theorem start_inv {cfg : Config} (hv : cfg.Valid) : Inv cfg.pathStep (start cfg) :=
  ⟨hv, rfl, fun h => absurd rfl h, fun h => by cases h⟩

/-- As long as the path step is not changed, no history of callbacks makes the node read outside the path, and the end of
the completed part is always a pose of the path. -/
theorem never_outside {cfg : Config} (hv : cfg.Valid) (es : List Event) (he : ∀ e ∈ es, e.KeepsStep cfg.pathStep) :
    ∃ st, run (start cfg) es = some st ∧ (st.path ≠ [] → st.done * cfg.pathStep < st.path.length) := by
  obtain ⟨st, hr, hi⟩ := run_inv es (start_inv hv) he
  exact ⟨st, hr, hi.inPath⟩

/-- Between two path messages the completed part never shrinks. -/
theorem progress_monotone {cfg : Config} (hv : cfg.Valid) (es es' : List Event)
    (he : ∀ e ∈ es ++ es', e.KeepsStep cfg.pathStep) (hn : ∀ e ∈ es', e.NotPath) {st st' : State}
    (h1 : run (start cfg) es = some st) (h2 : run st es' = some st') : st.done ≤ st'.done ∧ st'.path = st.path := by
  have key : ∀ (es' : List Event) (st : State), Inv cfg.pathStep st → (∀ e ∈ es', e.KeepsStep cfg.pathStep) →
      (∀ e ∈ es', e.NotPath) → ∀ st', run st es' = some st' → st.done ≤ st'.done ∧ st'.path = st.path := by
    intro es'
    induction es' with
    | nil => intro st _ _ _ st' hr; cases hr; exact ⟨le_refl _, rfl⟩
    | cons e es' ih =>
      intro st hi hk hnp st' hr
      obtain ⟨s1, o, hs, hi1, hd⟩ := step_spec hi e (hk e (by simp))
      obtain ⟨d1, p1, _⟩ := hd (hnp e (by simp))
      simp only [run, hs, Option.bind_some] at hr
      obtain ⟨d2, p2⟩ := ih s1 hi1 (fun x hx => hk x (by simp [hx])) (fun x hx => hnp x (by simp [hx])) st' hr
      exact ⟨le_trans d1 d2, p2.trans p1⟩
  obtain ⟨st0, hr0, hi0⟩ := run_inv es (start_inv hv) (fun e h => he e (by simp [h]))
  rw [h1] at hr0
  cases hr0
  exact key es' st hi0 (fun e h => he e (by simp [h])) hn st' h2

/-! ## C40: stopping -/

/-- When the odometry times out, a stop is published and the node forgets its velocity. -/
theorem timeout_stops (st : State) : ∃ st' o, step st .odomTimeout = some (st', some o) ∧ o.Zero ∧ o.status = .noPath ∧
    st'.v = 0 ∧ st'.w = 0 := ⟨_, _, rfl, ⟨rfl, rfl⟩, rfl, rfl, rfl⟩

/-- A control cycle without a path, with a path without frame, or without the transform, publishes a stop; so does one that
reports the robot too far from the path.  A missing path is reported exactly in the first three cases. -/
theorem no_path_stops {k : Nat} {st : State} (h : Inv k st) (r1 r2 : Option Tf) (offset : ℂ) (yr ov ow dt : ℝ) :
    ∃ st' o, control st r1 r2 offset yr ov ow dt = some (st', o) ∧
      (o.status = .noPath ↔ st.frame = false ∨ st.path = [] ∨ r2 = none) ∧
      (o.status = .noPath ∨ o.status = .farFromPath → o.Zero ∧ st'.v = 0 ∧ st'.w = 0) := by
  obtain ⟨st', o, hc, _, _, _, _, _, _, h1, h2, _⟩ := control_spec h r1 r2 offset yr ov ow dt
  exact ⟨st', o, hc, h1, h2⟩

/-- After a path message which is empty or contains a pose with a negative speed (after merging), every command is a stop
until another path arrives, whatever happens. -/
theorem invalid_path_silent {cfg : Config} (hv : cfg.Valid) (es es' : List Event)
    (he : ∀ e ∈ es ++ es', e.KeepsStep cfg.pathStep) (hn : ∀ e ∈ es', e.NotPath) {st st' : State} {o : Option Out}
    (h1 : run (start cfg) es = some st) (v : Bool) (ps : List PoseMsg) (f : Bool)
    (hbad : ps = [] ∨ ∃ q ∈ fromMsg v st.cfg.epsilon ps, ∃ x : ℝ, q.vel = .fin x ∧ x < 0)
    (hs : step st (.path v ps f) = some (st', o)) : ∀ out ∈ outputs st' es', out.Zero := by
  obtain ⟨st0, hr0, hi0⟩ := run_inv es (start_inv hv) (fun e h => he e (by simp [h]))
  rw [h1] at hr0
  cases hr0
  obtain ⟨st1, o1, hs1, hi1, _⟩ := step_spec hi0 (.path v ps f) trivial
  rw [hs] at hs1
  cases hs1
  have hempty : st'.path = [] := by
    simp only [step, Option.some.injEq, Prod.mk.injEq] at hs
    rw [← hs.1]
    simp only
    rcases hbad with rfl | hb
    · split
      · rfl
      · rfl
    · rw [if_pos hb]
  have key : ∀ (es' : List Event) (st : State), Inv cfg.pathStep st → st.path = [] → (∀ e ∈ es', e.KeepsStep cfg.pathStep) →
      (∀ e ∈ es', e.NotPath) → ∀ out ∈ outputs st es', out.Zero := by
    intro es'
    induction es' with
    | nil => intro st _ _ _ _ out ho; simp [outputs] at ho
    | cons e es' ih =>
      intro st hi hp hk hnp out ho
      obtain ⟨s1, o1, hs1, hi1, hd⟩ := step_spec hi e (hk e (by simp))
      obtain ⟨_, p1, _⟩ := hd (hnp e (by simp))
      have hrest := ih s1 hi1 (p1.trans hp) (fun x hx => hk x (by simp [hx])) (fun x hx => hnp x (by simp [hx]))
      simp only [outputs, hs1] at ho
      cases o1 with
      | none => exact hrest out ho
      | some o1 =>
        rcases List.mem_cons.mp ho with rfl | ho
        · -- the output of this step
          cases e with
          | path a b c => exact (hnp (.path a b c) (by simp)).elim
          | speed v => simp [step] at hs1
          | reconfigure c => simp [step] at hs1
          | odomTimeout => simp only [step, Option.some.injEq, Prod.mk.injEq] at hs1; rw [← hs1.2]; exact ⟨rfl, rfl⟩
          | timer found hz r1 r2 =>
            cases found with
            | false => simp only [step, Bool.false_eq_true, if_false, Option.some.injEq, Prod.mk.injEq] at hs1; cases hs1.2
            | true =>
              obtain ⟨s2, o2, hc, h2, h3⟩ := no_path_stops hi r1 r2 0 0 0 0 (1 / hz)
              simp only [step, if_true, hc, Option.map_some, Option.some.injEq, Prod.mk.injEq] at hs1
              rw [← hs1.2]
              exact (h3 (.inl (h2.mpr (.inr (.inl hp))))).1
          | odometry po md s n ov ow r1 r2 =>
            cases hpp : st.prevStamp with
            | none => simp [step, hpp] at hs1
            | some prev =>
              obtain ⟨s2, o2, hc, h2, h3⟩ := no_path_stops hi
                (r1.map (predict (if po then max 0 (min md (n - s)) else 0) ov ow))
                (r2.map (predict (if po then max 0 (min md (n - s)) else 0) ov ow))
                ((ov * (if po then max 0 (min md (n - s)) else 0) : ℝ) : ℂ)
                (ow * (if po then max 0 (min md (n - s)) else 0)) ov ow (min md (s - prev))
              simp only [step, hpp, hc, Option.map_some, Option.some.injEq, Prod.mk.injEq] at hs1
              rw [← hs1.2]
              exact (h3 (.inl (h2.mpr (.inr (.inl hp))))).1
        · exact hrest out ho
  exact key es' st' hi1 hempty (fun e h => he e (by simp [h])) hn

/-- What one evaluation of the path says when it is not a failure: the path relative to the robot, the part of it the
robot is on, and the decision taken from that. -/
theorem result_geo {k : Nat} {st : State} (h : Inv k st) {robot : Option Tf} {offset : ℂ} {yr ov ow : ℝ} {r : Result}
    (hr : getTrackingResult st robot offset yr ov ow = some r) (hn : r.status ≠ .noPath) :
    ∃ tf geo, robot = some tf ∧
      GeoSpec st.cfg st.done (localPath st.cfg.pathStep st.path tf) (lookahead st) offset geo ∧
      r = decideResult st.cfg st.maxVel st.done geo (length (localPath st.cfg.pathStep st.path tf))
        (localPath st.cfg.pathStep st.path tf).length st.path.length (lookahead st) yr ov ow := by
  unfold getTrackingResult at hr
  by_cases h1 : (!st.frame) = true ∨ st.path = []
  · rw [if_pos h1] at hr; cases hr; exact absurd rfl hn
  · rw [if_neg h1] at hr
    push Not at h1
    cases robot with
    | none => cases hr; exact absurd rfl hn
    | some tf =>
      simp only at hr
      have hk : 1 ≤ k := by rw [← h.step]; exact h.valid.step
      have hd : st.done < (localPath st.cfg.pathStep st.path tf).length := by
        rw [localPath_length, h.step, (every_spec hk st.path).1]; exact h.inPath h1.2
      obtain ⟨geo, hg, hs⟩ := geometry_spec h.valid.eps hd (lookahead st) offset
      rw [hg] at hr
      simp only [Option.some.injEq] at hr
      exact ⟨tf, geo, rfl, hs, hr.symm⟩

/-- Which of its cases a result comes from. -/
theorem result_cases (cfg : Config) (mv : Ext ℝ) (done : Nat) (geo : Geo) (len : ℝ) (size full : Nat) (o : ℂ)
    (yr ov ow : ℝ) : 
    (Rotate cfg geo len ∧ decideResult cfg mv done geo len size full o yr ov ow =
      goalCheck cfg (rotateResult cfg mv done geo len size) geo size ov ow) ∨
    (¬ Rotate cfg geo len ∧ |distFromPath geo full o| > cfg.dStop ∧
      decideResult cfg mv done geo len size full o yr ov ow = farResult cfg geo len yr) ∨
    (¬ Rotate cfg geo len ∧ |distFromPath geo full o| ≤ cfg.dStop ∧
      decideResult cfg mv done geo len size full o yr ov ow =
        goalCheck cfg (followResult cfg mv done geo len o yr) geo size ov ow) := by
  unfold decideResult
  by_cases h1 : Rotate cfg geo len
  · exact .inl ⟨h1, if_pos h1⟩
  · by_cases h2 : |distFromPath geo full o| > cfg.dStop
    · exact .inr (.inl ⟨h1, h2, by rw [if_neg h1, if_pos h2]⟩)
    · exact .inr (.inr ⟨h1, not_lt.mp h2, by rw [if_neg h1, if_neg h2]⟩)

theorem goalCheck_fields (cfg : Config) (r : Result) (geo : Geo) (size : Nat) (ov ow : ℝ) :
    (goalCheck cfg r geo size ov ow).turning = r.turning ∧ (goalCheck cfg r geo size ov ow).distance = r.distance ∧
    (goalCheck cfg r geo size ov ow).angle = r.angle ∧ (goalCheck cfg r geo size ov ow).targetVel = r.targetVel ∧
    (goalCheck cfg r geo size ov ow).distanceRaw = r.distanceRaw ∧
    ((goalCheck cfg r geo size ov ow).status = .goal → r.status ≠ .goal → AtGoal cfg r geo size ov ow) := by
  unfold goalCheck
  split
  · next h => exact ⟨rfl, rfl, rfl, rfl, rfl, fun _ _ => h⟩
  · exact ⟨rfl, rfl, rfl, rfl, rfl, fun h h' => absurd h h'⟩

/-- Tracking other than turning on the spot happens only while the look-ahead point is within the stop distance of the
path: of its nearest pose at either end of the path, of the line through the nearest part elsewhere. -/
theorem following_near_partial {k : Nat} {st : State} (h : Inv k st) {robot : Option Tf} {offset : ℂ} {yr ov ow : ℝ}
    {r : Result} (hr : getTrackingResult st robot offset yr ov ow = some r) (hn : r.status ≠ .noPath)
    (hf : r.status ≠ .farFromPath) (ht : r.turning = false) :
    ∃ tf n a b, robot = some tf ∧ (localPath st.cfg.pathStep st.path tf)[n - 1]? = some a ∧
      (localPath st.cfg.pathStep st.path tf)[n]? = some b ∧ st.done ≤ n ∧
      ((0 < n ∧ n + 1 < st.path.length ∧ |lineDistance a.pos b.pos (lookahead st)| ≤ st.cfg.dStop) ∨
        ‖b.pos - lookahead st‖ ≤ st.cfg.dStop) := by
  obtain ⟨tf, geo, htf, hs, hd⟩ := result_geo h hr hn
  refine ⟨tf, geo.nearest, _, _, htf, hs.prev, hs.near, hs.done_le, ?_⟩
  rcases result_cases st.cfg st.maxVel st.done geo (length (localPath st.cfg.pathStep st.path tf))
    (localPath st.cfg.pathStep st.path tf).length st.path.length (lookahead st) yr ov ow with ⟨_, h2⟩ | ⟨_, _, h2⟩ | ⟨_, h2, _⟩
  · rw [hd, h2, (goalCheck_fields _ _ _ _ _ _).1] at ht
    cases ht
  · rw [hd, h2] at hf; exact absurd rfl hf
  · unfold distFromPath at h2
    by_cases h0 : geo.nearest = 0
    · rw [if_pos h0, abs_neg, abs_of_nonneg (norm_nonneg _)] at h2; exact .inr h2
    · rw [if_neg h0] at h2
      by_cases h3 : geo.nearest + 1 ≥ st.path.length
      · rw [if_pos h3, abs_neg, abs_of_nonneg (norm_nonneg _)] at h2; exact .inr h2
      · rw [if_neg h3] at h2; exact .inl ⟨by omega, by omega, h2⟩

/-! ## C41: the goal -/

/-- The goal is reported only with the transform to the path known, the odometry velocities within tolerance, and no end
of a stretch (turn in place, change of direction) left between the completed part and the end of the path.  The published
distance and angle are within tolerance.  The distance is the way left from the foot of the look-ahead point, and that from
the foot of the unpredicted position is within tolerance as well, unless the robot turns in place, or the path is shorter
than the stop distance or than the distance below which positions are not controlled.  The angle is the heading error
with respect to the final pose of the path, or to the direction of the part the robot is on.  Unless the robot turns on the
spot (at a turn in place, on a path below the length for tracking, within the stop distance of the end, or because of a
large angle error), the angle without the predicted rotation is within tolerance too. -/
theorem goal_within_partial {k : Nat} {st : State} (h : Inv k st) {r1 r2 : Option Tf} {offset : ℂ} {yr ov ow dt : ℝ}
    {st' : State} {o : Out} (hc : control st r1 r2 offset yr ov ow dt = some (st', o)) (hg : o.status = .goal) :
    ∃ tf done, r2 = some tf ∧ st.done ≤ done ∧
      |o.distance| < st.cfg.goalDist ∧ |o.angle| < st.cfg.goalAng ∧
      (st.cfg.goalLinVel = 0 ∨ |ov| < st.cfg.goalLinVel) ∧ (st.cfg.goalAngVel = 0 ∨ |ow| < st.cfg.goalAngVel) ∧
      let lp := localPath st.cfg.pathStep st.path tf
      (∀ i, done < i → i < lp.length → ¬ CutAt lp st.cfg.allowBackward true microEps done i) ∧
      ∃ n a b l, lp[n - 1]? = some a ∧ lp[n]? = some b ∧ lp[lp.length - 1]? = some l ∧ done ≤ n ∧
        ((a.pos = b.pos ∨ length lp < st.cfg.stopDist ∨ length lp < st.cfg.noPosCntlDist) ∨
          (remainedDistance lp 0 n lp.length (projection a.pos b.pos (lookahead st)) = some o.distance ∧
           ∃ d, remainedDistance lp 0 n lp.length (projection a.pos b.pos offset) = some d ∧ |d| < st.cfg.goalDist)) ∧
        (Control.Spec.IsNormal Real.pi (-l.yaw) o.angle ∨
          Control.Spec.IsNormal Real.pi (-Complex.arg (b.pos - a.pos)) o.angle ∨
          (st.cfg.allowBackward = true ∧ Control.Spec.IsNormal Real.pi (-Complex.arg (b.pos - a.pos) + Real.pi) o.angle)) ∧
        (|o.angle + yr| < st.cfg.goalAng ∨ a.pos = b.pos ∨ length lp < st.cfg.minTrackPath ∨ length lp < st.cfg.stopDist ∨
          |o.distance| < st.cfg.stopDist ∨ (|st.cfg.rotateAng| < Real.pi ∧ Real.cos st.cfg.rotateAng > Real.cos o.angle)) := by
  obtain ⟨st1, e1, i1, l1, p1, f1, c1, m1, u1⟩ := first_spec h r1 offset yr ov ow
  obtain ⟨r, hr, hs1, hs2, hs3⟩ := result_spec i1 r2 offset yr ov ow
  have hcontrol : control st r1 r2 offset yr ov ow dt = some (command st1 r dt) := by
    unfold control
    rw [e1, Option.bind_some, hr, Option.map_some]
  rw [hcontrol, Option.some.injEq] at hc
  have hst : o.status = r.status ∧ o.distance = r.distance ∧ o.angle = r.angle := by
    have : o = (command st1 r dt).2 := by rw [hc]
    rw [this]
    unfold command
    split <;> exact ⟨rfl, rfl, rfl⟩
  have hv : st1.v = st.v ∧ st1.w = st.w := by
    unfold firstLook at e1
    split at e1
    · obtain ⟨r0, _, rfl⟩ := Option.map_eq_some_iff.mp e1; exact ⟨rfl, rfl⟩
    · cases e1; exact ⟨rfl, rfl⟩
  have hla : lookahead st1 = lookahead st := by unfold lookahead; rw [hv.1, hv.2, c1]
  rw [hst.1] at hg
  obtain ⟨tf, geo, htf, hs, hd⟩ := result_geo i1 hr (by rw [hg]; simp)
  rw [c1, p1, hla] at hs
  rw [c1, p1, m1, hla] at hd
  refine ⟨tf, st1.done, htf, l1, ?_⟩
  rw [hst.2.1, hst.2.2]
  have hnorm : ∀ z : ℂ, InPlace geo → geo.prevPose.pos = geo.nearPose.pos := by
    intro _ hp
    unfold InPlace vec at hp
    have : geo.nearPose.pos - geo.prevPose.pos = 0 := Complex.ext hp.2 hp.1
    exact (sub_eq_zero.mp this).symm
  have hpath : Control.Spec.IsNormal Real.pi (-Complex.arg (geo.nearPose.pos - geo.prevPose.pos)) (pathAngle st.cfg geo) ∨
      (st.cfg.allowBackward = true ∧
        Control.Spec.IsNormal Real.pi (-Complex.arg (geo.nearPose.pos - geo.prevPose.pos) + Real.pi) (pathAngle st.cfg geo)) := by
    unfold pathAngle
    by_cases hb : Backward st.cfg geo
    · rw [if_pos hb]
      refine .inr ⟨?_, angNorm_spec _⟩
      by_contra hab
      unfold Backward at hb
      simp only [hab] at hb
      have := Real.cos_sq_add_sin_sq (-(-Complex.arg (vec geo)))
      simp only [if_false] at hb
      nlinarith
    · rw [if_neg hb]; exact .inl (angNorm_spec _)
  rcases result_cases st.cfg st.maxVel st1.done geo (length (localPath st.cfg.pathStep st.path tf))
    (localPath st.cfg.pathStep st.path tf).length st.path.length (lookahead st) yr ov ow with
    ⟨hrot, h2⟩ | ⟨_, _, h2⟩ | ⟨hrot, _, h2⟩
  · rw [h2] at hd
    obtain ⟨f1, f2, f3, f4, f5, f6⟩ := goalCheck_fields st.cfg (rotateResult st.cfg st.maxVel st1.done geo
      (length (localPath st.cfg.pathStep st.path tf)) (localPath st.cfg.pathStep st.path tf).length) geo
      (localPath st.cfg.pathStep st.path tf).length ov ow
    obtain ⟨a1, a2, a3, a4, a5, a6, a7⟩ := f6 (by rw [← hd]; exact hg) (by simp [rotateResult, Result.init])
    rw [hd, f2, f3]
    refine ⟨a1, a2, a5, a6, ?_⟩
    simp only
    refine ⟨?_, geo.nearest, geo.prevPose, geo.nearPose, ?_⟩
    · rw [← a7]; exact hs.noCut
    obtain ⟨l, hl, hy⟩ := hs.yaw
    refine ⟨l, hs.prev, hs.near, by rw [← a7]; exact hl, hs.done_le, ?_, ?_⟩
    · simp only [rotateResult] at a3 ⊢
      by_cases hsh : length (localPath st.cfg.pathStep st.path tf) < st.cfg.stopDist ∨ InPlace geo
      · left
        rcases hsh with hsh | hsh
        · exact .inr (.inl hsh)
        · exact .inl (hnorm 0 hsh)
      · rw [if_neg hsh] at a3 ⊢
        unfold unlessShort at a3 ⊢
        by_cases hn : length (localPath st.cfg.pathStep st.path tf) < st.cfg.noPosCntlDist
        · exact .inl (.inr (.inr hn))
        · rw [if_neg hn] at a3 ⊢
          exact .inr ⟨hs.remain, _, hs.remainRaw, a3⟩
    · constructor
      · simp only [rotateResult]
        split
        · left; rw [hy]; exact angNorm_spec _
        · exact .inr hpath
      · right
        have hloc : geo.remainLocal = geo.remain := by
          have h1 := hs.remainLocal
          rw [a7, hs.remain] at h1
          exact (Option.some.inj h1).symm
        by_cases hip : InPlace geo
        · exact .inl (hnorm 0 hip)
        by_cases hmt : length (localPath st.cfg.pathStep st.path tf) < st.cfg.minTrackPath
        · exact .inr (.inl hmt)
        by_cases hls : length (localPath st.cfg.pathStep st.path tf) < st.cfg.stopDist
        · exact .inr (.inr (.inl hls))
        right; right; right
        by_cases hst : |unlessShort st.cfg (length (localPath st.cfg.pathStep st.path tf)) geo.remainLocal| < st.cfg.stopDist
        · left
          simp only [rotateResult, hls, hip, or_self, if_false]
          rw [← hloc]; exact hst
        · right
          have hng : ¬ ToGoal st.cfg geo (length (localPath st.cfg.pathStep st.path tf)) := by
            rintro (hh | hh | hh)
            · exact hmt hh
            · exact hst hh
            · exact hip hh
          simp only [rotateResult, if_neg hng]
          rcases hrot with hrot | hrot | hrot | hrot
          · exact hrot
          · exact absurd hrot hst
          · exact absurd hrot hmt
          · exact absurd hrot hip
  · rw [hd, h2] at hg; cases hg
  · rw [h2] at hd
    obtain ⟨f1, f2, f3, f4, f5, f6⟩ := goalCheck_fields st.cfg (followResult st.cfg st.maxVel st1.done geo
      (length (localPath st.cfg.pathStep st.path tf)) (lookahead st) yr) geo
      (localPath st.cfg.pathStep st.path tf).length ov ow
    obtain ⟨a1, a2, a3, a4, a5, a6, a7⟩ := f6 (by rw [← hd]; exact hg) (by simp [followResult, Result.init])
    rw [hd, f2, f3]
    refine ⟨a1, a2, a5, a6, ?_⟩
    simp only
    refine ⟨?_, geo.nearest, geo.prevPose, geo.nearPose, ?_⟩
    · rw [← a7]; exact hs.noCut
    obtain ⟨l, hl, hy⟩ := hs.yaw
    refine ⟨l, hs.prev, hs.near, by rw [← a7]; exact hl, hs.done_le, ?_, .inr hpath, .inl a4⟩
    simp only [followResult] at a3 ⊢
    unfold unlessShort at a3 ⊢
    by_cases hn : length (localPath st.cfg.pathStep st.path tf) < st.cfg.noPosCntlDist
    · exact .inl (.inr (.inr hn))
    · rw [if_neg hn] at a3 ⊢
      exact .inr ⟨hs.remain, _, hs.remainRaw, a3⟩

end Verif.Tracker
