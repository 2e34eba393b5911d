import Verif.Tracker.Props
/-!
# Theorems on the velocity commands of the path tracking node (C86)
-/
namespace Verif.Tracker
open Verif.Num Verif.Path2D

/-- One call of a limiter: the value stays within the limit (or approaches it at the acceleration limit), and changes by no
more than the acceleration allows, or becomes zero. -/
theorem limSet_spec {p vel a d : ℝ} (hv : 0 ≤ vel) (ha : 0 ≤ a) (hd : 0 ≤ d) (v : Ext ℝ) :
    |limSet p v (.fin vel) a d| ≤ max vel (|p| - a * d) ∧
    ((v ≠ .nan → Within a d p (limSet p v (.fin vel) a d)) ∧ (v = .nan → limSet p v (.fin vel) a d = 0)) := by
  by_cases hn : v = .nan
  · subst hn
    unfold limSet
    rw [Control.nan_jumps]
    simp only [value, abs_zero]
    exact ⟨le_trans hv (le_max_left _ _), fun h => absurd rfl h, fun _ => trivial⟩
  · obtain ⟨t, ht⟩ := Control.target_some (vel := vel) hn
    have hs := Control.vset_spec (p := p) hv ha hd ht
    have hda : 0 ≤ d * a := mul_nonneg hd ha
    unfold limSet
    rw [hs]
    simp only [value]
    refine ⟨?_, fun _ => ?_, fun h => absurd h hn⟩
    · rw [mul_comm a d]; exact Control.nearest_bound hv hda
    · unfold Within
      have := Control.nearest_mem (lo := p - d * a) (hi := p + d * a) (by linarith)
        (Control.Spec.nearest (-vel) vel t)
      rw [abs_le]; constructor <;> nlinarith [this.1, this.2]

theorem limInc_eq (p : ℝ) (v vel : Ext ℝ) (a d : ℝ) : limInc p v vel a d = limSet p (Ext.add (.fin p) v) vel a d := rfl

theorem limInc_spec {p vel a d : ℝ} (hv : 0 ≤ vel) (ha : 0 ≤ a) (hd : 0 ≤ d) (v : Ext ℝ) :
    |limInc p v (.fin vel) a d| ≤ max vel (|p| - a * d) ∧
    (Within a d p (limInc p v (.fin vel) a d) ∨ limInc p v (.fin vel) a d = 0) := by
  rw [limInc_eq]
  obtain ⟨h1, h2, h3⟩ := limSet_spec (p := p) hv ha hd (Ext.add (.fin p) v)
  refine ⟨h1, ?_⟩
  by_cases hn : Ext.add (.fin p) v = .nan
  · exact .inr (h3 hn)
  · exact .inl (h2 hn)

/-- One command: the angular velocity keeps the velocity and acceleration limits, and so does the linear velocity, which may
change by twice the acceleration limit in the one case where it is reduced again for the sake of the angular velocity. -/
theorem drive_spec {cfg : Config} (hw : 0 ≤ cfg.maxAngVel) (ha : 0 ≤ cfg.acc) (hb : 0 ≤ cfg.angAcc) {dt : ℝ} (hd : 0 ≤ dt)
    (v w : ℝ) (r : Result) {tv : ℝ} (ht : r.targetVel = .fin tv) (htv : 0 ≤ tv) :
    |(drive cfg v w r dt).2| ≤ max cfg.maxAngVel (|w| - cfg.angAcc * dt) ∧
    (Within cfg.angAcc dt w (drive cfg v w r dt).2 ∨ (drive cfg v w r dt).2 = 0) ∧
    |(drive cfg v w r dt).1| ≤ max tv (|v| - cfg.acc * dt) ∧
    Within (2 * cfg.acc) dt v (drive cfg v w r dt).1 ∧
    (r.turning = true ∨ cfg.limitVelByAvel = false → Within cfg.acc dt v (drive cfg v w r dt).1) := by
  have had : 0 ≤ cfg.acc * dt := mul_nonneg ha hd
  have weaken : ∀ y, Within cfg.acc dt v y → Within (2 * cfg.acc) dt v y := by
    intro y hy; unfold Within at *; linarith
  unfold drive
  by_cases htn : r.turning = true
  · simp only [if_pos htn]
    rw [ht]
    obtain ⟨h1, h2, _⟩ := limSet_spec (p := v) htv ha hd (.fin 0)
    have h2' := h2 (by simp)
    refine ⟨?_, ?_, h1, weaken _ h2', fun _ => h2'⟩
    · split
      · exact (limSet_spec hw hb hd _).1
      · exact (limInc_spec hw hb hd _).1
    · split
      · exact .inl ((limSet_spec hw hb hd _).2.1 (by simp))
      · exact (limInc_spec hw hb hd _).2
  · simp only [if_neg htn]
    rw [ht]
    obtain ⟨h1, h2, _⟩ := limSet_spec (p := v) htv ha hd
      (.fin (Control.timeOptimalControl r.signedLocal (cfg.acc * cfg.accTocFactor)))
    have h2' := h2 (by simp)
    generalize limSet v (.fin (Control.timeOptimalControl r.signedLocal (cfg.acc * cfg.accTocFactor))) (.fin tv) cfg.acc
      dt = v1 at h1 h2'
    refine ⟨(limInc_spec hw hb hd _).1, (limInc_spec hw hb hd _).2, ?_, ?_, ?_⟩
    · split
      · obtain ⟨h3, _⟩ := limSet_spec (p := v1) htv ha hd (.fin (sign1 v1 * |cfg.maxAngVel / r.curv|))
        refine h3.trans (max_le (le_max_left _ _) ?_)
        rcases max_choice tv (|v| - cfg.acc * dt) with hm | hm
        · rw [hm] at h1 ⊢; linarith
        · rw [hm] at h1 ⊢; linarith
      · exact h1
    · split
      · obtain ⟨_, h4, _⟩ := limSet_spec (p := v1) htv ha hd (.fin (sign1 v1 * |cfg.maxAngVel / r.curv|))
        have h4' := h4 (by simp)
        unfold Within at *
        have := abs_sub_le (limSet v1 (.fin (sign1 v1 * |cfg.maxAngVel / r.curv|)) (.fin tv) cfg.acc dt) v1 v
        linarith
      · exact weaken _ h2'
    · rintro (h | h)
      · exact absurd h htn
      · rw [if_neg (by rw [h]; simp)]; exact h2'

/-- The target velocity of a result comes from the path or is the velocity limit. -/
theorem target_origin {k : Nat} {st : State} (h : Inv k st) {robot : Option Tf} {offset : ℂ} {yr ov ow : ℝ} {r : Result}
    (hr : getTrackingResult st robot offset yr ov ow = some r) :
    r.targetVel = .fin 0 ∨ r.targetVel = st.maxVel ∨ (r.targetVel ≠ .nan ∧ ∃ p ∈ st.path, p.vel = r.targetVel) := by
  by_cases hn : r.status = .noPath
  · left
    unfold getTrackingResult at hr
    by_cases h1 : (!st.frame) = true ∨ st.path = []
    · rw [if_pos h1] at hr; cases hr; rfl
    · rw [if_neg h1] at hr
      cases robot with
      | none => cases hr; rfl
      | some tf =>
        simp only at hr
        split at hr
        · cases hr
        · cases hr; rfl
        · next geo _ =>
          cases hr
          exfalso
          rcases result_cases st.cfg st.maxVel st.done geo (length (localPath st.cfg.pathStep st.path tf))
            (localPath st.cfg.pathStep st.path tf).length st.path.length (lookahead st) yr ov ow with
            ⟨_, h2⟩ | ⟨_, _, h2⟩ | ⟨_, _, h2⟩
          · rw [h2] at hn; unfold goalCheck at hn; split at hn <;> cases hn
          · rw [h2] at hn; cases hn
          · rw [h2] at hn; unfold goalCheck at hn; split at hn <;> cases hn
  · obtain ⟨tf, geo, _, hs, hd⟩ := result_geo h hr hn
    have hlin : linearVel st.maxVel geo = st.maxVel ∨ (linearVel st.maxVel geo ≠ .nan ∧
        ∃ p ∈ st.path, p.vel = linearVel st.maxVel geo) := by
      unfold linearVel
      by_cases hnan : geo.nearPose.vel = .nan
      · rw [if_pos hnan]; exact .inl rfl
      · rw [if_neg hnan]
        refine .inr ⟨hnan, ?_⟩
        have hm := List.mem_of_getElem? hs.near
        unfold localPath every at hm
        obtain ⟨p, hp, hpe⟩ := List.mem_map.mp hm
        obtain ⟨i, _, hi⟩ := List.mem_filterMap.mp hp
        exact ⟨p, List.mem_of_getElem? hi, by rw [← hpe]⟩
    rcases result_cases st.cfg st.maxVel st.done geo (length (localPath st.cfg.pathStep st.path tf))
      (localPath st.cfg.pathStep st.path tf).length st.path.length (lookahead st) yr ov ow with
      ⟨_, h2⟩ | ⟨_, _, h2⟩ | ⟨_, _, h2⟩
    · rw [hd, h2, (goalCheck_fields _ _ _ _ _ _).2.2.2.1]; exact .inr hlin
    · rw [hd, h2]; exact .inl rfl
    · rw [hd, h2, (goalCheck_fields _ _ _ _ _ _).2.2.2.1]; exact .inr hlin

/-- The velocity limits of a node: no speed limit or path speed exceeds `V`, no angular velocity limit `W`. -/
structure Lim (V W : ℝ) (st : State) : Prop where
  cfg : st.cfg.Limits W
  mv : ∃ x : ℝ, st.maxVel = .fin x ∧ 0 ≤ x ∧ x ≤ V
  pathVel : ∀ p ∈ st.path, p.vel = .nan ∨ ∃ x : ℝ, p.vel = .fin x ∧ 0 ≤ x ∧ x ≤ V
  v : |st.v| ≤ V
  w : |st.w| ≤ W

theorem control_limits {V W : ℝ} {k : Nat} {st : State} (h : Inv k st) (hl : Lim V W st) (r1 r2 : Option Tf) (offset : ℂ)
    (yr ov ow : ℝ) {dt : ℝ} (hdt : 0 ≤ dt) {st' : State} {o : Out}
    (hc : control st r1 r2 offset yr ov ow dt = some (st', o)) : 
    Lim V W st' ∧ |o.cmdV| ≤ V ∧ |o.cmdW| ≤ W ∧
      (o.cmdW = 0 ∨ Within st.cfg.angAcc dt st.w o.cmdW) ∧ (o.cmdV = 0 ∨ Within (2 * st.cfg.acc) dt st.v o.cmdV) ∧
      (st.cfg.limitVelByAvel = false → o.cmdV = 0 ∨ Within st.cfg.acc dt st.v o.cmdV) := by
  obtain ⟨st1, e1, i1, l1, p1, f1, c1, m1, u1⟩ := first_spec h r1 offset yr ov ow
  obtain ⟨r, hr, _⟩ := result_spec i1 r2 offset yr ov ow
  have hcontrol : control st r1 r2 offset yr ov ow dt = some (command st1 r dt) := by
    unfold control
    rw [e1, Option.bind_some, hr, Option.map_some]
  rw [hcontrol, Option.some.injEq] at hc
  have hvw : st1.v = st.v ∧ st1.w = st.w := by
    unfold firstLook at e1
    split at e1
    · obtain ⟨r0, _, rfl⟩ := Option.map_eq_some_iff.mp e1; exact ⟨rfl, rfl⟩
    · cases e1; exact ⟨rfl, rfl⟩
  have hV : 0 ≤ V := (abs_nonneg _).trans hl.v
  have hW : 0 ≤ W := (abs_nonneg _).trans hl.w
  obtain ⟨tv, htv, h0, h1⟩ : ∃ x : ℝ, r.targetVel = .fin x ∧ 0 ≤ x ∧ x ≤ V := by
    rcases target_origin i1 hr with h2 | h2 | ⟨h2, p, hp, hpv⟩
    · exact ⟨0, h2, le_refl _, hV⟩
    · rw [m1] at h2; rw [h2]; exact hl.mv
    · rw [p1] at hp
      rcases hl.pathVel p hp with h3 | h3
      · rw [hpv] at h3; exact absurd h3 h2
      · rw [hpv] at h3; exact h3
  obtain ⟨d1, d2, d3, d4, d5⟩ := drive_spec (cfg := st.cfg) hl.cfg.ang hl.cfg.acc hl.cfg.angAcc hdt st.v st.w r htv h0
  have b1 : |(drive st.cfg st.v st.w r dt).2| ≤ W :=
    d1.trans (max_le hl.cfg.le (by have := hl.w; have := mul_nonneg hl.cfg.angAcc hdt; linarith))
  have b2 : |(drive st.cfg st.v st.w r dt).1| ≤ V :=
    d3.trans (max_le h1 (by have := hl.v; have := mul_nonneg hl.cfg.acc hdt; linarith))
  unfold command at hc
  by_cases hz : r.status = .noPath ∨ r.status = .farFromPath
  · rw [if_pos hz] at hc
    cases hc
    refine ⟨⟨by rw [c1]; exact hl.cfg, by rw [m1]; exact hl.mv, by rw [p1]; exact hl.pathVel, by simpa using hV,
      by simpa using hW⟩, by simpa using hV, by simpa using hW, .inl rfl, .inl rfl, fun _ => .inl rfl⟩
  · rw [if_neg hz, c1, hvw.1, hvw.2] at hc
    by_cases hst : Stopping st.cfg r
    · rw [if_pos hst] at hc
      cases hc
      refine ⟨⟨hl.cfg, by rw [m1]; exact hl.mv, by rw [p1]; exact hl.pathVel, by simpa using hV,
        by simpa using hW⟩, by simpa using hV, by simpa using hW, .inl rfl, .inl rfl, fun _ => .inl rfl⟩
    · rw [if_neg hst] at hc
      cases hc
      exact ⟨⟨hl.cfg, by rw [m1]; exact hl.mv, by rw [p1]; exact hl.pathVel, b2, b1⟩, b2, b1, d2.symm, .inr d4,
        fun h => .inr (d5 (.inr h))⟩

theorem step_limits {V W : ℝ} {k : Nat} {st : State} (h : Inv k st) (hl : Lim V W st) {e : Event} (hb : e.Bounded V W)
    (ht : ∀ (p : Bool) (md s n ov ow : ℝ) (r1 r2 : Option Tf), e = .odometry p md s n ov ow r1 r2 →
      ∀ t, st.prevStamp = some t → t ≤ s) {st' : State} {o : Option Out}
    (hs : step st e = some (st', o)) : Lim V W st' ∧ ∀ out, o = some out → |out.cmdV| ≤ V ∧ |out.cmdW| ≤ W := by
  have hV : 0 ≤ V := (abs_nonneg _).trans hl.v
  have hW : 0 ≤ W := (abs_nonneg _).trans hl.w
  cases e with
  | path wv ps f =>
    simp only [step, Option.some.injEq, Prod.mk.injEq] at hs
    obtain ⟨rfl, rfl⟩ := hs
    refine ⟨⟨hl.cfg, hl.mv, ?_, hl.v, hl.w⟩, fun _ h => by cases h⟩
    simp only
    split
    · intro p hp; cases hp
    · next hbad =>
      intro p hp
      have hup : UpTo V p.vel := by
        have hread : ∀ q ∈ ps.map (readPose wv), UpTo V q.vel := by
          intro q hq
          obtain ⟨m, hm, rfl⟩ := List.mem_map.mp hq
          cases wv with
          | false => exact .inl rfl
          | true => exact hb rfl m hm
        rcases (convert_faithful h.valid.eps (ps.map (readPose wv))).2 p hp with hq | ⟨_, q, hq, _, _, hv⟩
        · exact hread p hq
        · rw [hv]; exact hread q hq
      rcases hup with hu | ⟨x, hx, hxV⟩
      · exact .inl hu
      · refine .inr ⟨x, hx, ?_, hxV⟩
        by_contra hneg
        exact hbad ⟨p, hp, x, hx, not_le.mp hneg⟩
  | speed v =>
    simp only [step, Option.some.injEq, Prod.mk.injEq] at hs
    obtain ⟨rfl, rfl⟩ := hs
    exact ⟨⟨hl.cfg, hb, hl.pathVel, hl.v, hl.w⟩, fun _ h => by cases h⟩
  | reconfigure c =>
    simp only [step, Option.some.injEq, Prod.mk.injEq] at hs
    obtain ⟨rfl, rfl⟩ := hs
    exact ⟨⟨hb.2.1, ⟨_, rfl, hb.2.2⟩, hl.pathVel, hl.v, hl.w⟩, fun _ h => by cases h⟩
  | odomTimeout =>
    simp only [step, Option.some.injEq, Prod.mk.injEq] at hs
    obtain ⟨rfl, rfl⟩ := hs
    refine ⟨⟨hl.cfg, hl.mv, hl.pathVel, by simpa using hV, by simpa using hW⟩, fun out h => ?_⟩
    cases h
    exact ⟨by simpa using hV, by simpa using hW⟩
  | timer found hz r1 r2 =>
    cases found with
    | false =>
      simp only [step, Bool.false_eq_true, if_false, Option.some.injEq, Prod.mk.injEq] at hs
      obtain ⟨rfl, rfl⟩ := hs
      exact ⟨hl, fun _ h => by cases h⟩
    | true =>
      simp only [step, if_true] at hs
      obtain ⟨⟨st1, o1⟩, hc, he⟩ := Option.map_eq_some_iff.mp hs
      have hz' : 0 < hz := hb
      have := control_limits h hl r1 r2 0 0 0 0 (by positivity) hc
      cases he
      refine ⟨this.1, fun out h => ?_⟩
      cases h
      exact ⟨this.2.1, this.2.2.1⟩
  | odometry po md s n ov ow r1 r2 =>
    cases hp : st.prevStamp with
    | none =>
      simp only [step, hp, Option.some.injEq, Prod.mk.injEq] at hs
      obtain ⟨rfl, rfl⟩ := hs
      exact ⟨⟨hl.cfg, hl.mv, hl.pathVel, hl.v, hl.w⟩, fun _ h => by cases h⟩
    | some prev =>
      simp only [step, hp] at hs
      obtain ⟨⟨st1, o1⟩, hc, he⟩ := Option.map_eq_some_iff.mp hs
      have hmd : 0 ≤ md := hb
      have hts := ht po md s n ov ow r1 r2 rfl prev hp
      have := control_limits h hl _ _ _ _ _ _ (le_min hmd (by linarith)) hc
      cases he
      refine ⟨⟨this.1.cfg, this.1.mv, this.1.pathVel, this.1.v, this.1.w⟩, fun out h => ?_⟩
      cases h
      exact ⟨this.2.1, this.2.2.1⟩

theorem step_stamp {st st' : State} {e : Event} {o : Option Out} (hs : step st e = some (st', o)) {es : List Event}
    (ho : InOrder st.prevStamp (e :: es)) : InOrder st'.prevStamp es ∧
    ∀ (p : Bool) (md s n ov ow : ℝ) (r1 r2 : Option Tf), e = .odometry p md s n ov ow r1 r2 →
      ∀ t, st.prevStamp = some t → t ≤ s := by
  have hctl : ∀ {s0 : State} {r1 r2 : Option Tf} {off : ℂ} {yr ov ow dt : ℝ} {s1 : State} {o1 : Out},
      control s0 r1 r2 off yr ov ow dt = some (s1, o1) → s1.prevStamp = s0.prevStamp := by
    intro s0 r1 r2 off yr ov ow dt s1 o1 hc
    unfold control at hc
    obtain ⟨s2, h1, h2⟩ := Option.bind_eq_some_iff.mp hc
    obtain ⟨r, _, h3⟩ := Option.map_eq_some_iff.mp h2
    have e1 : s2.prevStamp = s0.prevStamp := by
      unfold firstLook at h1
      split at h1
      · obtain ⟨r0, _, rfl⟩ := Option.map_eq_some_iff.mp h1; rfl
      · cases h1; rfl
    unfold command at h3
    split at h3 <;> (cases h3; exact e1)
  cases e with
  | path _ _ _ =>
    simp only [step, Option.some.injEq, Prod.mk.injEq] at hs
    obtain ⟨rfl, rfl⟩ := hs
    exact ⟨ho, fun _ _ _ _ _ _ _ _ h => by cases h⟩
  | speed _ =>
    simp only [step, Option.some.injEq, Prod.mk.injEq] at hs
    obtain ⟨rfl, rfl⟩ := hs
    exact ⟨ho, fun _ _ _ _ _ _ _ _ h => by cases h⟩
  | reconfigure _ =>
    simp only [step, Option.some.injEq, Prod.mk.injEq] at hs
    obtain ⟨rfl, rfl⟩ := hs
    exact ⟨ho, fun _ _ _ _ _ _ _ _ h => by cases h⟩
  | odomTimeout =>
    simp only [step, Option.some.injEq, Prod.mk.injEq] at hs
    obtain ⟨rfl, rfl⟩ := hs
    exact ⟨ho, fun _ _ _ _ _ _ _ _ h => by cases h⟩
  | timer found hz r1 r2 =>
    cases found with
    | false =>
      simp only [step, Bool.false_eq_true, if_false, Option.some.injEq, Prod.mk.injEq] at hs
      obtain ⟨rfl, rfl⟩ := hs
      exact ⟨ho, fun _ _ _ _ _ _ _ _ h => by cases h⟩
    | true =>
      simp only [step, if_true] at hs
      obtain ⟨⟨st1, o1⟩, hc, he⟩ := Option.map_eq_some_iff.mp hs
      cases he
      have := hctl hc
      simp only
      rw [this]
      exact ⟨ho, fun _ _ _ _ _ _ _ _ h => by cases h⟩
  | odometry po md s n ov ow r1 r2 =>
    obtain ⟨h1, h2⟩ : (∀ t, st.prevStamp = some t → t ≤ s) ∧ InOrder (some s) es := ho
    refine ⟨?_, fun _ _ _ _ _ _ _ _ h => by cases h; exact h1⟩
    cases hp : st.prevStamp with
    | none =>
      simp only [step, hp, Option.some.injEq, Prod.mk.injEq] at hs
      obtain ⟨rfl, rfl⟩ := hs
      exact h2
    | some prev =>
      simp only [step, hp] at hs
      obtain ⟨⟨st1, o1⟩, hc, he⟩ := Option.map_eq_some_iff.mp hs
      cases he
      exact h2

/-- In every history with speed limits and path speeds up to `V`, angular velocity limits up to `W` and odometry in order,
every command keeps within these limits. -/
theorem commands_bounded {cfg : Config} (hv : cfg.Valid) {V W : ℝ} (hc : cfg.Limits W) (h0 : 0 ≤ cfg.maxVel)
    (h1 : cfg.maxVel ≤ V) (es : List Event) (hk : ∀ e ∈ es, e.KeepsStep cfg.pathStep) (hb : ∀ e ∈ es, e.Bounded V W)
    (ho : InOrder none es) : ∀ out ∈ outputs (start cfg) es, |out.cmdV| ≤ V ∧ |out.cmdW| ≤ W := by
  have key : ∀ (es : List Event) (st : State), Inv cfg.pathStep st → Lim V W st → InOrder st.prevStamp es →
      (∀ e ∈ es, e.KeepsStep cfg.pathStep) → (∀ e ∈ es, e.Bounded V W) →
      ∀ out ∈ outputs st es, |out.cmdV| ≤ V ∧ |out.cmdW| ≤ W := by
    intro es
    induction es with
    | nil => intro st _ _ _ _ _ out h; simp [outputs] at h
    | cons e es ih =>
      intro st hi hl ho hk hb out hout
      obtain ⟨s1, o1, hs1, hi1, _⟩ := step_spec hi e (hk e (by simp))
      obtain ⟨ho1, ht⟩ := step_stamp hs1 ho
      obtain ⟨hl1, hbo⟩ := step_limits hi hl (hb e (by simp)) ht hs1
      have hrest := ih s1 hi1 hl1 ho1 (fun x hx => hk x (by simp [hx])) (fun x hx => hb x (by simp [hx]))
      simp only [outputs, hs1] at hout
      cases o1 with
      | none => exact hrest out hout
      | some o1 =>
        rcases List.mem_cons.mp hout with rfl | hout
        · exact hbo _ rfl
        · exact hrest out hout
  refine key es (start cfg) (start_inv hv) ?_ ho hk hb
  have hV : 0 ≤ V := h0.trans h1
  have hW : 0 ≤ W := hc.ang.trans hc.le
  exact ⟨hc, ⟨_, rfl, h0, h1⟩, (fun p hp => by cases hp), by simpa [start] using hV, by simpa [start] using hW⟩

/-- Between two commands the angular velocity changes by at most the angular acceleration limit times the time step, or
becomes zero; the linear velocity changes by at most the acceleration limit times the time step or becomes zero, or, with the
reduction for the angular velocity limit switched on, by at most twice as much. -/
theorem commands_accelerate {V W : ℝ} {k : Nat} {st : State} (h : Inv k st) (hl : Lim V W st) (r1 r2 : Option Tf)
    (offset : ℂ) (yr ov ow : ℝ) {dt : ℝ} (hdt : 0 ≤ dt) {st' : State} {o : Out}
    (hc : control st r1 r2 offset yr ov ow dt = some (st', o)) :
    st'.v = o.cmdV ∧ st'.w = o.cmdW ∧
      (o.cmdW = 0 ∨ Within st.cfg.angAcc dt st.w o.cmdW) ∧ (o.cmdV = 0 ∨ Within (2 * st.cfg.acc) dt st.v o.cmdV) ∧
      (st.cfg.limitVelByAvel = false → o.cmdV = 0 ∨ Within st.cfg.acc dt st.v o.cmdV) := by
  obtain ⟨_, _, _, h1, h2, h3⟩ := control_limits h hl r1 r2 offset yr ov ow hdt hc
  obtain ⟨s2, o2, hc', _, _, _, _, _, _, _, _, h4, h5⟩ := control_spec h r1 r2 offset yr ov ow dt
  rw [hc] at hc'
  cases hc'
  exact ⟨h4.symm, h5.symm, h1, h2, h3⟩

/-- A result asking for a stop on a sharp bend. -/
noncomputable def sharpBend : Result := { Result.init .following with targetVel := .fin 1, curv := 100 }

/-- The acceleration limit is exceeded when the speed is limited by the angular velocity: with limits of 1 m/s² and 1 rad/s,
a robot at 1 m/s on a bend of curvature 100/m is slowed down to 0.8 m/s within 0.1 s. -/
theorem double_deceleration (cfg : Config) (ha : cfg.acc = 1) (hw : cfg.maxAngVel = 1) (hl : cfg.limitVelByAvel = true) :
    (drive cfg 1 0 sharpBend (1 / 10)).1 = 8 / 10 ∧ ¬ Within cfg.acc (1 / 10) 1 (drive cfg 1 0 sharpBend (1 / 10)).1 := by
  have h1 : limSet 1 (.fin (Control.timeOptimalControl sharpBend.signedLocal (cfg.acc * cfg.accTocFactor)))
      sharpBend.targetVel cfg.acc (1 / 10) = 9 / 10 := by
    have h0 : Control.timeOptimalControl sharpBend.signedLocal (cfg.acc * cfg.accTocFactor) = 0 := by
      simp [Control.timeOptimalControl, sharpBend, Result.init]
    rw [h0, ha]
    have := Control.vset_spec (p := (1 : ℝ)) (vel := 1) (a := 1) (d := 1 / 10) (v := .fin 0) (t := 0) (by norm_num)
      (by norm_num) (by norm_num) rfl
    unfold limSet
    simp only [sharpBend]
    rw [this]
    simp only [value, Control.Spec.nearest]
    norm_num
  have h2 : (drive cfg 1 0 sharpBend (1 / 10)).1 = 8 / 10 := by
    unfold drive
    have hturn : sharpBend.turning = false := rfl
    simp only [hturn, Bool.false_eq_true, if_false]
    rw [h1]
    have hc : sharpBend.curv = 100 := rfl
    rw [hc, if_pos ⟨hl, by rw [hw]; norm_num⟩, ha, hw]
    have hs : sign1 (9 / 10) * |(1 : ℝ) / 100| = 1 / 100 := by unfold sign1; norm_num
    rw [hs]
    have := Control.vset_spec (p := (9 / 10 : ℝ)) (vel := 1) (a := 1) (d := 1 / 10) (v := .fin (1 / 100)) (t := 1 / 100)
      (by norm_num) (by norm_num) (by norm_num) rfl
    unfold limSet
    simp only [sharpBend]
    rw [this]
    simp only [value, Control.Spec.nearest]
    norm_num
  refine ⟨h2, ?_⟩
  rw [h2, ha]
  unfold Within
  norm_num [abs_of_neg]

end Verif.Tracker
