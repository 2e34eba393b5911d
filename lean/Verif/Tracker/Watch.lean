import Verif.Tracker.WatchSpec
import Verif.Tracker.Cases
/-! # C139: missing odometry stops the robot -/
namespace Verif.Tracker

theorem quiet_event (x : State) (e : Event) (s : State) (o : Option Out) (h1 : ¬ e.IsOdom) (h2 : e ≠ .odomTimeout) (h3 : ∀ f hz a b, e ≠ .timer f hz a b)
    (hs : step x e = some (s, o)) : o = none := by
  cases e with
  | path _ _ _ => cases hs; rfl
  | speed _ => cases hs; rfl
  | reconfigure _ => cases hs; rfl
  | odometry => exact absurd trivial h1
  | timer f hz a b => exact absurd rfl (h3 f hz a b)
  | odomTimeout => exact absurd rfl h2

theorem due_other {τ : ℝ} {due : Option ℝ} {k : Call} (h1 : ¬ k.ev.IsOdom) (h2 : k.ev ≠ .odomTimeout) : due' τ due k = due := by
  unfold due'
  split
  · rename_i h; rw [h] at h1; exact absurd trivial h1
  · rename_i h; exact absurd h h2
  · rfl

theorem due_timeout {τ : ℝ} {due : Option ℝ} {k : Call} (h : k.ev = .odomTimeout) : due' τ due k = none := by
  unfold due'
  rw [h]

theorem due_odom {τ : ℝ} {due : Option ℝ} {k : Call} (h : k.ev.IsOdom) (hτ : τ ≠ 0) : due' τ due k = some (k.at_ + τ) := by
  unfold due'
  cases hk : k.ev with
  | odometry => exact if_pos hτ
  | _ => rw [hk] at h; exact h.elim

/-- **C139**: without a running timer and without odometry nothing is commanded. -/
theorem silent_without_odometry {τ δ : ℝ} {l : List Call} : ∀ {x y : Timed} {t t' : ℝ} {os : List (ℝ × Out)}, Runs τ δ x t l os y t' → x.due = none →
    (∀ q ∈ l, ¬ q.ev.IsOdom) → os = [] ∧ y.due = none := by
  induction l with
  | nil => intro x y t t' os hr hd _; cases hr; exact ⟨rfl, hd⟩
  | cons k l ih =>
    intro x y t t' os hr hd hq
    cases hr with
    | @cons _ _ _ _ _ _ s o os after late fires mode does rest =>
      have hk := hq k List.mem_cons_self
      have ht : k.ev ≠ .odomTimeout := fun h => by
        obtain ⟨d, h1, -⟩ := fires h
        rw [hd] at h1; cases h1
      obtain rfl := quiet_event x.node k.ev s o hk ht mode does
      obtain ⟨i1, i2⟩ := ih rest (by rw [due_other hk ht]; exact hd) (fun q h => hq q (List.mem_cons_of_mem _ h))
      exact ⟨by rw [i1]; rfl, i2⟩

theorem timer_stops {τ δ : ℝ} {l : List Call} : ∀ {x y : Timed} {t t' d T : ℝ} {os : List (ℝ × Out)}, Runs τ δ x t l os y t' → x.due = some d →
    (∀ q ∈ l, ¬ q.ev.IsOdom) → Until δ y t' T → d + δ < T →
    ∃ a o, os = [(a, o)] ∧ d ≤ a ∧ a ≤ d + δ ∧ o.Zero ∧ o.status = .noPath := by
  induction l with
  | nil =>
    intro x y t t' d T os hr hd _ hu hT
    cases hr
    exact absurd (hu.2 d hd) (not_le.mpr hT)
  | cons k l ih =>
    intro x y t t' d T os hr hd hq hu hT
    cases hr with
    | @cons _ _ _ _ _ _ s o os after late fires mode does rest =>
      have hk := hq k List.mem_cons_self
      have hl : ∀ q ∈ l, ¬ q.ev.IsOdom := fun q h => hq q (List.mem_cons_of_mem _ h)
      by_cases ht : k.ev = .odomTimeout
      · obtain ⟨d', h1, h2⟩ := fires ht
        obtain rfl : d = d' := Option.some.inj (hd.symm.trans h1)
        obtain ⟨i1, -⟩ := silent_without_odometry rest (due_timeout ht) hl
        rw [ht] at does
        obtain ⟨st', o', g1, g2, g3, -⟩ := timeout_stops x.node
        rw [g1] at does
        cases does
        exact ⟨k.at_, o', by rw [i1]; rfl, h2, late d hd, g2, g3⟩
      · obtain rfl := quiet_event x.node k.ev s o hk ht mode does
        obtain ⟨a, o, i1, i2⟩ := ih rest (by rw [due_other hk ht]; exact hd) hl hu hT
        exact ⟨a, o, by rw [i1]; rfl, i2⟩

theorem runs_append {τ δ : ℝ} {l2 : List Call} (l1 : List Call) : ∀ {x y : Timed} {t t' : ℝ} {os : List (ℝ × Out)}, Runs τ δ x t (l1 ++ l2) os y t' →
    ∃ z tz os1 os2, os = os1 ++ os2 ∧ Runs τ δ x t l1 os1 z tz ∧ Runs τ δ z tz l2 os2 y t' := by
  induction l1 with
  | nil => intro x y t t' os h; exact ⟨x, t, [], os, rfl, .nil x t, h⟩
  | cons k l1 ih =>
    intro x y t t' os h
    cases h with
    | @cons _ _ _ _ _ _ s o os after late fires mode does rest =>
      obtain ⟨z, tz, os1, os2, rfl, h1, h2⟩ := ih rest
      exact ⟨z, tz, _, os2, (List.append_assoc ..).symm, .cons after late fires mode does h1, h2⟩

/-- **C139**: after the last odometry message the robot is told to stop, not earlier than the timeout after that message and at most `δ` later, whatever other messages arrive;
and this stays the last command. -/
theorem missing_odometry_stops {τ δ : ℝ} {x y : Timed} {t t' T : ℝ} {l1 l2 : List Call} {k : Call} {os : List (ℝ × Out)}
    (hr : Runs τ δ x t (l1 ++ k :: l2) os y t') (hk : k.ev.IsOdom) (hq : ∀ q ∈ l2, ¬ q.ev.IsOdom) (hτ : τ ≠ 0) (hu : Until δ y t' T)
    (hT : k.at_ + τ + δ < T) :
    ∃ os' a o, os = os' ++ [(a, o)] ∧ k.at_ + τ ≤ a ∧ a ≤ k.at_ + τ + δ ∧ o.Zero ∧ o.status = .noPath := by
  obtain ⟨z, tz, os1, os2, rfl, -, h2⟩ := runs_append l1 hr
  cases h2 with
  | @cons _ _ _ _ _ _ s o os after late fires mode does rest =>
    obtain ⟨a, o', i1, i2⟩ := timer_stops rest (due_odom hk hτ) hq hu hT
    exact ⟨os1 ++ o.toList.map (fun o => (k.at_, o)), a, o', by rw [i1, List.append_assoc], i2⟩

/-- Where the timer comes from. -/
theorem due_origin {τ δ : ℝ} (hτ : τ ≠ 0) {l : List Call} : ∀ {x y : Timed} {t t' d : ℝ} {os : List (ℝ × Out)}, Runs τ δ x t l os y t' → y.due = some d →
    (x.due = some d ∧ ∀ e ∈ l, ¬ e.ev.IsOdom ∧ e.ev ≠ .odomTimeout) ∨
    ∃ m1 q m2, l = m1 ++ q :: m2 ∧ q.ev.IsOdom ∧ d = q.at_ + τ ∧ ∀ e ∈ m2, ¬ e.ev.IsOdom ∧ e.ev ≠ .odomTimeout := by
  induction l with
  | nil => intro x y t t' d os hr hd; cases hr; exact .inl ⟨hd, fun q h => by cases h⟩
  | cons k l ih =>
    intro x y t t' d os hr hd
    cases hr with
    | @cons _ _ _ _ _ _ s o os after late fires mode does rest =>
      rcases ih rest hd with ⟨h1, h2⟩ | ⟨m1, q, m2, rfl, h⟩
      · have h1 : due' τ x.due k = some d := h1
        by_cases ht : k.ev = .odomTimeout
        · rw [due_timeout ht] at h1; cases h1
        · by_cases hk : k.ev.IsOdom
          · rw [due_odom hk hτ] at h1
            exact .inr ⟨[], k, l, rfl, hk, (Option.some.inj h1).symm, h2⟩
          · rw [due_other hk ht] at h1
            refine .inl ⟨h1, fun e he => ?_⟩
            rcases List.mem_cons.mp he with rfl | he
            · exact ⟨hk, ht⟩
            · exact h2 e he
      · exact .inr ⟨k :: m1, q, m2, rfl, h⟩

/-- **C139**: the timeout does not strike while odometry arrives: when it does, the last odometry message is at least the timeout old. -/
theorem timeout_only_when_missing {τ δ : ℝ} (hτ : τ ≠ 0) {cfg : Config} {y : Timed} {t t' : ℝ} {l1 l2 : List Call} {k : Call} {os : List (ℝ × Out)}
    (hr : Runs τ δ ⟨start cfg, none⟩ t (l1 ++ k :: l2) os y t') (hk : k.ev = .odomTimeout) :
    ∃ m1 q m2, l1 = m1 ++ q :: m2 ∧ q.ev.IsOdom ∧ q.at_ + τ ≤ k.at_ ∧ ∀ e ∈ m2, ¬ e.ev.IsOdom ∧ e.ev ≠ .odomTimeout := by
  obtain ⟨z, tz, os1, os2, -, h1, h2⟩ := runs_append l1 hr
  cases h2 with
  | @cons _ _ _ _ _ _ s o os after late fires mode does rest =>
    obtain ⟨d, g1, g2⟩ := fires hk
    rcases due_origin hτ h1 g1 with ⟨h, -⟩ | ⟨m1, q, m2, e1, e2, rfl, e4⟩
    · cases h
    · exact ⟨m1, q, m2, e1, e2, g2, e4⟩

/-- **C139**: with `odom_timeout_sec` 0 there is no timeout. -/
theorem no_timeout_when_off {δ : ℝ} {l : List Call} : ∀ {x y : Timed} {t t' : ℝ} {os : List (ℝ × Out)}, Runs 0 δ x t l os y t' → x.due = none →
    ∀ q ∈ l, q.ev ≠ .odomTimeout := by
  induction l with
  | nil => intro x y t t' os _ _ q h; cases h
  | cons k l ih =>
    intro x y t t' os hr hd q hq
    cases hr with
    | @cons _ _ _ _ _ _ s o os after late fires mode does rest =>
      have ht : k.ev ≠ .odomTimeout := fun h => by
        obtain ⟨d, h1, -⟩ := fires h
        rw [hd] at h1; cases h1
      rcases List.mem_cons.mp hq with rfl | hq
      · exact ht
      · refine ih rest ?_ q hq
        show due' 0 x.due k = none
        unfold due'
        split
        · rw [if_neg (by simp)]; exact hd
        · rfl
        · exact hd

/-- Without the robot's position the control timer publishes no command. -/
theorem lost_timer_silent (s : State) (hz : ℝ) (a b : Option Tf) (n : ℕ) :
    outputs s (List.replicate n (.timer false hz a b)) = [] := by
  induction n with
  | zero => rfl
  | succ n ih => rw [List.replicate_succ]; exact ih

theorem outputs_two {s : State} {e1 e2 : Event} {o : Out} (h1 : ∀ s1 o1, step s e1 = some (s1, o1) → o1 = none)
    (h : outputs s [e1, e2] = [o]) : ∃ s1 s2, step s e1 = some (s1, none) ∧ step s1 e2 = some (s2, some o) := by
  unfold outputs at h
  cases hs : step s e1 with
  | none => rw [hs] at h; cases h
  | some r =>
    obtain ⟨s1, o1⟩ := r
    obtain rfl := h1 s1 o1 hs
    rw [hs] at h
    refine ⟨s1, ?_⟩
    have h : outputs s1 [e2] = [o] := h
    unfold outputs at h
    cases ht : step s1 e2 with
    | none => rw [ht] at h; cases h
    | some r =>
      obtain ⟨s2, o2⟩ := r
      rw [ht] at h
      cases o2 with
      | none => cases h
      | some o2 => cases h; exact ⟨s2, rfl, rfl⟩

/-- **C139**, finding: without `use_odom` a robot whose position is lost while it drives gets no further command, however long this lasts: its last one is to drive. -/
theorem lost_keeps_driving (n : ℕ) : ∃ o, outputs (start cfg0) (.path false straight3 true :: .timer true 10 (some (robotAt (-100))) (some (robotAt (-100))) ::
    List.replicate n (.timer false 10 none none)) = [o] ∧ o.cmdV = 1 / 10 := by
  obtain ⟨o, h1, -, h3⟩ := drives_far_away
  obtain ⟨s1, s2, e1, e2⟩ := outputs_two (fun s1 o1 h => by cases h; rfl) h1
  refine ⟨o, ?_, h3⟩
  rw [outputs, e1]
  show outputs s1 _ = _
  rw [outputs, e2]
  show o :: outputs s2 _ = _
  rw [lost_timer_silent]

theorem result_stamp (s : State) (p : Option ℝ) (a : Option Tf) (z : ℂ) (w v w' : ℝ) :
    getTrackingResult { s with prevStamp := p } a z w v w' = getTrackingResult s a z w v w' := rfl

theorem command_stamp (s : State) (p : Option ℝ) (r : Result) (dt : ℝ) :
    command { s with prevStamp := p } r dt = ({ (command s r dt).1 with prevStamp := p }, (command s r dt).2) := by
  unfold command
  by_cases hc : r.status = .noPath ∨ r.status = .farFromPath
  · simp only [if_pos hc]
  · simp only [if_neg hc]

theorem control_stamp (s : State) (p : Option ℝ) (a b : Option Tf) (z : ℂ) (w v w' dt : ℝ) :
    control { s with prevStamp := p } a b z w v w' dt = (control s a b z w v w' dt).map fun r => ({ r.1 with prevStamp := p }, r.2) := by
  have hf : firstLook { s with prevStamp := p } a z w v w' = (firstLook s a z w v w').map fun s => { s with prevStamp := p } := by
    unfold firstLook
    rw [result_stamp]
    show (if s.updated = true then _ else _) = _
    split
    · rw [Option.map_map]; rfl
    · rfl
  unfold control
  rw [hf]
  cases firstLook s a z w v w' with
  | none => rfl
  | some s1 =>
    show Option.map _ (getTrackingResult { s1 with prevStamp := p } b z w v w') = Option.map _ (Option.map _ (getTrackingResult s1 b z w v w'))
    rw [result_stamp, Option.map_map]
    congr 1
    funext r
    exact command_stamp s1 p r dt

theorem control_far : ∃ s o, control (atStraight true) (some (robotAt (-100))) (some (robotAt (-100))) 0 0 0 0 (1 / 10) = some (s, o) ∧ o.cmdV = 1 / 10 := by
  obtain ⟨o, h1, -, h3⟩ := drives_far_away
  obtain ⟨s1, s2, e1, e2⟩ := outputs_two (fun s1 o1 h => by cases h; rfl) h1
  have hs : step (start cfg0) (.path false straight3 true) = some (atStraight true, none) := path_step cfg0 rfl straight3
  rw [hs] at e1
  cases e1
  rw [step, if_pos rfl] at e2
  cases hc : control (atStraight true) (some (robotAt (-100))) (some (robotAt (-100))) 0 0 0 0 (1 / 10) with
  | none => rw [hc] at e2; cases e2
  | some r =>
    rw [hc] at e2
    cases e2
    exact ⟨r.1, r.2, rfl, h3⟩

/-- The odometry message of the example. -/
def odomMsg (stamp : ℝ) : Event := .odometry false 1 stamp stamp 0 0 (some (robotAt (-100))) (some (robotAt (-100)))

theorem second_odom : ∃ s o, step { atStraight true with prevStamp := some 0 } (odomMsg (1 / 10)) = some (s, some o) ∧ o.cmdV = 1 / 10 := by
  obtain ⟨s, o, h, h3⟩ := control_far
  refine ⟨{ s with prevStamp := some (1 / 10) }, o, ?_, h3⟩
  · unfold odomMsg step
    have hp : predict 0 0 0 (robotAt (-100)) = robotAt (-100) := by
      have hz : (⟨0, 0⟩ : ℂ) = 0 := rfl
      unfold predict Path2D.rotatePos
      simp [hz]
    have hd : min (1 : ℝ) (1 / 10 - 0) = 1 / 10 := by norm_num
    simp only [Bool.false_eq_true, if_false, Option.map_some, hp, hd, mul_zero, Complex.ofReal_zero]
    rw [control_stamp, h]
    rfl

/-- The hypotheses of `missing_odometry_stops` and `timeout_only_when_missing` can be met: a path and two odometry messages make the robot drive; with a timeout of 1 s, at most
1/10 s late, it is stopped. -/
example : ∃ os y, Runs 1 (1 / 10) ⟨start cfg0, none⟩ 0
      ([⟨0, .path false straight3 true⟩, ⟨0, odomMsg 0⟩] ++ ⟨1 / 10, odomMsg (1 / 10)⟩ :: [⟨23 / 20, .odomTimeout⟩]) os y (23 / 20) ∧
    Until (1 / 10) y (23 / 20) 5 ∧ ∃ o1 o2, os = [(1 / 10, o1), (23 / 20, o2)] ∧ o1.cmdV = 1 / 10 ∧ o2.Zero := by
  obtain ⟨s, o, h, h3⟩ := second_odom
  have hs : step (start cfg0) (.path false straight3 true) = some (atStraight true, none) := path_step cfg0 rfl straight3
  obtain ⟨st', o', g1, g2, g3, -⟩ := timeout_stops s
  refine ⟨_, ⟨st', none⟩, .cons (by norm_num) (fun d h => by cases h) (fun h => by cases h) (fun _ _ _ _ h => by cases h) hs
    (.cons (by norm_num) (fun d h => by cases h) (fun h => by cases h) (fun _ _ _ _ h => by cases h) rfl
      (.cons (by norm_num) ?_ (fun h => by cases h) (fun _ _ _ _ h => by cases h) h
        (.cons (by norm_num) ?_ (fun _ => ?_) (fun _ _ _ _ h => by cases h) g1 (.nil _ _)))), ⟨by norm_num, fun d h => by cases h⟩, o, o', rfl, h3, g2⟩
  · intro d h
    obtain rfl := Option.some.inj ((due_odom (τ := 1) (due := none) (k := ⟨0, odomMsg 0⟩) trivial one_ne_zero).symm.trans h)
    norm_num
  · intro d h
    obtain rfl := Option.some.inj ((due_odom (τ := 1) (due := _) (k := ⟨1 / 10, odomMsg (1 / 10)⟩) trivial one_ne_zero).symm.trans h)
    norm_num
  · exact ⟨_, due_odom (τ := 1) (k := ⟨1 / 10, odomMsg (1 / 10)⟩) trivial one_ne_zero, by norm_num⟩

end Verif.Tracker
