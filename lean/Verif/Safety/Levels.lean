import Verif.Safety.Props
/-! # C79: what the summary of the status says -/
namespace Verif.Safety
open Spec

/-- The stored collision flag and the reported time of getting stuck go together, as long as no prediction takes place at time zero. -/
theorem now_iff_stuck (e : Env) (c : Cfg) (h : List Ev) (hz : ∀ ev ∈ h, ∀ τ tf, ev = .predict τ tf → τ ≠ 0) :
    (run e c h).atNow = true ↔ (run e c h).stuckSince ≠ 0 := by
  induction h using List.reverseRecOn with
  | nil => simp [run, St.init]
  | append_singleton h ev ih =>
    have ih := ih (fun x hx => hz x (by simp [hx]))
    rw [run_snoc]
    generalize run e c h = s at ih
    cases ev with
    | twist τ tw =>
      simp only [step, cbTwist]
      split
      · exact ih
      · split
        · exact ih
        · simp only; split <;> exact ih
    | cloud t p tf =>
      simp only [step, cbCloud]
      split
      · exact ih
      · split <;> exact ih
    | predict τ tf =>
      have hτ := hz (.predict τ tf) (by simp) τ tf rfl
      simp only [step, cbPredict]
      split
      · exact ih
      · split
        · exact ih
        · split
          · exact ih
          · simp only
            cases (predict e s.cfg s.twist s.cloud tf).tested with
            | none => exact ih
            | some q =>
              obtain ⟨q, b⟩ := q
              simp only [noteStuck]
              cases b with
              | false => simp
              | true =>
                simp only [if_true, true_iff]
                split
                · exact hτ
                · assumption
    | watchdog => exact ih
    | watchdogReset => exact ih
    | disable τ b => cases b <;> exact ih
    | param c' => exact ih

/-- **C79**, the summary in terms of the other published fields (prediction cycles do not take place at time zero): with data, it is `OK` exactly if the ratio is 1; it says that the
robot cannot move or escape exactly if the ratio is below 1e-6, and that it is in collision (escaping, or unable to) exactly if a time of getting stuck is reported. -/
theorem summary_levels (e : Env) (c : Cfg) (h : List Ev) (ev : Ev) (st : Status) (hst : .status st ∈ outputs e c h ev)
    (hz : ∀ x ∈ h ++ [ev], ∀ τ tf, x = .predict τ tf → τ ≠ 0) (hd : st.cloudAvailable = true) (hw : st.watchdogTimedOut = false) :
    (st.summary = .ok ↔ st.limitRatio = 1) ∧
    (st.summary = .cannotMove ↔ st.limitRatio < 1e-6 ∧ st.stuckSince = 0) ∧
    (st.summary = .cannotEscape ↔ st.limitRatio < 1e-6 ∧ st.stuckSince ≠ 0) ∧
    (st.summary = .reducing ↔ st.limitRatio ≠ 1 ∧ 1e-6 ≤ st.limitRatio ∧ st.stuckSince = 0) ∧
    (st.summary = .escaping ↔ st.limitRatio ≠ 1 ∧ 1e-6 ≤ st.limitRatio ∧ st.stuckSince ≠ 0) := by
  have hs := status_is_current e c h ev st hst
  have hn := now_iff_stuck e c (h ++ [ev]) hz
  generalize run e c (h ++ [ev]) = s at hs hn
  subst hs
  have h1 : s.hasCloud = true := hd
  have h2 : s.watchdogStop = false := hw
  have e1 : s.status.limitRatio = s.rLim := rfl
  have e2 : s.status.stuckSince = s.stuckSince := rfl
  rw [e1, e2]
  simp only [St.status, h1, h2, Bool.not_true, Bool.or_false, Bool.false_eq_true, if_false]
  by_cases hr : s.rLim = 1
  · have : ¬ (1 : ℝ) < 1e-6 := by norm_num
    simp [hr, this]
  · by_cases hl : s.rLim < 1e-6
    · cases ha : s.atNow with
      | true => rw [ha] at hn; simp [hr, hl, hn.mp rfl, not_le.mpr hl]
      | false =>
        have : s.stuckSince = 0 := by
          by_contra hne
          have := hn.mpr hne
          rw [ha] at this; cases this
        simp [hr, hl, this, not_le.mpr hl]
    · cases ha : s.atNow with
      | true => rw [ha] at hn; simp [hr, hl, hn.mp rfl, not_lt.mp hl]
      | false =>
        have : s.stuckSince = 0 := by
          by_contra hne
          have := hn.mpr hne
          rw [ha] at this; cases this
        simp [hr, hl, this, not_lt.mp hl]

/-- The hypotheses can be met: the transform is missing, the robot is stopped, and the summary says that it cannot move. -/
example : ∃ st, .status st ∈ outputs env0 cfg0 [.cloud 1 [⟨5, 0, 0⟩] (some id)] (.predict 1 none) ∧
    (∀ x ∈ [Ev.cloud 1 [⟨5, 0, 0⟩] (some id)] ++ [.predict 1 none], ∀ τ tf, x = .predict τ tf → τ ≠ 0) ∧
    st.cloudAvailable = true ∧ st.watchdogTimedOut = false ∧ st.limitRatio = 0 ∧ st.summary = .cannotMove := by
  have hz : ∀ x ∈ [Ev.cloud 1 [⟨5, 0, 0⟩] (some id)] ++ [.predict 1 none], ∀ τ tf, x = .predict τ tf → τ ≠ 0 := by
    intro x hx τ tf he
    subst he
    simp only [List.cons_append, List.nil_append, List.mem_cons, List.not_mem_nil, or_false, reduceCtorEq, Ev.predict.injEq, false_or] at hx
    rw [hx.1]; norm_num
  let s := run env0 cfg0 [.cloud 1 [⟨5, 0, 0⟩] (some id)]
  have hr : (predict env0 s.cfg s.twist s.cloud none).ratio = 0 := (no_obstacle_data _ _ _ _ none).2.1 (by
    have : s.cloud = [⟨5, 0, 0⟩] := rfl
    rw [this]; simp)
  have live := cbPredict_live env0 s 1 none rfl rfl (by show (1 : ℝ) - 1 ≤ cfg0.timeout; simp [cfg0]) _ rfl
  have hlim : (cbPredict env0 s 1 none).1.rLim = 0 := by
    rw [live.1, hr]
    have : s.rLim = 1 := rfl
    rw [this, if_pos one_pos]
  have hout : Out.status (cbPredict env0 s 1 none).1.status ∈ outputs env0 cfg0 [.cloud 1 [⟨5, 0, 0⟩] (some id)] (.predict 1 none) := by
    show _ ∈ (cbPredict env0 s 1 none).2
    rw [live.2.2.2.2.2.2.2]
    simp
  have htested : (predict env0 s.cfg s.twist s.cloud none).tested = none := rfl
  have hwd : (cbPredict env0 s 1 none).1.status.watchdogTimedOut = false := by
    show (cbPredict env0 s 1 none).1.watchdogStop = false
    have h1 : s.hasTwist = true := rfl
    have h2 : s.hasCloud = true := rfl
    unfold cbPredict
    simp only [h1, h2, Bool.not_true, Bool.false_eq_true, if_false, htested]
    split <;> rfl
  refine ⟨_, hout, hz, live.2.2.2.2.1, hwd, hlim, ?_⟩
  refine ((summary_levels env0 cfg0 _ _ _ hout hz live.2.2.2.2.1 hwd).2.1).mpr ⟨?_, ?_⟩
  · show (cbPredict env0 s 1 none).1.rLim < _
    rw [hlim]; norm_num
  · exact live.2.2.2.2.2.2.1 htested

end Verif.Safety
