import Verif.Safety.Levels
/-! # C142: the limiter lets the robot move again -/
namespace Verif.Safety
open Spec

namespace Spec

/-- There is obstacle data: a usable point cloud came, and no prediction cycle since found the data too old. -/
def HasData (c : Cfg) (h : List Ev) : Prop :=
  ∃ pre ev post, h = pre ++ ev :: post ∧ Accepted ev ∧
    ∀ p τ tf q, post = p ++ .predict τ tf :: q → τ - lastStamp (pre ++ ev :: p) ≤ (config c (pre ++ ev :: p)).timeout

/-- The events `mid` after `h` bring no reason to slow down: the watchdog does not fire, and each prediction cycle has recent data and finds no restriction. -/
def Quiet (e : Env) (c : Cfg) (h mid : List Ev) : Prop :=
  .watchdog ∉ mid ∧ ∀ p τ tf q, mid = p ++ .predict τ tf :: q → ∃ r, 1 ≤ r ∧ Predicts e c (h ++ p) τ tf r

/-- Every restriction found so far is held until before `T`. -/
def HeldBefore (e : Env) (c : Cfg) (h : List Ev) (T : ℝ) : Prop :=
  ∀ pre τ tf post r, h = pre ++ .predict τ tf :: post → Predicts e c pre τ tf r → r < 1 → τ + (config c pre).holdTime < T

end Spec

theorem accepted_cloud (e : Env) (s : St) (ev : Ev) (ha : Accepted ev) : (step e s ev).1.hasCloud = true := by
  cases ev with
  | cloud st pts tf =>
    cases pts with
    | nil => simp [step, cbCloud]
    | cons p ps =>
      cases tf with
      | none => rcases ha with h | h <;> simp at h
      | some f => simp [step, cbCloud]
  | twist => exact ha.elim
  | predict => exact ha.elim
  | watchdog => exact ha.elim
  | watchdogReset => exact ha.elim
  | disable => exact ha.elim
  | param => exact ha.elim

theorem keeps_cloud (e : Env) (c : Cfg) (h : List Ev) (ev : Ev) (hc : (run e c h).hasCloud = true)
    (hp : ∀ τ tf, ev = .predict τ tf → τ - lastStamp h ≤ (config c h).timeout) : (run e c (h ++ [ev])).hasCloud = true := by
  rw [run_snoc]
  cases ev with
  | twist now t => exact (cbTwist_fields _ now t).2.2.2.2.1.trans hc
  | cloud st pts tf =>
    simp only [step, cbCloud]
    split
    · rfl
    · split
      · exact hc
      · rfl
  | predict τ tf =>
    have hT := hp τ tf rfl
    rw [← run_stamp e c, ← run_cfg e] at hT
    exact (cbPredict_live e _ τ tf (run_twist e c h) hc hT _ rfl).2.2.2.2.1
  | watchdog => exact hc
  | watchdogReset => exact hc
  | disable now b => cases b <;> exact hc
  | param c' => exact hc

theorem hasData_cloud (e : Env) (c : Cfg) (h : List Ev) (hd : HasData c h) : (run e c h).hasCloud = true := by
  obtain ⟨pre, ev, post, rfl, ha, hp⟩ := hd
  induction post using List.reverseRecOn with
  | nil =>
    have := run_snoc e c pre ev
    rw [this]
    exact accepted_cloud e _ ev ha
  | append_singleton post x ih =>
    have ih := ih (fun p τ tf q hq => hp p τ tf (q ++ [x]) (by rw [hq]; simp))
    have e0 : pre ++ ev :: (post ++ [x]) = (pre ++ ev :: post) ++ [x] := by simp
    rw [e0]
    exact keeps_cloud e c _ x ih (fun τ tf hx => hp post τ tf [] (by rw [hx]))

/-- The watchdog stops the robot exactly while it is expired. -/
theorem watchdog_iff (e : Env) (c : Cfg) (h : List Ev) : (run e c h).watchdogStop = true ↔ WatchdogExpired h := by
  refine ⟨?_, run_watchdog e c h⟩
  induction h using List.reverseRecOn with
  | nil => intro h; cases h
  | append_singleton h ev ih =>
    have ext : ev ≠ .watchdogReset → (run e c h).watchdogStop = true → WatchdogExpired (h ++ [ev]) := by
      intro hne hs
      obtain ⟨pre, post, rfl, hp⟩ := ih hs
      refine ⟨pre, post ++ [ev], by simp, ?_⟩
      intro x hx
      rcases List.mem_append.mp hx with hx | hx
      · exact hp x hx
      · rw [List.mem_singleton.mp hx]; exact hne
    rw [run_snoc]
    intro hs
    cases ev with
    | twist now t => exact ext (by simp) ((cbTwist_fields _ now t).2.2.1.symm.trans hs)
    | cloud st pts tf => exact ext (by simp) ((cbCloud_fields _ st pts tf).2.2.1.symm.trans hs)
    | predict now tf => exact ext (by simp) ((cbPredict_fields e _ now tf).2.2.1.symm.trans hs)
    | watchdog => exact ⟨h, [], rfl, by simp⟩
    | watchdogReset => cases hs
    | disable now b => cases b <;> exact ext (by simp) hs
    | param c' => exact ext (by simp) hs

theorem hold_bound (e : Env) (c : Cfg) (h : List Ev) (T : ℝ) (hT : 0 < T) (hh : HeldBefore e c h T) : (run e c h).holdOff < T := by
  induction h using List.reverseRecOn with
  | nil => exact hT
  | append_singleton h ev ih =>
    have ih := ih (fun pre τ tf post r hq => hh pre τ tf (post ++ [ev]) r (by rw [hq]; simp))
    rw [run_snoc]
    cases ev with
    | twist now t => exact (cbTwist_fields _ now t).2.2.2.2.2.2.2.2.2.symm ▸ ih
    | cloud st pts tf => exact (cbCloud_fields _ st pts tf).2.2.2.2.1.symm ▸ ih
    | predict τ tf =>
      by_cases hc : (run e c h).hasCloud = true
      · rcases le_or_gt (τ - (run e c h).lastStamp) (run e c h).cfg.timeout with hS | hS
        · have := (cbPredict_live e _ τ tf (run_twist e c h) hc hS _ rfl).2.1
          show (cbPredict e (run e c h) τ tf).1.holdOff < T
          rw [this]
          split
          · rename_i hr
            rw [run_cfg] at hr ⊢
            rw [run_stamp, run_cfg] at hS
            exact hh h τ tf [] _ rfl ⟨hc, hS, rfl⟩ hr
          · exact ih
        · show (cbPredict e (run e c h) τ tf).1.holdOff < T
          rw [cbPredict_stale e _ τ tf (run_twist e c h) hc hS]
          exact ih
      · show (cbPredict e (run e c h) τ tf).1.holdOff < T
        unfold cbPredict
        rw [if_neg (by simp [run_twist]), if_pos (by simpa using hc)]
        exact ih
    | watchdog => exact ih
    | watchdogReset => exact ih
    | disable now b => cases b <;> exact ih
    | param c' => exact ih

theorem quiet_free (e : Env) (c : Cfg) (h mid : List Ev) (hq : Quiet e c h mid) (h1 : (run e c h).rLim = 1) (h2 : (run e c h).hasCloud = true)
    (h3 : (run e c h).watchdogStop = false) :
    (run e c (h ++ mid)).rLim = 1 ∧ (run e c (h ++ mid)).hasCloud = true ∧ (run e c (h ++ mid)).watchdogStop = false := by
  induction mid using List.reverseRecOn with
  | nil => rw [List.append_nil]; exact ⟨h1, h2, h3⟩
  | append_singleton mid ev ih =>
    obtain ⟨i1, i2, i3⟩ := ih ⟨fun hx => hq.1 (by simp [hx]), fun p τ tf q hp => hq.2 p τ tf (q ++ [ev]) (by rw [hp]; simp)⟩
    have hpr : ∀ τ tf, ev = .predict τ tf → ∃ r, 1 ≤ r ∧ Predicts e c (h ++ mid) τ tf r := fun τ tf hev => hq.2 mid τ tf [] (by rw [hev])
    have hwd : ev ≠ .watchdog := fun hx => hq.1 (by simp [hx])
    rw [← List.append_assoc]
    refine ⟨?_, keeps_cloud e c _ ev i2 (fun τ tf hev => (hpr τ tf hev).choose_spec.2.2.1), ?_⟩
    · rw [run_snoc]
      cases ev with
      | twist now t =>
        simp only [step, cbTwist]
        split
        · exact i1
        · split
          · exact i1
          · simp only; split
            · rfl
            · exact i1
      | cloud st pts tf => exact (cbCloud_fields _ st pts tf).2.2.2.1.trans i1
      | predict τ tf =>
        obtain ⟨r, hr, hc, hS, hp⟩ := hpr τ tf rfl
        rw [← run_stamp e c, ← run_cfg e] at hS
        rw [← run_cfg e] at hp
        show (cbPredict e (run e c (h ++ mid)) τ tf).1.rLim = 1
        rw [(cbPredict_live e _ τ tf (run_twist e c _) hc hS _ rfl).1, hp, i1, if_neg (not_lt.mpr hr)]
      | watchdog => exact absurd rfl hwd
      | watchdogReset => exact i1
      | disable now b => cases b <;> exact i1
      | param c' => rfl
    · rw [run_snoc]
      cases ev with
      | twist now t => exact (cbTwist_fields _ now t).2.2.1.trans i3
      | cloud st pts tf => exact (cbCloud_fields _ st pts tf).2.2.1.trans i3
      | predict now tf => exact (cbPredict_fields e _ now tf).2.2.1.trans i3
      | watchdog => exact absurd rfl hwd
      | watchdogReset => rfl
      | disable now b => cases b <;> exact i3
      | param c' => exact i3

/-- **C142**: with obstacle data, the watchdog not expired and all restrictions' hold times over, one command frees the robot: every later command, as long as there is no new reason to
slow down, is only subject to the velocity limits, whatever happened before. -/
theorem passes_again (e : Env) (c : Cfg) (h : List Ev) (n1 : ℝ) (t1 : Twist) (mid : List Ev) (n2 : ℝ) (t2 : Twist) (hdata : HasData c h)
    (hw : ¬ WatchdogExpired h) (hd1 : ¬ Disabled c h n1) (h0 : 0 < n1) (hh : HeldBefore e c h n1)
    (hq : Quiet e c (h ++ [.twist n1 t1]) mid) (hd2 : ¬ Disabled c (h ++ .twist n1 t1 :: mid) n2) :
    outputs e c (h ++ .twist n1 t1 :: mid) (.twist n2 t2) = [.cmd (limitMax (config c (h ++ .twist n1 t1 :: mid)) t2)] := by
  have hc := hasData_cloud e c h hdata
  have hwd : (run e c h).watchdogStop = false := by
    rw [← Bool.not_eq_true, watchdog_iff]; exact hw
  have hho := hold_bound e c h n1 h0 hh
  have e0 : h ++ .twist n1 t1 :: mid = (h ++ [.twist n1 t1]) ++ mid := by simp
  have hrun : run e c (h ++ [.twist n1 t1]) = (cbTwist (run e c h) n1 t1).1 := run_snoc e c h _
  have hf := cbTwist_fields (run e c h) n1 t1
  have h1 : (cbTwist (run e c h) n1 t1).1.rLim = 1 := by
    unfold Disabled at hd1
    rw [← run_cfg e, ← run_disable e c] at hd1
    unfold cbTwist
    dsimp only
    rw [if_neg hd1, if_neg (by simp [hc, hwd])]
    dsimp only
    rw [if_pos hho]
  obtain ⟨f1, f2, f3⟩ := quiet_free e c _ mid hq (by rw [hrun]; exact h1) (by rw [hrun]; exact hf.2.2.2.2.1.trans hc) (by rw [hrun]; exact hf.2.2.1.trans hwd)
  rw [← e0] at f1 f2 f3
  rw [twist_enabled e c _ n2 t2 hd2, f1, f2, f3, if_neg (by simp)]
  congr 3
  unfold limit
  rw [if_neg (by norm_num)]

/-- **C142**, the first command after the watchdog was reset: it is still a stop, also when nothing is in the way. -/
theorem first_after_reset (e : Env) (c : Cfg) (h : List Ev) (now : ℝ) (t : Twist) (hd : ¬ Disabled c (h ++ [.watchdog, .watchdogReset]) now) :
    ∃ o, outputs e c (h ++ [.watchdog, .watchdogReset]) (.twist now t) = [.cmd o] ∧ o.lx = 0 ∧ o.ly = 0 ∧ (0 ≤ (config c h).maxAng → o.az = 0) := by
  rw [twist_enabled e c _ now t hd]
  have hr : (run e c (h ++ [.watchdog, .watchdogReset])).rLim = 0 := by
    have : h ++ [.watchdog, .watchdogReset] = (h ++ [.watchdog]) ++ [Ev.watchdogReset] := by simp
    rw [this, run_snoc, run_snoc]; rfl
  have hcfg : config c (h ++ [.watchdog, .watchdogReset]) = config c h := by simp [config]
  split
  · exact ⟨_, rfl, rfl, rfl, fun _ => rfl⟩
  · refine ⟨_, rfl, ?_⟩
    rw [hr, hcfg]
    have hl : limit 0 t = { t with lx := t.lx * 0, ly := t.ly * 0, az := t.az * 0 } := by
      unfold limit
      rw [if_pos (by norm_num)]
    rw [hl]
    unfold limitMax
    by_cases hm : (config c h).maxLin ≤ 0
    · simp [hm]
    · simp only [hm, if_false, mul_zero, zero_mul]
      split <;> simp

/-- The hypotheses of `passes_again` can be met: the watchdog fired and was reset, a cloud without points arrived. -/
example : ∃ h : List Ev, HasData cfg0 h ∧ ¬ WatchdogExpired h ∧ ¬ Disabled cfg0 h 20 ∧ HeldBefore env0 cfg0 h 20 ∧ Quiet env0 cfg0 (h ++ [.twist 20 ahead]) [] ∧
    ¬ Disabled cfg0 (h ++ .twist 20 ahead :: []) 21 ∧ .watchdog ∈ h := by
  refine ⟨[.watchdog, .watchdogReset, .cloud 19 [] none], ⟨[.watchdog, .watchdogReset], .cloud 19 [] none, [], rfl, Or.inl rfl, ?_⟩, ?_, ?_, ?_, ⟨by simp, ?_⟩, ?_, by simp⟩
  · intro p τ tf q h; simp at h
  · rintro ⟨pre, post, h, hp⟩
    match pre, h with
    | [], h =>
      simp only [List.nil_append, List.cons.injEq, true_and] at h
      exact hp .watchdogReset (by rw [← h]; simp) rfl
    | [_], h => simp at h
    | [_, _], h => simp at h
    | _ :: _ :: _ :: pre, h => simp at h
  · simp [Disabled, config, lastDisable, cfg0]
  · intro pre τ tf post r h
    match pre, h with
    | [], h => simp at h
    | [_], h => simp at h
    | [_, _], h => simp at h
    | _ :: _ :: _ :: pre, h => simp at h
  · intro p τ tf q h; simp at h
  · simp [Disabled, config, lastDisable, cfg0]

end Verif.Safety
