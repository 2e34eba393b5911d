import Verif.Safety.Lemmas
import Mathlib.Tactic.NormNum
/-! # Properties of the safety limiter (C33–C38, C79) -/
namespace Verif.Safety
open Spec
open Verif.Polygon hiding dist

/-! ### The history determines the member variables -/

theorem run_nil (e : Env) (c : Cfg) : run e c [] = .init c := rfl

theorem run_snoc (e : Env) (c : Cfg) (h : List Ev) (ev : Ev) :
    run e c (h ++ [ev]) = (step e (run e c h) ev).1 := by
  simp [run]

theorem cbPredict_fields (e : Env) (s : St) (now : ℝ) (tf) :
    (cbPredict e s now tf).1.cfg = s.cfg ∧ (cbPredict e s now tf).1.lastDisable = s.lastDisable ∧
    (cbPredict e s now tf).1.watchdogStop = s.watchdogStop ∧ (cbPredict e s now tf).1.lastStamp = s.lastStamp ∧
    (cbPredict e s now tf).1.twist = s.twist ∧ (cbPredict e s now tf).1.hasTwist = s.hasTwist := by
  unfold cbPredict
  split
  · simp
  · split
    · simp
    · split
      · simp
      · simp only
        split <;> simp [noteStuck]

theorem cbPredict_stale (e : Env) (s : St) (now : ℝ) (tf) (ht : s.hasTwist = true) (hc : s.hasCloud = true)
    (hT : now - s.lastStamp > s.cfg.timeout) :
    cbPredict e s now tf = ({ s with cloud := [], hasCloud := false, rLim := 0 },
        [.cmd .zero, .status (St.status { s with cloud := [], hasCloud := false, rLim := 0 })]) := by
  unfold cbPredict
  rw [if_neg (by simp [ht]), if_neg (by simp [hc]), if_pos hT]

theorem cbPredict_live (e : Env) (s : St) (now : ℝ) (tf) (ht : s.hasTwist = true) (hc : s.hasCloud = true)
    (hT : now - s.lastStamp ≤ s.cfg.timeout) (p : Predicted) (hp : p = predict e s.cfg s.twist s.cloud tf) :
    (cbPredict e s now tf).1.rLim = (if p.ratio < s.rLim then p.ratio else s.rLim) ∧
    (cbPredict e s now tf).1.holdOff = (if p.ratio < 1 then now + s.cfg.holdTime else s.holdOff) ∧
    (cbPredict e s now tf).1.cloud = p.cloud ∧ (cbPredict e s now tf).1.cloudClear = true ∧
    (cbPredict e s now tf).1.hasCloud = true ∧
    (∀ q b, p.tested = some (q, b) → (cbPredict e s now tf).1.stuckSince =
      if b then (if s.stuckSince = 0 then now else s.stuckSince) else 0) ∧
    (p.tested = none → (cbPredict e s now tf).1.stuckSince = s.stuckSince) ∧
    (cbPredict e s now tf).2 = [.status (cbPredict e s now tf).1.status] := by
  subst hp
  unfold cbPredict
  rw [if_neg (by simp [ht]), if_neg (by simp [hc]), if_neg (not_lt.2 hT)]
  dsimp only
  split
  · rename_i h
    simp [hc, h]
  · rename_i q a h
    refine ⟨rfl, rfl, rfl, rfl, hc, ?_, ?_, rfl⟩
    · intro q' b hb
      rw [hb] at h
      cases h
      simp [noteStuck]
    · intro hb
      rw [hb] at h
      cases h

theorem cbTwist_fields (s : St) (now : ℝ) (t : Twist) :
    (cbTwist s now t).1.cfg = s.cfg ∧ (cbTwist s now t).1.lastDisable = s.lastDisable ∧
    (cbTwist s now t).1.watchdogStop = s.watchdogStop ∧ (cbTwist s now t).1.lastStamp = s.lastStamp ∧
    (cbTwist s now t).1.hasCloud = s.hasCloud ∧ (cbTwist s now t).1.cloud = s.cloud ∧
    (cbTwist s now t).1.cloudClear = s.cloudClear ∧ (cbTwist s now t).1.hasTwist = true ∧
    (cbTwist s now t).1.stuckSince = s.stuckSince ∧ (cbTwist s now t).1.holdOff = s.holdOff := by
  unfold cbTwist
  dsimp only
  split
  · simp
  · split
    · simp
    · split <;> simp

theorem cbCloud_fields (s : St) (st : ℝ) (pts : List P3) (tf) :
    (cbCloud s st pts tf).cfg = s.cfg ∧ (cbCloud s st pts tf).lastDisable = s.lastDisable ∧
    (cbCloud s st pts tf).watchdogStop = s.watchdogStop ∧ (cbCloud s st pts tf).rLim = s.rLim ∧
    (cbCloud s st pts tf).holdOff = s.holdOff ∧ (cbCloud s st pts tf).hasTwist = s.hasTwist ∧
    (cbCloud s st pts tf).stuckSince = s.stuckSince := by
  unfold cbCloud
  dsimp only
  split
  · simp
  · split <;> simp

theorem run_cfg (e : Env) (c : Cfg) (h : List Ev) : (run e c h).cfg = config c h := by
  induction h using List.reverseRecOn with
  | nil => rfl
  | append_singleton h ev ih =>
    rw [run_snoc]
    unfold config at ih ⊢
    rw [List.foldl_append, ← ih]
    cases ev with
    | twist now t => simp [step, (cbTwist_fields _ now t).1]
    | cloud st pts tf => simp [step, (cbCloud_fields _ st pts tf).1]
    | predict now tf => simp [step, (cbPredict_fields e _ now tf).1]
    | watchdog => simp [step]
    | watchdogReset => simp [step]
    | disable now b => cases b <;> simp [step]
    | param c' => simp [step]

theorem run_disable (e : Env) (c : Cfg) (h : List Ev) : (run e c h).lastDisable = lastDisable h := by
  induction h using List.reverseRecOn with
  | nil => rfl
  | append_singleton h ev ih =>
    rw [run_snoc]
    unfold lastDisable at ih ⊢
    rw [List.foldl_append, ← ih]
    cases ev with
    | twist now t => simp [step, (cbTwist_fields _ now t).2.1]
    | cloud st pts tf => simp [step, (cbCloud_fields _ st pts tf).2.1]
    | predict now tf => simp [step, (cbPredict_fields e _ now tf).2.1]
    | watchdog => simp [step]
    | watchdogReset => simp [step]
    | disable now b => cases b <;> simp [step]
    | param c' => simp [step]

theorem run_stamp (e : Env) (c : Cfg) (h : List Ev) : (run e c h).lastStamp = lastStamp h := by
  induction h using List.reverseRecOn with
  | nil => rfl
  | append_singleton h ev ih =>
    rw [run_snoc]
    unfold lastStamp at ih ⊢
    rw [List.foldl_append, ← ih]
    cases ev with
    | twist now t => simp [step, (cbTwist_fields _ now t).2.2.2.1]
    | cloud st pts tf =>
      cases pts <;> cases tf <;> simp [step, cbCloud]
    | predict now tf => simp [step, (cbPredict_fields e _ now tf).2.2.2.1]
    | watchdog => simp [step]
    | watchdogReset => simp [step]
    | disable now b => cases b <;> simp [step]
    | param c' => simp [step]

theorem run_twist (e : Env) (c : Cfg) (h : List Ev) : (run e c h).hasTwist = true := by
  induction h using List.reverseRecOn with
  | nil => rfl
  | append_singleton h ev ih =>
    rw [run_snoc]
    cases ev with
    | twist now t => simp [step, (cbTwist_fields _ now t).2.2.2.2.2.2.2.1]
    | cloud st pts tf => simp [step, (cbCloud_fields _ st pts tf).2.2.2.2.2.1, ih]
    | predict now tf => simp [step, (cbPredict_fields e _ now tf).2.2.2.2.2, ih]
    | watchdog => simp [step, ih]
    | watchdogReset => simp [step, ih]
    | disable now b => cases b <;> simp [step, ih]
    | param c' => simp [step, ih]

theorem cbPredict_hasCloud (e : Env) (s : St) (now : ℝ) (tf) (h : s.hasCloud = false) :
    (cbPredict e s now tf).1.hasCloud = false := by
  unfold cbPredict
  simp only [h, Bool.not_false, if_true]
  split <;> exact h

theorem step_noCloud (e : Env) (s : St) (ev : Ev) (ha : ¬ Accepted ev) (h : s.hasCloud = false) :
    (step e s ev).1.hasCloud = false := by
  cases ev with
  | twist now t => simp [step, (cbTwist_fields s now t).2.2.2.2.1, h]
  | cloud st pts tf =>
    cases pts with
    | nil => exact absurd (Or.inl rfl) ha
    | cons p ps =>
      cases tf with
      | none => simpa [step, cbCloud] using h
      | some f => exact absurd (Or.inr (by simp)) ha
  | predict now tf => exact cbPredict_hasCloud e s now tf h
  | watchdog => exact h
  | watchdogReset => exact h
  | disable now b => cases b <;> exact h
  | param c' => exact h

theorem run_append (e : Env) (c : Cfg) (h h' : List Ev) :
    run e c (h ++ h') = h'.foldl (fun s ev => (step e s ev).1) (run e c h) := by
  simp [run]

theorem foldl_noCloud (e : Env) : ∀ (h : List Ev) (s : St), NoCloud h → s.hasCloud = false →
    (h.foldl (fun s ev => (step e s ev).1) s).hasCloud = false := by
  intro h
  induction h with
  | nil => intro s _ hs; exact hs
  | cons ev h ih =>
    intro s hn hs
    exact ih _ (fun x hx => hn x (List.mem_cons_of_mem _ hx)) (step_noCloud e s ev (hn ev (List.mem_cons_self ..)) hs)

theorem foldl_watchdog (e : Env) : ∀ (h : List Ev) (s : St), (∀ ev ∈ h, ev ≠ .watchdogReset) →
    s.watchdogStop = true → (h.foldl (fun s ev => (step e s ev).1) s).watchdogStop = true := by
  intro h
  induction h with
  | nil => intro s _ hs; exact hs
  | cons ev h ih =>
    intro s hn hs
    refine ih _ (fun x hx => hn x (List.mem_cons_of_mem _ hx)) ?_
    have hne := hn ev (List.mem_cons_self ..)
    cases ev with
    | twist now t => simp [step, (cbTwist_fields s now t).2.2.1, hs]
    | cloud st pts tf => simp [step, (cbCloud_fields s st pts tf).2.2.1, hs]
    | predict now tf => simp [step, (cbPredict_fields e s now tf).2.2.1, hs]
    | watchdog => rfl
    | watchdogReset => exact absurd rfl hne
    | disable now b => cases b <;> exact hs
    | param c' => exact hs

theorem run_watchdog (e : Env) (c : Cfg) (h : List Ev) (hw : WatchdogExpired h) :
    (run e c h).watchdogStop = true := by
  obtain ⟨pre, post, rfl, hp⟩ := hw
  rw [run_append]
  exact foldl_watchdog e post _ hp rfl

/-! ### C33 -/

theorem twist_enabled (e : Env) (c : Cfg) (h : List Ev) (now : ℝ) (t : Twist) (hd : ¬ Disabled c h now) :
    outputs e c h (.twist now t) =
      if !(run e c h).hasCloud || (run e c h).watchdogStop then [.cmd .zero]
      else [.cmd (limitMax (config c h) (limit (run e c h).rLim t))] := by
  unfold Disabled at hd
  rw [← run_cfg e, ← run_disable e c] at hd
  unfold outputs step cbTwist
  dsimp only
  rw [if_neg hd, run_cfg]
  split <;> rfl

/-- **C33**.  Without any usable point cloud, or with the watchdog expired, a command received while the limiter is not
disabled produces exactly one zero command. -/
theorem no_data_no_motion (e : Env) (c : Cfg) (h : List Ev) (now : ℝ) (t : Twist)
    (hs : NoCloud h ∨ WatchdogExpired h) (hd : ¬ Disabled c h now) :
    outputs e c h (.twist now t) = [.cmd .zero] := by
  rw [twist_enabled e c h now t hd, if_pos]
  rcases hs with hs | hs
  · have := foldl_noCloud e h (.init c) hs rfl
    simp [run, this]
  · simp [run_watchdog e c h hs]

/-- **C33**: data that has become too old stops the robot at the next prediction cycle, which publishes a zero command;
every command afterwards gives zero until a new usable cloud arrives. -/
theorem stale_data_stops (e : Env) (c : Cfg) (h : List Ev) (T : ℝ) (tf : Option (P3 → P3))
    (hc : (run e c h).hasCloud = true) (hT : T - lastStamp h > (config c h).timeout) :
    (.cmd .zero : Out) ∈ outputs e c h (.predict T tf) ∧
    ∀ (mid : List Ev) (now : ℝ) (t : Twist), NoCloud mid → ¬ Disabled c (h ++ .predict T tf :: mid) now →
      outputs e c (h ++ .predict T tf :: mid) (.twist now t) = [.cmd .zero] := by
  rw [← run_stamp e c, ← run_cfg e] at hT
  have hst : (cbPredict e (run e c h) T tf) =
      ({ run e c h with cloud := [], hasCloud := false, rLim := 0 },
        [.cmd .zero, .status (St.status { run e c h with cloud := [], hasCloud := false, rLim := 0 })]) := by
    exact cbPredict_stale e _ T tf (run_twist e c h) hc hT
  constructor
  · unfold outputs step
    simp only [hst]
    exact List.mem_cons_self ..
  · intro mid now t hn hd
    rw [twist_enabled e c _ now t hd, if_pos]
    have : (run e c (h ++ .predict T tf :: mid)).hasCloud = false := by
      rw [run_append]
      refine foldl_noCloud e mid _ hn ?_
      show (cbPredict e (run e c h) T tf).1.hasCloud = false
      rw [hst]
    simp [this]

/-! ### C34 -/

theorem predict_step_rLim (e : Env) (s : St) (now : ℝ) (tf) (hs : 0 ≤ s.rLim ∧ s.rLim ≤ 1) :
    0 ≤ (cbPredict e s now tf).1.rLim ∧ (cbPredict e s now tf).1.rLim ≤ s.rLim := by
  unfold cbPredict
  split
  · exact ⟨hs.1, le_refl _⟩
  · split
    · exact ⟨hs.1, le_refl _⟩
    · split
      · exact ⟨le_refl _, hs.1⟩
      · have hp := predict_nonneg e s.cfg s.twist s.cloud tf
        have key : ∀ (s' : St), s'.rLim = s.rLim →
            0 ≤ (if (predict e s.cfg s.twist s.cloud tf).ratio < s'.rLim then
              (predict e s.cfg s.twist s.cloud tf).ratio else s'.rLim) ∧
            (if (predict e s.cfg s.twist s.cloud tf).ratio < s'.rLim then
              (predict e s.cfg s.twist s.cloud tf).ratio else s'.rLim) ≤ s.rLim := by
          intro s' h'
          rw [h']
          split
          · exact ⟨hp, le_of_lt (by assumption)⟩
          · exact ⟨hs.1, le_refl _⟩
        dsimp only
        split
        · exact key _ rfl
        · exact key _ rfl

theorem run_rLim (e : Env) (c : Cfg) (h : List Ev) : 0 ≤ (run e c h).rLim ∧ (run e c h).rLim ≤ 1 := by
  induction h using List.reverseRecOn with
  | nil => exact ⟨zero_le_one, le_refl _⟩
  | append_singleton h ev ih =>
    rw [run_snoc]
    cases ev with
    | twist now t =>
      show 0 ≤ (cbTwist _ now t).1.rLim ∧ (cbTwist _ now t).1.rLim ≤ 1
      unfold cbTwist
      dsimp only
      split
      · exact ih
      · split
        · exact ih
        · split
          · exact ⟨zero_le_one, le_refl _⟩
          · exact ih
    | cloud st pts tf => simpa [step, (cbCloud_fields _ st pts tf).2.2.2.1] using ih
    | predict now tf =>
      have := predict_step_rLim e _ now tf ih
      exact ⟨this.1, this.2.trans ih.2⟩
    | watchdog => exact ⟨le_refl _, zero_le_one⟩
    | watchdogReset => exact ih
    | disable now b => cases b <;> exact ih
    | param c' => exact ⟨zero_le_one, le_refl _⟩

/-- Effect of the velocity limits. -/
theorem limitMax_spec (c : Cfg) (t : Twist) (h0 : 0 ≤ c.maxLin) (h1 : 0 ≤ c.maxAng) :
    ∃ a b : ℝ, 0 ≤ a ∧ a ≤ 1 ∧ 0 ≤ b ∧ b ≤ 1 ∧ (limitMax c t).lx = a * t.lx ∧ (limitMax c t).ly = a * t.ly ∧
      (limitMax c t).az = b * t.az ∧ (limitMax c t).lz = t.lz ∧ (limitMax c t).ax = t.ax ∧ (limitMax c t).ay = t.ay ∧
      hypot (limitMax c t).lx (limitMax c t).ly ≤ c.maxLin ∧ |(limitMax c t).az| ≤ c.maxAng := by
  have hang : ∃ b : ℝ, 0 ≤ b ∧ b ≤ 1 ∧ (if t.az > 0 then min t.az c.maxAng else max t.az (-c.maxAng)) = b * t.az ∧
      |(if t.az > 0 then min t.az c.maxAng else max t.az (-c.maxAng))| ≤ c.maxAng := by
    by_cases hz : t.az > 0
    · simp only [if_pos hz]
      rcases le_total t.az c.maxAng with h | h
      · exact ⟨1, by norm_num, by norm_num, by rw [min_eq_left h]; ring, by rw [min_eq_left h, abs_of_pos hz]; exact h⟩
      · refine ⟨c.maxAng / t.az, by positivity, (div_le_one hz).2 h, ?_, ?_⟩
        · rw [min_eq_right h]; field_simp
        · rw [min_eq_right h, abs_of_nonneg h1]
    · simp only [if_neg hz]
      have hz' : t.az ≤ 0 := not_lt.1 hz
      rcases le_total t.az (-c.maxAng) with h | h
      · rcases eq_or_lt_of_le hz' with h0 | hneg
        · refine ⟨1, by norm_num, by norm_num, ?_, ?_⟩
          · rw [max_eq_right h]; linarith
          · rw [max_eq_right h, abs_neg, abs_of_nonneg h1]
        · refine ⟨-c.maxAng / t.az, div_nonneg_of_nonpos (by linarith) hz', ?_, ?_, ?_⟩
          · rw [div_le_iff_of_neg hneg]; linarith
          · rw [max_eq_right h, div_mul_cancel₀ _ (ne_of_lt hneg)]
          · rw [max_eq_right h, abs_neg, abs_of_nonneg h1]
      · refine ⟨1, by norm_num, by norm_num, by rw [max_eq_left h]; ring, ?_⟩
        rw [max_eq_left h, abs_of_nonpos hz']; linarith
  obtain ⟨b, hb0, hb1, hb2, hb3⟩ := hang
  by_cases hm : c.maxLin ≤ 0
  · refine ⟨0, b, le_refl _, zero_le_one, hb0, hb1, ?_⟩
    simp only [limitMax, if_pos hm]
    refine ⟨by ring, by ring, hb2, trivial, trivial, trivial, ?_, hb3⟩
    simpa [hypot] using h0
  · by_cases hh : hypot t.lx t.ly > c.maxLin
    · have hp : 0 < hypot t.lx t.ly := by linarith
      have hq : 0 ≤ c.maxLin / hypot t.lx t.ly := by positivity
      refine ⟨c.maxLin / hypot t.lx t.ly, b, hq, (div_le_one hp).2 hh.le, hb0, hb1, ?_⟩
      simp only [limitMax, if_neg hm, if_pos hh]
      refine ⟨mul_comm _ _, mul_comm _ _, hb2, trivial, trivial, trivial, ?_, hb3⟩
      have : hypot (t.lx * (c.maxLin / hypot t.lx t.ly)) (t.ly * (c.maxLin / hypot t.lx t.ly)) =
          hypot t.lx t.ly * (c.maxLin / hypot t.lx t.ly) := by
        generalize c.maxLin / hypot t.lx t.ly = q at hq
        unfold hypot
        have : (t.lx * q) ^ 2 + (t.ly * q) ^ 2 = (t.lx ^ 2 + t.ly ^ 2) * q ^ 2 := by ring
        rw [this, Real.sqrt_mul (by positivity), Real.sqrt_sq hq]
      rw [this, mul_div_cancel₀ _ (ne_of_gt hp)]
    · refine ⟨1, b, zero_le_one, le_refl _, hb0, hb1, ?_⟩
      simp only [limitMax, if_neg hm, if_neg hh]
      exact ⟨by ring, by ring, hb2, trivial, trivial, trivial, not_lt.1 hh, hb3⟩

theorem limit_spec (r : ℝ) (t : Twist) (h0 : 0 ≤ r) (h1 : r ≤ 1) :
    ∃ a : ℝ, 0 ≤ a ∧ a ≤ 1 ∧ (r < 1 - 1e-6 → a ≤ r) ∧ limit r t = ⟨a * t.lx, a * t.ly, t.lz, t.ax, t.ay, a * t.az⟩ := by
  unfold limit
  split
  · exact ⟨r, h0, h1, fun _ => le_refl _, by ext <;> simp [mul_comm]⟩
  · rename_i h
    exact ⟨1, zero_le_one, le_refl _, fun h' => absurd h' h, by ext <;> simp⟩

/-- **C34**.  Every command received gives exactly one published command, which is the received one slowed down —
never reversed, never enlarged, the direction of travel kept — and within the configured maximum velocities; this
also holds while the limiter is disabled. -/
theorem only_slows (e : Env) (c : Cfg) (h : List Ev) (now : ℝ) (t : Twist)
    (h0 : 0 ≤ (config c h).maxLin) (h1 : 0 ≤ (config c h).maxAng) :
    ∃ o, outputs e c h (.twist now t) = [.cmd o] ∧ Slowed t o ∧
      hypot o.lx o.ly ≤ (config c h).maxLin ∧ |o.az| ≤ (config c h).maxAng := by
  have slow0 : Slowed t .zero := ⟨0, 0, 0, by norm_num, by norm_num, by norm_num, by norm_num, by norm_num, by norm_num,
    by simp [Twist.zero], by simp [Twist.zero], by simp [Twist.zero], by simp [Twist.zero], by simp [Twist.zero],
    by simp [Twist.zero]⟩
  by_cases hd : Disabled c h now
  · unfold Disabled at hd
    rw [← run_cfg e, ← run_disable e c] at hd
    refine ⟨limitMax (config c h) t, ?_, ?_⟩
    · unfold outputs step cbTwist
      dsimp only
      rw [if_pos hd, run_cfg]
    · obtain ⟨a, b, a0, a1, b0, b1, e1, e2, e3, e4, e5, e6, e7, e8⟩ := limitMax_spec (config c h) t h0 h1
      exact ⟨⟨a, b, 1, a0, a1, b0, b1, by norm_num, le_refl _, e1, e2, e3, by rw [e4]; ring, by rw [e5]; ring,
        by rw [e6]; ring⟩, e7, e8⟩
  · rw [twist_enabled e c h now t hd]
    split
    · exact ⟨.zero, rfl, slow0, by simpa [Twist.zero, hypot] using h0, by simpa [Twist.zero] using h1⟩
    · refine ⟨_, rfl, ?_⟩
      obtain ⟨hr0, hr1⟩ := run_rLim e c h
      obtain ⟨k, k0, k1, -, ek⟩ := limit_spec (run e c h).rLim t hr0 hr1
      obtain ⟨a, b, a0, a1, b0, b1, e1, e2, e3, e4, e5, e6, e7, e8⟩ :=
        limitMax_spec (config c h) (limit (run e c h).rLim t) h0 h1
      refine ⟨⟨a * k, b * k, 1, by positivity, mul_le_one₀ a1 k0 k1, by positivity, mul_le_one₀ b1 k0 k1, by norm_num,
        le_refl _, ?_, ?_, ?_, ?_, ?_, ?_⟩, e7, e8⟩
      · rw [e1, ek]; ring
      · rw [e2, ek]; ring
      · rw [e3, ek]; ring
      · rw [e4, ek]; ring
      · rw [e5, ek]; ring
      · rw [e6, ek]; ring

/-- **C34**: every command published on the node's own initiative is zero. -/
theorem own_commands_zero (e : Env) (c : Cfg) (h : List Ev) (ev : Ev) (hev : ∀ now t, ev ≠ .twist now t) (o : Twist)
    (ho : .cmd o ∈ outputs e c h ev) : o = .zero := by
  unfold outputs at ho
  cases ev with
  | twist now t => exact absurd rfl (hev now t)
  | cloud st pts tf => simp [step] at ho
  | predict now tf =>
    simp only [step, cbPredict] at ho
    split at ho
    · simp at ho
    · split at ho
      · simp at ho
      · split at ho
        · simpa using ho
        · simp at ho
  | watchdog => simpa [step] using ho
  | watchdogReset => simp [step] at ho
  | disable now b => simp [step] at ho
  | param c' => simp [step] at ho

/-! ### C35, C36: one prediction -/

/-- The points compared with the footprint. -/
theorem tested_points (e : Env) (c : Cfg) (t : Twist) (cloud : List P3) (f : P3 → P3) (pts : List (Pt ℝ)) (b : Bool)
    (h : (predict e c t cloud (some f)).tested = some (pts, b)) (p : Pt ℝ) :
    p ∈ pts ↔ ∃ q ∈ e.downsample c.grid (cloud.map f), c.zMin ≤ q.z ∧ q.z ≤ c.zMax ∧ p = (q.x, q.y) := by
  unfold predict at h
  split at h
  · simp at h
  · dsimp only at h
    split at h
    · simp at h
    · simp only [Option.some.injEq, Prod.mk.injEq] at h
      rw [← h.1]
      simp only [heightFilter, List.mem_map, List.mem_filter, Bool.not_eq_true', Bool.or_eq_false_iff,
        decide_eq_false_iff_not, not_lt]
      constructor
      · rintro ⟨q, ⟨hq, h1, h2⟩, rfl⟩
        exact ⟨q, hq, h1, h2, rfl⟩
      · rintro ⟨q, hq, h1, h2, rfl⟩
        exact ⟨q, ⟨hq, h1, h2⟩, rfl⟩

theorem tested_inv (e : Env) (c : Cfg) (t : Twist) (cloud : List P3) (tf : Option (P3 → P3)) (pts : List (Pt ℝ))
    (b : Bool) (h : (predict e c t cloud tf).tested = some (pts, b)) :
    (predict e c t cloud tf).ratio =
      ratio c (speed t) t.az (loop c (speed t) t.az (colliding e c t pts) 0 c.steps .init) ∧
    b = (loop c (speed t) t.az (colliding e c t pts) 0 c.steps .init).atNow := by
  unfold predict at h ⊢
  split at h
  · simp at h
  · split at h
    · simp at h
    · dsimp only at h
      split at h
      · simp at h
      · rename_i h1 _ f h2
        simp only [Option.some.injEq, Prod.mk.injEq] at h
        obtain ⟨hp, hb⟩ := h
        simp only [if_neg h1, if_neg h2]
        rw [← hp, ← hb]
        exact ⟨rfl, rfl⟩

theorem bl_iff (e : Env) (c : Cfg) (t : Twist) (pts : List (Pt ℝ)) (n : Nat) :
    Bl c (speed t) t.az (colliding e c t pts) n ↔ Stops c t (Hits e.footprint t c.dt pts) n := by
  unfold Bl Stops speed
  rw [colliding_iff, ← colliding_iff e c t pts 0, Bool.not_eq_true]

/-- **C36**: the robot is reported to be in collision now exactly when a point lies in its footprint. -/
theorem collision_now (e : Env) (c : Cfg) (t : Twist) (cloud : List P3) (tf : Option (P3 → P3)) (pts : List (Pt ℝ))
    (b : Bool) (hdt : 0 < c.dt) (hmax : 0 < c.tmax) (h : (predict e c t cloud tf).tested = some (pts, b)) :
    b = true ↔ ∃ p ∈ pts, inside (close e.footprint) p = true := by
  have hl := (loop_spec c (speed t) t.az (mul_nonneg (speed_nonneg t) hdt.le) (colliding e c t pts) c.steps).1
  have hN : 0 < c.steps := by rw [steps_iff c hdt]; simpa using hmax
  rw [(tested_inv e c t cloud tf pts b h).2, hl]
  simp only [hN, decide_true, Bool.true_and, colliding_iff, Hits]
  simp [pose, Pose.toWorld]

/-- **C36**: if the predicted motion is never stopped within the horizon, the command is not restricted. -/
theorem clear_horizon (e : Env) (c : Cfg) (t : Twist) (cloud : List P3) (tf : Option (P3 → P3)) (pts : List (Pt ℝ))
    (b : Bool) (hdt : 0 < c.dt) (h : (predict e c t cloud tf).tested = some (pts, b))
    (hclear : ∀ n : Nat, (n : ℝ) * c.dt < c.tmax → ¬ Stops c t (Hits e.footprint t c.dt pts) n) :
    (predict e c t cloud tf).ratio = 1 := by
  rw [(tested_inv e c t cloud tf pts b h).1]
  rcases (loop_spec c (speed t) t.az (mul_nonneg (speed_nonneg t) hdt.le) (colliding e c t pts) c.steps).2 with
    ⟨-, h2⟩ | ⟨j, hj, hb, -⟩
  · simp [ratio, h2]
  · rw [bl_iff] at hb
    exact absurd hb (hclear j ((steps_iff c hdt j).1 hj))

/-- **C36**: a robot that is in collision now, and whose motion is stopped within the horizon because it does not lead
out of the collision in time, must not move: the ratio is 0 unless the command is zero anyway. -/
theorem no_escape (e : Env) (c : Cfg) (t : Twist) (cloud : List P3) (tf : Option (P3 → P3)) (pts : List (Pt ℝ))
    (b : Bool) (hdt : 0 < c.dt) (ha : 0 ≤ c.linAcc) (hb : 0 ≤ c.angAcc) (hm : 0 ≤ c.dMargin) (hy : 0 ≤ c.yawMargin)
    (h : (predict e c t cloud tf).tested = some (pts, b)) (h0 : Hits e.footprint t c.dt pts 0) (n : Nat)
    (hn : (n : ℝ) * c.dt < c.tmax) (hs : Stops c t (Hits e.footprint t c.dt pts) n) :
    (predict e c t cloud tf).ratio = 0 ∨ (hypot t.lx t.ly = 0 ∧ t.az = 0) := by
  rw [(tested_inv e c t cloud tf pts b h).1]
  have hc0 := (colliding_iff e c t pts 0).2 h0
  rcases (loop_spec c (speed t) t.az (mul_nonneg (speed_nonneg t) hdt.le) (colliding e c t pts) c.steps).2 with
    ⟨h1, -⟩ | ⟨j, hj, -, -, hcol, hd, hyaw⟩
  · exact absurd ((bl_iff e c t pts n).2 hs) (h1 n ((steps_iff c hdt n).2 hn))
  · rw [hc0, if_pos rfl] at hd hyaw
    unfold ratio
    rw [if_pos hcol, hd, hyaw, compensate_zero _ _ _ ha hm, compensate_zero _ _ _ hb hy]
    by_cases hv : speed t = 0
    · by_cases hw : t.az = 0
      · exact Or.inr ⟨hv, hw⟩
      · left
        simp [quotient, hv, hw]
    · left
      by_cases hw : t.az = 0 <;> simp [quotient, hv, hw]

/-- **C36**: without usable data — no points at all, no transform, or no point in the height range — the robot must not
move, unless an empty cloud is configured to be acceptable (which never covers the missing transform). -/
theorem no_obstacle_data (e : Env) (c : Cfg) (t : Twist) (cloud : List P3) (tf : Option (P3 → P3)) :
    (cloud = [] → (predict e c t cloud tf).ratio = if c.allowEmpty then 1 else 0) ∧
    (cloud ≠ [] → (predict e c t cloud none).ratio = 0) ∧
    (∀ f, cloud ≠ [] → (∀ q ∈ e.downsample c.grid (cloud.map f), q.z < c.zMin ∨ c.zMax < q.z) →
      (predict e c t cloud (some f)).ratio = if c.allowEmpty then 1 else 0) := by
  refine ⟨?_, ?_, ?_⟩
  · rintro rfl
    simp [predict]
  · intro h
    simp [predict, h]
  · intro f h hq
    have : heightFilter c (e.downsample c.grid (cloud.map f)) = [] := by
      simp only [heightFilter, List.map_eq_nil_iff, List.filter_eq_nil_iff]
      intro q hq'
      rcases hq q hq' with h' | h' <;> simp [h']
    simp [predict, h, this]

/-- **C35**.  The robot is free now and the first collision is predicted at time step `n`.  Then with every factor up to
the returned ratio the robot, driving on for the system delay and braking with the configured deceleration, stops
before it has come closer than the margin to the last collision-free point of the prediction (or does not move at
all).  The same holds for the rotation. -/
theorem stops_in_time (e : Env) (c : Cfg) (t : Twist) (cloud : List P3) (tf : Option (P3 → P3)) (pts : List (Pt ℝ))
    (b : Bool) (hdt : 0 < c.dt) (ha : 0 < c.linAcc) (hb : 0 < c.angAcc) (hm : 0 ≤ c.dMargin) (hy : 0 ≤ c.yawMargin)
    (h : (predict e c t cloud tf).tested = some (pts, b)) (n : Nat) (hn : (n : ℝ) * c.dt < c.tmax)
    (h0 : ¬ Hits e.footprint t c.dt pts 0) (hfirst : ∀ i < n, ¬ Hits e.footprint t c.dt pts i)
    (hhit : Hits e.footprint t c.dt pts n) (r : ℝ) (hr0 : 0 ≤ r) (hr : r ≤ (predict e c t cloud tf).ratio) :
    (r * hypot t.lx t.ly = 0 ∨
      stoppingDistance (r * hypot t.lx t.ly) c.linAcc (1 / c.hz + c.dt) ≤
        ((n : ℝ) - 1) * (hypot t.lx t.ly * c.dt) - c.dMargin) ∧
    (r * |t.az| = 0 ∨
      stoppingDistance (r * |t.az|) c.angAcc (1 / c.hz + c.dt) ≤ ((n : ℝ) - 1) * (|t.az| * c.dt) - c.yawMargin) := by
  rw [(tested_inv e c t cloud tf pts b h).1] at hr
  have hc0 : colliding e c t pts 0 = false := by
    rw [← Bool.not_eq_true, colliding_iff]; exact h0
  have hn1 : 1 ≤ n := by
    rcases Nat.eq_zero_or_pos n with rfl | hp
    · exact absurd hhit h0
    · exact hp
  have hdelay : c.delay = 1 / c.hz + c.dt := by simp [Cfg.delay]
  rcases (loop_spec c (speed t) t.az (mul_nonneg (speed_nonneg t) hdt.le) (colliding e c t pts) c.steps).2 with
    ⟨h1, -⟩ | ⟨j, hj, hbl, hmin, hcol, hd, hyaw⟩
  · exact absurd ((bl_iff e c t pts n).2 ⟨hhit, Or.inl h0⟩) (h1 n ((steps_iff c hdt n).2 hn))
  · have hjn : j = n := by
      rcases Nat.lt_trichotomy j n with hlt | heq | hgt
      · exact absurd ((bl_iff e c t pts j).1 hbl).1 (hfirst j hlt)
      · exact heq
      · exact absurd ((bl_iff e c t pts n).2 ⟨hhit, Or.inl h0⟩) (hmin n hgt)
    subst hjn
    rw [hc0, if_neg (by simp)] at hd hyaw
    unfold ratio at hr
    rw [if_pos hcol, hd, hyaw, hdelay] at hr
    have hj1 : (0 : ℝ) ≤ (j : ℝ) - 1 := by
      have : (1 : ℝ) ≤ (j : ℝ) := by exact_mod_cast hn1
      linarith
    constructor
    · rcases quotient_mul_le _ _ _ r (speed_nonneg t) (hr.trans (min_le_left _ _)) with hv | hle
      · left; simp [speed] at hv; simp [hv]
      · have := compensate_stops _ _ _ _ _ ha hm (mul_nonneg hr0 (speed_nonneg t)) hle
        rw [abs_of_nonneg (mul_nonneg hj1 (mul_nonneg (speed_nonneg t) hdt.le))] at this
        exact this
    · rcases quotient_mul_le _ _ _ r (abs_nonneg t.az) (hr.trans (min_le_right _ _)) with hv | hle
      · left; simp [hv]
      · have := compensate_stops _ _ _ _ _ hb hy (mul_nonneg hr0 (abs_nonneg t.az)) hle
        rw [abs_mul, abs_mul, abs_of_nonneg hj1, abs_of_pos hdt] at this
        exact this

/-- **C35**: each time step of the prediction advances the robot by speed times `dt` and turns it by yaw rate times
`dt`, so `n` steps are a travelled distance of `n` times that length. -/
theorem pose_step (t : Twist) (dt : ℝ) (n : Nat) (hdt : 0 ≤ dt) :
    hypot ((pose t dt (n + 1)).x - (pose t dt n).x) ((pose t dt (n + 1)).y - (pose t dt n).y) = hypot t.lx t.ly * dt ∧
    (pose t dt n).yaw = n * (t.az * dt) := by
  constructor
  · have hcs := Real.sin_sq_add_cos_sq (pose t dt n).yaw
    have : hypot t.lx t.ly * dt = Real.sqrt ((t.lx ^ 2 + t.ly ^ 2) * dt ^ 2) := by
      rw [Real.sqrt_mul (by positivity), Real.sqrt_sq hdt]; rfl
    rw [this]
    unfold hypot
    congr 1
    simp only [pose]
    linear_combination (t.lx ^ 2 + t.ly ^ 2) * dt ^ 2 * hcs
  · induction n with
    | zero => simp [pose]
    | succ n ih => simp only [pose, ih]; push_cast; ring

/-! ### C37 -/

/-- After a prediction cycle the stored points are either discarded at the next cloud or already gone. -/
theorem predict_consumed (e : Env) (s : St) (now : ℝ) (tf) (ht : s.hasTwist = true)
    (hs : s.hasCloud = false → s.cloud = []) :
    (cbPredict e s now tf).1.cloudClear = true ∨ (cbPredict e s now tf).1.cloud = [] := by
  by_cases hc : s.hasCloud = true
  · rcases le_or_gt (now - s.lastStamp) s.cfg.timeout with hT | hT
    · exact Or.inl (cbPredict_live e s now tf ht hc hT _ rfl).2.2.2.1
    · right; rw [cbPredict_stale e s now tf ht hc hT]
  · right
    have hc' : s.hasCloud = false := by simpa using hc
    unfold cbPredict
    rw [if_neg (by simp [ht]), if_pos (by simp [hc'])]
    exact hs hc'

theorem run_noCloud_empty (e : Env) (c : Cfg) (h : List Ev) : (run e c h).hasCloud = false → (run e c h).cloud = [] := by
  induction h using List.reverseRecOn with
  | nil => intro _; rfl
  | append_singleton h ev ih =>
    rw [run_snoc]
    cases ev with
    | twist now t =>
      have := cbTwist_fields (run e c h) now t
      simpa [step, this.2.2.2.2.1, this.2.2.2.2.2.1] using ih
    | cloud st pts tf =>
      cases pts <;> cases tf <;> simp [step, cbCloud] <;> exact ih
    | predict now tf =>
      intro hf
      by_cases hc : (run e c h).hasCloud = true
      · rcases le_or_gt (now - (run e c h).lastStamp) (run e c h).cfg.timeout with hT | hT
        · have := (cbPredict_live e _ now tf (run_twist e c h) hc hT _ rfl).2.2.2.2.1
          rw [show (step e (run e c h) (.predict now tf)).1 = (cbPredict e (run e c h) now tf).1 from rfl, this] at hf
          cases hf
        · show (cbPredict e (run e c h) now tf).1.cloud = []
          rw [cbPredict_stale e _ now tf (run_twist e c h) hc hT]
      · have hc' : (run e c h).hasCloud = false := by simpa using hc
        show (cbPredict e (run e c h) now tf).1.cloud = []
        unfold cbPredict
        rw [if_neg (by simp [run_twist]), if_pos (by simp [hc'])]
        exact ih hc'
    | watchdog => exact ih
    | watchdogReset => exact ih
    | disable now b => cases b <;> exact ih
    | param c' => exact ih

/-- Accumulation between two predictions. -/
theorem foldl_cloud (e : Env) : ∀ (mid : List Ev) (s : St), NoPredict mid →
    ((s.cloudClear = false → (mid.foldl (fun s ev => (step e s ev).1) s).cloud = s.cloud ++ received mid ∧
        (mid.foldl (fun s ev => (step e s ev).1) s).cloudClear = false) ∧
      ((s.cloudClear = true ∨ s.cloud = []) → (∃ ev ∈ mid, Accepted ev) →
        (mid.foldl (fun s ev => (step e s ev).1) s).cloud = received mid)) := by
  intro mid
  induction mid with
  | nil => intro s _; exact ⟨fun h => by simp [received, h], fun _ ⟨_, h, _⟩ => by simp at h⟩
  | cons ev mid ih =>
    intro s hn
    have hn' : NoPredict mid := fun x hx => hn x (List.mem_cons_of_mem _ hx)
    obtain ⟨i1, i2⟩ := ih (step e s ev).1 hn'
    have keep : (step e s ev).1.cloud = s.cloud → (step e s ev).1.cloudClear = s.cloudClear →
        received (ev :: mid) = received mid → ¬ Accepted ev →
        ((s.cloudClear = false → ((ev :: mid).foldl (fun s ev => (step e s ev).1) s).cloud = s.cloud ++ received (ev :: mid) ∧
            ((ev :: mid).foldl (fun s ev => (step e s ev).1) s).cloudClear = false) ∧
          ((s.cloudClear = true ∨ s.cloud = []) → (∃ x ∈ ev :: mid, Accepted x) →
            ((ev :: mid).foldl (fun s ev => (step e s ev).1) s).cloud = received (ev :: mid))) := by
      intro h1 h2 h3 h4
      rw [h1, h2] at i1 i2
      rw [h3]
      refine ⟨i1, fun hs ⟨x, hx, hax⟩ => i2 hs ?_⟩
      rcases List.mem_cons.1 hx with rfl | hx
      · exact absurd hax h4
      · exact ⟨x, hx, hax⟩
    cases ev with
    | twist now t =>
      have := cbTwist_fields s now t
      exact keep this.2.2.2.2.2.1 this.2.2.2.2.2.2.1 rfl (fun h => h)
    | cloud st pts tf =>
      have accept : ∀ new : List P3, (step e s (.cloud st pts tf)).1.cloud = (if s.cloudClear then [] else s.cloud) ++ new →
          (step e s (.cloud st pts tf)).1.cloudClear = false → received (.cloud st pts tf :: mid) = new ++ received mid →
          ((s.cloudClear = false → ((.cloud st pts tf :: mid).foldl (fun s ev => (step e s ev).1) s).cloud =
                s.cloud ++ received (.cloud st pts tf :: mid) ∧
              ((.cloud st pts tf :: mid).foldl (fun s ev => (step e s ev).1) s).cloudClear = false) ∧
            ((s.cloudClear = true ∨ s.cloud = []) → (∃ x ∈ (.cloud st pts tf :: mid : List Ev), Accepted x) →
              ((.cloud st pts tf :: mid).foldl (fun s ev => (step e s ev).1) s).cloud =
                received (.cloud st pts tf :: mid))) := by
        intro new h1 h2 h3
        obtain ⟨j1, j2⟩ := i1 h2
        rw [h1] at j1
        rw [h3]
        refine ⟨fun hs => ⟨?_, j2⟩, fun hs _ => ?_⟩
        · rw [List.foldl_cons, j1]; simp [hs]
        · rw [List.foldl_cons, j1]
          rcases hs with hs | hs <;> simp [hs]
      cases pts with
      | nil =>
        refine accept [] (by simp [step, cbCloud]) (by simp [step, cbCloud]) ?_
        cases tf <;> simp [received]
      | cons p ps =>
        cases tf with
        | none => exact keep rfl rfl rfl (by simp [Accepted])
        | some f => exact accept ((p :: ps).map f) (by simp [step, cbCloud]) (by simp [step, cbCloud]) rfl
    | predict now tf => exact absurd rfl (hn _ (List.mem_cons_self ..) now tf)
    | watchdog => exact keep rfl rfl rfl (fun h => h)
    | watchdogReset => exact keep rfl rfl rfl (fun h => h)
    | disable now b => cases b <;> exact keep rfl rfl rfl (fun h => h)
    | param c' => exact keep rfl rfl rfl (fun h => h)

/-- **C37** (partial).  If a usable cloud has arrived since the last prediction cycle (or there was none before), the
points a prediction cycle works on are exactly the points received since that cycle, in the fixed frame, in order; so
what it compares with the footprint is their image under the current transform.  Missing: a cycle that runs without new
data since the last one, see `transformed_twice`. -/
theorem picture_fresh_partial (e : Env) (c : Cfg) (pre mid : List Ev) (T : ℝ) (tf : Option (P3 → P3))
    (hmid : NoPredict mid) (hacc : ∃ ev ∈ mid, Accepted ev) :
    (run e c (pre ++ .predict T tf :: mid)).cloud = received mid ∧ (run e c mid).cloud = received mid := by
  constructor
  · have e1 : run e c (pre ++ .predict T tf :: mid) =
        mid.foldl (fun s ev => (step e s ev).1) (step e (run e c pre) (.predict T tf)).1 := by
      rw [run_append]; rfl
    rw [e1]
    exact (foldl_cloud e mid _ hmid).2
      (predict_consumed e _ T tf (run_twist e c pre) (run_noCloud_empty e c pre)) hacc
  · exact (foldl_cloud e mid _ hmid).2 (Or.inr rfl) hacc

/-- **C37** (what happens otherwise).  A cycle with usable data replaces the stored points by their image; if no new
cloud arrives, the next cycle transforms the image again. -/
theorem transformed_twice (e : Env) (c : Cfg) (h : List Ev) (T : ℝ) (f g : P3 → P3)
    (hc : (run e c h).hasCloud = true) (hT : T - lastStamp h ≤ (config c h).timeout) (hne : (run e c h).cloud ≠ []) :
    (run e c (h ++ [.predict T (some f)])).cloud = (run e c h).cloud.map f ∧
    (predict e (config c h) (run e c h).twist (run e c (h ++ [.predict T (some f)])).cloud (some g)).cloud =
      (run e c h).cloud.map (g ∘ f) := by
  have pc : ∀ (c' : Cfg) (t : Twist) (cl : List P3) (f : P3 → P3), cl ≠ [] →
      (predict e c' t cl (some f)).cloud = cl.map f := by
    intro c' t cl f hcl
    unfold predict
    rw [if_neg (by simpa using hcl)]
    dsimp only
    split <;> rfl
  rw [← run_stamp e c, ← run_cfg e] at hT
  have h1 : (run e c (h ++ [.predict T (some f)])).cloud = (run e c h).cloud.map f := by
    rw [run_snoc]
    have := (cbPredict_live e _ T (some f) (run_twist e c h) hc hT _ rfl).2.2.1
    exact this.trans (pc _ _ _ _ hne)
  refine ⟨h1, ?_⟩
  rw [h1, pc _ _ _ _ (by simpa using hne), List.map_map]

/-! ### C38 -/

/-- **C38** (partial).  A prediction cycle at time `T` returned `r < 1`.  As long as the configuration is not changed,
every command up to the end of the hold time is slowed down at least by `r` (a ratio of at least `1 - 10⁻⁶` counts as no
restriction).  Missing: the restriction is lost on reconfiguration (`reconfigure_releases`), and a command can be passed
unrestricted before any prediction was made with the data at hand (`first_command_unrestricted`,
`recovery_releases`). -/
theorem restriction_held_partial (e : Env) (c : Cfg) (pre mid : List Ev) (T : ℝ) (tf : Option (P3 → P3)) (r : ℝ)
    (hp : Predicts e c pre T tf r) (hr : r < 1) (hparam : ∀ ev ∈ mid, ∀ c', ev ≠ .param c')
    (now : ℝ) (t : Twist) (hmono : ∀ ev ∈ mid, ∀ τ, timeOf ev = some τ → T ≤ τ ∧ τ ≤ now)
    (hnow : now ≤ T + (config c pre).holdTime)
    (h0 : 0 ≤ (config c pre).maxLin) (h1 : 0 ≤ (config c pre).maxAng)
    (hd : ¬ Disabled c (pre ++ .predict T tf :: mid) now) :
    ∃ o, outputs e c (pre ++ .predict T tf :: mid) (.twist now t) = [.cmd o] ∧
      SlowedBy (if r < 1 - 1e-6 then r else 1) t o := by
  obtain ⟨hc, hT, hpr⟩ := hp
  have hr0 : 0 ≤ r := hpr ▸ predict_nonneg _ _ _ _ _
  rw [← run_stamp e c, ← run_cfg e] at hT
  rw [← run_cfg e] at hpr hnow
  have live := cbPredict_live e _ T tf (run_twist e c pre) hc hT _ rfl
  rw [hpr, if_pos hr] at live
  -- the invariant of the hold period
  have inv : ∀ (mid : List Ev) (s : St), (∀ ev ∈ mid, ∀ c', ev ≠ .param c') →
      (∀ ev ∈ mid, ∀ τ, timeOf ev = some τ → T ≤ τ ∧ τ ≤ now) →
      0 ≤ s.rLim → s.rLim ≤ r → now ≤ s.holdOff → s.cfg = (run e c pre).cfg → s.hasTwist = true →
      (mid.foldl (fun s ev => (step e s ev).1) s).rLim ≤ r := by
    intro mid
    induction mid with
    | nil => intro s _ _ _ h _ _ _; exact h
    | cons ev mid ih =>
      intro s hpar hmono hs0 hs1 hs2 hs3 hs4
      rw [List.foldl_cons]
      have hpar' : ∀ x ∈ mid, ∀ c', x ≠ .param c' := fun x hx => hpar x (List.mem_cons_of_mem _ hx)
      have hmono' : ∀ x ∈ mid, ∀ τ, timeOf x = some τ → T ≤ τ ∧ τ ≤ now := fun x hx => hmono x (List.mem_cons_of_mem _ hx)
      cases ev with
      | twist τ tw =>
        have hτ := hmono _ (List.mem_cons_self ..) τ rfl
        have hf := cbTwist_fields s τ tw
        have hl : (cbTwist s τ tw).1.rLim = s.rLim := by
          unfold cbTwist
          dsimp only
          split
          · rfl
          · split
            · rfl
            · rw [if_neg (by linarith)]
        refine ih _ hpar' hmono' ?_ ?_ ?_ ?_ ?_
        · exact hl.symm ▸ hs0
        · exact hl.symm ▸ hs1
        · exact hf.2.2.2.2.2.2.2.2.2.symm ▸ hs2
        · exact hf.1.trans hs3
        · exact hf.2.2.2.2.2.2.2.1
      | cloud st pts tf =>
        have hf := cbCloud_fields s st pts tf
        exact ih _ hpar' hmono' (hf.2.2.2.1.symm ▸ hs0) (hf.2.2.2.1.symm ▸ hs1) (hf.2.2.2.2.1.symm ▸ hs2)
          (hf.1.trans hs3) (hf.2.2.2.2.2.1.trans hs4)
      | predict τ tf =>
        have hτ := hmono _ (List.mem_cons_self ..) τ rfl
        have hf := cbPredict_fields e s τ tf
        have hl := predict_step_rLim e s τ tf ⟨hs0, hs1.trans hr.le⟩
        refine ih _ hpar' hmono' hl.1 (hl.2.trans hs1) ?_ (hf.1.trans hs3) (hf.2.2.2.2.2.trans hs4)
        show now ≤ (cbPredict e s τ tf).1.holdOff
        by_cases hsc : s.hasCloud = true
        · rcases le_or_gt (τ - s.lastStamp) s.cfg.timeout with hT' | hT'
          · rw [(cbPredict_live e s τ tf hs4 hsc hT' _ rfl).2.1]
            split
            · rw [hs3]; linarith
            · exact hs2
          · rw [cbPredict_stale e s τ tf hs4 hsc hT']
            exact hs2
        · unfold cbPredict
          rw [if_neg (by simp [hs4]), if_pos (by simpa using hsc)]
          exact hs2
      | watchdog => exact ih _ hpar' hmono' (le_refl _) hr0 hs2 hs3 hs4
      | watchdogReset => exact ih _ hpar' hmono' hs0 hs1 hs2 hs3 hs4
      | disable τ b => cases b <;> exact ih _ hpar' hmono' hs0 hs1 hs2 hs3 hs4
      | param c' => exact absurd rfl (hpar _ (List.mem_cons_self ..) c')
  have hcfg : config c (pre ++ .predict T tf :: mid) = config c pre := by
    unfold config
    rw [List.foldl_append, List.foldl_cons]
    generalize List.foldl _ c pre = c0
    clear * - hparam
    induction mid generalizing c0 with
    | nil => rfl
    | cons ev mid ih =>
      have := ih (fun x hx => hparam x (List.mem_cons_of_mem _ hx)) c0
      rw [List.foldl_cons]
      cases ev with
      | param c' => exact absurd rfl (hparam _ (List.mem_cons_self ..) c')
      | _ => exact this
  have hlim : (run e c (pre ++ .predict T tf :: mid)).rLim ≤ r := by
    rw [run_append, List.foldl_cons]
    have hrl := predict_step_rLim e _ T tf (run_rLim e c pre)
    refine inv mid _ hparam hmono hrl.1 ?_ ?_ ?_ ?_
    · show (cbPredict e (run e c pre) T tf).1.rLim ≤ r
      rw [live.1]
      split
      · exact le_refl _
      · exact not_lt.1 (by assumption)
    · show now ≤ (cbPredict e (run e c pre) T tf).1.holdOff
      rw [live.2.1]
      exact hnow
    · exact (cbPredict_fields e _ T tf).1
    · exact (cbPredict_fields e _ T tf).2.2.2.2.2.trans (run_twist e c pre)
  have hlo := (run_rLim e c (pre ++ .predict T tf :: mid)).1
  have hhi := (run_rLim e c (pre ++ .predict T tf :: mid)).2
  rw [twist_enabled e c _ now t hd, hcfg]
  have hle1 : 0 ≤ (if r < 1 - 1e-6 then r else 1) := by split <;> linarith
  split
  · exact ⟨.zero, rfl, 0, 0, le_refl _, hle1, le_refl _, hle1, by simp [Twist.zero], by simp [Twist.zero],
      by simp [Twist.zero]⟩
  · refine ⟨_, rfl, ?_⟩
    obtain ⟨k, k0, k1, k2, ek⟩ := limit_spec _ t hlo hhi
    obtain ⟨a, b, a0, a1, b0, b1, e1, e2, e3, -⟩ :=
      limitMax_spec (config c pre) (limit (run e c (pre ++ .predict T tf :: mid)).rLim t) h0 h1
    have hk : k ≤ if r < 1 - 1e-6 then r else 1 := by
      split
      · rename_i hlt
        exact (k2 (by linarith)).trans hlim
      · exact k1
    refine ⟨a * k, b * k, by positivity, ?_, by positivity, ?_, ?_, ?_, ?_⟩
    · exact (mul_le_of_le_one_left k0 a1).trans hk
    · exact (mul_le_of_le_one_left k0 b1).trans hk
    · rw [e1, ek]; ring
    · rw [e2, ek]; ring
    · rw [e3, ek]; ring

/-- **C38**: the hold time is never shorter than one period of the prediction timer. -/
theorem hold_covers_period (c : Cfg) : 1 / c.hz ≤ c.holdTime := le_max_right _ _

/-- **C38** (violations): reconfiguring the node lifts every restriction at once. -/
theorem reconfigure_releases (e : Env) (c c' : Cfg) (h : List Ev) : (run e c (h ++ [.param c'])).rLim = 1 := by
  rw [run_snoc]; rfl

/-- **C38** (violations): a command that follows the first cloud, before any prediction was made, is only subject to the
velocity limits, whatever the cloud contains. -/
theorem first_command_unrestricted (e : Env) (c : Cfg) (st : ℝ) (pts : List P3) (f : P3 → P3) (now : ℝ) (t : Twist)
    (hd : ¬ Disabled c [.cloud st pts (some f)] now) :
    outputs e c [.cloud st pts (some f)] (.twist now t) = [.cmd (limitMax c t)] := by
  rw [twist_enabled e c _ now t hd]
  have h1 : (run e c [.cloud st pts (some f)]).hasCloud = true := by
    cases pts <;> simp [run, step, cbCloud]
  have h2 : (run e c [.cloud st pts (some f)]).watchdogStop = false := by
    cases pts <;> simp [run, step, cbCloud, St.init]
  have h3 : (run e c [.cloud st pts (some f)]).rLim = 1 := by
    cases pts <;> simp [run, step, cbCloud, St.init]
  rw [h1, h2, h3]
  simp [limit, config]

/-- **C38** (violations): after an interruption of the data (here the stop has just been applied by the stale data check,
and the hold time is over) a new cloud and one command are enough: the second command is only subject to the velocity
limits although no prediction has used the new data. -/
theorem recovery_releases (e : Env) (c : Cfg) (h : List Ev) (st : ℝ) (pts : List P3) (f : P3 → P3) (n1 n2 : ℝ)
    (t1 t2 : Twist) (hw : (run e c h).watchdogStop = false) (hhold : (run e c h).holdOff < n1)
    (hd1 : ¬ Disabled c (h ++ [.cloud st pts (some f)]) n1)
    (hd2 : ¬ Disabled c (h ++ [.cloud st pts (some f), .twist n1 t1]) n2) :
    outputs e c (h ++ [.cloud st pts (some f), .twist n1 t1]) (.twist n2 t2) = [.cmd (limitMax (config c h) t2)] := by
  rw [twist_enabled e c _ n2 t2 hd2]
  have e0 : h ++ [.cloud st pts (some f), .twist n1 t1] = (h ++ [.cloud st pts (some f)]) ++ [.twist n1 t1] := by simp
  have hcfg : config c (h ++ [.cloud st pts (some f), .twist n1 t1]) = config c h := by simp [config]
  rw [hcfg, e0, run_snoc]
  generalize hs : run e c (h ++ [.cloud st pts (some f)]) = s
  have hcl := cbCloud_fields (run e c h) st pts (some f)
  have hs' : s = cbCloud (run e c h) st pts (some f) := by rw [← hs, run_snoc]; rfl
  have h1 : s.hasCloud = true := by rw [hs']; cases pts <;> simp [cbCloud]
  have h2 : s.watchdogStop = false := by rw [hs', hcl.2.2.1]; exact hw
  have h3 : s.holdOff = (run e c h).holdOff := by rw [hs', hcl.2.2.2.2.1]
  unfold Disabled at hd1
  rw [← run_cfg e, ← run_disable e c, hs] at hd1
  have h4 : (step e s (.twist n1 t1)).1 = { s with twist := t1, hasTwist := true, rLim := 1 } := by
    show (cbTwist s n1 t1).1 = _
    unfold cbTwist
    dsimp only
    rw [if_neg hd1, if_neg (by simp [h1, h2]), if_pos (by rw [h3]; exact hhold)]
  rw [h4]
  simp [h1, h2, limit]

/-! ### C79: the status message -/

/-- A published status is that of the state after the callback. -/
theorem status_is_current (e : Env) (c : Cfg) (h : List Ev) (ev : Ev) (st : Status) (hst : .status st ∈ outputs e c h ev) :
    st = (run e c (h ++ [ev])).status := by
  rw [run_snoc]
  unfold outputs at hst
  cases ev with
  | twist τ tw =>
    simp only [step, cbTwist] at hst
    split at hst
    · simp at hst
    · split at hst <;> simp at hst
  | cloud s p tf => simp [step] at hst
  | predict τ tf =>
    by_cases hc : (run e c h).hasCloud = true
    · rcases le_or_gt (τ - (run e c h).lastStamp) (run e c h).cfg.timeout with hT | hT
      · have := (cbPredict_live e _ τ tf (run_twist e c h) hc hT _ rfl).2.2.2.2.2.2.2
        simp only [step, this] at hst
        show st = (cbPredict e (run e c h) τ tf).1.status
        simpa using hst
      · simp only [step, cbPredict_stale e _ τ tf (run_twist e c h) hc hT] at hst ⊢
        simpa using hst
    · simp only [step, cbPredict] at hst
      rw [if_neg (by simp [run_twist]), if_pos (by simpa using hc)] at hst
      simp at hst
  | watchdog => simpa [step] using hst
  | watchdogReset => simp [step] at hst
  | disable τ b => simp [step] at hst
  | param c' => simp [step] at hst

/-- **C79**.  A published status tells what happens to the next command (if the limiter is not disabled): with no cloud
or an expired watchdog it becomes zero and the summary says so; otherwise it is scaled by the published ratio, and the
summary `OK` means that it is only subject to the velocity limits. -/
theorem status_truthful (e : Env) (c : Cfg) (h : List Ev) (ev : Ev) (st : Status) (hst : .status st ∈ outputs e c h ev)
    (now : ℝ) (t : Twist) (hd : ¬ Disabled c (h ++ [ev]) now) :
    (st.summary = .dataTimeout ↔ (st.cloudAvailable = false ∨ st.watchdogTimedOut = true)) ∧
    (st.summary = .dataTimeout → outputs e c (h ++ [ev]) (.twist now t) = [.cmd .zero]) ∧
    (st.summary ≠ .dataTimeout →
      outputs e c (h ++ [ev]) (.twist now t) = [.cmd (limitMax (config c (h ++ [ev])) (limit st.limitRatio t))]) ∧
    (st.summary = .ok → outputs e c (h ++ [ev]) (.twist now t) = [.cmd (limitMax (config c (h ++ [ev])) t)]) := by
  have hs := status_is_current e c h ev st hst
  rw [twist_enabled e c _ now t hd]
  generalize run e c (h ++ [ev]) = s at hs
  subst hs
  by_cases hb : (!s.hasCloud || s.watchdogStop) = true
  · have hb' := hb
    simp only [Bool.or_eq_true, Bool.not_eq_true'] at hb'
    simp only [St.status, hb, if_true]
    simp [hb']
  · have hb' := hb
    simp only [Bool.or_eq_true, Bool.not_eq_true', not_or] at hb'
    have h1 : s.hasCloud = true := by simpa using hb'.1
    have h2 : s.watchdogStop = false := by simpa using hb'.2
    simp only [St.status, h1, h2]
    simp only [Bool.not_true, Bool.or_false, Bool.false_eq_true, if_false]
    by_cases hr : s.rLim = 1
    · simp [hr, limit, show ¬ (1 : ℝ) < 1 - 1e-6 by norm_num]
    · simp only [hr, if_false]
      split
      · split <;> simp
      · split <;> simp

/-- Prediction cycles that do not look at obstacle points, and all other events, leave the time of getting stuck. -/
theorem stuck_unchanged (e : Env) (c : Cfg) (h : List Ev) (ev : Ev)
    (hev : ∀ τ tf b, ev = .predict τ tf → ¬ Examines e c h τ tf b) :
    (run e c (h ++ [ev])).stuckSince = (run e c h).stuckSince := by
  rw [run_snoc]
  cases ev with
  | twist τ tw => exact (cbTwist_fields _ τ tw).2.2.2.2.2.2.2.2.1
  | cloud s p tf => exact (cbCloud_fields _ s p tf).2.2.2.2.2.2
  | predict τ tf =>
    show (cbPredict e (run e c h) τ tf).1.stuckSince = _
    by_cases hc : (run e c h).hasCloud = true
    · rcases le_or_gt (τ - (run e c h).lastStamp) (run e c h).cfg.timeout with hT | hT
      · have live := cbPredict_live e _ τ tf (run_twist e c h) hc hT _ rfl
        cases ht : (predict e (run e c h).cfg (run e c h).twist (run e c h).cloud tf).tested with
        | none => exact live.2.2.2.2.2.2.1 ht
        | some q =>
          refine absurd ?_ (hev τ tf q.2 rfl)
          rw [run_stamp, run_cfg] at hT
          refine ⟨hc, hT, q.1, ?_⟩
          rw [← run_cfg e]; exact ht
      · rw [cbPredict_stale e _ τ tf (run_twist e c h) hc hT]
    · unfold cbPredict
      rw [if_neg (by simp [run_twist]), if_pos (by simpa using hc)]
  | watchdog => rfl
  | watchdogReset => rfl
  | disable τ b => cases b <;> rfl
  | param c' => rfl

theorem stuck_examines (e : Env) (c : Cfg) (h : List Ev) (τ : ℝ) (tf) (b : Bool) (hx : Examines e c h τ tf b) :
    (run e c (h ++ [.predict τ tf])).stuckSince =
      if b then (if (run e c h).stuckSince = 0 then τ else (run e c h).stuckSince) else 0 := by
  obtain ⟨hc, hT, pts, hp⟩ := hx
  rw [← run_stamp e c, ← run_cfg e] at hT
  rw [← run_cfg e] at hp
  rw [run_snoc]
  exact (cbPredict_live e _ τ tf (run_twist e c h) hc hT _ rfl).2.2.2.2.2.1 pts b hp

/-- **C79**: the reported time since which the robot is stuck is the time of the first cycle of the current run of
cycles that found it in collision. -/
theorem stuck_since_first (e : Env) (c : Cfg) (pre mid : List Ev) (T : ℝ) (tf : Option (P3 → P3)) (hT : T ≠ 0)
    (hpre : (run e c pre).stuckSince = 0) (hx : Examines e c pre T tf true)
    (hmid : ∀ a τ g b, mid = a ++ .predict τ g :: b → ¬ Examines e c (pre ++ .predict T tf :: a) τ g false) :
    (run e c (pre ++ .predict T tf :: mid)).stuckSince = T := by
  induction mid using List.reverseRecOn with
  | nil => rw [stuck_examines e c pre T tf true hx]; simp [hpre]
  | append_singleton mid ev ih =>
    have ih := ih (fun a τ g b hab => hmid a τ g (b ++ [ev]) (by rw [hab]; simp))
    have e0 : pre ++ .predict T tf :: (mid ++ [ev]) = (pre ++ .predict T tf :: mid) ++ [ev] := by simp
    rw [e0]
    by_cases hev : ∀ τ g b, ev = .predict τ g → ¬ Examines e c (pre ++ .predict T tf :: mid) τ g b
    · rw [stuck_unchanged e c _ ev hev]; exact ih
    · push Not at hev
      obtain ⟨τ, g, b, rfl, hb⟩ := hev
      cases b with
      | false => exact absurd hb (hmid mid τ g [] rfl)
      | true =>
        rw [stuck_examines e c _ τ g true hb, ih]
        simp [hT]

/-- **C79**: after a cycle that found the robot free, no time is reported until one finds it in collision. -/
theorem stuck_cleared (e : Env) (c : Cfg) (pre mid : List Ev) (T : ℝ) (tf : Option (P3 → P3))
    (hx : Examines e c pre T tf false)
    (hmid : ∀ a τ g b, mid = a ++ .predict τ g :: b → ¬ Examines e c (pre ++ .predict T tf :: a) τ g true) :
    (run e c (pre ++ .predict T tf :: mid)).stuckSince = 0 := by
  induction mid using List.reverseRecOn with
  | nil => rw [stuck_examines e c pre T tf false hx]; simp
  | append_singleton mid ev ih =>
    have ih := ih (fun a τ g b hab => hmid a τ g (b ++ [ev]) (by rw [hab]; simp))
    have e0 : pre ++ .predict T tf :: (mid ++ [ev]) = (pre ++ .predict T tf :: mid) ++ [ev] := by simp
    rw [e0]
    by_cases hev : ∀ τ g b, ev = .predict τ g → ¬ Examines e c (pre ++ .predict T tf :: mid) τ g b
    · rw [stuck_unchanged e c _ ev hev]; exact ih
    · push Not at hev
      obtain ⟨τ, g, b, rfl, hb⟩ := hev
      cases b with
      | true => exact absurd hb (hmid mid τ g [] rfl)
      | false => rw [stuck_examines e c _ τ g false hb]; simp

/-! ### Concrete cases -/

/-- A square robot of side 2 and no downsampling. -/
def env0 : Env := ⟨[(-1, -1), (1, -1), (1, 1), (-1, 1)], fun _ l => l⟩

/-- 1 Hz, one second steps, accelerations 1, horizon 15 s, no margins. -/
def cfg0 : Cfg :=
  { hz := 1, timeout := 1, disableTimeout := 0, linVel := 10, linAcc := 1, angVel := 1, angAcc := 1, maxLin := 10,
    maxAng := 10, zMin := -1, zMax := 1, dt := 1, dMargin := 0, dEscape := 0, yawMargin := 0, yawEscape := 0, grid := 1,
    hold := 2, allowEmpty := false }

/-- Straight ahead at 1 m/s. -/
def ahead : Twist := ⟨1, 0, 0, 0, 0, 0⟩

theorem tmax0 : cfg0.tmax = 15 := by
  simp only [Cfg.tmax, cfg0]; norm_num

theorem inside0 (a : Pt ℝ) : inside (close env0.footprint) a = true ↔ -1 ≤ a.1 ∧ a.1 < 1 ∧ -1 ≤ a.2 ∧ a.2 < 1 := by
  have := inside_rect (-1 : ℝ) 1 (-1) 1 (by norm_num) (by norm_num) a
  rw [and_assoc] at this
  exact this

theorem pose_ahead (n : Nat) : pose ahead 1 n = ⟨n, 0, 0⟩ := by
  induction n with
  | zero => simp [pose]
  | succ n ih => simp only [pose, ih]; simp [ahead]

theorem hits_ahead (p : Pt ℝ) (n : Nat) :
    Hits env0.footprint ahead cfg0.dt [p] n ↔ -1 ≤ p.1 - n ∧ p.1 - n < 1 ∧ -1 ≤ p.2 ∧ p.2 < 1 := by
  unfold Hits
  rw [show cfg0.dt = 1 from rfl, pose_ahead]
  simp only [List.mem_singleton, exists_eq_left, Pose.toWorld, Real.cos_zero, Real.sin_zero]
  constructor
  · rintro ⟨q, hq, rfl⟩
    rw [inside0] at hq
    obtain ⟨h1, h2, h3, h4⟩ := hq
    refine ⟨?_, ?_, ?_, ?_⟩ <;> simp only <;> linarith
  · rintro ⟨h1, h2, h3, h4⟩
    exact ⟨(p.1 - n, p.2), by rw [inside0]; exact ⟨h1, h2, h3, h4⟩, by ext <;> simp⟩

theorem predict0 (x : ℝ) : ∃ b, (predict env0 cfg0 ahead [⟨x, 0, 0⟩] (some id)).tested = some ([(x, 0)], b) := by
  have : heightFilter cfg0 (env0.downsample cfg0.grid (List.map id [⟨x, 0, 0⟩])) = [(x, 0)] := by
    have h1 : ¬ (0 : ℝ) < -1 := by norm_num
    have h2 : ¬ (1 : ℝ) < 0 := by norm_num
    simp [heightFilter, env0, cfg0, h1, h2, List.filter]
  unfold predict
  simp only [List.isEmpty_cons, Bool.false_eq_true, if_false, this]
  exact ⟨_, rfl⟩

/-- The hypotheses of `stops_in_time` are met: an obstacle 5 m ahead is first hit at step 5. -/
example : ∃ b, (predict env0 cfg0 ahead [⟨5, 0, 0⟩] (some id)).tested = some ([(5, 0)], b) ∧
    ((5 : Nat) : ℝ) * cfg0.dt < cfg0.tmax ∧ ¬ Hits env0.footprint ahead cfg0.dt [(5, 0)] 0 ∧
    (∀ i < 5, ¬ Hits env0.footprint ahead cfg0.dt [(5, 0)] i) ∧ Hits env0.footprint ahead cfg0.dt [(5, 0)] 5 := by
  obtain ⟨b, hb⟩ := predict0 5
  refine ⟨b, hb, by rw [tmax0]; simp [cfg0]; norm_num, ?_, ?_, ?_⟩
  · rw [hits_ahead]; norm_num
  · intro i hi
    rw [hits_ahead]
    have : (i : ℝ) ≤ 4 := by exact_mod_cast Nat.lt_succ_iff.1 hi
    rintro ⟨-, h, -⟩
    simp only at h
    linarith
  · rw [hits_ahead]; norm_num

/-- The hypotheses of `no_escape` are met: an obstacle inside the footprint and no allowance for escaping. -/
example : ∃ b, (predict env0 cfg0 ahead [⟨0, 0, 0⟩] (some id)).tested = some ([(0, 0)], b) ∧
    Hits env0.footprint ahead cfg0.dt [(0, 0)] 0 ∧ ((0 : Nat) : ℝ) * cfg0.dt < cfg0.tmax ∧
    Stops cfg0 ahead (Hits env0.footprint ahead cfg0.dt [(0, 0)]) 0 := by
  obtain ⟨b, hb⟩ := predict0 0
  have h0 : Hits env0.footprint ahead cfg0.dt [(0, 0)] 0 := by rw [hits_ahead]; norm_num
  exact ⟨b, hb, h0, by rw [tmax0]; simp, h0, Or.inr (Or.inl (by simp [cfg0]))⟩

/-- The hypotheses of `clear_horizon` are met: an obstacle beside the path. -/
example : ∀ n : Nat, (n : ℝ) * cfg0.dt < cfg0.tmax → ¬ Stops cfg0 ahead (Hits env0.footprint ahead cfg0.dt [(5, 3)]) n := by
  rintro n - ⟨h, -⟩
  rw [hits_ahead] at h
  norm_num at h

/-- The hypotheses of `no_data_no_motion` are met, with a cloud and an expired watchdog. -/
example : WatchdogExpired [.cloud 0 [⟨5, 0, 0⟩] (some id), .watchdog, .twist 1 ahead] ∧
    ¬ Disabled cfg0 [.cloud 0 [⟨5, 0, 0⟩] (some id), .watchdog, .twist 1 ahead] 2 :=
  ⟨⟨[.cloud 0 [⟨5, 0, 0⟩] (some id)], [.twist 1 ahead], rfl, by simp⟩, by simp [Disabled, config, lastDisable, cfg0]⟩

/-- The hypotheses of `stale_data_stops` are met. -/
example : (run env0 cfg0 [.cloud 0 [⟨5, 0, 0⟩] (some id)]).hasCloud = true ∧
    (3 : ℝ) - lastStamp [.cloud 0 [⟨5, 0, 0⟩] (some id)] > (config cfg0 [.cloud 0 [⟨5, 0, 0⟩] (some id)]).timeout := by
  refine ⟨rfl, ?_⟩
  simp [lastStamp, config, cfg0]

/-- The hypotheses of `restriction_held_partial` are met: a cycle whose transform is missing stops the robot, the hold
time is 2 s, one command and one new cloud follow. -/
example : Predicts env0 cfg0 [.cloud 0 [⟨5, 0, 0⟩] (some id)] 0 none 0 ∧
    (2 : ℝ) ≤ 0 + (config cfg0 [.cloud 0 [⟨5, 0, 0⟩] (some id)]).holdTime ∧
    ¬ Disabled cfg0 ([.cloud 0 [⟨5, 0, 0⟩] (some id)] ++ .predict 0 none :: [.twist 1 ahead, .cloud 1 [⟨9, 0, 0⟩] (some id)])
      2 := by
  refine ⟨⟨rfl, by simp [lastStamp, config, cfg0], ?_⟩, ?_, ?_⟩
  · have : (run env0 cfg0 [.cloud 0 [⟨5, 0, 0⟩] (some id)]).cloud = [⟨5, 0, 0⟩] := rfl
    rw [this]
    exact (no_obstacle_data _ _ _ _ none).2.1 (by simp)
  · simp [config, Cfg.holdTime, cfg0]
  · simp [Disabled, config, lastDisable, cfg0]

/-- The hypotheses of `picture_fresh_partial` are met. -/
example : NoPredict [.cloud 0 [⟨5, 0, 0⟩] (some id), .twist 1 ahead] ∧
    (∃ ev ∈ [Ev.cloud 0 [⟨5, 0, 0⟩] (some id), .twist 1 ahead], Accepted ev) ∧
    received [.cloud 0 [⟨5, 0, 0⟩] (some id), .twist 1 ahead] = [⟨5, 0, 0⟩] := by
  refine ⟨by simp [NoPredict], ⟨_, List.mem_cons_self .., by simp [Accepted]⟩, by simp [received]⟩

/-- A concrete double transform: the base frame is 1 m ahead of the fixed frame, the obstacle at 5 m is seen at 4 m in
the first cycle and at 3 m in the second one. -/
example : (predict env0 cfg0 .zero
    (run env0 cfg0 ([.cloud 0 [⟨5, 0, 0⟩] (some id)] ++ [.predict 0 (some fun p => ⟨p.x - 1, p.y, p.z⟩)])).cloud
    (some fun p => ⟨p.x - 1, p.y, p.z⟩)).cloud = [⟨3, 0, 0⟩] := by
  have h := (transformed_twice env0 cfg0 [.cloud 0 [⟨5, 0, 0⟩] (some id)] 0 (fun p => ⟨p.x - 1, p.y, p.z⟩)
    (fun p => ⟨p.x - 1, p.y, p.z⟩) rfl (by simp [lastStamp, config, cfg0]) (by simp [run, step, cbCloud])).2
  refine Eq.trans h ?_
  have : (run env0 cfg0 [.cloud 0 [⟨5, 0, 0⟩] (some id)]).cloud = [⟨5, 0, 0⟩] := rfl
  rw [this]
  simp only [List.map_cons, List.map_nil, Function.comp]
  norm_num

/-- The hypotheses of `stuck_since_first` are met: an obstacle inside the footprint. -/
example : (run env0 cfg0 [.cloud 1 [⟨0, 0, 0⟩] (some id), .twist 1 ahead]).stuckSince = 0 ∧
    Examines env0 cfg0 [.cloud 1 [⟨0, 0, 0⟩] (some id), .twist 1 ahead] 1 (some id) true := by
  have hd : ¬ ((1 : ℝ) - 0 < cfg0.disableTimeout) := by simp [cfg0]
  refine ⟨?_, ?_, ?_, [(0, 0)], ?_⟩
  · have := (cbTwist_fields (run env0 cfg0 [.cloud 1 [⟨0, 0, 0⟩] (some id)]) 1 ahead).2.2.2.2.2.2.2.2.1
    exact this
  · exact (cbTwist_fields (run env0 cfg0 [.cloud 1 [⟨0, 0, 0⟩] (some id)]) 1 ahead).2.2.2.2.1
  · simp [lastStamp, config, cfg0]
  · have h1 : (run env0 cfg0 [.cloud 1 [⟨0, 0, 0⟩] (some id), .twist 1 ahead]).cloud = [⟨0, 0, 0⟩] :=
      (cbTwist_fields (run env0 cfg0 [.cloud 1 [⟨0, 0, 0⟩] (some id)]) 1 ahead).2.2.2.2.2.1
    have h2 : (run env0 cfg0 [.cloud 1 [⟨0, 0, 0⟩] (some id), .twist 1 ahead]).twist = ahead := by
      show (cbTwist (run env0 cfg0 [.cloud 1 [⟨0, 0, 0⟩] (some id)]) 1 ahead).1.twist = ahead
      unfold cbTwist
      dsimp only
      split
      · rfl
      · split
        · rfl
        · split <;> rfl
    rw [h1, h2]
    obtain ⟨b, hb⟩ := predict0 0
    have hb' := (collision_now env0 cfg0 ahead [⟨0, 0, 0⟩] (some id) [(0, 0)] b (by simp [cfg0]) (by rw [tmax0]; norm_num)
      hb).2 ⟨(0, 0), by simp, by rw [inside0]; norm_num⟩
    rw [show config cfg0 [.cloud 1 [⟨0, 0, 0⟩] (some id), .twist 1 ahead] = cfg0 from rfl, hb, hb']

end Verif.Safety
