import Verif.PlannerNode.Causes
import Mathlib.Data.List.Induction
/-! # Facts about whole histories -/
namespace Verif.PlannerNode
variable {P : Type}

/-- The worlds seen in a history. -/
def Seen (h : List (Event P)) (w : World P) : Prop := ∃ e ∈ h, w ∈ worlds e

theorem EndsUp.stands {h : List (Event P)} {o g : P} (hh : EndsUp (Seen h) o g) : Stands h o g := by
  rcases hh with hh | ⟨w, ⟨e, he, hw⟩, hg⟩
  · exact .inl hh
  · exact .inr ⟨e, he, w, hw, hg⟩

/-- Where the finishing phase comes from. -/
structure Trail (c : Cfg) (p : P) (h : List (Event P)) (s : St P) : Prop where
  target : Target (Seen h) s
  near : s.phase = .finishing → s.hasGoal = true → ∃ h1 e1 h2 s1, ∃ w1 ∈ worlds e1, ∃ g,
    h = h1 ++ e1 :: h2 ∧ run c p h1 = some s1 ∧ EndsUp (Seen h) s.goalOriginal g ∧ NearGoal w1 g (goalTolerance s1) ∧
    s1.goalOriginal = s.goalOriginal ∧ ∀ i, Open s i → Open s1 i

theorem run_snoc (c : Cfg) (p : P) (h : List (Event P)) (e : Event P) (s' : St P) (hr : run c p (h ++ [e]) = some s') :
    ∃ s, run c p h = some s ∧ step s e = some s' := by
  unfold run at hr
  obtain ⟨s, h1, h2⟩ := foldlM_append_some step h [e] _ s' hr
  refine ⟨s, h1, ?_⟩
  rw [List.foldlM_cons] at h2
  cases hs : step s e with
  | none => rw [hs] at h2; cases h2
  | some s2 => rw [hs] at h2; simp only [List.foldlM_nil] at h2; exact h2

theorem run_step (c : Cfg) (p : P) (h : List (Event P)) (e : Event P) (s s' : St P) (hr : run c p h = some s)
    (hs : step s e = some s') : run c p (h ++ [e]) = some s' := by
  unfold run at hr ⊢
  rw [List.foldlM_append, hr]
  show [e].foldlM step s = some s'
  rw [List.foldlM_cons, hs]
  rfl

theorem trail_run (c : Cfg) (p : P) (w0 : World P) : ∀ (h : List (Event P)) (s : St P), run c p h = some s → Trail c p h s := by
  intro h
  induction h using List.reverseRecOn with
  | nil =>
    intro s hr
    cases hr
    exact ⟨(fun k => by cases k), (fun k => by cases k)⟩
  | append_singleton h e ih =>
    intro s' hr
    obtain ⟨s, hr0, hs⟩ := run_snoc c p h e s' hr
    have tr := ih s hr0
    have sm : ∀ w, Seen h w → Seen (h ++ [e]) w := fun w ⟨e', he', hw⟩ => ⟨e', List.mem_append_left _ he', hw⟩
    have ht : Target (Seen (h ++ [e])) s := fun k1 k2 => (tr.target k1 k2).mono sm
    have eff := step_effect (Seen (h ++ [e])) s s' e
      (fun w hw => ⟨e, List.mem_append_right _ (List.mem_singleton.mpr rfl), hw⟩) (inv_run c p h s hr0) ht hs w0
    refine ⟨eff.target, ?_⟩
    intro k1 k2
    obtain ⟨w, hre, hw⟩ := eff.reach k1 k2
    obtain ⟨q1, q2, q3, q4⟩ := hre k1 k2
    have old : s.phase = .finishing → ∃ h1 e1 h2 s1, ∃ w1 ∈ worlds e1, ∃ g, h ++ [e] = h1 ++ e1 :: h2 ∧ run c p h1 = some s1 ∧
        EndsUp (Seen (h ++ [e])) s'.goalOriginal g ∧ NearGoal w1 g (goalTolerance s1) ∧
        s1.goalOriginal = s'.goalOriginal ∧ ∀ i, Open s' i → Open s1 i := fun q4 => by
      obtain ⟨h1, e1, h2, s1, w1, hw1, g, a1, a2, a3, a4, a5, a6⟩ := tr.near q4 q3
      exact ⟨h1, e1, h2 ++ [e], s1, w1, hw1, g, by rw [a1]; simp, a2, by rw [q2]; exact a3.mono sm, a4, a5.trans q2.symm,
        fun i hi => a6 i (q1 i hi)⟩
    rcases hw with hw | hw
    · rcases q4 with q4 | ⟨g, hg1, hg2⟩
      · exact old q4
      · exact ⟨h, e, [], s, w, hw, g, by simp, hr0, by rw [q2]; exact hg1, hg2, q2.symm, q1⟩
    · exact old (hw k1 k2).2.2.2

/-- Every event only adds to what was published, and for a reason. -/
theorem step_adds (c : Cfg) (p : P) (w0 : World P) (h : List (Event P)) (s s' : St P) (e : Event P) (hr : run c p h = some s)
    (hs : step s e = some s') : Adds (Okay (Seen (h ++ [e])) s e s') s s' := by
  have tr := trail_run c p w0 h s hr
  have sm : ∀ w, Seen h w → Seen (h ++ [e]) w := fun w ⟨e', he', hw⟩ => ⟨e', List.mem_append_left _ he', hw⟩
  exact (step_effect (Seen (h ++ [e])) s s' e
    (fun w hw => ⟨e, List.mem_append_right _ (List.mem_singleton.mpr rfl), hw⟩) (inv_run c p h s hr)
    (fun k1 k2 => (tr.target k1 k2).mono sm) hs w0).adds

theorem published_of {s s' : St P} {l : List (Out P)} (h : s'.log = s.log ++ l) : published s s' = l := by
  unfold published
  rw [h, List.drop_left]

theorem Adds.published {A : Out P → Prop} {s s' : St P} (h : Adds A s s') :
    s'.log = s.log ++ published s s' ∧ ∀ o ∈ published s s', A o := by
  obtain ⟨l, h1, h2⟩ := h
  rw [published_of h1]
  exact ⟨h1, h2⟩

/-- An answer once given stays the only one. -/
theorem answers_stay (s s' : St P) (hi' : Inv s') (A : Out P → Prop) (h : Adds A s s') (i : Nat) (a : Answer)
    (ha : answersTo s.log i = [a]) : answersTo s'.log i = [a] := by
  obtain ⟨l, h1, -⟩ := h
  have e : answersTo s'.log i = a :: answersTo l i := by rw [h1, answersTo_append, ha]; rfl
  by_cases hs : i ∈ slots s'.base s'.tol
  · rw [hi'.1.acc.openL i hs] at e; cases e
  · by_cases hn : i < s'.count
    · obtain ⟨b, hb⟩ := hi'.1.acc.closed i hn hs
      rw [hb] at e ⊢
      rw [(List.cons.inj e).1]
    · rw [(hi'.1.acc.future i (not_lt.mp hn)).1] at e; cases e

theorem answers_stay_run (c : Cfg) (p : P) (w0 : World P) (h' : List (Event P)) : ∀ (h : List (Event P)) (s s' : St P),
    run c p h = some s → run c p (h ++ h') = some s' → ∀ i a, answersTo s.log i = [a] → answersTo s'.log i = [a] := by
  induction h' with
  | nil =>
    intro h s s' h1 h2 i a ha
    rw [List.append_nil, h1] at h2
    cases h2
    exact ha
  | cons e h' ih =>
    intro h s s' h1 h2 i a ha
    rw [show h ++ e :: h' = (h ++ [e]) ++ h' by simp] at h2
    obtain ⟨s1, k1, -⟩ := foldlM_append_some step (h ++ [e]) h' _ s' h2
    obtain ⟨s0, j1, j2⟩ := run_snoc c p h e s1 k1
    rw [h1] at j1
    cases j1
    refine ih (h ++ [e]) s1 s' k1 h2 i a ?_
    exact answers_stay s s1 (inv_run c p _ s1 k1) _ (step_adds c p w0 h s s1 e h1 j2) i a ha

/-! ### The number of goals received -/

theorem setGoal_count (g : GoalMsg P) (w : World P) (s s' : St P) (b : Bool) (hs : setGoal g w s = some (s', b)) :
    s'.count = s.count := by
  unfold setGoal at hs
  split at hs
  · cases hs; rfl
  dsimp only at hs
  split at hs
  · rw [Option.map_eq_some_iff] at hs
    obtain ⟨⟨s1, b1⟩, h1, h2⟩ := hs
    obtain ⟨a, b', c, d, e, f, k, md, rfl⟩ := (moves_cache w _ _ _ _ h1).1
    dsimp only at h2
    split at h2
    · cases h2; rfl
    · cases h2; rfl
  · cases hs
    obtain ⟨b, t, l, he, -⟩ := finishBoth_rest .cleared
      { s with goalOriginal := g.pose, goalRaw := g.pose, goal := g.pose, hasGoal := false }
    rw [he]

theorem cbMapUpdate_count (u : Update P) (s s' : St P) (hs : cbMapUpdate u s = some s') : s'.count = s.count := by
  unfold cbMapUpdate at hs
  split at hs
  · cases hs; rfl
  split at hs
  · rw [Option.bind_eq_some_iff] at hs
    obtain ⟨s1, h1, hs⟩ := hs
    rw [Option.map_eq_some_iff] at hs
    obtain ⟨s2, h2, rfl⟩ := hs
    obtain ⟨-, -, -, -, k5, -⟩ := planPath_kept _ _ _ _ h2
    obtain ⟨a, b, c, d, e, f, g, md, rfl⟩ := applyUpdate_cases u _ s1 h1
    split
    · exact k5
    · exact k5
  · obtain ⟨a, b, c, d, e, f, g, md, rfl⟩ := applyUpdate_cases u _ s' hs
    rfl

theorem cbPreempt_count (s : St P) : (cbPreempt s).count = s.count := by
  obtain ⟨b, t, l, he, -⟩ := finishBoth_rest .preempted s
  unfold cbPreempt; rw [he]

theorem receive_count (k : Which) (n : Nat) (s : St P) : (receive k n s).count = s.count := by
  unfold receive
  cases k with
  | base =>
    dsimp only
    cases s.base.pending with
    | none => dsimp only; split
              · exact cbPreempt_count _
              · rfl
    | some j => dsimp only; split
                · exact cbPreempt_count _
                · rfl
  | tolerant =>
    dsimp only
    cases s.tol.pending with
    | none => dsimp only; split
              · exact cbPreempt_count _
              · rfl
    | some j => dsimp only; split
                · exact cbPreempt_count _
                · rfl

theorem accept_count (k : Which) (q : P) (s : St P) : (accept k q s).count = s.count := by
  unfold accept
  cases k with
  | base => dsimp only; split <;> rfl
  | tolerant => dsimp only; split <;> rfl

theorem finish_count (k : Which) (a : Answer) (s : St P) : (finish k a s).count = s.count := by
  obtain ⟨b, t, l, he, -⟩ := finish_rest k a s
  rw [he]

theorem step_count (s s' : St P) (e : Event P) (hs : step s e = some s') : s'.count = s.count + received [e] := by
  have plan : ∀ now w, planPath now w s = some s' → s'.count = s.count := fun now w h => (planPath_kept now w s s' h).2.2.2.2.1
  unfold step at hs
  cases e with
  | map f w early =>
    dsimp only at hs
    unfold cbMap at hs
    rw [Option.bind_eq_some_iff] at hs
    obtain ⟨⟨s1, b⟩, h1, hs⟩ := hs
    obtain ⟨a, b', c, d, e, f', k, md, rfl⟩ := (moves_cache w _ _ _ _ h1).1
    cases early with
    | none => dsimp only at hs; cases hs; rfl
    | some u => dsimp only at hs; have := cbMapUpdate_count u _ s' hs; exact this
  | update u => exact cbMapUpdate_count u s s' hs
  | located ok =>
    dsimp only at hs
    split at hs
    · cases hs; rfl
    · cases hs; rfl
  | switchReached => dsimp only at hs; cases hs; rfl
  | cycle now w =>
    dsimp only at hs
    split at hs
    · cases hs; rfl
    · exact plan now w hs
  | timer now w =>
    dsimp only at hs
    split at hs
    · exact plan now w hs
    · cases hs; rfl
  | topicGoal g w =>
    dsimp only at hs
    unfold cbGoal at hs
    split at hs
    · cases hs; rfl
    · rw [Option.map_eq_some_iff] at hs
      obtain ⟨⟨s1, b⟩, h1, rfl⟩ := hs
      exact setGoal_count g w _ _ _ h1
  | baseGoal late g w =>
    dsimp only at hs
    split at hs
    · cases hs; rfl
    · have r := receive_count .base s.count { s with count := s.count + 1 }
      unfold cbAction at hs
      split at hs
      · cases hs; exact r
      · rw [Option.map_eq_some_iff] at hs
        obtain ⟨⟨s1, b⟩, h1, h2⟩ := hs
        have := (setGoal_count g w _ _ _ h1).trans ((accept_count _ _ _).trans r)
        dsimp only at h2
        split at h2
        · subst h2; exact this
        · subst h2; rw [finish_count]; exact this
  | tolGoal late g t w =>
    dsimp only at hs
    split at hs
    · cases hs; rfl
    · have r := receive_count .tolerant s.count { s with count := s.count + 1 }
      unfold cbTolerantAction at hs
      split at hs
      · cases hs; exact r
      · rw [Option.map_eq_some_iff] at hs
        obtain ⟨⟨s1, b⟩, h1, h2⟩ := hs
        have := (setGoal_count g w _ _ _ h1).trans ((accept_count .tolerant g.pose _).trans r)
        dsimp only at h2
        split at h2
        · subst h2; exact this
        · subst h2; rw [finish_count]; exact this
  | cancel k =>
    cases k with
    | base =>
      dsimp only at hs
      cases hs
      split
      · exact cbPreempt_count s
      · rfl
    | tolerant =>
      dsimp only at hs
      cases hs
      split
      · exact cbPreempt_count s
      · rfl
  | escape w =>
    dsimp only at hs
    split at hs
    · obtain ⟨a, b, c, d, e, f, g, md, rfl⟩ := (moves_escapeNow w s s' hs).1; rfl
    · cases hs; rfl
  | config c => dsimp only at hs; cases hs; rfl

theorem count_run (c : Cfg) (p : P) : ∀ (h : List (Event P)) (s : St P), run c p h = some s → s.count = received h := by
  intro h
  induction h using List.reverseRecOn with
  | nil => intro s hr; cases hr; rfl
  | append_singleton h e ih =>
    intro s' hr
    obtain ⟨s, hr0, hs⟩ := run_snoc c p h e s' hr
    rw [step_count s s' e hs, ih s hr0]
    unfold received
    rw [List.countP_append]

/-! ### Cycles -/

/-- What a planning cycle of a reachable state is. -/
theorem plans_at (s s' : St P) (now : Int) (e : Event P) (hp : PlansAt s now e) (hs : step s e = some s') :
    ∃ w ∈ worlds e, planPath now w s = some s' := by
  cases e with
  | cycle t w =>
    obtain ⟨rfl, ht⟩ := hp
    refine ⟨w, by simp [worlds], ?_⟩
    unfold step at hs
    simpa [ht] using hs
  | timer t w =>
    obtain ⟨rfl, ht⟩ := hp
    refine ⟨w, by simp [worlds], ?_⟩
    unfold step at hs
    simpa [ht] using hs
  | _ => cases hp

theorem escape_stuck (w : World P) (c : St P → Option (St P × Bool)) (who : Caller)
    (hc : ∀ s s' b, c s = some (s', b) → s.stuck ≤ s'.stuck)
    (s s' : St P) (h : escapeGoal w c who s = some s') : s.stuck ≤ s'.stuck := by
  unfold escapeGoal at h
  split at h
  · cases h; exact le_refl _
  split at h
  · cases h; exact le_refl _
  split at h
  · split at h
    · cases h; exact le_refl _
    · rw [Option.map_eq_some_iff] at h
      obtain ⟨⟨s1, b⟩, h1, rfl⟩ := h
      have := hc _ _ _ h1
      exact this
  · split at h
    · cases h; exact le_refl _
    · rw [Option.map_eq_some_iff] at h
      obtain ⟨⟨s1, b⟩, h1, rfl⟩ := h
      have := hc _ _ _ h1
      exact this
    · rw [Option.map_eq_some_iff] at h
      obtain ⟨⟨s1, b⟩, h1, rfl⟩ := h
      have := hc _ _ _ h1
      exact this

theorem cache_stuck (w : World P) : ∀ (n : Nat) (s s' : St P) (b : Bool), cache w n s = some (s', b) → s.stuck ≤ s'.stuck := by
  intro n
  induction n with
  | zero => intro s s' b h; cases h
  | succ n ih =>
    intro s s' b h
    unfold cache at h
    dsimp only at h
    split at h
    · cases h; exact le_refl _
    split at h
    · cases h; exact le_refl _
    split at h
    · cases h; exact le_refl _
    · cases h; dsimp only; omega
    · split at h
      · cases h; exact le_refl _
      · split at h
        · cases h; exact le_refl _
        split at h
        · rw [Option.map_eq_some_iff] at h
          obtain ⟨s1, h1, h2⟩ := h
          cases h2
          have := escape_stuck w _ _ ih { s with cacheReady := false, startOccupied := false, stuck := s.stuck + 1 } s' h1
          dsimp only at this
          omega
        · cases h; dsimp only; omega
      · cases h; exact le_refl _
      · cases h; exact le_refl _

/-- A planning cycle over the retry limit. -/
theorem planPath_giveUp (now : Int) (w : World P) (s s' : St P) (hs : planPath now w s = some s')
    (hst : ¬ Stale s now) (hm : s.hasMap = true) (hg : s.hasGoal = true) (ha : s.hasStart = true)
    (hp : s.phase ≠ .finishing) (hr : s.cfg.maxRetry ≠ -1 ∧ s.stuck > s.cfg.maxRetry) :
    ∃ s1, SameCore s s1 ∧ s' = giveUp { s1 with switchback := false } := by
  unfold planPath at hs
  rw [Option.bind_eq_some_iff] at hs
  obtain ⟨s1, h1, hs⟩ := hs
  have hre : Refreshed w s s1 := by
    split at h1
    · rw [Option.map_eq_some_iff] at h1
      obtain ⟨⟨s2, b⟩, h2, rfl⟩ := h1
      exact .inr ⟨b, h2⟩
    · cases h1; exact .inl rfl
  have hk : s.stuck ≤ s1.stuck := by
    rcases hre with rfl | ⟨b, hc⟩
    · exact le_refl _
    · exact cache_stuck w _ _ _ _ hc
  have hmv := hre.moves
  refine ⟨s1, hmv.1, ?_⟩
  obtain ⟨⟨a, b, c, d, e, f, g, md, rfl⟩, hph, -⟩ := hmv
  dsimp only at hs hk
  have hng : g ≠ .finishing := by
    rcases hph with hph | ⟨hph, -⟩
    · dsimp only at hph; rw [hph]; exact hp
    · exact absurd hph hp
  split at hs
  · rename_i hst'; exact absurd hst' hst
  rw [if_pos (show (s.hasMap && s.hasGoal && s.hasStart) = true by simp [hm, hg, ha])] at hs
  unfold planMove at hs
  dsimp only at hs
  rw [if_pos ⟨hr.1, lt_of_lt_of_le hr.2 hk⟩] at hs
  cases hs
  rfl

/-- A goal that is not attempted. -/
theorem cache_blocked (w : World P) (n : Nat) (s : St P) (hg : s.hasGoal = true) (hm : s.hasMap = true) (ha : s.hasStart = true)
    (he : s.escaping = .no) (hc : (s.cfg.tempEscape && s.cfg.crowd) = false) (hb : Blocked w s.goalRaw) :
    ∃ o, cache w (n + 1) s = some ({ s with cacheReady := false, startOccupied := o, stuck := s.stuck + 1 }, true) := by
  unfold cache
  simp only [hg, hm, ha, Bool.not_true, Bool.false_eq_true, if_false, Bool.or_false]
  rcases hb with hb | ⟨hb, hb'⟩
  · rw [hb]; exact ⟨true, rfl⟩
  · cases hw : w.start with
    | inRock => exact ⟨true, rfl⟩
    | outOfMap => exact absurd hw hb
    | ok =>
      simp only [hb', he, ne_eq, not_true_eq_false, if_false, hc, Bool.false_eq_true]
      exact ⟨false, rfl⟩
    | moved q =>
      simp only [hb', he, ne_eq, not_true_eq_false, if_false, hc, Bool.false_eq_true]
      exact ⟨false, rfl⟩

/-- The situation of a blocked goal after `n` failures. -/
structure Jam (g : P) (n : Int) (s : St P) : Prop where
  goal : s.hasGoal = true
  map : s.hasMap = true
  start : s.hasStart = true
  esc : s.escaping = .no
  raw : s.goalRaw = g
  ready : s.cacheReady = false
  phase : s.phase = .doing
  stuck : s.stuck = n
  trig : s.cfg.trigger = false
  mode : (s.cfg.tempEscape && s.cfg.crowd) = false

theorem jam_cycle (g : P) (n : Int) (now : Int) (w : World P) (s s' : St P) (h : Jam g n s) (hb : Blocked w g)
    (hst : ¬ Stale s now) (hs : step s (.cycle now w) = some s') :
    (s.cfg.maxRetry ≠ -1 ∧ n + 1 > s.cfg.maxRetry ∧ ∃ s1, SameCore s s1 ∧ s' = giveUp { s1 with switchback := false }) ∨
    (¬ (s.cfg.maxRetry ≠ -1 ∧ n + 1 > s.cfg.maxRetry) ∧ Jam g (n + 1) s' ∧ s'.cfg = s.cfg ∧ s'.base = s.base ∧
      s'.tol = s.tol ∧ s'.lastCostmap = s.lastCostmap) := by
  unfold step at hs
  dsimp only at hs
  rw [if_neg (by simp [h.trig])] at hs
  obtain ⟨o, hc⟩ := cache_blocked w 1 s h.goal h.map h.start h.esc h.mode (by rw [h.raw]; exact hb)
  unfold planPath depth at hs
  rw [if_pos (by simp [h.map, h.ready, h.goal]), hc] at hs
  simp only [Option.map_some, Option.bind_some] at hs
  rw [if_neg (by exact hst), if_pos (by simp [h.map, h.goal, h.start]), if_neg (by simp [h.phase])] at hs
  unfold planMove at hs
  dsimp only at hs
  by_cases hr : s.cfg.maxRetry ≠ -1 ∧ s.stuck + 1 > s.cfg.maxRetry
  · rw [if_pos hr] at hs
    cases hs
    refine .inl ⟨hr.1, by rw [← h.stuck]; exact hr.2, { s with cacheReady := false, startOccupied := o, stuck := s.stuck + 1 }, ?_, rfl⟩
    exact ⟨_, _, _, _, _, _, _, _, rfl⟩
  · rw [if_neg hr] at hs
    simp only [Bool.not_false, if_true] at hs
    cases hs
    refine .inr ⟨by rw [← h.stuck]; exact hr, ?_, rfl, rfl, rfl, rfl⟩
    exact { goal := h.goal, map := h.map, start := h.start, esc := h.esc, raw := h.raw, ready := rfl, phase := h.phase,
            stuck := by rw [← h.stuck]; rfl, trig := h.trig, mode := h.mode }

end Verif.PlannerNode
