import Verif.PlannerNode.GuidedSpec
import Verif.PlannerNode.Trail
/-! # The distance map is made for the goal pursued -/
namespace Verif.PlannerNode
variable {P : Type}

/-- The invariant: without a map there is no distance map, and the distance map is for the goal. -/
def G (s : St P) : Prop := (s.hasMap = false → s.cacheReady = false) ∧ Guided s

/-- Nothing that matters for the distance map has changed, except that the goal may have been given up. -/
def Held (s s' : St P) : Prop :=
  s'.hasMap = s.hasMap ∧ s'.hasStart = s.hasStart ∧ s'.made = s.made ∧ s'.cacheReady = s.cacheReady ∧ s'.goal = s.goal ∧
    (s'.hasGoal = true → s.hasGoal = true)

theorem Held.refl (s : St P) : Held s s := ⟨rfl, rfl, rfl, rfl, rfl, id⟩

theorem Held.trans {s s' s'' : St P} (h : Held s s') (h' : Held s' s'') : Held s s'' :=
  ⟨h'.1.trans h.1, h'.2.1.trans h.2.1, h'.2.2.1.trans h.2.2.1, h'.2.2.2.1.trans h.2.2.2.1, h'.2.2.2.2.1.trans h.2.2.2.2.1,
    fun k => h.2.2.2.2.2 (h'.2.2.2.2.2 k)⟩

theorem G.held {s s' : St P} (h : G s) (k : Held s s') : G s' := by
  obtain ⟨k1, -, k3, k4, k5, k6⟩ := k
  refine ⟨fun hm => ?_, fun hg hc => ?_⟩
  · rw [k4]; exact h.1 (k1 ▸ hm)
  · rw [k3, k5]; exact h.2 (k6 hg) (k4 ▸ hc)

theorem held_finish (k : Which) (a : Answer) (s : St P) : Held s (finish k a s) := by
  obtain ⟨b, t, l, he, -⟩ := finish_rest k a s
  rw [he]; exact ⟨rfl, rfl, rfl, rfl, rfl, id⟩

theorem held_finishBoth (a : Answer) (s : St P) : Held s (finishBoth a s) := by
  obtain ⟨b, t, l, he, -⟩ := finishBoth_rest a s
  rw [he]; exact ⟨rfl, rfl, rfl, rfl, rfl, id⟩

theorem held_preempt (s : St P) : Held s (cbPreempt s) := by
  obtain ⟨b, t, l, he, -⟩ := finishBoth_rest .preempted s
  unfold cbPreempt
  rw [he]; exact ⟨rfl, rfl, rfl, rfl, rfl, fun h => by cases h⟩

theorem held_receive (k : Which) (n : Nat) (s : St P) : Held s (receive k n s) := by
  cases k <;> unfold receive <;> dsimp only
  · cases s.base.pending <;> dsimp only <;> split <;>
      first | exact (held_preempt _) | exact ⟨rfl, rfl, rfl, rfl, rfl, id⟩
  · cases s.tol.pending <;> dsimp only <;> split <;>
      first | exact (held_preempt _) | exact ⟨rfl, rfl, rfl, rfl, rfl, id⟩

theorem held_accept (k : Which) (q : P) (s : St P) : Held s (accept k q s) := by
  cases k <;> unfold accept <;> dsimp only
  · cases s.base.pending <;> exact ⟨rfl, rfl, rfl, rfl, rfl, id⟩
  · cases s.tol.pending <;> exact ⟨rfl, rfl, rfl, rfl, rfl, id⟩

/-- The escape search, if `c` makes proper distance maps. -/
theorem escapeGoal_fresh (w : World P) (c : St P → Option (St P × Bool)) (who : Caller)
    (hc : ∀ s s' b, c s = some (s', b) → s.hasGoal = true → s.hasMap = true → s.hasStart = true → s'.cacheReady = true → s'.made = some s'.goal)
    (s s' : St P) (h : escapeGoal w c who s = some s') : s' = s ∨ (s'.cacheReady = true → s'.made = some s'.goal) := by
  unfold escapeGoal at h
  split at h
  · cases h; exact .inl rfl
  rename_i hk
  simp only [Bool.or_eq_true, Bool.not_eq_true', not_or, Bool.not_eq_false] at hk
  have hx : ∀ s2 : St P, s2.hasGoal = s.hasGoal → s2.hasMap = s.hasMap → s2.hasStart = s.hasStart → (c s2).map Prod.fst = some s' →
      (s'.cacheReady = true → s'.made = some s'.goal) := by
    intro s2 e1 e2 e3 hh
    rw [Option.map_eq_some_iff] at hh
    obtain ⟨⟨s3, b⟩, h3, rfl⟩ := hh
    exact hc _ _ _ h3 (e1.trans hk.1.2) (e2.trans hk.1.1) (e3.trans hk.2)
  split at h
  · cases h; exact .inl rfl
  split at h
  · split at h
    · cases h; exact .inl rfl
    · exact .inr (hx (takeEscape _ false s) rfl rfl rfl h)
  · split at h
    · cases h; exact .inl rfl
    · exact .inr (hx (backToOriginal s) rfl rfl rfl h)
    · exact .inr (hx (takeEscape _ _ s) rfl rfl rfl h)

/-- Making the distance map, with everything known: it is for the goal then pursued. -/
theorem cache_fresh (w : World P) : ∀ (n : Nat) (s s' : St P) (b : Bool), cache w n s = some (s', b) → s.hasGoal = true → s.hasMap = true →
    s.hasStart = true → s'.cacheReady = true → s'.made = some s'.goal := by
  intro n
  induction n with
  | zero => intro s s' b h; cases h
  | succ n ih =>
    intro s s' b h h1 h2 h3 hr
    unfold cache at h
    rw [if_neg (by simp [h1]), if_neg (by simp [h2, h3])] at h
    dsimp only at h
    split at h
    · cases h; cases hr
    · cases h; cases hr
    split at h
    · cases h; cases hr
    · split at h
      · cases h; cases hr
      split at h
      · rw [Option.map_eq_some_iff] at h
        obtain ⟨s1, h4, h5⟩ := h
        cases h5
        rcases escapeGoal_fresh w _ _ (fun s s' b => ih s s' b) _ _ h4 with rfl | k
        · cases hr
        · exact k hr
      · cases h; cases hr
    · cases h; rfl
    · cases h; rfl

theorem cache_still (w : World P) (n : Nat) (s s' : St P) (b : Bool) (h : cache w n s = some (s', b))
    (hk : ¬ (s.hasGoal = true ∧ s.hasMap = true ∧ s.hasStart = true)) : s' = s := by
  cases n with
  | zero => cases h
  | succ n =>
    unfold cache at h
    split at h
    · cases h; rfl
    split at h
    · cases h; rfl
    · rename_i k1 k2
      simp only [Bool.or_eq_true, Bool.not_eq_true', not_or, Bool.not_eq_false] at k1 k2
      exact absurd ⟨k1, k2⟩ hk

theorem moves_map {s s' : St P} (h : Moves s s') : s'.hasMap = s.hasMap ∧ s'.hasStart = s.hasStart ∧ s'.hasGoal = s.hasGoal := by
  obtain ⟨⟨a, b, c, d, e, f, g, md, rfl⟩, -⟩ := h
  exact ⟨rfl, rfl, rfl⟩

theorem g_cache (w : World P) (n : Nat) (s s' : St P) (b : Bool) (h : cache w n s = some (s', b))
    (hg : ¬ (s.hasGoal = true ∧ s.hasMap = true ∧ s.hasStart = true) → G s) : G s' := by
  by_cases hk : s.hasGoal = true ∧ s.hasMap = true ∧ s.hasStart = true
  · refine ⟨fun hm => ?_, fun _ => cache_fresh w n s s' b h hk.1 hk.2.1 hk.2.2⟩
    rw [(moves_map (moves_cache w _ _ _ _ h)).1, hk.2.1] at hm
    cases hm
  · rw [cache_still w n s s' b h hk]
    exact hg hk

theorem g_escape (w : World P) (s s' : St P) (h : escapeNow w s = some s') (hg : G s) : G s' := by
  rcases escapeGoal_fresh w _ _ (fun s s' b => cache_fresh w depth s s' b) _ _ h with rfl | k
  · exact hg
  · refine ⟨fun hm => ?_, fun _ => k⟩
    have := moves_map (moves_escapeNow w _ _ h)
    unfold escapeNow escapeGoal at h
    rw [if_pos (by simp [this.1 ▸ hm])] at h
    cases h
    exact hg.1 hm

/-- The search keeps the invariant, and its path is well made. -/
theorem g_search (w : World P) (s s' : St P) (ps : List P) (h : searchPath w s = some (s', ps)) (hg : G s) (h1 : s.hasGoal = true)
    (h2 : s.cacheReady = true) : G s' ∧ (ps = [] ∨ ps = w.poses (some s.goal) s.goal) ∧ ∃ n, s'.log = s.log ++ List.replicate n (.path []) := by
  have hm := hg.2 h1 h2
  unfold searchPath at h
  dsimp only at h
  rw [hm] at h
  split at h
  · split at h
    · rw [Option.map_eq_some_iff] at h
      obtain ⟨s2, h3, h4⟩ := h
      cases h4
      refine ⟨g_escape w _ _ h3 (hg.held ⟨rfl, rfl, hm.symm, rfl, rfl, id⟩), .inl rfl, 0, ?_⟩
      obtain ⟨⟨a, b, c, d, e, f, g, md, rfl⟩, -⟩ := moves_escapeNow w _ _ h3
      simp
    · cases h
      exact ⟨hg.held ⟨rfl, rfl, hm.symm, rfl, rfl, id⟩, .inl rfl, 0, by simp⟩
  · split at h
    · cases h
      exact ⟨hg.held ⟨rfl, rfl, hm.symm, rfl, rfl, id⟩, .inr rfl, _, rfl⟩
    · cases h
      refine ⟨hg.held ⟨rfl, rfl, hm.symm, rfl, rfl, id⟩, ?_, _, rfl⟩
      split
      · exact .inr rfl
      · exact .inl rfl

/-- Any path published between the two states satisfies `Q`. -/
def Fine (Q : List P → Prop) (s s' : St P) : Prop := ∃ l, s'.log = s.log ++ l ∧ ∀ ps, Out.path ps ∈ l → Q ps

theorem Fine.refl (Q : List P → Prop) (s : St P) : Fine Q s s := ⟨[], by simp, fun _ h => by cases h⟩

theorem Fine.trans {Q : List P → Prop} {s s' s'' : St P} (h : Fine Q s s') (h' : Fine Q s' s'') : Fine Q s s'' := by
  obtain ⟨l, h1, h2⟩ := h
  obtain ⟨l', h3, h4⟩ := h'
  refine ⟨l ++ l', by rw [h3, h1, List.append_assoc], fun ps hp => ?_⟩
  rcases List.mem_append.mp hp with hp | hp
  · exact h2 ps hp
  · exact h4 ps hp

theorem fine_same {Q : List P → Prop} {s s' : St P} (h : s'.log = s.log) : Fine Q s s' := ⟨[], by simp [h], fun _ h => by cases h⟩

theorem fine_emit {Q : List P → Prop} (s : St P) (ps : List P) (h : Q ps) : Fine Q s (emit (.path ps) s) := by
  refine ⟨[.path ps], rfl, fun qs hq => ?_⟩
  rw [List.mem_singleton] at hq
  cases hq
  exact h

theorem fine_publish {Q : List P → Prop} (s : St P) : Fine Q s (publishStatus s) :=
  ⟨[_], rfl, fun qs hq => by rw [List.mem_singleton] at hq; cases hq⟩

theorem finish_log (k : Which) (a : Answer) (s : St P) : ∃ l, (finish k a s).log = s.log ++ l ∧ ∀ o ∈ l, ∃ i, o = Out.answer i a := by
  cases k <;> unfold finish <;> dsimp only
  · split
    · cases s.base.current with
      | none => exact ⟨[], by simp, fun _ h => by cases h⟩
      | some i => exact ⟨[.answer i a], rfl, fun o ho => ⟨i, List.mem_singleton.mp ho⟩⟩
    · exact ⟨[], by simp, fun _ h => by cases h⟩
  · split
    · cases s.tol.current with
      | none => exact ⟨[], by simp, fun _ h => by cases h⟩
      | some i => exact ⟨[.answer i a], rfl, fun o ho => ⟨i, List.mem_singleton.mp ho⟩⟩
    · exact ⟨[], by simp, fun _ h => by cases h⟩

theorem fine_finish {Q : List P → Prop} (k : Which) (a : Answer) (s : St P) : Fine Q s (finish k a s) := by
  obtain ⟨l, h1, h2⟩ := finish_log k a s
  refine ⟨l, h1, fun ps hp => ?_⟩
  obtain ⟨i, hi⟩ := h2 _ hp
  cases hi

theorem fine_finishBoth {Q : List P → Prop} (a : Answer) (s : St P) : Fine Q s (finishBoth a s) :=
  (fine_finish .base a s).trans (fine_finish .tolerant a _)

theorem fine_moves {Q : List P → Prop} {s s' : St P} (h : Moves s s') : Fine Q s s' := by
  obtain ⟨⟨a, b, c, d, e, f, g, md, rfl⟩, -⟩ := h
  exact Fine.refl Q s

theorem fine_finishPath {Q : List P → Prop} (s : St P) (h : Q [finalPose s]) : Fine Q s (finishPath s) := fine_emit s _ h

theorem g_makePlan (w : World P) (Q : List P → Prop) (q0 : Q []) (q1 : ∀ g, Q (w.poses (some g) g)) (s s' : St P)
    (ps : List P) (h : makePlan w s = some (s', ps)) (hg : G s) (h1 : s.hasGoal = true)
    (h2 : s.cacheReady = true) (h3 : s.hasMap = true) (h4 : s.hasStart = true)
    (q2 : s'.phase = .finishing → Q [finalPose s']) : G s' ∧ Q ps ∧ Fine Q s s' := by
  have rep : ∀ (s s' : St P), (∃ n, s'.log = s.log ++ List.replicate n (.path [])) → Fine Q s s' := by
    rintro s s' ⟨n, hn⟩
    refine ⟨_, hn, fun ps hp => ?_⟩
    cases List.eq_of_mem_replicate hp
    exact q0
  have fin : ∀ s2 : St P, Held s s2 → Fine Q s s2 → s2.hasGoal = true → searchPath w s2 = some (s', ps) → G s' ∧ Q ps ∧ Fine Q s s' := by
    intro s2 k1 k2 k3 k4
    obtain ⟨r1, r2, r3⟩ := g_search w s2 s' ps k4 (hg.held k1) k3 (k1.2.2.2.1.trans h2)
    refine ⟨r1, ?_, k2.trans (rep _ _ r3)⟩
    rcases r2 with r2 | r2
    · rw [r2]; exact q0
    · rw [r2]; exact q1 _
  unfold makePlan at h
  split at h
  · cases h; exact ⟨hg.held ⟨rfl, rfl, rfl, rfl, rfl, id⟩, q0, fine_same rfl⟩
  split at h
  · cases h
  split at h
  · split at h
    · rw [Option.map_eq_some_iff] at h
      obtain ⟨⟨s2, b⟩, h5, h6⟩ := h
      cases h6
      exact ⟨g_cache w _ _ _ _ h5 fun hk => absurd ⟨h1, h3, h4⟩ hk, q0,
        (fine_same rfl : Fine Q s (backToOriginal s)).trans (fine_moves (moves_cache w _ _ _ _ h5))⟩
    split at h
    · split at h
      · cases h
      split at h
      · refine fin _ ?_ ?_ ?_ h
        · exact (held_finish .tolerant .passed s).trans ⟨rfl, rfl, rfl, rfl, rfl, id⟩
        · exact (fine_finish .tolerant .passed s).trans (fine_same rfl)
        · obtain ⟨b, t, l, he, -⟩ := finish_rest .tolerant .passed s
          rw [he]; exact h1
      · cases h
        exact ⟨hg.held ⟨rfl, rfl, rfl, rfl, rfl, id⟩, q0, (fine_same rfl : Fine Q s { s with phase := .finishing }).trans (fine_finishPath _ (q2 rfl))⟩
    · cases h
      exact ⟨hg.held ⟨rfl, rfl, rfl, rfl, rfl, id⟩, q0, (fine_same rfl : Fine Q s { s with phase := .finishing }).trans (fine_finishPath _ (q2 rfl))⟩
  · exact fin s (Held.refl s) (Fine.refl Q s) h1 h

theorem g_planMove (w : World P) (Q : List P → Prop) (q0 : Q []) (q1 : ∀ g, Q (w.poses (some g) g)) (s s' : St P)
    (h : planMove w s = some s') (hg : G s) (h1 : s.hasGoal = true) (h3 : s.hasMap = true)
    (h4 : s.hasStart = true) (q2 : s'.phase = .finishing → Q [finalPose s']) : G s' ∧ Fine Q s s' := by
  unfold planMove at h
  dsimp only at h
  split at h
  · cases h
    refine ⟨?_, ?_⟩
    · refine G.held ?_ (held_finishBoth _ _)
      exact hg.held ⟨rfl, rfl, rfl, rfl, rfl, fun k => by cases k⟩
    · refine Fine.trans ?_ (fine_finishBoth _ _)
      exact (fine_same rfl).trans (fine_emit _ _ q0)
  split at h
  · cases h
    refine ⟨hg.held ⟨rfl, rfl, rfl, rfl, rfl, id⟩, ?_⟩
    exact ((fine_same rfl).trans (fine_emit _ _ q0)).trans (fine_publish _)
  · rename_i hc
    rw [Option.map_eq_some_iff] at h
    obtain ⟨⟨r, ps⟩, h5, h6⟩ := h
    obtain ⟨k1, k2, k3⟩ := g_makePlan w Q q0 q1 _ r ps h5 (hg.held ⟨rfl, rfl, rfl, rfl, rfl, id⟩) h1 (by simpa using hc) h3 h4 (by
      dsimp only at h6
      intro hf
      have : s'.phase = r.phase ∧ finalPose s' = finalPose r := by
        rw [← h6]
        split <;> split <;> exact ⟨rfl, rfl⟩
      rw [← this.2]
      exact q2 (this.1.trans hf))
    have fin : ∀ x : St P, Held r x → Fine Q r x →
        s' = publishStatus (if x.escaping ≠ .no ∨ s.escaping ≠ .no then { x with error := (x.escaping.worst s.escaping).err } else x) →
        G s' ∧ Fine Q s s' := by
      intro x e1 e2 e3
      have k4 : Fine Q s x := ((fine_same rfl).trans k3).trans e2
      have k5 := k1.held e1
      split at e3 <;> subst e3
      · exact ⟨k5.held ⟨rfl, rfl, rfl, rfl, rfl, id⟩, (k4.trans (fine_same rfl)).trans (fine_publish _)⟩
      · exact ⟨k5.held ⟨rfl, rfl, rfl, rfl, rfl, id⟩, k4.trans (fine_publish _)⟩
    dsimp only at h6
    split at h6
    · exact fin { emit (.path ps) r with switchback := w.turns ps } ⟨rfl, rfl, rfl, rfl, rfl, id⟩ ((fine_emit r ps k2).trans (fine_same rfl)) h6.symm
    · exact fin (emit (.path ps) r) ⟨rfl, rfl, rfl, rfl, rfl, id⟩ (fine_emit r ps k2) h6.symm

theorem g_planFinish (w : World P) (Q : List P → Prop) (s s' : St P) (h : planFinish w s = some s') (hg : G s) (hp : s.phase = .finishing)
    (q2 : s'.phase = .finishing → Q [finalPose s']) : G s' ∧ Fine Q s s' := by
  unfold planFinish at h
  dsimp only at h
  generalize w.heading _ = yaw at h
  split at h
  · cases h
  split at h
  · cases h
    refine ⟨G.held (s := finishBoth .reached { s with phase := .done, hasGoal := false }) ?_ ⟨rfl, rfl, rfl, rfl, rfl, id⟩, ?_⟩
    · exact G.held (hg.held (s' := { s with phase := .done, hasGoal := false }) ⟨rfl, rfl, rfl, rfl, rfl, fun k => by cases k⟩) (held_finishBoth _ _)
    · exact ((fine_same rfl : Fine Q s { s with phase := .done, hasGoal := false }).trans (fine_finishBoth _ _)).trans (fine_publish _)
  · cases h
    exact ⟨hg.held ⟨rfl, rfl, rfl, rfl, rfl, id⟩, (fine_finishPath s (q2 hp)).trans (fine_publish _)⟩

/-- A planning cycle keeps the invariant; its paths are well made. -/
theorem g_planPath (now : Int) (w : World P) (s s' : St P) (h : planPath now w s = some s') (hg : G s) : G s' ∧ Fine (WellMade w s') s s' := by
  have q0 : WellMade w s' [] := .inl rfl
  have q1 : ∀ g, WellMade w s' (w.poses (some g) g) := fun g => .inr (.inl ⟨g, rfl⟩)
  have q2 : s'.phase = .finishing → WellMade w s' [finalPose s'] := fun hp => .inr (.inr ⟨hp, rfl⟩)
  generalize WellMade w s' = Q at q0 q1 q2 ⊢
  unfold planPath at h
  rw [Option.bind_eq_some_iff] at h
  obtain ⟨s1, h1, h⟩ := h
  have key : G s1 ∧ Fine Q s s1 := by
    split at h1
    · rw [Option.map_eq_some_iff] at h1
      obtain ⟨⟨s2, b⟩, h2, rfl⟩ := h1
      exact ⟨g_cache w _ _ _ _ h2 fun _ => hg, fine_moves (moves_cache w _ _ _ _ h2)⟩
    · cases h1; exact ⟨hg, Fine.refl Q s⟩
  clear h1
  obtain ⟨hg1, hf⟩ := key
  have idle : ∀ x : St P, Held s1 x → Fine Q s x →
      G (publishStatus (emit (.path []) (if x.cfg.retain then x else { x with error := .goingWell }))) ∧
      Fine Q s (publishStatus (emit (.path []) (if x.cfg.retain then x else { x with error := .goingWell }))) := by
    intro x e1 e2
    have e3 := hg1.held e1
    split
    · exact ⟨e3.held ⟨rfl, rfl, rfl, rfl, rfl, id⟩, (e2.trans (fine_emit _ _ q0)).trans (fine_publish _)⟩
    · exact ⟨e3.held ⟨rfl, rfl, rfl, rfl, rfl, id⟩, ((e2.trans (fine_same rfl)).trans (fine_emit _ _ q0)).trans (fine_publish _)⟩
  dsimp only at h
  split at h
  · have hx : Fine Q s (emit (.path []) { s1 with error := .dataMissing }) := (hf.trans (fine_same rfl)).trans (fine_emit _ _ q0)
    split at h
    · cases h
      exact idle _ ⟨rfl, rfl, rfl, rfl, rfl, id⟩ hx
    · cases h
      exact ⟨hg1.held ⟨rfl, rfl, rfl, rfl, rfl, id⟩, hx.trans (fine_publish _)⟩
  split at h
  · rename_i hall
    simp only [Bool.and_eq_true] at hall
    have h0 : Fine Q s { s1 with switchback := false } := hf.trans (fine_same rfl)
    have g0 : G { s1 with switchback := false } := hg1.held ⟨rfl, rfl, rfl, rfl, rfl, id⟩
    split at h
    · rename_i hp
      have := g_planFinish w Q _ _ h g0 hp q2
      exact ⟨this.1, h0.trans this.2⟩
    · have := g_planMove w Q q0 q1 _ _ h g0 hall.1.2 hall.1.1 hall.2 q2
      exact ⟨this.1, h0.trans this.2⟩
  split at h
  · cases h; exact idle _ (Held.refl _) hf
  · cases h
    exact ⟨hg1.held ⟨rfl, rfl, rfl, rfl, rfl, id⟩, hf.trans (fine_publish _)⟩

/-- A costmap update: afterwards the invariant holds if it did before; and, if it fits and everything is known, in any case. -/
theorem g_update (u : Update P) (s s' : St P) (h : applyUpdate u s = some s')
    (hg : ¬ (u.fits = true ∧ s.hasStart = true ∧ s.hasGoal = true ∧ s.hasMap = true) → G s) : G s' := by
  unfold applyUpdate at h
  dsimp only at h
  have hc : ∀ s1 : St P, (s1.hasGoal, s1.hasMap, s1.hasStart) = (s.hasGoal, s.hasMap, s.hasStart) →
      (cache u.w depth s1).map Prod.fst = some s' → (¬ (s.hasGoal = true ∧ s.hasMap = true ∧ s.hasStart = true) → G s1) → G s' := by
    intro s1 e1 hh e2
    rw [Option.map_eq_some_iff] at hh
    obtain ⟨⟨s2, b⟩, h2, rfl⟩ := hh
    simp only [Prod.mk.injEq] at e1
    exact g_cache u.w _ _ _ _ h2 fun hk => e2 (by rw [← e1.1, ← e1.2.1, ← e1.2.2]; exact hk)
  split at h
  · rename_i h1
    cases h; exact hg (by simp at h1; simp [h1])
  split at h
  · rename_i h1
    cases h
    exact (hg (by simp at h1; simp [h1])).held ⟨rfl, rfl, rfl, rfl, rfl, id⟩
  split at h
  · rename_i h1
    cases h
    exact (hg (by simp at h1; simp [h1])).held ⟨rfl, rfl, rfl, rfl, rfl, id⟩
  split at h
  · exact hc { s with lastCostmap := u.now } rfl h fun hk => (hg fun k => hk ⟨k.2.2.1, k.2.2.2, k.2.1⟩).held ⟨rfl, rfl, rfl, rfl, rfl, id⟩
  split at h
  · exact hc { s with lastCostmap := u.now } rfl h fun hk => (hg fun k => hk ⟨k.2.2.1, k.2.2.2, k.2.1⟩).held ⟨rfl, rfl, rfl, rfl, rfl, id⟩
  · cases h
    refine ⟨fun hm => ?_, fun _ _ => rfl⟩
    exact (hg (by dsimp only at hm; simp [hm])).1 hm

theorem g_mapUpdate (u : Update P) (s s' : St P) (h : cbMapUpdate u s = some s')
    (hg : ¬ (u.fits = true ∧ (if s.cfg.trigger then u.located else s.hasStart) = true ∧ s.hasGoal = true ∧ s.hasMap = true) → G s) : G s' := by
  unfold cbMapUpdate at h
  split at h
  · rename_i h1
    cases h
    exact hg (by simp at h1; simp [h1])
  split at h
  · rename_i ht
    rw [if_pos ht] at hg
    rw [Option.bind_eq_some_iff] at h
    obtain ⟨s1, h1, h⟩ := h
    rw [Option.map_eq_some_iff] at h
    obtain ⟨s2, h2, h3⟩ := h
    have k1 : G s1 := g_update u _ _ h1 fun hk => by
      have := hg hk
      exact ⟨this.1, this.2⟩
    have k2 := (g_planPath _ _ _ _ h2 k1).1
    subst h3
    split
    · exact k2.held ⟨rfl, rfl, rfl, rfl, rfl, id⟩
    · exact k2
  · rename_i ht
    rw [if_neg ht] at hg
    exact g_update u _ _ h hg

theorem g_setGoal (g : GoalMsg P) (w : World P) (s s' : St P) (b : Bool) (h : setGoal g w s = some (s', b)) (hg : G s)
    (hk : ¬ (s.hasMap = true ∧ s.hasStart = false)) : G s' := by
  unfold setGoal at h
  split at h
  · cases h; exact hg
  dsimp only at h
  split at h
  · rw [Option.map_eq_some_iff] at h
    obtain ⟨⟨s1, b1⟩, h1, h2⟩ := h
    have k : G s1 := g_cache w _ _ _ _ h1 fun hn => by
      have hm : s.hasMap = false := by
        cases hm : s.hasMap with
        | false => rfl
        | true =>
          cases hs : s.hasStart with
          | false => exact absurd ⟨hm, hs⟩ hk
          | true => exact absurd ⟨rfl, hm, hs⟩ hn
      exact ⟨fun _ => hg.1 hm, fun _ hc => by
        have hc : s.cacheReady = true := hc
        rw [hg.1 hm] at hc
        cases hc⟩
    dsimp only at h2
    split at h2
    · cases h2; exact k.held ⟨rfl, rfl, rfl, rfl, rfl, id⟩
    · cases h2; exact k.held ⟨rfl, rfl, rfl, rfl, rfl, fun k => by cases k⟩
  · cases h
    refine G.held ?_ (held_finishBoth _ _)
    exact ⟨hg.1, fun k => by cases k⟩

/-- One event. -/
theorem g_step (s s' : St P) (e : Event P) (h : step s e = some s') (hg : G s) (hd : ¬ Disturbs s e) : G s' := by
  cases e with
  | map f w early =>
    unfold step cbMap at h
    rw [Option.bind_eq_some_iff] at h
    obtain ⟨⟨s1, b⟩, h1, h⟩ := h
    have k : G s1 := g_cache w _ _ _ _ h1 fun hn => by
      refine ⟨fun hm => ?_, fun k1 k2 => ?_⟩
      · have hm : true = false := hm
        cases hm
      have hs : s.hasStart = false := by
        cases hs : s.hasStart with
        | false => rfl
        | true => exact absurd ⟨k1, rfl, hs⟩ hn
      exact absurd ⟨k1, hs⟩ hd
    dsimp only at h
    split at h
    · exact g_mapUpdate _ _ _ h fun _ => k
    · cases h; exact k
  | update u => exact g_mapUpdate u _ _ h fun _ => hg
  | located ok =>
    unfold step at h
    dsimp only at h
    split at h
    · cases h; exact ⟨hg.1, hg.2⟩
    · cases h; exact hg
  | switchReached => cases h; exact hg.held ⟨rfl, rfl, rfl, rfl, rfl, id⟩
  | cycle now w =>
    unfold step at h
    dsimp only at h
    split at h
    · cases h; exact hg
    · exact (g_planPath _ _ _ _ h hg).1
  | timer now w =>
    unfold step at h
    dsimp only at h
    split at h
    · exact (g_planPath _ _ _ _ h hg).1
    · cases h; exact hg
  | topicGoal g w =>
    unfold step cbGoal at h
    dsimp only at h
    split at h
    · cases h; exact hg
    · rw [Option.map_eq_some_iff] at h
      obtain ⟨⟨s1, b⟩, h1, rfl⟩ := h
      exact g_setGoal g w s s1 b h1 hg hd
  | baseGoal late g w =>
    unfold step at h
    dsimp only at h
    split at h
    · cases h; exact hg.held ⟨rfl, rfl, rfl, rfl, rfl, id⟩
    · have hr : Held s (receive .base s.count { s with count := s.count + 1 }) :=
        Held.trans ⟨rfl, rfl, rfl, rfl, rfl, id⟩ (held_receive _ _ _)
      unfold cbAction at h
      split at h
      · cases h; exact hg.held hr
      · rw [Option.map_eq_some_iff] at h
        obtain ⟨⟨s1, b⟩, h1, h2⟩ := h
        have hr' := hr.trans (held_accept .base g.pose _)
        have k := g_setGoal g w _ s1 b h1 (hg.held hr') (by rw [hr'.1, hr'.2.1]; exact hd)
        subst h2
        dsimp only
        split
        · exact k
        · exact k.held (held_finish _ _ _)
  | tolGoal late g t w =>
    unfold step at h
    dsimp only at h
    split at h
    · cases h; exact hg.held ⟨rfl, rfl, rfl, rfl, rfl, id⟩
    · have hr : Held s (receive .tolerant s.count { s with count := s.count + 1 }) :=
        Held.trans ⟨rfl, rfl, rfl, rfl, rfl, id⟩ (held_receive _ _ _)
      unfold cbTolerantAction at h
      split at h
      · cases h; exact hg.held hr
      · rw [Option.map_eq_some_iff] at h
        obtain ⟨⟨s1, b⟩, h1, h2⟩ := h
        have hr' : Held s { accept .tolerant g.pose (receive .tolerant s.count { s with count := s.count + 1 }) with tolGoal := some t } :=
          (hr.trans (held_accept .tolerant g.pose _)).trans ⟨rfl, rfl, rfl, rfl, rfl, id⟩
        have k := g_setGoal g w _ s1 b h1 (hg.held hr') (by rw [hr'.1, hr'.2.1]; exact hd)
        subst h2
        dsimp only
        split
        · exact k
        · exact k.held (held_finish _ _ _)
  | cancel k =>
    cases k <;> unfold step at h <;> dsimp only at h <;> split at h <;> cases h <;>
      first | exact hg | exact hg.held (held_preempt s)
  | escape w =>
    unfold step at h
    dsimp only at h
    split at h
    · exact g_escape w _ _ h hg
    · cases h; exact hg
  | config c =>
    cases h
    exact ⟨hg.1, fun k => absurd k hd⟩

theorem undisturbed_run (c : Cfg) (p : P) : ∀ (l h : List (Event P)) (s s' : St P), run c p h = some s → l.foldlM step s = some s' → G s →
    (∀ h1 e h2 x, l = h1 ++ e :: h2 → run c p (h ++ h1) = some x → ¬ Disturbs x e) → G s' := by
  intro l
  induction l with
  | nil => intro h s s' _ hs hg _; cases hs; exact hg
  | cons e l ih =>
    intro h s s' hr hs hg hd
    rw [List.foldlM_cons] at hs
    obtain ⟨s1, h1, h2⟩ := Option.bind_eq_some_iff.mp hs
    have hr1 : run c p (h ++ [e]) = some s1 := run_step c p h e s s1 hr h1
    refine ih (h ++ [e]) s1 s' hr1 h2 (g_step s s1 e h1 hg (hd [] e l s rfl (by simpa using hr))) ?_
    intro k1 e' k2 x hx hk
    exact hd (e :: k1) e' k2 x (by rw [hx]; rfl) (by simpa using hk)

theorem g_run (c : Cfg) (p : P) (h : List (Event P)) (s : St P) (hr : run c p h = some s) (hu : Undisturbed c p h) : G s :=
  undisturbed_run c p h [] (init c p) s rfl hr ⟨fun _ => rfl, fun k => by cases k⟩ fun h1 e h2 x hx hk => hu h1 e h2 x hx hk

end Verif.PlannerNode
