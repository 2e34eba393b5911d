import Verif.PlannerNode.Steps
/-! # What an event leaves alone, and what it publishes -/
namespace Verif.PlannerNode
variable {P : Type}

/-- Parameters, map and update time are kept, and publishing only appends, and only outputs allowed by `A`. -/
def Kept (A : Out P → Prop) (s s' : St P) : Prop :=
  (s'.cfg, s'.timer) = (s.cfg, s.timer) ∧ s'.hasMap = s.hasMap ∧ s'.lastCostmap = s.lastCostmap ∧ s'.goalOriginal = s.goalOriginal ∧
    s'.count = s.count ∧ (∃ l, s'.log = s.log ++ l ∧ ∀ o ∈ l, A o)

theorem Kept.refl {A : Out P → Prop} (s : St P) : Kept A s s :=
  ⟨rfl, rfl, rfl, rfl, rfl, [], by simp, fun _ h => by cases h⟩

theorem Kept.trans {A : Out P → Prop} {s s' s'' : St P} (h : Kept A s s') (h' : Kept A s' s'') : Kept A s s'' := by
  obtain ⟨h1, h2, h3, h4, h5, l, h6, h7⟩ := h
  obtain ⟨k1, k2, k3, k4, k5, m, k6, k7⟩ := h'
  refine ⟨k1.trans h1, k2.trans h2, k3.trans h3, k4.trans h4, k5.trans h5, l ++ m, by rw [k6, h6, List.append_assoc], ?_⟩
  intro o ho
  rcases List.mem_append.mp ho with ho | ho
  · exact h7 o ho
  · exact k7 o ho

theorem Kept.mono {A B : Out P → Prop} {s s' : St P} (h : Kept A s s') (hab : ∀ o, A o → B o) : Kept B s s' := by
  obtain ⟨h1, h2, h3, h4, h5, l, h6, h7⟩ := h
  exact ⟨h1, h2, h3, h4, h5, l, h6, fun o ho => hab o (h7 o ho)⟩

theorem Kept.emit {A : Out P → Prop} (o : Out P) (s : St P) (h : A o) : Kept A s (emit o s) :=
  ⟨rfl, rfl, rfl, rfl, rfl, [o], rfl, fun x hx => by rw [List.mem_singleton.mp hx]; exact h⟩

theorem SameCore.kept {A : Out P → Prop} {s s' : St P} (h : SameCore s s') : Kept A s s' := by
  obtain ⟨a, b, c, d, e, f, g, md, rfl⟩ := h
  exact Kept.refl s

/-- Answers of kind `a` to the goals in progress in `s`. -/
def Ends (s : St P) (a : Answer) (o : Out P) : Prop := ∃ i, Open s i ∧ o = .answer i a

theorem finish_kept (k : Which) (a : Answer) (s : St P) : Kept (Ends s a) s (finish k a s) := by
  unfold finish
  cases k with
  | base =>
    dsimp only
    split
    · rename_i ha
      split
      · rename_i i hi
        exact Kept.emit (A := Ends s a) (.answer i a) { s with base := { s.base with active := false } }
          ⟨i, .inl ⟨ha, hi⟩, rfl⟩
      · exact Kept.refl s
    · exact Kept.refl s
  | tolerant =>
    dsimp only
    split
    · rename_i ha
      split
      · rename_i i hi
        exact Kept.emit (A := Ends s a) (.answer i a) { s with tol := { s.tol with active := false } }
          ⟨i, .inr ⟨ha, hi⟩, rfl⟩
      · exact Kept.refl s
    · exact Kept.refl s

theorem open_finish (k : Which) (a : Answer) (s : St P) (i : Nat) (h : Open (finish k a s) i) : Open s i := by
  obtain ⟨b, t, l, he, hb, ht, -⟩ := finish_rest k a s
  rw [he] at h
  rcases h with h | h
  · have := h.1; exact .inl (by rw [← hb this]; exact h)
  · have := h.1; exact .inr (by rw [← ht this]; exact h)

theorem open_finishBoth (a : Answer) (s : St P) (i : Nat) (h : Open (finishBoth a s) i) : Open s i :=
  open_finish _ _ _ _ (open_finish _ _ _ _ h)

theorem finishBoth_kept (a : Answer) (s : St P) : Kept (Ends s a) s (finishBoth a s) := by
  refine (finish_kept .base a s).trans ((finish_kept .tolerant a _).mono ?_)
  rintro o ⟨i, hi, rfl⟩
  exact ⟨i, open_finish _ _ _ _ hi, rfl⟩

/-- After `finishBoth` every goal in progress has its answer. -/
theorem finishBoth_answers (a : Answer) (ha : a ≠ .recalled) (s : St P) (h : Pre s) (i : Nat) (hi : Open s i) :
    answersTo (finishBoth a s).log i = [a] := by
  have key : ∀ (k : Which) (s : St P), Pre s → answersTo s.log i = [a] → answersTo (finish k a s).log i = [a] := by
    intro k s hp he
    rcases finish_cases k a s hp with ⟨-, hb, j, hc, hf⟩ | ⟨-, hb, j, hc, hf⟩ | ⟨hf, -⟩
    · rw [hf]
      have hj : answersTo s.log j = [] := hp.acc.openL j (by simp [slots, held, hb, hc])
      rw [answersTo_append, answersTo_answer, he]
      by_cases hji : j = i
      · subst hji; rw [he] at hj; cases hj
      · rw [if_neg hji]; rfl
    · rw [hf]
      have hj : answersTo s.log j = [] := hp.acc.openL j (by simp [slots, held, hb, hc])
      rw [answersTo_append, answersTo_answer, he]
      by_cases hji : j = i
      · subst hji; rw [he] at hj; cases hj
      · rw [if_neg hji]; rfl
    · rw [hf]; exact he
  have hnil : answersTo s.log i = [] := by
    refine h.acc.openL i ?_
    rcases hi with hi | hi
    · simp [slots, held, hi.1, hi.2]
    · simp [slots, held, hi.1, hi.2]
  rcases hi with hi | hi
  · refine key .tolerant _ (h.finish .base a ha) ?_
    unfold PlannerNode.finish
    rw [if_pos hi.1, hi.2]
    unfold PlannerNode.emit
    dsimp only
    rw [answersTo_append, answersTo_answer, hnil, if_pos rfl]; rfl
  · have hb : s.base.active = false := by
      cases hh : s.base.active with
      | false => rfl
      | true => exact absurd ⟨hh, hi.1⟩ h.one
    have : finish .base a s = s := by unfold PlannerNode.finish; simp [hb]
    unfold finishBoth
    rw [this]
    unfold PlannerNode.finish
    dsimp only
    rw [if_pos hi.1, hi.2]
    unfold PlannerNode.emit
    dsimp only
    rw [answersTo_append, answersTo_answer, hnil, if_pos rfl]; rfl

theorem searchPath_kept (w : World P) (s s' : St P) (ps : List P) (hs : searchPath w s = some (s', ps)) :
    Kept Mute s s' := by
  unfold searchPath at hs
  dsimp only at hs
  split at hs
  · split at hs
    · rw [Option.map_eq_some_iff] at hs
      obtain ⟨s1, h1, h2⟩ := hs
      cases h2
      exact Kept.trans (s' := { s with error := .pathNotFound }) (Kept.refl s) (moves_escapeNow w _ _ h1).1.kept
    · cases hs; exact Kept.refl s
  · have hl : Kept Mute s { s with log := s.log ++ List.replicate (w.waits s.made s.goal) (.path []) } :=
      ⟨rfl, rfl, rfl, rfl, rfl, _, rfl, fun o ho => by rw [List.eq_of_mem_replicate ho]; trivial⟩
    split at hs
    · cases hs; exact hl
    · cases hs; exact hl

theorem makePlan_kept (w : World P) (s s' : St P) (ps : List P) (hs : makePlan w s = some (s', ps)) :
    Kept (fun o => Mute o ∨ Ends s .passed o) s s' := by
  unfold makePlan at hs
  split at hs
  · cases hs; exact Kept.refl s
  split at hs
  · cases hs
  split at hs
  · split at hs
    · rw [Option.map_eq_some_iff] at hs
      obtain ⟨⟨s1, b⟩, h1, h2⟩ := hs
      cases h2
      exact ((moves_back s).trans (moves_cache w _ _ _ _ h1)).1.kept
    · split at hs
      · split at hs
        · cases hs
        split at hs
        · refine ((finish_kept .tolerant .passed s).mono (fun _ h => .inr h)).trans ?_
          exact Kept.trans (s' := { finish .tolerant .passed s with tolGoal := none }) (Kept.refl _)
            ((searchPath_kept w _ _ _ hs).mono (fun _ h => .inl h))
        · cases hs
          exact (Kept.emit (.path _) { s with phase := .finishing } (.inl trivial))
      · cases hs
        exact (Kept.emit (.path _) { s with phase := .finishing } (.inl trivial))
  · exact (searchPath_kept w s s' ps hs).mono (fun _ h => .inl h)

/-- What a planning cycle may answer. -/
def CycleOut (s : St P) (o : Out P) : Prop := Mute o ∨ ∃ a, a ≠ .recalled ∧ Ends s a o

theorem planFinish_kept (w : World P) (s s' : St P) (hs : planFinish w s = some s') : Kept (CycleOut s) s s' := by
  unfold planFinish at hs
  dsimp only at hs
  generalize (if s.tol.active = true then s.tolGoal.map Tol.angFinish else some s.cfg.angFinish) = lim at hs
  cases lim with
  | none => cases hs
  | some lim =>
  dsimp only at hs
  by_cases hy : |w.heading (if s.cfg.forceOrientation = true then s.goalRaw else s.goal)| < lim
  · rw [if_pos hy] at hs
    cases hs
    refine Kept.trans (Kept.trans (s' := { s with phase := .done, hasGoal := false }) (Kept.refl s)
      ((finishBoth_kept .reached _).mono ?_)) (Kept.emit _ _ (.inl trivial))
    exact fun o h => .inr ⟨.reached, by decide, h⟩
  · rw [if_neg hy] at hs
    cases hs
    exact (Kept.emit (.path _) s (.inl trivial)).trans (Kept.emit _ _ (.inl trivial))

theorem giveUp_kept (s : St P) : Kept (CycleOut s) s (giveUp s) := by
  refine Kept.trans (s' := emit (.path []) { s with error := .pathNotFound, phase := .done, hasGoal := false })
    (Kept.emit (.path []) { s with error := .pathNotFound, phase := .done, hasGoal := false } (.inl trivial))
    ((finishBoth_kept .aborted _).mono ?_)
  exact fun o h => .inr ⟨.aborted, by decide, h⟩

theorem Kept.errIf {A : Out P → Prop} {s s' : St P} (h : Kept A s s') (p : Prop) [Decidable p] (er : Err) :
    Kept A s (if p then { s' with error := er } else s') := by
  split
  · exact h
  · exact h

theorem Kept.switchIf {A : Out P → Prop} {s s' : St P} (h : Kept A s s') (p : Prop) [Decidable p] (b : Bool) :
    Kept A s (if p then { s' with switchback := b } else s') := by
  split
  · exact h
  · exact h

theorem planMove_kept (w : World P) (s s' : St P) (hs : planMove w s = some s') : Kept (CycleOut s) s s' := by
  unfold planMove at hs
  dsimp only at hs
  split at hs
  · cases hs; exact giveUp_kept s
  split at hs
  · cases hs
    exact (Kept.trans (s' := { s with error := if s.startOccupied then .inRock else .pathNotFound }) (Kept.refl s)
      (Kept.emit (.path []) _ (.inl trivial))).trans (Kept.emit _ _ (.inl trivial))
  · rw [Option.map_eq_some_iff] at hs
    obtain ⟨⟨s1, ps⟩, h1, rfl⟩ := hs
    have hm := Kept.trans (s := s) (s' := { s with error := .goingWell }) (Kept.refl s)
      ((makePlan_kept w _ s1 ps h1).mono (B := CycleOut s)
        (fun o h => h.imp id (fun h => ⟨.passed, by decide, h⟩)))
    have hi := hm.trans (Kept.emit (.path ps) s1 (.inl trivial))
    exact ((hi.switchIf _ _).errIf _ _).trans (Kept.emit _ _ (.inl trivial))

theorem planPath_kept (now : Int) (w : World P) (s s' : St P) (hs : planPath now w s = some s') :
    Kept (CycleOut s) s s' := by
  unfold planPath at hs
  rw [Option.bind_eq_some_iff] at hs
  obtain ⟨s1, h1, hs⟩ := hs
  have hi : SameCore s s1 := by
    split at h1
    · rw [Option.map_eq_some_iff] at h1
      obtain ⟨⟨s2, b⟩, h2, rfl⟩ := h1
      exact (moves_cache w _ _ _ _ h2).1
    · cases h1; exact SameCore.refl s
  have hq : ∀ s2 : St P, Kept (CycleOut s) s2 (publishStatus (emit (.path [])
      (if s2.cfg.retain then s2 else { s2 with error := .goingWell }))) := by
    intro s2
    refine Kept.trans (Kept.trans (s' := if s2.cfg.retain then s2 else { s2 with error := .goingWell }) ?_
      (Kept.emit (.path []) _ (.inl trivial))) (Kept.emit _ _ (.inl trivial))
    split
    · exact Kept.refl s2
    · exact Kept.refl s2
  have hcy : ∀ o, CycleOut { s1 with switchback := false } o → CycleOut s o := by
    obtain ⟨a, b, c, d, e, f, g, md, rfl⟩ := hi
    exact fun o h => h
  have hk : Kept (CycleOut s) s s1 := hi.kept
  dsimp only at hs
  split at hs
  · have he : Kept (CycleOut s) s (emit (.path []) { s1 with error := .dataMissing }) :=
      hk.trans (Kept.trans (s' := { s1 with error := .dataMissing }) (Kept.refl s1) (Kept.emit (.path []) _ (.inl trivial)))
    split at hs
    · cases hs; exact he.trans (hq _)
    · cases hs; exact he.trans (Kept.emit _ _ (.inl trivial))
  split at hs
  · have hk2 : Kept (CycleOut s) s { s1 with switchback := false } := hk
    split at hs
    · exact hk2.trans ((planFinish_kept w _ s' hs).mono hcy)
    · exact hk2.trans ((planMove_kept w _ s' hs).mono hcy)
  split at hs
  · cases hs; exact hk.trans (hq _)
  · cases hs; exact hk.trans (Kept.emit _ _ (.inl trivial))

/-- What `applyUpdate` does. -/
theorem applyUpdate_cases (u : Update P) (s s' : St P) (hs : applyUpdate u s = some s') :
    SameCore { s with lastCostmap := if u.fits then u.now else s.lastCostmap } s' := by
  unfold applyUpdate at hs
  dsimp only at hs
  have hc : ∀ s', (cache u.w depth { s with lastCostmap := u.now }).map Prod.fst = some s' →
      SameCore { s with lastCostmap := u.now } s' := by
    intro s' hh
    rw [Option.map_eq_some_iff] at hh
    obtain ⟨⟨s2, b⟩, h2, rfl⟩ := hh
    exact (moves_cache u.w _ _ _ _ h2).1
  split at hs
  · rename_i hf
    have hf : u.fits = false := by simpa using hf
    cases hs; simp only [hf, Bool.false_eq_true, if_false]; exact SameCore.refl s
  rename_i hf
  have hf : u.fits = true := by simpa using hf
  simp only [hf, if_true]
  split at hs
  · cases hs; exact SameCore.refl _
  split at hs
  · cases hs; exact SameCore.refl _
  split at hs
  · exact hc _ hs
  split at hs
  · exact hc _ hs
  · cases hs; exact SameCore.refl _

/-- The node's own record of maps and updates. -/
theorem cbMapUpdate_seen (u : Update P) (s s' : St P) (hs : cbMapUpdate u s = some s') :
    s'.hasMap = s.hasMap ∧ s'.lastCostmap = (if s.hasMap && u.fits then u.now else s.lastCostmap) ∧ s'.cfg = s.cfg := by
  unfold cbMapUpdate at hs
  split at hs
  · rename_i hm
    have hm : s.hasMap = false := by simpa using hm
    cases hs
    simp [hm]
  rename_i hm
  have hm : s.hasMap = true := by simpa using hm
  simp only [hm, Bool.true_and]
  split at hs
  · rw [Option.bind_eq_some_iff] at hs
    obtain ⟨s1, h1, hs⟩ := hs
    rw [Option.map_eq_some_iff] at hs
    obtain ⟨s2, h2, rfl⟩ := hs
    obtain ⟨k1, k2, k3, -⟩ := planPath_kept _ _ _ _ h2
    replace k1 := congrArg Prod.fst k1
    obtain ⟨a, b, c, d, e, f, g, md, rfl⟩ := applyUpdate_cases u _ s1 h1
    dsimp only at k1 k2 k3
    split
    · exact ⟨by rw [k2]; exact hm, k3, k1⟩
    · exact ⟨by rw [k2]; exact hm, k3, k1⟩
  · obtain ⟨a, b, c, d, e, f, g, md, rfl⟩ := applyUpdate_cases u _ s' hs
    exact ⟨hm, rfl, rfl⟩

theorem setGoal_kept (g : GoalMsg P) (w : World P) (s s' : St P) (b : Bool) (hs : setGoal g w s = some (s', b)) :
    s'.hasMap = s.hasMap ∧ s'.lastCostmap = s.lastCostmap ∧ (s'.cfg, s'.timer) = (s.cfg, s.timer) := by
  unfold setGoal at hs
  split at hs
  · cases hs; exact ⟨rfl, rfl, rfl⟩
  dsimp only at hs
  split at hs
  · rw [Option.map_eq_some_iff] at hs
    obtain ⟨⟨s1, b1⟩, h1, h2⟩ := hs
    obtain ⟨a, b', c, d, e, f, k, md, rfl⟩ := (moves_cache w _ _ _ _ h1).1
    dsimp only at h2
    split at h2
    · cases h2; exact ⟨rfl, rfl, rfl⟩
    · cases h2; exact ⟨rfl, rfl, rfl⟩
  · cases hs
    obtain ⟨h1, h2, h3, -⟩ := finishBoth_kept .cleared
      { s with goalOriginal := g.pose, goalRaw := g.pose, goal := g.pose, hasGoal := false }
    exact ⟨h2, h3, h1⟩

theorem cbPreempt_kept (s : St P) : (cbPreempt s).hasMap = s.hasMap ∧ (cbPreempt s).lastCostmap = s.lastCostmap ∧
    ((cbPreempt s).cfg, (cbPreempt s).timer) = (s.cfg, s.timer) := by
  obtain ⟨h1, h2, h3, -⟩ := finishBoth_kept .preempted s
  exact ⟨h2, h3, h1⟩

theorem receive_kept (k : Which) (i : Nat) (s : St P) : (receive k i s).hasMap = s.hasMap ∧
    (receive k i s).lastCostmap = s.lastCostmap ∧ ((receive k i s).cfg, (receive k i s).timer) = (s.cfg, s.timer) := by
  unfold receive
  cases k with
  | base =>
    dsimp only
    cases s.base.pending with
    | none =>
      dsimp only
      split
      · obtain ⟨h1, h2, h3⟩ := cbPreempt_kept { s with base := { s.base with pending := some i } }
        exact ⟨h1, h2, h3⟩
      · exact ⟨rfl, rfl, rfl⟩
    | some j =>
      dsimp only
      split
      · obtain ⟨h1, h2, h3⟩ := cbPreempt_kept
          { emit (.answer j .recalled) s with base := { s.base with pending := some i } }
        exact ⟨h1, h2, h3⟩
      · exact ⟨rfl, rfl, rfl⟩
  | tolerant =>
    dsimp only
    cases s.tol.pending with
    | none =>
      dsimp only
      split
      · obtain ⟨h1, h2, h3⟩ := cbPreempt_kept { s with tol := { s.tol with pending := some i } }
        exact ⟨h1, h2, h3⟩
      · exact ⟨rfl, rfl, rfl⟩
    | some j =>
      dsimp only
      split
      · obtain ⟨h1, h2, h3⟩ := cbPreempt_kept
          { emit (.answer j .recalled) s with tol := { s.tol with pending := some i } }
        exact ⟨h1, h2, h3⟩
      · exact ⟨rfl, rfl, rfl⟩

theorem accept_kept (k : Which) (q : P) (s : St P) : (accept k q s).hasMap = s.hasMap ∧
    (accept k q s).lastCostmap = s.lastCostmap ∧ ((accept k q s).cfg, (accept k q s).timer) = (s.cfg, s.timer) := by
  unfold accept
  cases k with
  | base => dsimp only; split <;> exact ⟨rfl, rfl, rfl⟩
  | tolerant => dsimp only; split <;> exact ⟨rfl, rfl, rfl⟩

theorem cbAction_kept (g : GoalMsg P) (w : World P) (s s' : St P) (hs : cbAction g w s = some s') :
    s'.hasMap = s.hasMap ∧ s'.lastCostmap = s.lastCostmap ∧ (s'.cfg, s'.timer) = (s.cfg, s.timer) := by
  unfold cbAction at hs
  split at hs
  · cases hs; exact ⟨rfl, rfl, rfl⟩
  rw [Option.map_eq_some_iff] at hs
  obtain ⟨⟨s1, b⟩, h1, h2⟩ := hs
  obtain ⟨a1, a2, a3⟩ := accept_kept .base g.pose s
  obtain ⟨k1, k2, k3⟩ := setGoal_kept g w _ _ _ h1
  obtain ⟨f1, f2, f3, -⟩ := finish_kept .base .aborted s1
  cases b with
  | true =>
    simp only [if_true] at h2
    subst h2
    exact ⟨k1.trans a1, k2.trans a2, k3.trans a3⟩
  | false =>
    simp only [Bool.false_eq_true, if_false] at h2
    subst h2
    exact ⟨f2.trans (k1.trans a1), f3.trans (k2.trans a2), f1.trans (k3.trans a3)⟩

theorem cbTolerant_kept (g : GoalMsg P) (t : Tol) (w : World P) (s s' : St P) (hs : cbTolerantAction g t w s = some s') :
    s'.hasMap = s.hasMap ∧ s'.lastCostmap = s.lastCostmap ∧ (s'.cfg, s'.timer) = (s.cfg, s.timer) := by
  unfold cbTolerantAction at hs
  split at hs
  · cases hs; exact ⟨rfl, rfl, rfl⟩
  rw [Option.map_eq_some_iff] at hs
  obtain ⟨⟨s1, b⟩, h1, h2⟩ := hs
  obtain ⟨a1, a2, a3⟩ := accept_kept .tolerant g.pose s
  obtain ⟨k1, k2, k3⟩ := setGoal_kept g w _ _ _ h1
  obtain ⟨f1, f2, f3, -⟩ := finish_kept .tolerant .aborted s1
  cases b with
  | true =>
    simp only [if_true] at h2
    subst h2
    exact ⟨k1.trans a1, k2.trans a2, k3.trans a3⟩
  | false =>
    simp only [Bool.false_eq_true, if_false] at h2
    subst h2
    exact ⟨f2.trans (k1.trans a1), f3.trans (k2.trans a2), f1.trans (k3.trans a3)⟩

theorem escapeNow_kept (w : World P) (s s' : St P) (h : escapeNow w s = some s') :
    s'.hasMap = s.hasMap ∧ s'.lastCostmap = s.lastCostmap ∧ (s'.cfg, s'.timer) = (s.cfg, s.timer) := by
  obtain ⟨a, b, c, d, e, f, g, md, rfl⟩ := (moves_escapeNow w s s' h).1
  exact ⟨rfl, rfl, rfl⟩

/-- The node's record is exactly what the history says. -/
theorem step_seen (s s' : St P) (e : Event P) (hs : step s e = some s') :
    (s'.hasMap, s'.lastCostmap) = lastUpdate1 (s.hasMap, s.lastCostmap) e := by
  have done : s'.hasMap = s.hasMap ∧ s'.lastCostmap = s.lastCostmap ∧ (s'.cfg, s'.timer) = (s.cfg, s.timer) →
      (s'.hasMap, s'.lastCostmap) = (s.hasMap, s.lastCostmap) := fun h => by rw [h.1, h.2.1]
  have plan : ∀ now w, planPath now w s = some s' → (s'.hasMap, s'.lastCostmap) = (s.hasMap, s.lastCostmap) := by
    intro now w h
    obtain ⟨h1, h2, h3, -⟩ := planPath_kept now w s s' h
    exact done ⟨h2, h3, h1⟩
  unfold step at hs
  cases e with
  | map f w early =>
    dsimp only at hs
    unfold cbMap at hs
    rw [Option.bind_eq_some_iff] at hs
    obtain ⟨⟨s1, b⟩, h1, hs⟩ := hs
    obtain ⟨a, b', c, d, e, f', k, md, rfl⟩ := (moves_cache w _ _ _ _ h1).1
    cases early with
    | none => dsimp only at hs; cases hs; rfl
    | some u =>
      dsimp only at hs
      obtain ⟨k1, k2, -⟩ := cbMapUpdate_seen u _ s' hs
      rw [k1, k2]
      rfl
  | update u =>
    obtain ⟨k1, k2, -⟩ := cbMapUpdate_seen u s s' hs
    rw [k1, k2]; rfl
  | located ok =>
    dsimp only at hs
    split at hs
    · cases hs; rfl
    · cases hs; rfl
  | switchReached => dsimp only at hs; cases hs; rfl
  | cycle now w =>
    dsimp only at hs
    split at hs
    · cases hs; rfl
    · exact plan now w hs
  | timer now w =>
    dsimp only at hs
    split at hs
    · exact plan now w hs
    · cases hs; rfl
  | topicGoal g w =>
    dsimp only at hs
    unfold cbGoal at hs
    split at hs
    · cases hs; rfl
    · rw [Option.map_eq_some_iff] at hs
      obtain ⟨⟨s1, b⟩, h1, rfl⟩ := hs
      exact done (setGoal_kept g w _ _ _ h1)
  | baseGoal late g w =>
    dsimp only at hs
    split at hs
    · cases hs; rfl
    · obtain ⟨r1, r2, r3⟩ := receive_kept .base s.count { s with count := s.count + 1 }
      obtain ⟨a1, a2, a3⟩ := cbAction_kept g w _ s' hs
      exact done ⟨a1.trans r1, a2.trans r2, a3.trans r3⟩
  | tolGoal late g t w =>
    dsimp only at hs
    split at hs
    · cases hs; rfl
    · obtain ⟨r1, r2, r3⟩ := receive_kept .tolerant s.count { s with count := s.count + 1 }
      obtain ⟨a1, a2, a3⟩ := cbTolerant_kept g t w _ s' hs
      exact done ⟨a1.trans r1, a2.trans r2, a3.trans r3⟩
  | cancel k =>
    cases k with
    | base =>
      dsimp only at hs
      cases hs
      split
      · obtain ⟨h1, h2, h3⟩ := cbPreempt_kept s
        rw [h1, h2]; rfl
      · rfl
    | tolerant =>
      dsimp only at hs
      cases hs
      split
      · obtain ⟨h1, h2, h3⟩ := cbPreempt_kept s
        rw [h1, h2]; rfl
      · rfl
  | escape w =>
    dsimp only at hs
    split at hs
    · exact done (escapeNow_kept w s s' hs)
    · cases hs; rfl
  | config c => dsimp only at hs; cases hs; rfl

theorem foldlM_append_some {α β : Type} (f : α → β → Option α) (l1 l2 : List β) (a c : α)
    (h : (l1 ++ l2).foldlM f a = some c) : ∃ b, l1.foldlM f a = some b ∧ l2.foldlM f b = some c := by
  rw [List.foldlM_append] at h
  cases hb : l1.foldlM f a with
  | none => rw [hb] at h; cases h
  | some b => rw [hb] at h; exact ⟨b, rfl, h⟩

theorem seen_foldlM : ∀ (h : List (Event P)) (s s' : St P), h.foldlM step s = some s' →
    (s'.hasMap, s'.lastCostmap) = h.foldl lastUpdate1 (s.hasMap, s.lastCostmap) := by
  intro h
  induction h with
  | nil => intro s s' hr; simp only [List.foldlM_nil] at hr; cases hr; rfl
  | cons e h ih =>
    intro s s' hr
    rw [List.foldlM_cons] at hr
    cases hst : step s e with
    | none => rw [hst] at hr; cases hr
    | some s1 =>
      rw [hst] at hr
      rw [ih s1 s' hr, step_seen s s1 e hst]
      rfl

theorem lastCostmap_run (c : Cfg) (p : P) (h : List (Event P)) (s : St P) (hr : run c p h = some s) :
    s.lastCostmap = lastUpdate h := by
  have := seen_foldlM h _ s hr
  unfold lastUpdate
  exact congrArg Prod.snd this

end Verif.PlannerNode
