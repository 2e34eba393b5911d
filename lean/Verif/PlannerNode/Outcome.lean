import Verif.PlannerNode.Total
/-! # Why each answer is given -/
namespace Verif.PlannerNode
variable {P : Type}

/-- `g` is where pose `o` ends up: itself, or moved by one of the worlds in `W`. -/
def EndsUp (W : World P → Prop) (o g : P) : Prop := g = o ∨ ∃ w, W w ∧ w.goal o = .moved g

/-- While not escaping, the planner heads for the requested pose. -/
def Target (W : World P → Prop) (s : St P) : Prop :=
  s.hasGoal = true → s.escaping = .no → EndsUp W s.goalOriginal s.goal

theorem EndsUp.mono {W W' : World P → Prop} {o g : P} (h : EndsUp W o g) (hw : ∀ w, W w → W' w) : EndsUp W' o g :=
  h.imp id (fun ⟨w, h1, h2⟩ => ⟨w, hw w h1, h2⟩)

theorem target_take (W : World P → Prop) (p : P) (b : Bool) (s : St P) : Target W (takeEscape p b s) :=
  fun _ h => absurd h (takeEscape_escaping p b s)

theorem target_back (W : World P → Prop) (s : St P) : Target W (backToOriginal s) := fun _ _ => .inl rfl

theorem target_escape (W : World P → Prop) (w : World P) (c : St P → Option (St P × Bool)) (who : Caller)
    (hc : ∀ s s' b, EscOk s → Target W s → c s = some (s', b) → Target W s')
    (s s' : St P) (ho : EscOk s) (ht : Target W s) (h : escapeGoal w c who s = some s') : Target W s' := by
  unfold escapeGoal at h
  split at h
  · cases h; exact ht
  split at h
  · cases h; exact ht
  split at h
  · split at h
    · cases h; exact ht
    · rw [Option.map_eq_some_iff] at h
      obtain ⟨⟨s1, b⟩, h1, rfl⟩ := h
      exact hc _ _ _ ((moves_takeEscape _ _ s).2.2 ho) (target_take W _ _ s) h1
  · split at h
    · cases h; exact ht
    · rw [Option.map_eq_some_iff] at h
      obtain ⟨⟨s1, b⟩, h1, rfl⟩ := h
      exact hc _ _ _ ((moves_back s).2.2 ho) (target_back W s) h1
    · rw [Option.map_eq_some_iff] at h
      obtain ⟨⟨s1, b⟩, h1, rfl⟩ := h
      exact hc _ _ _ ((moves_takeEscape _ _ s).2.2 ho) (target_take W _ _ s) h1

theorem target_cache (W : World P → Prop) (w : World P) (hw : W w) : ∀ (n : Nat) (s s' : St P) (b : Bool),
    EscOk s → Target W s → cache w n s = some (s', b) → Target W s' := by
  intro n
  induction n with
  | zero => intro s s' b _ _ h; cases h
  | succ n ih =>
    intro s s' b ho ht h
    unfold cache at h
    dsimp only at h
    split at h
    · cases h; exact ht
    split at h
    · cases h; exact ht
    split at h
    · cases h; exact ht
    · cases h; exact ht
    · split at h
      · cases h; exact ht
      · split at h
        · cases h; exact target_back W _
        split at h
        · rw [Option.map_eq_some_iff] at h
          obtain ⟨s1, h1, h2⟩ := h
          cases h2
          refine target_escape W w _ _ ih { s with cacheReady := false, startOccupied := false, stuck := s.stuck + 1 } s' ?_ ?_ h1
          · exact ho
          · exact ht
        · cases h; exact ht
      · rename_i p hp
        cases h
        intro _ hesc
        have hr : s.goalRaw = s.goalOriginal := ho.1 hesc
        rw [hr] at hp
        exact .inr ⟨w, hw, hp⟩
      · cases h
        intro _ hesc
        exact .inl (ho.1 hesc)

/-- A goal is refused only if its frame is not the map's or it (or the robot) is outside the map. -/
theorem cache_false (w : World P) (n : Nat) (s s' : St P) (h : cache w n s = some (s', false)) :
    w.start = .outOfMap ∨ w.goal s.goalRaw = .outOfMap := by
  cases n with
  | zero => cases h
  | succ n =>
    unfold cache at h
    dsimp only at h
    split at h
    · cases h
    split at h
    · cases h
    split at h
    · rename_i hs; exact .inl hs
    · cases h
    · split at h
      · rename_i hg; exact .inr hg
      · split at h
        · cases h
        split at h
        · rw [Option.map_eq_some_iff] at h
          obtain ⟨s1, h1, h2⟩ := h
          cases h2
        · cases h
      · cases h
      · cases h

/-- Why a planning cycle in (refreshed) state `s` publishes `o`; `n` is the failure counter after it. -/
def CycleWhy (w : World P) (s : St P) (n : Int) (o : Out P) : Prop :=
  Mute o ∨ ∃ i, Open s i ∧
    ((o = .answer i .reached ∧ s.phase = .finishing ∧ s.hasGoal = true ∧ |w.heading (finalPose s)| < headingTolerance s) ∨
     (o = .answer i .aborted ∧ s.cfg.maxRetry ≠ -1 ∧ n > s.cfg.maxRetry) ∨
     (o = .answer i .passed ∧ s.hasGoal = true ∧ s.escaping = .no ∧ NearGoal w s.goal (goalTolerance s) ∧ s.tol.Holds i ∧
       ∃ t, s.tolGoal = some t ∧ t.continuous = true))

theorem planFinish_why (w : World P) (n : Int) (s s' : St P) (hp : s.phase = .finishing) (hg : s.hasGoal = true)
    (hs : planFinish w s = some s') : Kept (CycleWhy w s n) s s' := by
  unfold planFinish at hs
  dsimp only at hs
  cases hl : (if s.tol.active = true then s.tolGoal.map Tol.angFinish else some s.cfg.angFinish) with
  | none => rw [hl] at hs; cases hs
  | some lim =>
  rw [hl] at hs
  dsimp only at hs
  have he : lim = headingTolerance s := by
    unfold headingTolerance
    split at hl
    · rename_i ha
      rw [if_pos ha]
      cases htg : s.tolGoal with
      | none => rw [htg] at hl; cases hl
      | some t => rw [htg] at hl; cases hl; rfl
    · rename_i ha
      rw [if_neg ha]
      cases hl; rfl
  by_cases hy : |w.heading (if s.cfg.forceOrientation = true then s.goalRaw else s.goal)| < lim
  · rw [if_pos hy] at hs
    cases hs
    refine Kept.trans (Kept.trans (s' := { s with phase := .done, hasGoal := false }) (Kept.refl s)
      ((finishBoth_kept .reached _).mono ?_)) (Kept.emit _ _ (.inl trivial))
    rintro o ⟨i, hi, rfl⟩
    exact .inr ⟨i, hi, .inl ⟨rfl, hp, hg, by rw [he] at hy; exact hy⟩⟩
  · rw [if_neg hy] at hs
    cases hs
    exact (Kept.emit (.path _) s (.inl trivial)).trans (Kept.emit _ _ (.inl trivial))

theorem goalTolerance_eq (s : St P) (t : Int × Int) (hesc : s.escaping = .no) (h : tolerance s = some t) :
    t = goalTolerance s := by
  unfold tolerance at h
  unfold goalTolerance
  rw [if_neg (not_not.mpr hesc)] at h
  split at h
  · rename_i ha
    rw [if_pos ha]
    cases htg : s.tolGoal with
    | none => rw [htg] at h; cases h
    | some t => rw [htg] at h; cases h; rfl
  · rename_i ha
    rw [if_neg ha]
    cases h; rfl

theorem near_of_any (w : World P) (g : P) (ds : List (Int × Int)) (t : Int × Int) (h : w.starts g = some ds)
    (ha : ds.any (within t) = true) : NearGoal w g t := by
  obtain ⟨d, hd, hw⟩ := List.any_eq_true.mp ha
  exact ⟨ds, h, d, hd, by unfold within at hw; exact of_decide_eq_true hw⟩

theorem makePlan_why (w : World P) (n : Int) (s s' : St P) (ps : List P) (hg : s.hasGoal = true) (hs : makePlan w s = some (s', ps)) :
    Kept (CycleWhy w s n) s s' := by
  unfold makePlan at hs
  split at hs
  · cases hs; exact Kept.refl s
  rename_i ds hds
  split at hs
  · cases hs
  rename_i t ht
  split at hs
  · rename_i hany
    split at hs
    · rw [Option.map_eq_some_iff] at hs
      obtain ⟨⟨s1, b⟩, h1, h2⟩ := hs
      cases h2
      exact ((moves_back s).trans (moves_cache w _ _ _ _ h1)).1.kept
    · rename_i hesc
      have hesc : s.escaping = .no := not_not.mp hesc
      split at hs
      · rename_i hta
        split at hs
        · cases hs
        rename_i tg htg
        split at hs
        · rename_i hcont
          have hf : Kept (CycleWhy w s n) s (finish .tolerant .passed s) := by
            unfold PlannerNode.finish
            dsimp only
            rw [if_pos hta]
            split
            · rename_i i hi
              refine Kept.emit (A := CycleWhy w s n) (.answer i .passed) { s with tol := { s.tol with active := false } } ?_
              refine .inr ⟨i, .inr ⟨hta, hi⟩, .inr (.inr ⟨rfl, hg, hesc, ?_, ⟨hta, hi⟩, tg, htg, hcont⟩)⟩
              rw [← goalTolerance_eq s t hesc ht]
              exact near_of_any w _ ds t hds hany
            · exact Kept.refl s
          refine hf.trans ?_
          exact Kept.trans (s' := { finish .tolerant .passed s with tolGoal := none }) (Kept.refl _)
            ((searchPath_kept w _ _ _ hs).mono (fun _ h => .inl h))
        · cases hs
          exact (Kept.emit (.path _) { s with phase := .finishing } (.inl trivial))
      · cases hs
        exact (Kept.emit (.path _) { s with phase := .finishing } (.inl trivial))
  · exact (searchPath_kept w s s' ps hs).mono (fun _ h => .inl h)

theorem planMove_why (w : World P) (s s' : St P) (hg : s.hasGoal = true) (hs : planMove w s = some s') :
    Kept (CycleWhy w s s'.stuck) s s' := by
  unfold planMove at hs
  dsimp only at hs
  split at hs
  · rename_i hr
    cases hs
    have hst : (giveUp s).stuck = s.stuck := by
      obtain ⟨b, t, l, he, -⟩ := finishBoth_rest .aborted
        (emit (.path []) { s with error := .pathNotFound, phase := .done, hasGoal := false })
      unfold giveUp
      rw [he]
      rfl
    refine Kept.trans (s' := emit (.path []) { s with error := .pathNotFound, phase := .done, hasGoal := false })
      (Kept.emit (.path []) { s with error := .pathNotFound, phase := .done, hasGoal := false } (.inl trivial))
      ((finishBoth_kept .aborted _).mono ?_)
    rintro o ⟨i, hi, rfl⟩
    exact .inr ⟨i, hi, .inr (.inl ⟨rfl, hr.1, by rw [hst]; exact hr.2⟩)⟩
  split at hs
  · cases hs
    exact (Kept.trans (s' := { s with error := if s.startOccupied then .inRock else .pathNotFound }) (Kept.refl s)
      (Kept.emit (.path []) _ (.inl trivial))).trans (Kept.emit _ _ (.inl trivial))
  · rw [Option.map_eq_some_iff] at hs
    obtain ⟨⟨s1, ps⟩, h1, h2⟩ := hs
    generalize s'.stuck = n
    subst h2
    have hm := Kept.trans (s := s) (s' := { s with error := .goingWell }) (Kept.refl s)
      ((makePlan_why w n _ s1 ps (by exact hg) h1).mono (B := CycleWhy w s n) (fun o h => h))
    have hi := hm.trans (Kept.emit (.path ps) s1 (.inl trivial))
    exact ((hi.switchIf _ _).errIf _ _).trans (Kept.emit _ _ (.inl trivial))

/-- The state a planning cycle works on: the estimate is refreshed first. -/
def Refreshed (w : World P) (s s1 : St P) : Prop :=
  s1 = s ∨ ∃ b, cache w depth s = some (s1, b)

theorem Refreshed.moves {w : World P} {s s1 : St P} (h : Refreshed w s s1) : Moves s s1 := by
  rcases h with rfl | ⟨b, h⟩
  · exact Moves.refl _
  · exact moves_cache w _ _ _ _ h

theorem planPath_why (now : Int) (w : World P) (s s' : St P) (hs : planPath now w s = some s') :
    ∃ s1, Refreshed w s s1 ∧ Kept (CycleWhy w s1 s'.stuck) s s' := by
  unfold planPath at hs
  rw [Option.bind_eq_some_iff] at hs
  obtain ⟨s1, h1, hs⟩ := hs
  have hr : Refreshed w s s1 := by
    split at h1
    · rw [Option.map_eq_some_iff] at h1
      obtain ⟨⟨s2, b⟩, h2, rfl⟩ := h1
      exact .inr ⟨b, h2⟩
    · cases h1; exact .inl rfl
  refine ⟨s1, hr, ?_⟩
  have hq : ∀ (n : Int) (s2 : St P), Kept (CycleWhy w s1 n) s2 (publishStatus (emit (.path [])
      (if s2.cfg.retain then s2 else { s2 with error := .goingWell }))) := by
    intro n s2
    refine Kept.trans (Kept.trans (s' := if s2.cfg.retain then s2 else { s2 with error := .goingWell }) ?_
      (Kept.emit (.path []) _ (.inl trivial))) (Kept.emit _ _ (.inl trivial))
    split
    · exact Kept.refl s2
    · exact Kept.refl s2
  have hk : Kept (CycleWhy w s1 s'.stuck) s s1 := hr.moves.1.kept
  dsimp only at hs
  split at hs
  · have he : Kept (CycleWhy w s1 s'.stuck) s (emit (.path []) { s1 with error := .dataMissing }) :=
      hk.trans (Kept.trans (s' := { s1 with error := .dataMissing }) (Kept.refl s1) (Kept.emit (.path []) _ (.inl trivial)))
    split at hs
    · cases hs; exact he.trans (hq _ _)
    · cases hs; exact he.trans (Kept.emit _ _ (.inl trivial))
  split at hs
  · rename_i hall
    have hg : s1.hasGoal = true := by simp only [Bool.and_eq_true] at hall; exact hall.1.2
    have hk2 : Kept (CycleWhy w s1 s'.stuck) s { s1 with switchback := false } := hk
    split at hs
    · rename_i hp
      exact hk2.trans ((planFinish_why w s'.stuck { s1 with switchback := false } s' hp hg hs).mono (fun o h => h))
    · exact hk2.trans ((planMove_why w { s1 with switchback := false } s' hg hs).mono (fun o h => h))
  split at hs
  · cases hs; exact hk.trans (hq _ _)
  · cases hs; exact hk.trans (Kept.emit _ _ (.inl trivial))

/-! ### Entering the finishing phase -/

/-- How the finishing phase can hold in `s'`, given the earlier state `s` and the world `w`. -/
def Reaches (W : World P → Prop) (w : World P) (s s' : St P) : Prop :=
  s'.phase = .finishing → s'.hasGoal = true →
    (∀ i, Open s' i → Open s i) ∧ s'.goalOriginal = s.goalOriginal ∧ s.hasGoal = true ∧
    (s.phase = .finishing ∨ ∃ g, EndsUp W s.goalOriginal g ∧ NearGoal w g (goalTolerance s))

theorem Reaches.core {W : World P → Prop} {w : World P} {s s' : St P} (h : Moves s s') : Reaches W w s s' := by
  obtain ⟨⟨a, b, c, d, e, f, g, md, rfl⟩, hp, -⟩ := h
  intro h1 h2
  refine ⟨fun _ h => h, rfl, h2, .inl ?_⟩
  rcases hp with hp | ⟨hp, -⟩
  · rw [hp] at h1; exact h1
  · exact hp

/-- A refreshing step before a planning step. -/
theorem Reaches.after {W : World P → Prop} {w : World P} {s s1 s' : St P} (h : Moves s s1) (h' : Reaches W w s1 s') :
    Reaches W w s s' := by
  intro h1 h2
  obtain ⟨k1, k2, k3, k4⟩ := h' h1 h2
  obtain ⟨⟨a, b, c, d, e, f, g, md, rfl⟩, hp, -⟩ := h
  refine ⟨k1, k2, k3, ?_⟩
  rcases k4 with k4 | k4
  · rcases hp with hp | ⟨hp, -⟩
    · exact .inl (by rw [hp] at k4; exact k4)
    · exact .inl hp
  · exact .inr k4

theorem searchPath_phase (w : World P) (s s' : St P) (ps : List P) (hs : searchPath w s = some (s', ps)) :
    s'.phase = s.phase ∨ s.phase = .finishing := by
  unfold searchPath at hs
  dsimp only at hs
  split at hs
  · split at hs
    · rw [Option.map_eq_some_iff] at hs
      obtain ⟨s1, h1, h2⟩ := hs
      cases h2
      rcases (moves_escapeNow w _ _ h1).2.1 with h | h
      · exact .inl h
      · exact .inr h.1
    · cases hs; exact .inl rfl
  · split at hs
    · cases hs; exact .inl rfl
    · cases hs; exact .inl rfl

theorem makePlan_reaches (W : World P → Prop) (w : World P) (s s' : St P) (ps : List P) (hg : s.hasGoal = true)
    (ht : Target W s) (hn : s.phase ≠ .finishing) (hs : makePlan w s = some (s', ps)) : Reaches W w s s' := by
  have no : s'.phase = s.phase ∨ s.phase = .finishing → Reaches W w s s' := by
    intro h h1 _
    rcases h with h | h
    · rw [h] at h1; exact absurd h1 hn
    · exact absurd h hn
  unfold makePlan at hs
  split at hs
  · cases hs; exact no (.inl rfl)
  rename_i ds hds
  split at hs
  · cases hs
  rename_i t htol
  split at hs
  · rename_i hany
    split at hs
    · rw [Option.map_eq_some_iff] at hs
      obtain ⟨⟨s1, b⟩, h1, h2⟩ := hs
      cases h2
      rcases ((moves_back s).trans (moves_cache w _ _ _ _ h1)).2.1 with h | h
      · exact no (.inl h)
      · exact no (.inr h.1)
    · rename_i hesc
      have hesc : s.escaping = .no := not_not.mp hesc
      have near : ∃ g, EndsUp W s.goalOriginal g ∧ NearGoal w g (goalTolerance s) := by
        refine ⟨s.goal, ht hg hesc, ?_⟩
        rw [← goalTolerance_eq s t hesc htol]
        exact near_of_any w _ ds t hds hany
      split at hs
      · split at hs
        · cases hs
        split at hs
        · refine no ?_
          obtain ⟨b, t', l, he, -⟩ := finish_rest .tolerant .passed s
          have := searchPath_phase w _ _ _ hs
          rw [he] at this
          exact this
        · cases hs
          exact fun _ _ => ⟨fun _ h => h, rfl, hg, .inr near⟩
      · cases hs
        exact fun _ _ => ⟨fun _ h => h, rfl, hg, .inr near⟩
  · exact no (searchPath_phase w s s' ps hs)

theorem ite_fields (p : Prop) [Decidable p] (s : St P) (er : Err) :
    (if p then { s with error := er } else s).phase = s.phase ∧ (if p then { s with error := er } else s).hasGoal = s.hasGoal ∧
    (if p then { s with error := er } else s).base = s.base ∧ (if p then { s with error := er } else s).tol = s.tol ∧
    (if p then { s with error := er } else s).goalOriginal = s.goalOriginal := by
  split <;> exact ⟨rfl, rfl, rfl, rfl, rfl⟩

theorem ite_fields' (p : Prop) [Decidable p] (s : St P) (b : Bool) :
    (if p then { s with switchback := b } else s).phase = s.phase ∧
    (if p then { s with switchback := b } else s).hasGoal = s.hasGoal ∧
    (if p then { s with switchback := b } else s).base = s.base ∧ (if p then { s with switchback := b } else s).tol = s.tol ∧
    (if p then { s with switchback := b } else s).goalOriginal = s.goalOriginal := by
  split <;> exact ⟨rfl, rfl, rfl, rfl, rfl⟩

/-- `Reaches` only looks at these fields of the later state. -/
theorem Reaches.same {W : World P → Prop} {w : World P} {s s' s'' : St P} (h : Reaches W w s s') (h1 : s''.phase = s'.phase)
    (h2 : s''.hasGoal = s'.hasGoal) (h3 : s''.base = s'.base) (h4 : s''.tol = s'.tol)
    (h5 : s''.goalOriginal = s'.goalOriginal) : Reaches W w s s'' := by
  intro k1 k2
  rw [h1] at k1; rw [h2] at k2
  obtain ⟨r1, r2, r3⟩ := h k1 k2
  refine ⟨fun i hi => r1 i ?_, h5.trans r2, r3⟩
  unfold Open at hi ⊢
  rw [h3, h4] at hi
  exact hi

theorem planMove_reaches (W : World P → Prop) (w : World P) (s s' : St P) (hg : s.hasGoal = true)
    (ht : Target W s) (hn : s.phase ≠ .finishing) (hs : planMove w s = some s') : Reaches W w s s' := by
  unfold planMove at hs
  dsimp only at hs
  split at hs
  · cases hs
    intro h1
    obtain ⟨b, t, l, he, -⟩ := finishBoth_rest .aborted
      (emit (.path []) { s with error := .pathNotFound, phase := .done, hasGoal := false })
    unfold giveUp at h1
    rw [he] at h1
    cases h1
  split at hs
  · cases hs
    exact fun h1 _ => absurd h1 hn
  · rw [Option.map_eq_some_iff] at hs
    obtain ⟨⟨s1, ps⟩, h1, rfl⟩ := hs
    have hm : Reaches W w s s1 := makePlan_reaches W w { s with error := .goingWell } s1 ps hg ht hn h1
    dsimp only
    have e1 := ite_fields' ((emit (.path ps) s1).cfg.waitSwitch = true) (emit (.path ps) s1) (w.turns ps)
    generalize hx : (if (emit (.path ps) s1).cfg.waitSwitch = true then
      { emit (.path ps) s1 with switchback := w.turns ps } else emit (.path ps) s1) = s2 at e1 ⊢
    have e2 := ite_fields (s2.escaping ≠ .no ∨ s.escaping ≠ .no) s2 (s2.escaping.worst s.escaping).err
    generalize (if s2.escaping ≠ .no ∨ s.escaping ≠ .no then
      { s2 with error := (s2.escaping.worst s.escaping).err } else s2) = s3 at e2 ⊢
    exact hm.same (e2.1.trans e1.1) (e2.2.1.trans e1.2.1) (e2.2.2.1.trans e1.2.2.1) (e2.2.2.2.1.trans e1.2.2.2.1)
      (e2.2.2.2.2.trans e1.2.2.2.2)

theorem planPath_reaches (W : World P → Prop) (now : Int) (w : World P) (hw : W w) (s s' : St P) (hi : Pre s) (ht : Target W s)
    (hs : planPath now w s = some s') : Reaches W w s s' := by
  unfold planPath at hs
  rw [Option.bind_eq_some_iff] at hs
  obtain ⟨s1, h1, hs⟩ := hs
  have hr : Refreshed w s s1 := by
    split at h1
    · rw [Option.map_eq_some_iff] at h1
      obtain ⟨⟨s2, b⟩, h2, rfl⟩ := h1
      exact .inr ⟨b, h2⟩
    · cases h1; exact .inl rfl
  have ht1 : Target W s1 := by
    rcases hr with rfl | ⟨b, hc⟩
    · exact ht
    · intro hg
      have hg0 : s.hasGoal = true := by
        obtain ⟨a, b', c, d, e, f, g, md, rfl⟩ := (moves_cache w _ _ _ _ hc).1; exact hg
      exact target_cache W w hw _ s s1 b ⟨hi.esc hg0, hi.fin hg0⟩ ht hc hg
  refine Reaches.after hr.moves ?_
  have triv : ∀ s2 : St P, s2.phase = s1.phase → s2.hasGoal = s1.hasGoal → s2.base = s1.base → s2.tol = s1.tol →
      s2.goalOriginal = s1.goalOriginal → Reaches W w s1 s2 := fun s2 a b c d e =>
    (Reaches.core (Moves.refl s1)).same a b c d e
  have hq : ∀ s2 : St P, s2.phase = s1.phase → s2.hasGoal = s1.hasGoal → s2.base = s1.base → s2.tol = s1.tol →
      s2.goalOriginal = s1.goalOriginal → Reaches W w s1 (publishStatus (emit (.path [])
      (if s2.cfg.retain then s2 else { s2 with error := .goingWell }))) := by
    intro s2 a b c d e
    refine triv _ ?_ ?_ ?_ ?_ ?_ <;> (unfold publishStatus emit; dsimp only; split <;> assumption)
  dsimp only at hs
  split at hs
  · split at hs
    · cases hs; exact hq (emit (.path []) { s1 with error := .dataMissing }) rfl rfl rfl rfl rfl
    · cases hs; exact triv _ rfl rfl rfl rfl rfl
  split at hs
  · rename_i hall
    have hg : s1.hasGoal = true := by simp only [Bool.and_eq_true] at hall; exact hall.1.2
    split at hs
    · rename_i hp
      have hp : s1.phase = .finishing := hp
      intro k1 k2
      unfold planFinish at hs
      dsimp only at hs
      generalize (if s1.tol.active = true then s1.tolGoal.map Tol.angFinish else some s1.cfg.angFinish) = lim at hs
      cases lim with
      | none => cases hs
      | some lim =>
      dsimp only at hs
      by_cases hy : |w.heading (if s1.cfg.forceOrientation = true then s1.goalRaw else s1.goal)| < lim
      · rw [if_pos hy] at hs
        cases hs
        obtain ⟨b, t, l, he, -⟩ := finishBoth_rest .reached
          { s1 with switchback := false, phase := .done, hasGoal := false }
        unfold publishStatus emit at k1
        rw [he] at k1
        cases k1
      · rw [if_neg hy] at hs
        cases hs
        exact ⟨fun _ h => h, rfl, hg, .inl hp⟩
    · rename_i hp
      exact planMove_reaches W w { s1 with switchback := false } s' hg ht1 hp hs
  split at hs
  · cases hs; exact hq s1 rfl rfl rfl rfl rfl
  · cases hs; exact triv _ rfl rfl rfl rfl rfl

theorem target_plan_aux (W : World P → Prop) (w : World P) (hw : W w) (s s' : St P) (ps : List P)
    (ho : EscOk s) (ht : Target W s) (hs : makePlan w s = some (s', ps)) : Target W s' := by
  have search : ∀ s : St P, EscOk s → Target W s → searchPath w s = some (s', ps) → Target W s' := by
    intro s ho ht hs
    unfold searchPath at hs
    dsimp only at hs
    split at hs
    · split at hs
      · rw [Option.map_eq_some_iff] at hs
        obtain ⟨s1, h1, h2⟩ := hs
        cases h2
        exact target_escape W w _ _ (fun _ _ _ => target_cache W w hw _ _ _ _) { s with error := .pathNotFound } s' ho ht h1
      · cases hs; exact ht
    · split at hs
      · cases hs; exact ht
      · cases hs; exact ht
  unfold makePlan at hs
  split at hs
  · cases hs; exact ht
  split at hs
  · cases hs
  split at hs
  · split at hs
    · rw [Option.map_eq_some_iff] at hs
      obtain ⟨⟨s1, b⟩, h1, h2⟩ := hs
      cases h2
      exact target_cache W w hw _ _ _ _ ((moves_back s).2.2 ho) (target_back W s) h1
    · split at hs
      · split at hs
        · cases hs
        split at hs
        · refine search _ ?_ ?_ hs
          · obtain ⟨b, t, l, he, -⟩ := finish_rest .tolerant .passed s
            rw [he]; exact ho
          · obtain ⟨b, t, l, he, -⟩ := finish_rest .tolerant .passed s
            rw [he]; exact ht
        · cases hs; exact ht
      · cases hs; exact ht
  · exact search s ho ht hs

/-- `Target` only looks at these fields. -/
theorem Target.same {W : World P → Prop} {s s' : St P} (h : Target W s) (h1 : s'.hasGoal = true → s.hasGoal = true)
    (h2 : s'.escaping = s.escaping) (h3 : s'.goalOriginal = s.goalOriginal) (h4 : s'.goal = s.goal) : Target W s' := by
  intro k1 k2
  rw [h2] at k2
  rw [h3, h4]
  exact h (h1 k1) k2

theorem target_planMove (W : World P → Prop) (w : World P) (hw : W w) (s s' : St P) (ho : EscOk s)
    (ht : Target W s) (hs : planMove w s = some s') : Target W s' := by
  unfold planMove at hs
  dsimp only at hs
  split at hs
  · cases hs
    intro h1
    obtain ⟨b, t, l, he, -⟩ := finishBoth_rest .aborted
      (emit (.path []) { s with error := .pathNotFound, phase := .done, hasGoal := false })
    unfold giveUp at h1
    rw [he] at h1
    cases h1
  split at hs
  · cases hs; exact ht
  · rw [Option.map_eq_some_iff] at hs
    obtain ⟨⟨s1, ps⟩, h1, rfl⟩ := hs
    have hm : Target W s1 := target_plan_aux W w hw { s with error := .goingWell } s1 ps ho ht h1
    dsimp only
    generalize hx : (if (emit (.path ps) s1).cfg.waitSwitch = true then
      { emit (.path ps) s1 with switchback := w.turns ps } else emit (.path ps) s1) = s2
    have hm2 : Target W s2 := by
      rw [← hx]; split
      · exact hm
      · exact hm
    generalize hy : (if s2.escaping ≠ .no ∨ s.escaping ≠ .no then
      { s2 with error := (s2.escaping.worst s.escaping).err } else s2) = s3
    have hm3 : Target W s3 := by
      rw [← hy]; split
      · exact hm2
      · exact hm2
    exact hm3

theorem target_planPath (W : World P → Prop) (now : Int) (w : World P) (hw : W w) (s s' : St P) (hi : Pre s) (ht : Target W s)
    (hs : planPath now w s = some s') : Target W s' := by
  unfold planPath at hs
  rw [Option.bind_eq_some_iff] at hs
  obtain ⟨s1, h1, hs⟩ := hs
  have hr : Refreshed w s s1 := by
    split at h1
    · rw [Option.map_eq_some_iff] at h1
      obtain ⟨⟨s2, b⟩, h2, rfl⟩ := h1
      exact .inr ⟨b, h2⟩
    · cases h1; exact .inl rfl
  have hp1 : Pre s1 := hi.moves (fun _ => hr.moves.2.2) hr.moves.1
  have ht1 : Target W s1 := by
    rcases hr with rfl | ⟨b, hc⟩
    · exact ht
    · intro hg
      have hg0 : s.hasGoal = true := by
        obtain ⟨a, b', c, d, e, f, g, md, rfl⟩ := (moves_cache w _ _ _ _ hc).1; exact hg
      exact target_cache W w hw _ s s1 b ⟨hi.esc hg0, hi.fin hg0⟩ ht hc hg
  have hq : ∀ s2 : St P, Target W s2 → Target W (publishStatus (emit (.path [])
      (if s2.cfg.retain then s2 else { s2 with error := .goingWell }))) := by
    intro s2 h2
    generalize hy : (if s2.cfg.retain = true then s2 else { s2 with error := .goingWell }) = s3
    have : Target W s3 := by
      rw [← hy]; split
      · exact h2
      · exact h2
    exact this
  dsimp only at hs
  split at hs
  · split at hs
    · cases hs; exact hq (emit (.path []) { s1 with error := .dataMissing }) ht1
    · cases hs; exact ht1
  split at hs
  · rename_i hall
    have hg : s1.hasGoal = true := by simp only [Bool.and_eq_true] at hall; exact hall.1.2
    split at hs
    · unfold planFinish at hs
      dsimp only at hs
      generalize (if s1.tol.active = true then s1.tolGoal.map Tol.angFinish else some s1.cfg.angFinish) = lim at hs
      cases lim with
      | none => cases hs
      | some lim =>
      dsimp only at hs
      by_cases hy : |w.heading (if s1.cfg.forceOrientation = true then s1.goalRaw else s1.goal)| < lim
      · rw [if_pos hy] at hs
        cases hs
        intro h1
        obtain ⟨b, t, l, he, -⟩ := finishBoth_rest .reached
          { s1 with switchback := false, phase := .done, hasGoal := false }
        unfold publishStatus emit at h1
        rw [he] at h1
        cases h1
      · rw [if_neg hy] at hs
        cases hs
        exact ht1
    · exact target_planMove W w hw { s1 with switchback := false } s' ⟨hp1.esc hg, hp1.fin hg⟩ ht1 hs
  split at hs
  · cases hs; exact hq s1 ht1
  · cases hs; exact ht1

end Verif.PlannerNode
