import Verif.PlannerNode.Outcome
/-! # Causes of answers, event by event -/
namespace Verif.PlannerNode
variable {P : Type}

/-- Why event `e`, leading from `s` to `s'`, answers goal `i` with `a`. -/
def Why (W : World P → Prop) (s : St P) (e : Event P) (s' : St P) (i : Nat) : Answer → Prop
  | .recalled => ∃ k late g w, Brings k late g w e ∧ if late then i = s.count else (server k s).pending = some i
  | .preempted => ∃ k, (server k s).Holds i ∧ (e = .cancel k ∨ ∃ g w, Brings k false g w e)
  | .cleared => i = s.count ∧ ∃ k g w, Brings k false g w e ∧ g.oriented = false
  | .aborted => (i = s.count ∧ ∃ k g w, Brings k false g w e ∧
      (s.frame ≠ g.frame ∨ w.start = .outOfMap ∨ w.goal g.pose = .outOfMap)) ∨
      (Open s i ∧ s.cfg.maxRetry ≠ -1 ∧ s'.stuck > s.cfg.maxRetry)
  | .reached => Open s i ∧ s.hasGoal = true ∧ s.phase = .finishing ∧
      ∃ w ∈ worlds e, ∃ g, EndsUp W s.goalOriginal g ∧ |w.heading g| < headingTolerance s
  | .passed => s.tol.Holds i ∧ (∃ t, s.tolGoal = some t ∧ t.continuous = true) ∧
      ∃ w ∈ worlds e, ∃ g, EndsUp W s.goalOriginal g ∧ NearGoal w g (goalTolerance s)

/-- The outputs of an event are silent about goals, accept the new goal, or answer for a reason. -/
def Okay (W : World P → Prop) (s : St P) (e : Event P) (s' : St P) (o : Out P) : Prop :=
  (∀ i a, o = .answer i a → Why W s e s' i a)

/-- Publishing only appends. -/
def Adds (A : Out P → Prop) (s s' : St P) : Prop := ∃ l, s'.log = s.log ++ l ∧ ∀ o ∈ l, A o

theorem Adds.refl {A : Out P → Prop} (s : St P) : Adds A s s := ⟨[], by simp, fun _ h => by cases h⟩

theorem Adds.trans {A : Out P → Prop} {s s' s'' : St P} (h : Adds A s s') (h' : Adds A s' s'') : Adds A s s'' := by
  obtain ⟨l, h6, h7⟩ := h
  obtain ⟨m, k6, k7⟩ := h'
  refine ⟨l ++ m, by rw [k6, h6, List.append_assoc], ?_⟩
  intro o ho
  rcases List.mem_append.mp ho with ho | ho
  · exact h7 o ho
  · exact k7 o ho

theorem Adds.mono {A B : Out P → Prop} {s s' : St P} (h : Adds A s s') (hab : ∀ o, A o → B o) : Adds B s s' := by
  obtain ⟨l, h6, h7⟩ := h
  exact ⟨l, h6, fun o ho => hab o (h7 o ho)⟩

theorem Kept.adds {A : Out P → Prop} {s s' : St P} (h : Kept A s s') : Adds A s s' := h.2.2.2.2.2

theorem Adds.one {A : Out P → Prop} {s s' : St P} (o : Out P) (h : s'.log = s.log ++ [o]) (ha : A o) : Adds A s s' :=
  ⟨[o], h, fun x hx => by rw [List.mem_singleton.mp hx]; exact ha⟩

theorem Mute.okay {W : World P → Prop} {s : St P} {e : Event P} {s' : St P} {o : Out P} (h : Mute o) : Okay W s e s' o := by
  intro i a he
  subst he
  exact absurd h (by simp [Mute])

/-- The reason for each output of `planPath`, in terms of the state before it. -/
theorem planPath_cause (W : World P → Prop) (now : Int) (w : World P) (hw : W w) (e : Event P) (he : w ∈ worlds e)
    (s s' : St P) (hi : Pre s) (ht : Target W s) (hs : planPath now w s = some s') : Adds (Okay W s e s') s s' := by
  obtain ⟨s1, hr, hk⟩ := planPath_why now w s s' hs
  have hm := hr.moves
  have hp1 : Pre s1 := hi.moves (fun _ => hm.2.2) hm.1
  have ht1 : Target W s1 := by
    rcases hr with rfl | ⟨b, hc⟩
    · exact ht
    · intro hg
      have hg0 : s.hasGoal = true := by
        obtain ⟨a, b', c, d, e, f, g, md, rfl⟩ := (moves_cache w _ _ _ _ hc).1; exact hg
      exact target_cache W w hw _ s s1 b ⟨hi.esc hg0, hi.fin hg0⟩ ht hc hg
  refine hk.adds.mono ?_
  rintro o (ho | ⟨i, hop, ho⟩)
  · exact ho.okay
  · intro j a hja
    obtain ⟨⟨a', b', c', d', e', f', g', md', rfl⟩, hph, -⟩ := hm
    rcases ho with ⟨rfl, h1, h2, h3⟩ | ⟨rfl, h1, h2⟩ | ⟨rfl, h1, h2, h3, h4, h5⟩
    · cases hja
      refine ⟨hop, h2, ?_, w, he, _, ?_, h3⟩
      · rcases hph with hph | ⟨hph, -⟩
        · rw [hph] at h1; exact h1
        · exact hph
      · have hesc := hp1.fin h2 h1
        unfold finalPose
        split
        · exact .inl (hp1.esc h2 hesc)
        · exact ht1 h2 hesc
    · cases hja
      exact .inr ⟨hop, h1, h2⟩
    · cases hja
      exact ⟨h4, h5, w, he, _, ht1 h1 h2, h3⟩

/-! ### Goals -/

/-- What `setGoal` does. -/
theorem setGoal_cases (W : World P → Prop) (g : GoalMsg P) (w : World P) (hw : W w) (s s' : St P) (b : Bool)
    (hs : setGoal g w s = some (s', b)) :
    (b = false ∧ s.frame ≠ g.frame ∧ s' = s) ∨
    (b = false ∧ s'.hasGoal = false ∧ (w.start = .outOfMap ∨ w.goal g.pose = .outOfMap) ∧ s'.log = s.log) ∨
    (b = true ∧ s'.phase = .doing ∧ Target W s' ∧ Adds Mute s s') ∨
    (b = true ∧ g.oriented = false ∧ s'.hasGoal = false ∧ Adds (Ends s .cleared) s s') := by
  unfold setGoal at hs
  split at hs
  · rename_i hf; cases hs; exact .inl ⟨rfl, hf, rfl⟩
  dsimp only at hs
  split at hs
  · rw [Option.map_eq_some_iff] at hs
    obtain ⟨⟨s1, b1⟩, h1, h2⟩ := hs
    have ht1 := target_cache W w hw _ _ _ _ ⟨fun _ => rfl, fun _ => rfl⟩ (fun _ _ => .inl rfl) h1
    have hm := (moves_cache w _ _ _ _ h1).1
    cases b1 with
    | true =>
      simp only [if_true] at h2
      cases h2
      refine .inr (.inr (.inl ⟨rfl, rfl, ht1, ?_⟩))
      obtain ⟨a, b', c, d, e, f, k, md, rfl⟩ := hm
      exact .one _ rfl trivial
    | false =>
      simp only [Bool.false_eq_true, if_false] at h2
      cases h2
      refine .inr (.inl ⟨rfl, rfl, cache_false w _ _ _ h1, ?_⟩)
      obtain ⟨a, b', c, d, e, f, k, md, rfl⟩ := hm
      rfl
  · rename_i ho
    cases hs
    have ho : g.oriented = false := by simpa using ho
    refine .inr (.inr (.inr ⟨rfl, ho, ?_, ?_⟩))
    · obtain ⟨b, t, l, he, -⟩ := finishBoth_rest .cleared
        { s with goalOriginal := g.pose, goalRaw := g.pose, goal := g.pose, hasGoal := false }
      rw [he]
    · exact (finishBoth_kept .cleared
        { s with goalOriginal := g.pose, goalRaw := g.pose, goal := g.pose, hasGoal := false }).adds

theorem cbPreempt_adds (s : St P) : Adds (Ends s .preempted) s (cbPreempt s) := (finishBoth_kept .preempted s).adds

/-- What `receive` does for a reachable state. -/
theorem receive_base (s : St P) (h : Inv s) (A : Out P → Prop)
    (h1 : ∀ j, s.base.pending = some j → A (.answer j .recalled))
    (h2 : ∀ i, s.base.Holds i → A (.answer i .preempted)) :
    let r := receive .base s.count { s with count := s.count + 1 }
    Adds A s r ∧ r.frame = s.frame ∧ ((r.hasGoal = s.hasGoal ∧ r.phase = s.phase ∧ r.escaping = s.escaping ∧ r.goal = s.goal ∧
      r.goalRaw = s.goalRaw ∧ r.goalOriginal = s.goalOriginal) ∨ r.hasGoal = false) := by
  have key : ∀ s1 : St P, Adds A s s1 → s1.frame = s.frame → s1.hasGoal = s.hasGoal → s1.phase = s.phase →
      s1.escaping = s.escaping → s1.goal = s.goal → s1.goalRaw = s.goalRaw → s1.goalOriginal = s.goalOriginal →
      s1.base.active = s.base.active → s1.base.current = s.base.current → s1.tol = s.tol →
      let r := if s1.base.active then cbPreempt s1 else s1
      Adds A s r ∧ r.frame = s.frame ∧ ((r.hasGoal = s.hasGoal ∧ r.phase = s.phase ∧ r.escaping = s.escaping ∧ r.goal = s.goal ∧
        r.goalRaw = s.goalRaw ∧ r.goalOriginal = s.goalOriginal) ∨ r.hasGoal = false) := by
    intro s1 k1 k2 k3 k4 k5 k6 k7 k8 k9 k10 k11
    dsimp only
    split
    · rename_i ha
      refine ⟨k1.trans ((cbPreempt_adds s1).mono ?_), ?_, .inr rfl⟩
      · rintro o ⟨i, hi, rfl⟩
        refine h2 i ?_
        rcases hi with hi | hi
        · exact ⟨k9 ▸ hi.1, k10 ▸ hi.2⟩
        · rw [k11] at hi
          exact absurd ⟨k9 ▸ ha, hi.1⟩ h.1.one
      · obtain ⟨b, t, l, he, -⟩ := finishBoth_rest .preempted s1
        unfold cbPreempt; rw [he]; exact k2
    · exact ⟨k1, k2, .inl ⟨k3, k4, k5, k6, k7, k8⟩⟩
  unfold receive
  dsimp only
  cases hp : s.base.pending with
  | none =>
    exact key { s with count := s.count + 1, base := { s.base with pending := some s.count } } (Adds.refl s)
      rfl rfl rfl rfl rfl rfl rfl rfl rfl rfl
  | some j =>
    exact key { s with count := s.count + 1, base := { s.base with pending := some s.count },
                       log := s.log ++ [.answer j .recalled] } (.one _ rfl (h1 j hp))
      rfl rfl rfl rfl rfl rfl rfl rfl rfl rfl

theorem receive_tol (s : St P) (h : Inv s) (A : Out P → Prop)
    (h1 : ∀ j, s.tol.pending = some j → A (.answer j .recalled))
    (h2 : ∀ i, s.tol.Holds i → A (.answer i .preempted)) :
    let r := receive .tolerant s.count { s with count := s.count + 1 }
    Adds A s r ∧ r.frame = s.frame ∧ ((r.hasGoal = s.hasGoal ∧ r.phase = s.phase ∧ r.escaping = s.escaping ∧ r.goal = s.goal ∧
      r.goalRaw = s.goalRaw ∧ r.goalOriginal = s.goalOriginal) ∨ r.hasGoal = false) := by
  have key : ∀ s1 : St P, Adds A s s1 → s1.frame = s.frame → s1.hasGoal = s.hasGoal → s1.phase = s.phase →
      s1.escaping = s.escaping → s1.goal = s.goal → s1.goalRaw = s.goalRaw → s1.goalOriginal = s.goalOriginal →
      s1.tol.active = s.tol.active → s1.tol.current = s.tol.current → s1.base = s.base →
      let r := if s1.tol.active then cbPreempt s1 else s1
      Adds A s r ∧ r.frame = s.frame ∧ ((r.hasGoal = s.hasGoal ∧ r.phase = s.phase ∧ r.escaping = s.escaping ∧ r.goal = s.goal ∧
        r.goalRaw = s.goalRaw ∧ r.goalOriginal = s.goalOriginal) ∨ r.hasGoal = false) := by
    intro s1 k1 k2 k3 k4 k5 k6 k7 k8 k9 k10 k11
    dsimp only
    split
    · rename_i ha
      refine ⟨k1.trans ((cbPreempt_adds s1).mono ?_), ?_, .inr rfl⟩
      · rintro o ⟨i, hi, rfl⟩
        refine h2 i ?_
        rcases hi with hi | hi
        · rw [k11] at hi
          exact absurd ⟨hi.1, k9 ▸ ha⟩ h.1.one
        · exact ⟨k9 ▸ hi.1, k10 ▸ hi.2⟩
      · obtain ⟨b, t, l, he, -⟩ := finishBoth_rest .preempted s1
        unfold cbPreempt; rw [he]; exact k2
    · exact ⟨k1, k2, .inl ⟨k3, k4, k5, k6, k7, k8⟩⟩
  unfold receive
  dsimp only
  cases hp : s.tol.pending with
  | none =>
    exact key { s with count := s.count + 1, tol := { s.tol with pending := some s.count } } (Adds.refl s)
      rfl rfl rfl rfl rfl rfl rfl rfl rfl rfl
  | some j =>
    exact key { s with count := s.count + 1, tol := { s.tol with pending := some s.count },
                       log := s.log ++ [.answer j .recalled] } (.one _ rfl (h1 j hp))
      rfl rfl rfl rfl rfl rfl rfl rfl rfl rfl

theorem receive_base_tol (s : St P) (n : Nat) (i : Nat) (h : (receive .base n s).tol.Holds i) : s.tol.Holds i := by
  have key : ∀ s1 : St P, s1.tol = s.tol → ((if s1.base.active then cbPreempt s1 else s1).tol.Holds i) → s.tol.Holds i := by
    intro s1 e1 hh
    split at hh
    · obtain ⟨b, t, l, he, -, htt, -⟩ := finishBoth_rest .preempted s1
      unfold cbPreempt at hh
      rw [he] at hh
      have hh1 := hh.1
      dsimp only at hh1 hh
      rw [htt hh1, e1] at hh
      exact hh
    · rw [e1] at hh; exact hh
  unfold receive at h
  dsimp only at h
  cases hp : s.base.pending with
  | none =>
    rw [hp] at h
    exact key { s with base := { s.base with pending := some n } } rfl h
  | some j =>
    rw [hp] at h
    exact key { emit (.answer j .recalled) s with base := { s.base with pending := some n } } rfl h

theorem receive_tol_base (s : St P) (n : Nat) (i : Nat) (h : (receive .tolerant n s).base.Holds i) : s.base.Holds i := by
  have key : ∀ s1 : St P, s1.base = s.base → ((if s1.tol.active then cbPreempt s1 else s1).base.Holds i) → s.base.Holds i := by
    intro s1 e1 hh
    split at hh
    · obtain ⟨b, t, l, he, htt, -⟩ := finishBoth_rest .preempted s1
      unfold cbPreempt at hh
      rw [he] at hh
      have hh1 := hh.1
      dsimp only at hh1 hh
      rw [htt hh1, e1] at hh
      exact hh
    · rw [e1] at hh; exact hh
  unfold receive at h
  dsimp only at h
  cases hp : s.tol.pending with
  | none =>
    rw [hp] at h
    exact key { s with tol := { s.tol with pending := some n } } rfl h
  | some j =>
    rw [hp] at h
    exact key { emit (.answer j .recalled) s with tol := { s.tol with pending := some n } } rfl h

/-- `Reaches` without the world. -/
def Still (s s' : St P) : Prop :=
  s'.phase = .finishing → s'.hasGoal = true →
    (∀ i, Open s' i → Open s i) ∧ s'.goalOriginal = s.goalOriginal ∧ s.hasGoal = true ∧ s.phase = .finishing

theorem Still.reaches {W : World P → Prop} {w : World P} {s s' : St P} (h : Still s s') : Reaches W w s s' := by
  intro h1 h2
  obtain ⟨a, b, c, d⟩ := h h1 h2
  exact ⟨a, b, c, .inl d⟩

theorem cbAction_cause (W : World P → Prop) (g : GoalMsg P) (w : World P) (hw : W w) (s s' : St P) (n : Nat) (h : Inv s)
    (hb : s.base.active = false) (hp : s.base.pending = some n) (A : Out P → Prop) (hm : ∀ o, Mute o → A o)
    (hacc : ∀ k p, A (.accepted k n p)) (hcl : g.oriented = false → A (.answer n .cleared))
    (hab : (s.frame ≠ g.frame ∨ w.start = .outOfMap ∨ w.goal g.pose = .outOfMap) → A (.answer n .aborted))
    (hs : cbAction g w s = some s') : Adds A s s' ∧ Still s s' ∧ (Target W s → Target W s') := by
  unfold cbAction at hs
  split at hs
  · cases hs; exact ⟨Adds.refl s, fun a b => ⟨fun _ h => h, rfl, b, a⟩, id⟩
  rename_i hta
  have hta : s.tol.active = false := by simpa using hta
  rw [Option.map_eq_some_iff] at hs
  obtain ⟨⟨s1, b⟩, h1, h2⟩ := hs
  have hac : accept .base g.pose s = { s with base := ⟨some n, true, none⟩, log := s.log ++ [.accepted .base n g.pose] } := by
    unfold accept; simp only [hp]; rfl
  rw [hac] at h1
  have ad1 : Adds A s { s with base := ⟨some n, true, none⟩, log := s.log ++ [.accepted .base n g.pose] } :=
    .one _ rfl (hacc _ _)
  have hop : ∀ i, Open { s with base := ⟨some n, true, none⟩, log := s.log ++ [.accepted .base n g.pose] } i → i = n := by
    rintro i (hi | hi)
    · have := hi.2; cases this; rfl
    · have := hi.1; dsimp only at this; rw [hta] at this; cases this
  have hpre : Pre { s with base := ⟨some n, true, none⟩, log := s.log ++ [.accepted .base n g.pose] } :=
    { acc := h.1.acc.accept .base g.pose n hb hp, one := (fun hh => by rw [hta] at hh; exact absurd hh.2 (by simp)),
      cb := (fun _ => by simp), ct := h.1.ct, tolGoal := h.1.tolGoal, esc := h.1.esc, fin := h.1.fin }
  obtain ⟨hp1, ht, hf, hl⟩ := setGoal_pre g w _ s1 b hpre h1
  rcases setGoal_cases W g w hw _ s1 b h1 with ⟨rfl, hfr, rfl⟩ | ⟨rfl, hg, hout, hlog⟩ | ⟨rfl, hph, htg, had⟩ | ⟨rfl, ho, hg, had⟩
  · simp only [Bool.false_eq_true, if_false] at h2
    subst h2
    obtain ⟨b', t', l', he, hb', ht', -⟩ := finish_rest .base .aborted
      { s with base := ⟨some n, true, none⟩, log := s.log ++ [.accepted .base n g.pose] }
    refine ⟨ad1.trans ((finish_kept .base .aborted _).adds.mono ?_), ?_, ?_⟩
    · rintro o ⟨i, hi, rfl⟩
      rw [hop i hi]
      exact hab (.inl hfr)
    · intro k1 k2
      have hoff := (finish_off .base .aborted _ hpre).1 rfl
      refine ⟨?_, ?_, ?_, ?_⟩
      · intro i hi
        rcases hi with hi | hi
        · have h5 := hi.1; rw [hoff] at h5; cases h5
        · rw [he] at hi
          have h5 := hi.1
          dsimp only at h5 hi
          rw [ht' h5] at h5
          rw [hta] at h5; cases h5
      · rw [he]
      · rw [he] at k2; exact k2
      · rw [he] at k1; exact k1
    · intro htt; rw [he]; exact htt
  · simp only [Bool.false_eq_true, if_false] at h2
    subst h2
    obtain ⟨b', t', l', he, hb', ht', -⟩ := finish_rest .base .aborted s1
    have hg2 : (finish .base .aborted s1).hasGoal = false := by rw [he]; exact hg
    refine ⟨ad1.trans (Adds.trans ⟨[], by rw [hlog]; simp, by simp⟩ ((finish_kept .base .aborted _).adds.mono ?_)), ?_, ?_⟩
    · rintro o ⟨i, hi, rfl⟩
      have hi' : Open { s with base := ⟨some n, true, none⟩, log := s.log ++ [.accepted .base n g.pose] } i := by
        unfold Open at hi ⊢
        rw [(hf rfl).1, (hf rfl).2] at hi
        exact hi
      rw [hop i hi']
      exact hab (.inr hout)
    · intro _ k2; rw [hg2] at k2; cases k2
    · intro _ k2; rw [hg2] at k2; cases k2
  · simp only [if_true] at h2
    subst h2
    refine ⟨ad1.trans (had.mono hm), ?_, fun _ => htg⟩
    intro k1; rw [hph] at k1; cases k1
  · simp only [if_true] at h2
    subst h2
    refine ⟨ad1.trans (had.mono ?_), ?_, ?_⟩
    · rintro o ⟨i, hi, rfl⟩
      rw [hop i hi]
      exact hcl ho
    · intro _ k2; rw [hg] at k2; cases k2
    · intro _ k2; rw [hg] at k2; cases k2

theorem cbTolerant_cause (W : World P → Prop) (g : GoalMsg P) (t : Tol) (w : World P) (hw : W w) (s s' : St P) (n : Nat)
    (h : Inv s)
    (hb : s.tol.active = false) (hp : s.tol.pending = some n) (A : Out P → Prop) (hm : ∀ o, Mute o → A o)
    (hacc : ∀ k p, A (.accepted k n p)) (hcl : g.oriented = false → A (.answer n .cleared))
    (hab : (s.frame ≠ g.frame ∨ w.start = .outOfMap ∨ w.goal g.pose = .outOfMap) → A (.answer n .aborted))
    (hs : cbTolerantAction g t w s = some s') : Adds A s s' ∧ Still s s' ∧ (Target W s → Target W s') := by
  unfold cbTolerantAction at hs
  split at hs
  · cases hs; exact ⟨Adds.refl s, fun a b => ⟨fun _ h => h, rfl, b, a⟩, id⟩
  rename_i hta
  have hta : s.base.active = false := by simpa using hta
  rw [Option.map_eq_some_iff] at hs
  obtain ⟨⟨s1, b⟩, h1, h2⟩ := hs
  have hac : accept .tolerant g.pose s =
      { s with tol := ⟨some n, true, none⟩, log := s.log ++ [.accepted .tolerant n g.pose] } := by
    unfold accept; simp only [hp]; rfl
  rw [hac] at h1
  have ad1 : Adds A s { s with tol := ⟨some n, true, none⟩, log := s.log ++ [.accepted .tolerant n g.pose], tolGoal := some t } :=
    .one _ rfl (hacc _ _)
  have hop : ∀ i, Open { s with tol := ⟨some n, true, none⟩, log := s.log ++ [.accepted .tolerant n g.pose], tolGoal := some t } i → i = n := by
    rintro i (hi | hi)
    · have := hi.1; dsimp only at this; rw [hta] at this; cases this
    · have := hi.2; cases this; rfl
  have hpre : Pre { s with tol := ⟨some n, true, none⟩, log := s.log ++ [.accepted .tolerant n g.pose], tolGoal := some t } :=
    { acc := (h.1.acc.swap.accept .tolerant g.pose n hb hp).swap,
      one := (fun hh => by rw [hta] at hh; exact absurd hh.1 (by simp)),
      cb := h.1.cb, ct := (fun _ => by simp), tolGoal := (fun _ => by simp), esc := h.1.esc, fin := h.1.fin }
  obtain ⟨hp1, ht, hf, hl⟩ := setGoal_pre g w _ s1 b hpre h1
  rcases setGoal_cases W g w hw _ s1 b h1 with ⟨rfl, hfr, rfl⟩ | ⟨rfl, hg, hout, hlog⟩ | ⟨rfl, hph, htg, had⟩ | ⟨rfl, ho, hg, had⟩
  · simp only [Bool.false_eq_true, if_false] at h2
    subst h2
    obtain ⟨b', t', l', he, hb', ht', -⟩ := finish_rest .tolerant .aborted
      { s with tol := ⟨some n, true, none⟩, log := s.log ++ [.accepted .tolerant n g.pose], tolGoal := some t }
    refine ⟨ad1.trans ((finish_kept .tolerant .aborted _).adds.mono ?_), ?_, ?_⟩
    · rintro o ⟨i, hi, rfl⟩
      rw [hop i hi]
      exact hab (.inl hfr)
    · intro k1 k2
      have hoff := (finish_off .tolerant .aborted _ hpre).2 rfl
      refine ⟨?_, ?_, ?_, ?_⟩
      · intro i hi
        rcases hi with hi | hi
        · rw [he] at hi
          have h5 := hi.1
          dsimp only at h5 hi
          rw [hb' h5] at h5
          rw [hta] at h5; cases h5
        · have h5 := hi.1; rw [hoff] at h5; cases h5
      · rw [he]
      · rw [he] at k2; exact k2
      · rw [he] at k1; exact k1
    · intro htt; rw [he]; exact htt
  · simp only [Bool.false_eq_true, if_false] at h2
    subst h2
    obtain ⟨b', t', l', he, hb', ht', -⟩ := finish_rest .tolerant .aborted s1
    have hg2 : (finish .tolerant .aborted s1).hasGoal = false := by rw [he]; exact hg
    refine ⟨ad1.trans (Adds.trans ⟨[], by rw [hlog]; simp, by simp⟩ ((finish_kept .tolerant .aborted _).adds.mono ?_)), ?_, ?_⟩
    · rintro o ⟨i, hi, rfl⟩
      have hi' : Open { s with tol := ⟨some n, true, none⟩, log := s.log ++ [.accepted .tolerant n g.pose], tolGoal := some t } i := by
        unfold Open at hi ⊢
        rw [(hf rfl).1, (hf rfl).2] at hi
        exact hi
      rw [hop i hi']
      exact hab (.inr hout)
    · intro _ k2; rw [hg2] at k2; cases k2
    · intro _ k2; rw [hg2] at k2; cases k2
  · simp only [if_true] at h2
    subst h2
    refine ⟨ad1.trans (had.mono hm), ?_, fun _ => htg⟩
    intro k1; rw [hph] at k1; cases k1
  · simp only [if_true] at h2
    subst h2
    refine ⟨ad1.trans (had.mono ?_), ?_, ?_⟩
    · rintro o ⟨i, hi, rfl⟩
      rw [hop i hi]
      exact hcl ho
    · intro _ k2; rw [hg] at k2; cases k2
    · intro _ k2; rw [hg] at k2; cases k2

/-! ### Every event -/

theorem target_applyUpdate (W : World P → Prop) (u : Update P) (hw : W u.w) (s s' : St P) (hi : Pre s) (ht : Target W s)
    (hs : applyUpdate u s = some s') : Target W s' := by
  unfold applyUpdate at hs
  dsimp only at hs
  have hc : ∀ s', (cache u.w depth { s with lastCostmap := u.now }).map Prod.fst = some s' → Target W s' := by
    intro s' hh
    rw [Option.map_eq_some_iff] at hh
    obtain ⟨⟨s2, b⟩, h2, rfl⟩ := hh
    intro hg
    have hg0 : s.hasGoal = true := by
      obtain ⟨a, b', c, d, e, f, g, md, rfl⟩ := (moves_cache u.w _ _ _ _ h2).1; exact hg
    exact target_cache W u.w hw _ { s with lastCostmap := u.now } s2 b ⟨hi.esc hg0, hi.fin hg0⟩ ht h2 hg
  split at hs
  · cases hs; exact ht
  split at hs
  · cases hs; exact ht
  split at hs
  · cases hs; exact ht
  split at hs
  · exact hc _ hs
  split at hs
  · exact hc _ hs
  · cases hs; exact ht

theorem moves_applyUpdate (u : Update P) (s s' : St P) (hs : applyUpdate u s = some s') :
    Moves { s with lastCostmap := if u.fits then u.now else s.lastCostmap } s' := by
  unfold applyUpdate at hs
  dsimp only at hs
  have hc : ∀ s', (cache u.w depth { s with lastCostmap := u.now }).map Prod.fst = some s' →
      Moves { s with lastCostmap := u.now } s' := by
    intro s' hh
    rw [Option.map_eq_some_iff] at hh
    obtain ⟨⟨s2, b⟩, h2, rfl⟩ := hh
    exact moves_cache u.w _ _ _ _ h2
  split at hs
  · rename_i hf
    have hf : u.fits = false := by simpa using hf
    cases hs; simp only [hf, Bool.false_eq_true, if_false]; exact Moves.refl s
  rename_i hf
  have hf : u.fits = true := by simpa using hf
  simp only [hf, if_true]
  split at hs
  · cases hs; exact Moves.refl _
  split at hs
  · cases hs; exact Moves.refl _
  split at hs
  · exact hc _ hs
  split at hs
  · exact hc _ hs
  · cases hs; exact Moves.refl _

/-- `Okay` only looks at these fields of the earlier state. -/
theorem Okay.moved {W : World P → Prop} {s s1 : St P} {e : Event P} {s' : St P} {o : Out P} (h : Okay W s1 e s' o)
    (hm : Moves s s1) : Okay W s e s' o := by
  intro i a he
  have := h i a he
  obtain ⟨⟨a', b', c', d', e', f', g', md', rfl⟩, hph, -⟩ := hm
  cases a with
  | recalled => exact this
  | preempted => exact this
  | cleared => exact this
  | aborted => exact this
  | reached =>
    obtain ⟨h1, h2, h3, h4⟩ := this
    refine ⟨h1, h2, ?_, h4⟩
    rcases hph with hph | ⟨hph, -⟩
    · rw [hph] at h3; exact h3
    · exact hph
  | passed => exact this

/-- What an event does to the goal in progress. -/
structure Effect (W : World P → Prop) (s : St P) (e : Event P) (s' : St P) : Prop where
  adds : Adds (Okay W s e s') s s'
  target : Target W s'
  reach : s'.phase = .finishing → s'.hasGoal = true → ∃ w, Reaches W w s s' ∧ (w ∈ worlds e ∨ Still s s')

theorem Effect.quiet {W : World P → Prop} {s : St P} {e : Event P} {s' : St P} (h : Adds Mute s s') (ht : Target W s')
    (hr : Still s s') (w : World P) : Effect W s e s' :=
  ⟨h.mono (fun _ h => h.okay), ht, fun _ _ => ⟨w, hr.reaches, .inr hr⟩⟩

theorem cbMapUpdate_effect (W : World P → Prop) (u : Update P) (hw : W u.w) (e : Event P) (he : u.w ∈ worlds e) (s s' : St P)
    (hi : Pre s) (ht : Target W s) (hs : cbMapUpdate u s = some s') :
    Adds (Okay W s e s') s s' ∧ Target W s' ∧ Reaches W u.w s s' := by
  unfold cbMapUpdate at hs
  split at hs
  · cases hs; exact ⟨Adds.refl s, ht, Reaches.core (Moves.refl s)⟩
  split at hs
  · rw [Option.bind_eq_some_iff] at hs
    obtain ⟨s1, h1, hs⟩ := hs
    rw [Option.map_eq_some_iff] at hs
    obtain ⟨s2, h2, rfl⟩ := hs
    have hm := moves_applyUpdate u _ s1 h1
    have hi0 : Pre { s with timer := false, hasStart := u.located, lastCostmap := if u.fits then u.now else s.lastCostmap } :=
      { acc := hi.acc, one := hi.one, cb := hi.cb, ct := hi.ct, tolGoal := hi.tolGoal, esc := hi.esc, fin := hi.fin }
    have hi1 : Pre s1 := hi0.moves (fun _ => hm.2.2) hm.1
    have ht1 : Target W s1 := target_applyUpdate W u hw { s with timer := false, hasStart := u.located } s1
      { acc := hi.acc, one := hi.one, cb := hi.cb, ct := hi.ct, tolGoal := hi.tolGoal, esc := hi.esc, fin := hi.fin } ht h1
    have c1 := planPath_cause W s1.lastCostmap u.w hw e he s1 s2 hi1 ht1 h2
    have c2 := target_planPath W s1.lastCostmap u.w hw s1 s2 hi1 ht1 h2
    have c3 := planPath_reaches W s1.lastCostmap u.w hw s1 s2 hi1 ht1 h2
    have hlog : s1.log = s.log := by
      obtain ⟨⟨a, b, c, d, e, f, g, md, rfl⟩, -⟩ := hm; rfl
    have c1' : Adds (Okay W s e s2) s s2 := by
      obtain ⟨l, hl, hl2⟩ := c1
      exact ⟨l, by rw [← hlog]; exact hl, fun o ho => (hl2 o ho).moved (s := { s with timer := false, hasStart := u.located, lastCostmap := if u.fits then u.now else s.lastCostmap }) hm⟩
    have c3' : Reaches W u.w s s2 := Reaches.after (s := { s with timer := false, hasStart := u.located, lastCostmap := if u.fits then u.now else s.lastCostmap }) hm c3
    split
    · exact ⟨c1', c2, c3'⟩
    · exact ⟨c1', c2, c3'⟩
  · have hm := moves_applyUpdate u s s' hs
    refine ⟨?_, target_applyUpdate W u hw s s' hi ht hs, Reaches.core (s := { s with lastCostmap := if u.fits then u.now else s.lastCostmap }) hm⟩
    obtain ⟨⟨a, b, c, d, e, f, g, md, rfl⟩, -⟩ := hm
    exact ⟨[], by simp, by simp⟩

theorem step_effect (W : World P → Prop) (s s' : St P) (e : Event P) (hW : ∀ w ∈ worlds e, W w) (h : Inv s) (ht : Target W s)
    (hs : step s e = some s') (w0 : World P) : Effect W s e s' := by
  have same : Still s s := fun a b => ⟨fun _ h => h, rfl, b, a⟩
  unfold step at hs
  cases e with
  | map f w early =>
    dsimp only at hs
    unfold cbMap at hs
    rw [Option.bind_eq_some_iff] at hs
    obtain ⟨⟨s1, b⟩, h1, hs⟩ := hs
    have hw := hW w (by simp [worlds])
    have hm := moves_cache w _ _ _ _ h1
    have hi0 : Inv { emit (.path []) s with frame := f, hasMap := true, made := none } :=
      ((h.emit (.path []) trivial).harmless s.cfg f true s.hasStart s.switchback s.timer s.error s.lastCostmap).made none
    have hi1 : Inv s1 := hi0.moves hm
    have ht1 : Target W s1 := by
      intro hg
      have hg0 : s.hasGoal = true := by
        obtain ⟨a, b', c, d, e, f, g, md, rfl⟩ := hm.1; exact hg
      exact target_cache W w hw _ _ s1 b ⟨hi0.1.esc hg0, hi0.1.fin hg0⟩ ht h1 hg
    have hlog : s1.log = s.log ++ [.path []] := by
      obtain ⟨⟨a, b, c, d, e, f, g, md, rfl⟩, -⟩ := hm; rfl
    have hst : Still s s1 := by
      obtain ⟨⟨a, b, c, d, e, f, g, md, rfl⟩, hph, -⟩ := hm
      intro k1 k2
      refine ⟨fun _ h => h, rfl, k2, ?_⟩
      rcases hph with hph | ⟨hph, -⟩
      · rw [hph] at k1; exact k1
      · exact hph
    cases early with
    | none =>
      dsimp only at hs; cases hs
      exact .quiet (.one _ hlog trivial) ht1 hst w0
    | some u =>
      dsimp only at hs
      have hwu := hW u.w (by simp [worlds])
      obtain ⟨c1, c2, c3⟩ := cbMapUpdate_effect W u hwu (.map f w (some u)) (by simp [worlds]) s1 s' hi1.1 ht1 hs
      refine ⟨?_, c2, ?_⟩
      · refine (Adds.one (A := Okay W s _ s') (.path []) hlog (Mute.okay trivial)).trans (c1.mono ?_)
        intro o ho i a hoe
        have := ho i a hoe
        obtain ⟨⟨a', b', c', d', e', f', g', md', rfl⟩, hph, -⟩ := hm
        cases a with
        | recalled =>
          obtain ⟨k, late, g, w', hb, -⟩ := this
          rcases hb with ⟨-, hb⟩ | ⟨-, t, hb⟩ <;> cases hb
        | preempted =>
          obtain ⟨k, -, hb⟩ := this
          rcases hb with hb | ⟨g, w', hb⟩
          · cases hb
          · rcases hb with ⟨-, hb⟩ | ⟨-, t, hb⟩ <;> cases hb
        | cleared =>
          obtain ⟨-, k, g, w', hb, -⟩ := this
          rcases hb with ⟨-, hb⟩ | ⟨-, t, hb⟩ <;> cases hb
        | aborted =>
          rcases this with ⟨-, k, g, w', hb, -⟩ | this
          · rcases hb with ⟨-, hb⟩ | ⟨-, t, hb⟩ <;> cases hb
          · exact .inr this
        | reached =>
          obtain ⟨r1, r2, r3, r4⟩ := this
          refine ⟨r1, r2, ?_, r4⟩
          rcases hph with hph | ⟨hph, -⟩
          · rw [hph] at r3; exact r3
          · exact hph
        | passed => exact this
      · intro _ _
        refine ⟨u.w, ?_, .inl (by simp [worlds])⟩
        intro k1 k2
        obtain ⟨q1, q2, q3, q4⟩ := c3 k1 k2
        obtain ⟨⟨a', b', c', d', e', f', g', md', rfl⟩, hph, -⟩ := hm
        refine ⟨q1, q2, q3, ?_⟩
        rcases q4 with q4 | q4
        · rcases hph with hph | ⟨hph, -⟩
          · rw [hph] at q4; exact .inl q4
          · exact .inl hph
        · exact .inr q4
  | update u =>
    obtain ⟨c1, c2, c3⟩ := cbMapUpdate_effect W u (hW u.w (by simp [worlds])) (.update u) (by simp [worlds]) s s' h.1 ht hs
    exact ⟨c1, c2, fun _ _ => ⟨u.w, c3, .inl (by simp [worlds])⟩⟩
  | located ok =>
    dsimp only at hs
    split at hs
    · cases hs; exact .quiet ⟨[], by simp, by simp⟩ ht same w0
    · cases hs; exact .quiet (Adds.refl _) ht same w0
  | switchReached => dsimp only at hs; cases hs; exact .quiet ⟨[], by simp, by simp⟩ ht same w0
  | cycle now w =>
    dsimp only at hs
    have hw := hW w (by simp [worlds])
    split at hs
    · cases hs; exact .quiet (Adds.refl _) ht same w0
    · exact ⟨planPath_cause W now w hw _ (by simp [worlds]) s s' h.1 ht hs, target_planPath W now w hw s s' h.1 ht hs,
        fun _ _ => ⟨w, planPath_reaches W now w hw s s' h.1 ht hs, .inl (by simp [worlds])⟩⟩
  | timer now w =>
    dsimp only at hs
    have hw := hW w (by simp [worlds])
    split at hs
    · exact ⟨planPath_cause W now w hw _ (by simp [worlds]) s s' h.1 ht hs, target_planPath W now w hw s s' h.1 ht hs,
        fun _ _ => ⟨w, planPath_reaches W now w hw s s' h.1 ht hs, .inl (by simp [worlds])⟩⟩
    · cases hs; exact .quiet (Adds.refl _) ht same w0
  | topicGoal g w =>
    dsimp only at hs
    unfold cbGoal at hs
    have hw := hW w (by simp [worlds])
    split at hs
    · cases hs; exact .quiet (Adds.refl _) ht same w0
    · rename_i hna
      simp only [Bool.or_eq_true, not_or, Bool.not_eq_true] at hna
      rw [Option.map_eq_some_iff] at hs
      obtain ⟨⟨s1, b⟩, h1, rfl⟩ := hs
      rcases setGoal_cases W g w hw _ s1 b h1 with ⟨rfl, hfr, rfl⟩ | ⟨rfl, hg, hout, hlog⟩ | ⟨rfl, hph, htg, had⟩ | ⟨rfl, ho, hg, had⟩
      · exact .quiet (Adds.refl _) ht same w0
      · exact .quiet ⟨[], by simp [hlog], by simp⟩ (fun k => by rw [hg] at k; cases k)
          (fun _ k => by rw [hg] at k; cases k) w0
      · exact .quiet had htg (fun k => by rw [hph] at k; cases k) w0
      · refine .quiet (had.mono ?_) (fun k => by rw [hg] at k; cases k) (fun _ k => by rw [hg] at k; cases k) w0
        rintro o ⟨i, hi, rfl⟩
        rcases hi with hi | hi
        · have := hi.1; rw [hna.1] at this; cases this
        · have := hi.1; rw [hna.2] at this; cases this
  | baseGoal late g w =>
    dsimp only at hs
    have hw := hW w (by simp [worlds])
    split at hs
    · rename_i hl
      cases hs
      refine ⟨.one _ rfl ?_, ht, fun _ _ => ⟨w, same.reaches, .inr same⟩⟩
      intro i a hia
      cases hia
      exact ⟨.base, late, g, w, .inl ⟨rfl, rfl⟩, by rw [if_pos hl]⟩
    · rename_i hl
      have hl : late = false := by simpa using hl
      subst hl
      have br : Brings .base false g w (.baseGoal false g w) := .inl ⟨rfl, rfl⟩
      obtain ⟨h1, h2, h3⟩ := pre_receive_base s h
      obtain ⟨r1, r2, r3⟩ := receive_base s h (Okay W s (.baseGoal false g w) s')
        (fun j hj i a hia => by cases hia; exact ⟨.base, false, g, w, br, by simpa [server] using hj⟩)
        (fun i hi j a hja => by cases hja; exact ⟨.base, hi, .inr ⟨g, w, br⟩⟩)
      have tr : Target W (receive .base s.count { s with count := s.count + 1 }) := by
        rcases r3 with ⟨a1, a2, a3, a4, a5, a6⟩ | r3
        · intro k1 k2
          rw [a4, a6]
          exact ht (by rw [← a1]; exact k1) (by rw [← a3]; exact k2)
        · intro k1; rw [r3] at k1; cases k1
      obtain ⟨c1, c2, c3⟩ := cbAction_cause W g w hw _ s' s.count h1 h2 h3 (Okay W s (.baseGoal false g w) s')
        (fun o ho => ho.okay) (fun k p i a hia => by cases hia)
        (fun ho i a hia => by cases hia; exact ⟨rfl, .base, g, w, br, ho⟩)
        (fun ho i a hia => by cases hia; exact .inl ⟨rfl, .base, g, w, br, by rw [← r2]; exact ho⟩) hs
      have st : Still s s' := by
        intro k1 k2
        obtain ⟨q1, q2, q3, q4⟩ := c2 k1 k2
        rcases r3 with ⟨a1, a2, a3, a4, a5, a6⟩ | r3
        · refine ⟨fun i hi => ?_, q2.trans a6, a1 ▸ q3, a2 ▸ q4⟩
          have hoi := q1 i hi
          rcases hoi with hoi | hoi
          · have := hoi.1; rw [h2] at this; cases this
          · exact .inr (receive_base_tol { s with count := s.count + 1 } _ i hoi)
        · rw [r3] at q3; cases q3
      exact ⟨r1.trans c1, c3 tr, fun _ _ => ⟨w, st.reaches, .inr st⟩⟩
  | tolGoal late g t w =>
    dsimp only at hs
    have hw := hW w (by simp [worlds])
    split at hs
    · rename_i hl
      cases hs
      refine ⟨.one _ rfl ?_, ht, fun _ _ => ⟨w, same.reaches, .inr same⟩⟩
      intro i a hia
      cases hia
      exact ⟨.tolerant, late, g, w, .inr ⟨rfl, t, rfl⟩, by rw [if_pos hl]⟩
    · rename_i hl
      have hl : late = false := by simpa using hl
      subst hl
      have br : Brings .tolerant false g w (.tolGoal false g t w) := .inr ⟨rfl, t, rfl⟩
      obtain ⟨h1, h2, h3⟩ := pre_receive_tol s h
      obtain ⟨r1, r2, r3⟩ := receive_tol s h (Okay W s (.tolGoal false g t w) s')
        (fun j hj i a hia => by cases hia; exact ⟨.tolerant, false, g, w, br, by simpa [server] using hj⟩)
        (fun i hi j a hja => by cases hja; exact ⟨.tolerant, hi, .inr ⟨g, w, br⟩⟩)
      have tr : Target W (receive .tolerant s.count { s with count := s.count + 1 }) := by
        rcases r3 with ⟨a1, a2, a3, a4, a5, a6⟩ | r3
        · intro k1 k2
          rw [a4, a6]
          exact ht (by rw [← a1]; exact k1) (by rw [← a3]; exact k2)
        · intro k1; rw [r3] at k1; cases k1
      obtain ⟨c1, c2, c3⟩ := cbTolerant_cause W g t w hw _ s' s.count h1 h2 h3 (Okay W s (.tolGoal false g t w) s')
        (fun o ho => ho.okay) (fun k p i a hia => by cases hia)
        (fun ho i a hia => by cases hia; exact ⟨rfl, .tolerant, g, w, br, ho⟩)
        (fun ho i a hia => by cases hia; exact .inl ⟨rfl, .tolerant, g, w, br, by rw [← r2]; exact ho⟩) hs
      have st : Still s s' := by
        intro k1 k2
        obtain ⟨q1, q2, q3, q4⟩ := c2 k1 k2
        rcases r3 with ⟨a1, a2, a3, a4, a5, a6⟩ | r3
        · refine ⟨fun i hi => ?_, q2.trans a6, a1 ▸ q3, a2 ▸ q4⟩
          have hoi := q1 i hi
          rcases hoi with hoi | hoi
          · exact .inl (receive_tol_base { s with count := s.count + 1 } _ i hoi)
          · have := hoi.1; rw [h2] at this; cases this
        · rw [r3] at q3; cases q3
      exact ⟨r1.trans c1, c3 tr, fun _ _ => ⟨w, st.reaches, .inr st⟩⟩
  | cancel k =>
    cases k with
    | base =>
      dsimp only at hs
      cases hs
      split
      · rename_i ha
        refine ⟨(cbPreempt_adds s).mono ?_, (fun k => by cases k), (fun _ k => by cases k)⟩
        rintro o ⟨i, hi, rfl⟩ j a hja
        cases hja
        rcases hi with hi | hi
        · exact ⟨.base, hi, .inl rfl⟩
        · exact absurd ⟨ha, hi.1⟩ h.1.one
      · exact .quiet (Adds.refl _) ht same w0
    | tolerant =>
      dsimp only at hs
      cases hs
      split
      · rename_i ha
        refine ⟨(cbPreempt_adds s).mono ?_, (fun k => by cases k), (fun _ k => by cases k)⟩
        rintro o ⟨i, hi, rfl⟩ j a hja
        cases hja
        rcases hi with hi | hi
        · exact absurd ⟨hi.1, ha⟩ h.1.one
        · exact ⟨.tolerant, hi, .inl rfl⟩
      · exact .quiet (Adds.refl _) ht same w0
  | escape w =>
    dsimp only at hs
    have hw := hW w (by simp [worlds])
    split at hs
    · have hm := moves_escapeNow w s s' hs
      refine ⟨hm.1.kept.adds, ?_, fun _ _ => ⟨w, Reaches.core hm, .inl (by simp [worlds])⟩⟩
      intro hg
      have hg0 : s.hasGoal = true := by
        obtain ⟨a, b', c, d, e, f, g, md, rfl⟩ := hm.1; exact hg
      exact target_escape W w _ _ (fun _ _ _ => target_cache W w hw _ _ _ _) s s' ⟨h.1.esc hg0, h.1.fin hg0⟩ ht hs hg
    · cases hs; exact .quiet (Adds.refl _) ht same w0
  | config c => dsimp only at hs; cases hs; exact .quiet ⟨[], by simp, by simp⟩ ht same w0

end Verif.PlannerNode
