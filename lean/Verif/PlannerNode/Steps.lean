import Verif.PlannerNode.Lemmas
/-! # The invariant holds after every event -/
namespace Verif.PlannerNode
variable {P : Type}

theorem setGoal_pre (g : GoalMsg P) (w : World P) (s s' : St P) (b : Bool) (h : Pre s) (hs : setGoal g w s = some (s', b)) :
    Pre s' ∧ (b = true → (s'.base.active = true ∨ s'.tol.active = true → s'.hasGoal = true) ∧
      (s'.base.active = true → s'.base = s.base) ∧ (s'.tol.active = true → s'.tol = s.tol) ∧ s'.goalOriginal = g.pose) ∧
      (b = false → s'.base = s.base ∧ s'.tol = s.tol) ∧
      (∀ o ∈ s.log, o ∈ s'.log) := by
  unfold setGoal at hs
  split at hs
  · cases hs
    exact ⟨h, (fun hh => by cases hh), fun _ => ⟨rfl, rfl⟩, fun _ ho => ho⟩
  dsimp only at hs
  split at hs
  · rw [Option.map_eq_some_iff] at hs
    obtain ⟨⟨s1, b1⟩, h1, h2⟩ := hs
    have hm := moves_cache w _ _ _ _ h1
    have hp : Pre s1 := by
      refine Pre.moves ?_ (fun _ => hm.2.2) hm.1
      exact { acc := h.acc, one := h.one, cb := h.cb, ct := h.ct, tolGoal := h.tolGoal, esc := fun _ _ => rfl,
              fin := fun _ _ => rfl }
    obtain ⟨a, b', c, d, e, f, k, md, rfl⟩ := hm.1
    dsimp only at h2
    split at h2
    · cases h2
      refine ⟨?_, fun _ => ⟨fun _ => rfl, fun _ => rfl, fun _ => rfl, rfl⟩, (fun hh => by cases hh), ?_⟩
      · refine Pre.emit ?_ _ trivial
        exact { acc := hp.acc, one := hp.one, cb := hp.cb, ct := hp.ct, tolGoal := hp.tolGoal, esc := hp.esc,
                fin := (fun _ hh => by cases hh) }
      · intro o ho
        exact List.mem_append_left _ ho
    · cases h2
      refine ⟨?_, (fun hh => by cases hh), fun _ => ⟨rfl, rfl⟩, fun o ho => ho⟩
      exact { acc := hp.acc, one := hp.one, cb := hp.cb, ct := hp.ct, tolGoal := hp.tolGoal,
              esc := (fun hh => by cases hh), fin := (fun hh => by cases hh) }
  · cases hs
    have hp : Pre { s with goalOriginal := g.pose, goalRaw := g.pose, goal := g.pose, hasGoal := false } :=
      { acc := h.acc, one := h.one, cb := h.cb, ct := h.ct, tolGoal := h.tolGoal, esc := (fun hh => by cases hh),
        fin := (fun hh => by cases hh) }
    have hoff := finishBoth_off .cleared (by decide) _ hp
    refine ⟨hp.finishBoth .cleared (by decide), fun _ => ⟨?_, ?_, ?_, ?_⟩, (fun hh => by cases hh), ?_⟩
    · rintro (hh | hh)
      · rw [hoff.1] at hh; cases hh
      · rw [hoff.2] at hh; cases hh
    · intro hh; rw [hoff.1] at hh; cases hh
    · intro hh; rw [hoff.2] at hh; cases hh
    · obtain ⟨b, t, l, he, -⟩ := finishBoth_rest .cleared
        { s with goalOriginal := g.pose, goalRaw := g.pose, goal := g.pose, hasGoal := false }
      rw [he]
    · intro o ho
      obtain ⟨b, t, l, he, -⟩ := finishBoth_rest .cleared
        { s with goalOriginal := g.pose, goalRaw := g.pose, goal := g.pose, hasGoal := false }
      rw [he]
      exact List.mem_append_left _ ho

theorem inv_cbGoal (g : GoalMsg P) (w : World P) (s s' : St P) (h : Inv s) (hs : cbGoal g w s = some s') : Inv s' := by
  unfold cbGoal at hs
  split at hs
  · cases hs; exact h
  rename_i hna
  rw [Option.map_eq_some_iff] at hs
  obtain ⟨⟨s1, b⟩, h1, rfl⟩ := hs
  obtain ⟨hp, ht, hf, -⟩ := setGoal_pre g w s s1 b h.1 h1
  refine ⟨hp, ?_⟩
  simp only [Bool.or_eq_true, not_or, Bool.not_eq_true] at hna
  refine Pursued.of_off ?_ ?_
  · cases b with
    | true =>
      cases hb : s1.base.active with
      | false => rfl
      | true => rw [(ht rfl).2.1 hb] at hb; rw [hna.1] at hb; cases hb
    | false => rw [(hf rfl).1]; exact hna.1
  · cases b with
    | true =>
      cases hb : s1.tol.active with
      | false => rfl
      | true => rw [(ht rfl).2.2.1 hb] at hb; rw [hna.2] at hb; cases hb
    | false => rw [(hf rfl).2]; exact hna.2

/-- The state between `goalCallback` and the user's callback. -/
theorem pre_receive_base (s : St P) (h : Inv s) :
    let r := receive .base s.count { s with count := s.count + 1 }
    Inv r ∧ r.base.active = false ∧ r.base.pending = some s.count := by
  have key : ∀ s1 : St P, Inv s1 → s1.base.pending = none → s1.count = s.count →
      let s2 : St P := { s1 with count := s.count + 1, base := { s1.base with pending := some s.count } }
      let r := if s2.base.active then cbPreempt s2 else s2
      Inv r ∧ r.base.active = false ∧ r.base.pending = some s.count := by
    intro s1 h1 hp hc
    have hs2 : Inv { s1 with count := s.count + 1, base := { s1.base with pending := some s.count } } := by
      refine ⟨{ acc := ?_, one := h1.1.one, cb := h1.1.cb, ct := h1.1.ct, tolGoal := h1.1.tolGoal, esc := h1.1.esc,
                fin := h1.1.fin }, ⟨h1.2.goal, h1.2.asked⟩⟩
      rw [← hc]
      exact h1.1.acc.arrive hp
    dsimp only
    split
    · refine ⟨Inv.preempt hs2.1, (finishBoth_off .preempted (by decide) _ hs2.1).1, ?_⟩
      obtain ⟨b, t, l, he, -, -, hpb, -⟩ := finishBoth_rest .preempted
        { s1 with count := s.count + 1, base := { s1.base with pending := some s.count } }
      unfold cbPreempt
      rw [he]
      exact hpb
    · rename_i hn
      exact ⟨hs2, by simpa using hn, rfl⟩
  unfold receive
  dsimp only
  cases hp : s.base.pending with
  | none => exact key s h hp rfl
  | some j =>
    refine key { s with base := { s.base with pending := none }, log := s.log ++ [.answer j .recalled] } ?_ rfl rfl
    refine ⟨{ acc := h.1.acc.recall j hp, one := h.1.one, cb := h.1.cb, ct := h.1.ct, tolGoal := h.1.tolGoal, esc := h.1.esc,
              fin := h.1.fin }, ⟨h.2.goal, fun i hi => (h.2.asked i hi).append _⟩⟩

theorem pre_receive_tol (s : St P) (h : Inv s) :
    let r := receive .tolerant s.count { s with count := s.count + 1 }
    Inv r ∧ r.tol.active = false ∧ r.tol.pending = some s.count := by
  have key : ∀ s1 : St P, Inv s1 → s1.tol.pending = none → s1.count = s.count →
      let s2 : St P := { s1 with count := s.count + 1, tol := { s1.tol with pending := some s.count } }
      let r := if s2.tol.active then cbPreempt s2 else s2
      Inv r ∧ r.tol.active = false ∧ r.tol.pending = some s.count := by
    intro s1 h1 hp hc
    have hs2 : Inv { s1 with count := s.count + 1, tol := { s1.tol with pending := some s.count } } := by
      refine ⟨{ acc := ?_, one := h1.1.one, cb := h1.1.cb, ct := h1.1.ct, tolGoal := h1.1.tolGoal, esc := h1.1.esc,
                fin := h1.1.fin }, ⟨h1.2.goal, h1.2.asked⟩⟩
      rw [← hc]
      exact (h1.1.acc.swap.arrive hp).swap
    dsimp only
    split
    · refine ⟨Inv.preempt hs2.1, (finishBoth_off .preempted (by decide) _ hs2.1).2, ?_⟩
      obtain ⟨b, t, l, he, -, -, -, hpb⟩ := finishBoth_rest .preempted
        { s1 with count := s.count + 1, tol := { s1.tol with pending := some s.count } }
      unfold cbPreempt
      rw [he]
      exact hpb
    · rename_i hn
      exact ⟨hs2, by simpa using hn, rfl⟩
  unfold receive
  dsimp only
  cases hp : s.tol.pending with
  | none => exact key s h hp rfl
  | some j =>
    refine key { s with tol := { s.tol with pending := none }, log := s.log ++ [.answer j .recalled] } ?_ rfl rfl
    refine ⟨{ acc := (h.1.acc.swap.recall j hp).swap, one := h.1.one, cb := h.1.cb, ct := h.1.ct, tolGoal := h.1.tolGoal,
              esc := h.1.esc, fin := h.1.fin }, ⟨h.2.goal, fun i hi => (h.2.asked i hi).append _⟩⟩

theorem inv_cbAction (g : GoalMsg P) (w : World P) (s s' : St P) (h : Inv s) (ha : s.base.active = false) (i : Nat)
    (hp : s.base.pending = some i) (hs : cbAction g w s = some s') : Inv s' := by
  unfold cbAction at hs
  split at hs
  · cases hs; exact h
  rename_i hta
  have hta : s.tol.active = false := by simpa using hta
  rw [Option.map_eq_some_iff] at hs
  obtain ⟨⟨s1, b⟩, h1, h2⟩ := hs
  have hacc : accept .base g.pose s = { s with base := ⟨some i, true, none⟩, log := s.log ++ [.accepted .base i g.pose] } := by
    unfold accept; simp only [hp]; rfl
  rw [hacc] at h1
  have hpre : Pre { s with base := ⟨some i, true, none⟩, log := s.log ++ [.accepted .base i g.pose] } :=
    { acc := h.1.acc.accept .base g.pose i ha hp, one := (fun hh => by rw [hta] at hh; exact absurd hh.2 (by simp)),
      cb := (fun _ => by simp), ct := h.1.ct, tolGoal := h.1.tolGoal, esc := h.1.esc, fin := h.1.fin }
  obtain ⟨hp1, ht, hf, hl⟩ := setGoal_pre g w _ s1 b hpre h1
  cases b with
  | true =>
    simp only [if_true] at h2
    subst h2
    obtain ⟨ht1, ht2, ht3, ht4⟩ := ht rfl
    refine ⟨hp1, ⟨ht1, ?_⟩⟩
    rintro j (hj | hj)
    · have := ht2 hj.1
      have hc := hj.2
      rw [this] at hc
      cases hc
      rw [ht4]
      exact ⟨.base, hl _ (List.mem_append_right _ (List.mem_singleton.mpr rfl))⟩
    · have hta' := hj.1
      rw [ht3 hj.1, hta] at hta'
      cases hta'
  | false =>
    simp only [Bool.false_eq_true, if_false] at h2
    subst h2
    refine ⟨hp1.finish .base .aborted (by decide), Pursued.of_off ((finish_off .base .aborted s1 hp1).1 rfl) ?_⟩
    obtain ⟨b, t, l, he, -, ht, -⟩ := finish_rest .base .aborted s1
    rw [he]
    cases hb : t.active with
    | false => rfl
    | true =>
      have := ht hb
      rw [this, (hf rfl).2, hta] at hb
      cases hb

theorem inv_cbTolerant (g : GoalMsg P) (t : Tol) (w : World P) (s s' : St P) (h : Inv s) (ha : s.tol.active = false) (i : Nat)
    (hp : s.tol.pending = some i) (hs : cbTolerantAction g t w s = some s') : Inv s' := by
  unfold cbTolerantAction at hs
  split at hs
  · cases hs; exact h
  rename_i hta
  have hta : s.base.active = false := by simpa using hta
  rw [Option.map_eq_some_iff] at hs
  obtain ⟨⟨s1, b⟩, h1, h2⟩ := hs
  have hacc : accept .tolerant g.pose s =
      { s with tol := ⟨some i, true, none⟩, log := s.log ++ [.accepted .tolerant i g.pose] } := by
    unfold accept; simp only [hp]; rfl
  rw [hacc] at h1
  have hpre : Pre { s with tol := ⟨some i, true, none⟩, log := s.log ++ [.accepted .tolerant i g.pose], tolGoal := some t } :=
    { acc := (h.1.acc.swap.accept .tolerant g.pose i ha hp).swap,
      one := (fun hh => by rw [hta] at hh; exact absurd hh.1 (by simp)),
      cb := h.1.cb, ct := (fun _ => by simp), tolGoal := (fun _ => by simp), esc := h.1.esc, fin := h.1.fin }
  obtain ⟨hp1, ht, hf, hl⟩ := setGoal_pre g w _ s1 b hpre h1
  cases b with
  | true =>
    simp only [if_true] at h2
    subst h2
    obtain ⟨ht1, ht2, ht3, ht4⟩ := ht rfl
    refine ⟨hp1, ⟨ht1, ?_⟩⟩
    rintro j (hj | hj)
    · have hta' := hj.1
      rw [ht2 hj.1, hta] at hta'
      cases hta'
    · have := ht3 hj.1
      have hc := hj.2
      rw [this] at hc
      cases hc
      rw [ht4]
      exact ⟨.tolerant, hl _ (List.mem_append_right _ (List.mem_singleton.mpr rfl))⟩
  | false =>
    simp only [Bool.false_eq_true, if_false] at h2
    subst h2
    refine ⟨hp1.finish .tolerant .aborted (by decide), Pursued.of_off ?_ ((finish_off .tolerant .aborted s1 hp1).2 rfl)⟩
    obtain ⟨b, t, l, he, hb, -⟩ := finish_rest .tolerant .aborted s1
    rw [he]
    cases hba : b.active with
    | false => rfl
    | true =>
      have := hb hba
      rw [this, (hf rfl).1, hta] at hba
      cases hba

/-- Fields no invariant speaks about may change. -/
theorem Inv.harmless {s : St P} (h : Inv s) (c : Cfg) (fr : Nat) (m st sw ti : Bool) (er : Err) (lc : Int) :
    Inv { s with cfg := c, frame := fr, hasMap := m, hasStart := st, switchback := sw, timer := ti, error := er,
                 lastCostmap := lc } :=
  ⟨{ acc := h.1.acc, one := h.1.one, cb := h.1.cb, ct := h.1.ct, tolGoal := h.1.tolGoal, esc := h.1.esc, fin := h.1.fin },
   ⟨h.2.goal, h.2.asked⟩⟩

theorem Inv.made {s : St P} (h : Inv s) (m : Option P) : Inv { s with made := m } :=
  ⟨{ acc := h.1.acc, one := h.1.one, cb := h.1.cb, ct := h.1.ct, tolGoal := h.1.tolGoal, esc := h.1.esc, fin := h.1.fin },
   ⟨h.2.goal, h.2.asked⟩⟩

theorem Inv.err {s : St P} (h : Inv s) (er : Err) : Inv { s with error := er } :=
  h.harmless s.cfg s.frame s.hasMap s.hasStart s.switchback s.timer er s.lastCostmap

theorem Inv.switch {s : St P} (h : Inv s) (b : Bool) : Inv { s with switchback := b } :=
  h.harmless s.cfg s.frame s.hasMap s.hasStart b s.timer s.error s.lastCostmap

theorem Inv.finishing {s : St P} (h : Inv s) (he : s.escaping = .no) : Inv { s with phase := .finishing } :=
  ⟨{ acc := h.1.acc, one := h.1.one, cb := h.1.cb, ct := h.1.ct, tolGoal := h.1.tolGoal, esc := h.1.esc,
     fin := fun _ _ => he }, ⟨h.2.goal, h.2.asked⟩⟩

theorem inv_searchPath (w : World P) (s s' : St P) (ps : List P) (h : Inv s) (hs : searchPath w s = some (s', ps)) :
    Inv s' := by
  unfold searchPath at hs
  dsimp only at hs
  split at hs
  · split at hs
    · rw [Option.map_eq_some_iff] at hs
      obtain ⟨s1, h1, h2⟩ := hs
      cases h2
      exact (h.err .pathNotFound).moves (moves_escapeNow w _ _ h1)
    · cases hs; exact h.err .pathNotFound
  · have hl : Inv { s with log := s.log ++ List.replicate (w.waits s.made s.goal) (.path []) } :=
      h.mute _ (fun o ho => by rw [List.eq_of_mem_replicate ho]; trivial)
    split at hs
    · cases hs; exact hl
    · cases hs; exact hl.err .pathNotFound

theorem inv_makePlan (w : World P) (s s' : St P) (ps : List P) (h : Inv s) (hs : makePlan w s = some (s', ps)) : Inv s' := by
  unfold makePlan at hs
  split at hs
  · cases hs; exact h.err .inRock
  split at hs
  · cases hs
  split at hs
  · split at hs
    · rw [Option.map_eq_some_iff] at hs
      obtain ⟨⟨s1, b⟩, h1, h2⟩ := hs
      cases h2
      exact h.moves ((moves_back s).trans (moves_cache w _ _ _ _ h1))
    · rename_i hesc
      have hesc : s.escaping = .no := not_not.mp hesc
      split at hs
      · split at hs
        · cases hs
        split at hs
        · have hf := h.finish .tolerant .passed (by decide)
          have hoff := (finish_off .tolerant .passed s h.1).2 rfl
          refine inv_searchPath w _ _ _ ?_ hs
          exact ⟨{ acc := hf.1.acc, one := hf.1.one, cb := hf.1.cb, ct := hf.1.ct,
                   tolGoal := (fun hh => by rw [hoff] at hh; cases hh), esc := hf.1.esc, fin := hf.1.fin },
                 ⟨hf.2.goal, hf.2.asked⟩⟩
        · cases hs; exact (h.finishing hesc).emit _ trivial
      · cases hs; exact (h.finishing hesc).emit _ trivial
  · exact inv_searchPath w s s' ps h hs

theorem inv_planFinish (w : World P) (s s' : St P) (h : Inv s) (hs : planFinish w s = some s') : Inv s' := by
  unfold planFinish at hs
  dsimp only at hs
  generalize (if s.tol.active = true then s.tolGoal.map Tol.angFinish else some s.cfg.angFinish) = lim at hs
  cases lim with
  | none => cases hs
  | some lim =>
  dsimp only at hs
  by_cases hy : |w.heading (if s.cfg.forceOrientation = true then s.goalRaw else s.goal)| < lim
  · rw [if_pos hy] at hs
    cases hs
    have hp : Pre { s with phase := .done, hasGoal := false } := h.1.noGoal s.escaping .done s.error
    have hoff := finishBoth_off .reached (by decide) _ hp
    exact Inv.publish ⟨hp.finishBoth .reached (by decide), Pursued.of_off hoff.1 hoff.2⟩
  · rw [if_neg hy] at hs
    cases hs
    exact (h.emit _ (by trivial)).publish

theorem Inv.errIf {s : St P} (h : Inv s) (p : Prop) [Decidable p] (er : Err) : Inv (if p then { s with error := er } else s) := by
  split
  · exact h.err er
  · exact h

theorem Inv.switchIf {s : St P} (h : Inv s) (p : Prop) [Decidable p] (b : Bool) :
    Inv (if p then { s with switchback := b } else s) := by
  split
  · exact h.switch b
  · exact h

theorem inv_giveUp (s : St P) (h : Inv s) : Inv (giveUp s) := by
  have hp : Pre (emit (.path []) { s with error := .pathNotFound, phase := .done, hasGoal := false }) :=
    Pre.emit (h.1.noGoal s.escaping .done .pathNotFound) _ trivial
  have hoff := finishBoth_off .aborted (by decide) _ hp
  exact ⟨hp.finishBoth .aborted (by decide), Pursued.of_off hoff.1 hoff.2⟩

theorem inv_planMove (w : World P) (s s' : St P) (h : Inv s) (hs : planMove w s = some s') : Inv s' := by
  unfold planMove at hs
  dsimp only at hs
  split at hs
  · cases hs; exact inv_giveUp s h
  split at hs
  · cases hs; exact ((h.err _).emit (.path []) trivial).publish
  · rw [Option.map_eq_some_iff] at hs
    obtain ⟨⟨s1, ps⟩, h1, rfl⟩ := hs
    have hi := (inv_makePlan w _ s1 ps (h.err .goingWell) h1).emit (.path ps) trivial
    exact ((hi.switchIf _ _).errIf _ _).publish

theorem inv_planPath (now : Int) (w : World P) (s s' : St P) (h : Inv s) (hs : planPath now w s = some s') : Inv s' := by
  unfold planPath at hs
  rw [Option.bind_eq_some_iff] at hs
  obtain ⟨s1, h1, hs⟩ := hs
  have hi : Inv s1 := by
    split at h1
    · rw [Option.map_eq_some_iff] at h1
      obtain ⟨⟨s2, b⟩, h2, rfl⟩ := h1
      exact h.moves (moves_cache w _ _ _ _ h2)
    · cases h1; exact h
  have hq : ∀ s2 : St P, Inv s2 → Inv (publishStatus (emit (.path [])
      (if s2.cfg.retain then s2 else { s2 with error := .goingWell }))) := by
    intro s2 h2
    refine (Inv.emit ?_ (.path []) trivial).publish
    split
    · exact h2
    · exact h2.err _
  dsimp only at hs
  split at hs
  · have he : Inv (emit (.path []) { s1 with error := .dataMissing }) := (hi.err .dataMissing).emit _ trivial
    split at hs
    · cases hs; exact hq _ he
    · cases hs; exact he.publish
  split at hs
  · split at hs
    · exact inv_planFinish w _ s' (hi.switch false) hs
    · exact inv_planMove w _ s' (hi.switch false) hs
  split at hs
  · cases hs; exact hq _ hi
  · cases hs; exact hi.publish

theorem inv_applyUpdate (u : Update P) (s s' : St P) (h : Inv s) (hs : applyUpdate u s = some s') : Inv s' := by
  unfold applyUpdate at hs
  dsimp only at hs
  have hi : Inv { s with lastCostmap := u.now } :=
    h.harmless s.cfg s.frame s.hasMap s.hasStart s.switchback s.timer s.error u.now
  have hc : ∀ s', (cache u.w depth { s with lastCostmap := u.now }).map Prod.fst = some s' → Inv s' := by
    intro s' hh
    rw [Option.map_eq_some_iff] at hh
    obtain ⟨⟨s2, b⟩, h2, rfl⟩ := hh
    exact hi.moves (moves_cache u.w _ _ _ _ h2)
  split at hs
  · cases hs; exact h
  split at hs
  · cases hs; exact hi
  split at hs
  · cases hs; exact hi
  split at hs
  · exact hc _ hs
  split at hs
  · exact hc _ hs
  · cases hs; exact hi.made _

theorem inv_cbMapUpdate (u : Update P) (s s' : St P) (h : Inv s) (hs : cbMapUpdate u s = some s') : Inv s' := by
  unfold cbMapUpdate at hs
  split at hs
  · cases hs; exact h
  split at hs
  · rw [Option.bind_eq_some_iff] at hs
    obtain ⟨s1, h1, hs⟩ := hs
    rw [Option.map_eq_some_iff] at hs
    obtain ⟨s2, h2, rfl⟩ := hs
    have hi1 := inv_applyUpdate u _ s1
      (h.harmless s.cfg s.frame s.hasMap u.located s.switchback false s.error s.lastCostmap) h1
    have hi2 := inv_planPath _ u.w s1 s2 hi1 h2
    split
    · exact hi2.harmless s2.cfg s2.frame s2.hasMap s2.hasStart s2.switchback true s2.error s2.lastCostmap
    · exact hi2
  · exact inv_applyUpdate u s s' h hs

theorem inv_step (s s' : St P) (e : Event P) (h : Inv s) (hs : step s e = some s') : Inv s' := by
  unfold step at hs
  cases e with
  | map f w early =>
    dsimp only at hs
    unfold cbMap at hs
    rw [Option.bind_eq_some_iff] at hs
    obtain ⟨⟨s1, b⟩, h1, hs⟩ := hs
    have hi1 : Inv s1 := by
      refine Inv.moves ?_ (moves_cache w _ _ _ _ h1)
      exact ((h.emit (.path []) trivial).harmless s.cfg f true s.hasStart s.switchback s.timer s.error s.lastCostmap).made none
    dsimp only at hs
    split at hs
    · exact inv_cbMapUpdate _ s1 s' hi1 hs
    · cases hs; exact hi1
  | update u => exact inv_cbMapUpdate u s s' h hs
  | located ok =>
    dsimp only at hs
    split at hs
    · cases hs; exact h.harmless s.cfg s.frame s.hasMap ok s.switchback s.timer s.error s.lastCostmap
    · cases hs; exact h
  | switchReached => dsimp only at hs; cases hs; exact h.switch false
  | cycle now w =>
    dsimp only at hs
    split at hs
    · cases hs; exact h
    · exact inv_planPath now w s s' h hs
  | timer now w =>
    dsimp only at hs
    split at hs
    · exact inv_planPath now w s s' h hs
    · cases hs; exact h
  | topicGoal g w => exact inv_cbGoal g w s s' h hs
  | baseGoal late g w =>
    dsimp only at hs
    split at hs
    · cases hs
      exact ⟨{ acc := h.1.acc.late, one := h.1.one, cb := h.1.cb, ct := h.1.ct, tolGoal := h.1.tolGoal, esc := h.1.esc,
               fin := h.1.fin }, ⟨h.2.goal, fun i hi => (h.2.asked i hi).append _⟩⟩
    · obtain ⟨h1, h2, h3⟩ := pre_receive_base s h
      exact inv_cbAction g w _ s' h1 h2 _ h3 hs
  | tolGoal late g t w =>
    dsimp only at hs
    split at hs
    · cases hs
      exact ⟨{ acc := h.1.acc.late, one := h.1.one, cb := h.1.cb, ct := h.1.ct, tolGoal := h.1.tolGoal, esc := h.1.esc,
               fin := h.1.fin }, ⟨h.2.goal, fun i hi => (h.2.asked i hi).append _⟩⟩
    · obtain ⟨h1, h2, h3⟩ := pre_receive_tol s h
      exact inv_cbTolerant g t w _ s' h1 h2 _ h3 hs
  | cancel k =>
    cases k with
    | base =>
      dsimp only at hs
      cases hs
      split
      · exact Inv.preempt h.1
      · exact h
    | tolerant =>
      dsimp only at hs
      cases hs
      split
      · exact Inv.preempt h.1
      · exact h
  | escape w =>
    dsimp only at hs
    split at hs
    · exact h.moves (moves_escapeNow w s s' hs)
    · cases hs; exact h
  | config c =>
    dsimp only at hs
    cases hs
    exact (h.harmless c s.frame s.hasMap s.hasStart s.switchback false s.error s.lastCostmap).made none

theorem inv_init (c : Cfg) (p : P) : Inv (init c p) := by
  refine ⟨{ acc := ?_, one := (fun h => by cases h.1), cb := (fun h => by cases h), ct := (fun h => by cases h),
            tolGoal := (fun h => by cases h), esc := (fun h => by cases h), fin := (fun h => by cases h) },
          Pursued.of_off rfl rfl⟩
  exact { nodup := List.nodup_nil, bound := (fun i hi => by cases hi), openL := (fun i hi => by cases hi),
          closed := (fun i hi => by cases hi), future := (fun i _ => ⟨rfl, fun ⟨p, k, hm⟩ => by cases hm⟩),
          took := (fun i hi => by rcases hi with hi | hi <;> cases hi), wait := (fun i hi => by rcases hi with hi | hi <;> cases hi),
          fair := (fun i a hi => by obtain ⟨p, k, hm⟩ := hi; cases hm) }

theorem inv_foldlM : ∀ (h : List (Event P)) (s s' : St P), Inv s → h.foldlM step s = some s' → Inv s' := by
  intro h
  induction h with
  | nil => intro s s' hi hr; simp only [List.foldlM_nil] at hr; cases hr; exact hi
  | cons e h ih =>
    intro s s' hi hr
    rw [List.foldlM_cons] at hr
    cases hst : step s e with
    | none => rw [hst] at hr; cases hr
    | some s1 =>
      rw [hst] at hr
      exact ih s1 s' (inv_step s s1 e hi hst) hr

theorem inv_run (c : Cfg) (p : P) (h : List (Event P)) (s : St P) (hr : run c p h = some s) : Inv s :=
  inv_foldlM h _ s (inv_init c p) hr

end Verif.PlannerNode
