import Verif.PlannerNode.Guided
import Verif.PlannerNode.Trace
/-! # Where the published paths come from, for any history -/
namespace Verif.PlannerNode
variable {P : Type}

theorem origin_search (w : World P) (s s' : St P) (ps : List P) (h : searchPath w s = some (s', ps)) :
    (ps = [] ∨ ps = w.poses s.made s.goal) ∧ ∃ n, s'.log = s.log ++ List.replicate n (.path []) := by
  unfold searchPath at h
  dsimp only at h
  split at h
  · split at h
    · rw [Option.map_eq_some_iff] at h
      obtain ⟨s2, h3, h4⟩ := h
      cases h4
      refine ⟨.inl rfl, 0, ?_⟩
      obtain ⟨⟨a, b, c, d, e, f, g, md, rfl⟩, -⟩ := moves_escapeNow w _ _ h3
      simp
    · cases h
      exact ⟨.inl rfl, 0, by simp⟩
  · split at h
    · cases h
      exact ⟨.inr rfl, _, rfl⟩
    · cases h
      refine ⟨?_, _, rfl⟩
      split
      · exact .inr rfl
      · exact .inl rfl

theorem origin_makePlan (w : World P) (Q : List P → Prop) (q0 : Q []) (q1 : ∀ o g, w.starts g ≠ none → Q (w.poses o g)) (s s' : St P)
    (ps : List P) (h : makePlan w s = some (s', ps)) (q2 : s'.phase = .finishing → Q [finalPose s']) : Q ps ∧ Fine Q s s' := by
  have rep : ∀ (s s' : St P), (∃ n, s'.log = s.log ++ List.replicate n (.path [])) → Fine Q s s' := by
    rintro s s' ⟨n, hn⟩
    refine ⟨_, hn, fun ps hp => ?_⟩
    cases List.eq_of_mem_replicate hp
    exact q0
  unfold makePlan at h
  split at h
  · cases h; exact ⟨q0, fine_same rfl⟩
  rename_i ds hds
  have fin : ∀ s2 : St P, s2.goal = s.goal → Fine Q s s2 → searchPath w s2 = some (s', ps) → Q ps ∧ Fine Q s s' := by
    intro s2 k1 k2 k4
    obtain ⟨r2, r3⟩ := origin_search w s2 s' ps k4
    refine ⟨?_, k2.trans (rep _ _ r3)⟩
    rcases r2 with r2 | r2
    · rw [r2]; exact q0
    · rw [r2, k1]; exact q1 _ _ (by rw [hds]; simp)
  split at h
  · cases h
  split at h
  · split at h
    · rw [Option.map_eq_some_iff] at h
      obtain ⟨⟨s2, b⟩, h5, h6⟩ := h
      cases h6
      exact ⟨q0, (fine_same rfl : Fine Q s (backToOriginal s)).trans (fine_moves (moves_cache w _ _ _ _ h5))⟩
    split at h
    · split at h
      · cases h
      split at h
      · refine fin _ ?_ ?_ h
        · obtain ⟨b, t, l, he, -⟩ := finish_rest .tolerant .passed s
          rw [he]
        · exact (fine_finish .tolerant .passed s).trans (fine_same rfl)
      · cases h
        exact ⟨q0, (fine_same rfl : Fine Q s { s with phase := .finishing }).trans (fine_finishPath _ (q2 rfl))⟩
    · cases h
      exact ⟨q0, (fine_same rfl : Fine Q s { s with phase := .finishing }).trans (fine_finishPath _ (q2 rfl))⟩
  · exact fin s rfl (Fine.refl Q s) h

theorem origin_planMove (w : World P) (Q : List P → Prop) (q0 : Q []) (q1 : ∀ o g, w.starts g ≠ none → Q (w.poses o g)) (s s' : St P)
    (h : planMove w s = some s') (q2 : s'.phase = .finishing → Q [finalPose s']) : Fine Q s s' := by
  unfold planMove at h
  dsimp only at h
  split at h
  · cases h
    exact ((fine_same rfl).trans (fine_emit _ _ q0)).trans (fine_finishBoth _ _)
  split at h
  · cases h
    exact ((fine_same rfl).trans (fine_emit _ _ q0)).trans (fine_publish _)
  · rw [Option.map_eq_some_iff] at h
    obtain ⟨⟨r, ps⟩, h5, h6⟩ := h
    obtain ⟨k2, k3⟩ := origin_makePlan w Q q0 q1 _ r ps h5 (by
      dsimp only at h6
      intro hf
      have : s'.phase = r.phase ∧ finalPose s' = finalPose r := by
        rw [← h6]
        split <;> split <;> exact ⟨rfl, rfl⟩
      rw [← this.2]
      exact q2 (this.1.trans hf))
    have fin : ∀ x : St P, Fine Q r x →
        s' = publishStatus (if x.escaping ≠ .no ∨ s.escaping ≠ .no then { x with error := (x.escaping.worst s.escaping).err } else x) →
        Fine Q s s' := by
      intro x e2 e3
      have k4 : Fine Q s x := ((fine_same rfl).trans k3).trans e2
      split at e3 <;> subst e3
      · exact (k4.trans (fine_same rfl)).trans (fine_publish _)
      · exact k4.trans (fine_publish _)
    dsimp only at h6
    split at h6
    · exact fin { emit (.path ps) r with switchback := w.turns ps } ((fine_emit r ps k2).trans (fine_same rfl)) h6.symm
    · exact fin (emit (.path ps) r) (fine_emit r ps k2) h6.symm

theorem origin_planFinish (w : World P) (Q : List P → Prop) (s s' : St P) (h : planFinish w s = some s') (hp : s.phase = .finishing)
    (q2 : s'.phase = .finishing → Q [finalPose s']) : Fine Q s s' := by
  unfold planFinish at h
  dsimp only at h
  generalize w.heading _ = yaw at h
  split at h
  · cases h
  split at h
  · cases h
    exact ((fine_same rfl : Fine Q s { s with phase := .done, hasGoal := false }).trans (fine_finishBoth _ _)).trans (fine_publish _)
  · cases h
    exact (fine_finishPath s (q2 hp)).trans (fine_publish _)

/-- The paths of a planning cycle: empty, poses of a search, or the final pose. -/
theorem origin_planPath (now : Int) (w : World P) (Q : List P → Prop) (q0 : Q []) (q1 : ∀ o g, w.starts g ≠ none → Q (w.poses o g))
    (s s' : St P) (h : planPath now w s = some s') (q2 : s'.phase = .finishing → Q [finalPose s']) : Fine Q s s' := by
  unfold planPath at h
  rw [Option.bind_eq_some_iff] at h
  obtain ⟨s1, h1, h⟩ := h
  have hf : Fine Q s s1 := by
    split at h1
    · rw [Option.map_eq_some_iff] at h1
      obtain ⟨⟨s2, b⟩, h2, rfl⟩ := h1
      exact fine_moves (moves_cache w _ _ _ _ h2)
    · cases h1; exact Fine.refl Q s
  clear h1
  have idle : ∀ x : St P, Fine Q s x →
      Fine Q s (publishStatus (emit (.path []) (if x.cfg.retain then x else { x with error := .goingWell }))) := by
    intro x e2
    split
    · exact (e2.trans (fine_emit _ _ q0)).trans (fine_publish _)
    · exact ((e2.trans (fine_same rfl)).trans (fine_emit _ _ q0)).trans (fine_publish _)
  dsimp only at h
  split at h
  · have hx : Fine Q s (emit (.path []) { s1 with error := .dataMissing }) := (hf.trans (fine_same rfl)).trans (fine_emit _ _ q0)
    split at h
    · cases h
      exact idle _ hx
    · cases h
      exact hx.trans (fine_publish _)
  split at h
  · have h0 : Fine Q s { s1 with switchback := false } := hf.trans (fine_same rfl)
    split at h
    · rename_i hp
      exact h0.trans (origin_planFinish w Q _ _ h hp q2)
    · exact h0.trans (origin_planMove w Q q0 q1 _ _ h q2)
  split at h
  · cases h; exact idle _ hf
  · cases h
    exact hf.trans (fine_publish _)

theorem fine_out {Q : List P → Prop} (s : St P) (o : Out P) (h : ∀ ps, o ≠ .path ps) : Fine Q s (emit o s) :=
  ⟨[o], rfl, fun ps hp => absurd (List.mem_singleton.mp hp).symm (h ps)⟩

theorem fine_preempt {Q : List P → Prop} (s : St P) : Fine Q s (cbPreempt s) := by
  unfold cbPreempt
  exact (fine_finishBoth .preempted s).trans (fine_same rfl)

theorem fine_receive {Q : List P → Prop} (k : Which) (n : Nat) (s : St P) : Fine Q s (receive k n s) := by
  have out : ∀ j, Fine Q s (emit (.answer j .recalled) s) := fun j => fine_out _ _ (fun ps h => by cases h)
  cases k
  · unfold receive
    dsimp only
    cases s.base.pending with
    | none =>
      dsimp only
      split
      · refine Fine.trans ?_ (fine_preempt _)
        exact fine_same rfl
      · exact fine_same rfl
    | some j =>
      dsimp only
      split
      · refine Fine.trans (Fine.trans (out j) ?_) (fine_preempt _)
        exact fine_same rfl
      · exact (out j).trans (fine_same rfl)
  · unfold receive
    dsimp only
    cases s.tol.pending with
    | none =>
      dsimp only
      split
      · refine Fine.trans ?_ (fine_preempt _)
        exact fine_same rfl
      · exact fine_same rfl
    | some j =>
      dsimp only
      split
      · refine Fine.trans (Fine.trans (out j) ?_) (fine_preempt _)
        exact fine_same rfl
      · exact (out j).trans (fine_same rfl)

theorem fine_accept {Q : List P → Prop} (k : Which) (p : P) (s : St P) : Fine Q s (accept k p s) := by
  cases k <;> unfold accept <;> dsimp only <;> split
  · exact (fine_same rfl : Fine Q s { s with base := _ }).trans (fine_out _ _ (fun ps h => by cases h))
  · exact Fine.refl Q s
  · exact (fine_same rfl : Fine Q s { s with tol := _ }).trans (fine_out _ _ (fun ps h => by cases h))
  · exact Fine.refl Q s

theorem fine_setGoal {Q : List P → Prop} (g : GoalMsg P) (w : World P) (s s' : St P) (b : Bool) (h : setGoal g w s = some (s', b)) : Fine Q s s' := by
  unfold setGoal at h
  split at h
  · cases h; exact Fine.refl Q _
  dsimp only at h
  split at h
  · rw [Option.map_eq_some_iff] at h
    obtain ⟨⟨s1, b1⟩, h1, h2⟩ := h
    have k : Fine Q s s1 := Fine.trans (fine_same (by rfl)) (fine_moves (moves_cache w _ _ _ _ h1))
    dsimp only at h2
    split at h2
    · cases h2
      exact (k.trans (fine_same rfl : Fine Q s1 { s1 with phase := .doing })).trans (fine_out _ _ (fun ps h => by cases h))
    · cases h2; exact k.trans (fine_same rfl)
  · cases h
    exact (fine_same rfl : Fine Q s { s with goalOriginal := g.pose, goalRaw := g.pose, goal := g.pose, hasGoal := false }).trans (fine_finishBoth _ _)

theorem fine_applyUpdate {Q : List P → Prop} (u : Update P) (s s' : St P) (h : applyUpdate u s = some s') : Fine Q s s' := by
  obtain ⟨_, _, _, _, _, _, _, _, rfl⟩ := applyUpdate_cases u _ s' h
  exact fine_same rfl

theorem origin_mapUpdate (u : Update P) (Q : List P → Prop) (q0 : Q []) (q1 : ∀ o g, u.w.starts g ≠ none → Q (u.w.poses o g))
    (s s' : St P) (h : cbMapUpdate u s = some s') (q2 : s'.phase = .finishing → Q [finalPose s']) : Fine Q s s' := by
  unfold cbMapUpdate at h
  split at h
  · cases h; exact Fine.refl Q s
  split at h
  · rw [Option.bind_eq_some_iff] at h
    obtain ⟨s1, h1, h2⟩ := h
    rw [Option.map_eq_some_iff] at h2
    obtain ⟨s2, h2, h3⟩ := h2
    have hsame : s'.log = s2.log ∧ s'.phase = s2.phase ∧ finalPose s' = finalPose s2 := by
      rw [← h3]
      split <;> exact ⟨rfl, rfl, rfl⟩
    have k := origin_planPath _ u.w Q q0 q1 _ _ h2 fun hp => by
      rw [← hsame.2.2]
      exact q2 (hsame.2.1.trans hp)
    exact (((fine_same rfl).trans (fine_applyUpdate u _ _ h1)).trans k).trans (fine_same hsame.1)
  · exact fine_applyUpdate u _ _ h

/-- The paths published at any event: empty, poses of a search in one of the event's worlds, or the final pose. -/
theorem origin_step (Q : List P → Prop) (e : Event P) (q0 : Q []) (q1 : ∀ w ∈ worlds e, ∀ o g, w.starts g ≠ none → Q (w.poses o g))
    (s s' : St P) (h : step s e = some s') (q2 : s'.phase = .finishing → Q [finalPose s']) : Fine Q s s' := by
  cases e with
  | map f w early =>
    unfold step cbMap at h
    rw [Option.bind_eq_some_iff] at h
    obtain ⟨⟨s1, b⟩, h1, h⟩ := h
    have k : Fine Q s s1 := 
      ((fine_emit s [] q0).trans (fine_same rfl : Fine Q _ { emit (.path []) s with frame := f, hasMap := true, made := none })).trans
        (fine_moves (moves_cache w _ _ _ _ h1))
    dsimp only at h
    split at h
    · exact k.trans (origin_mapUpdate _ Q q0 (q1 _ (by simp [worlds])) _ _ h q2)
    · cases h; exact k
  | update u => exact origin_mapUpdate u Q q0 (q1 _ (by simp [worlds])) _ _ h q2
  | located ok =>
    unfold step at h
    dsimp only at h
    split at h
    · cases h; exact fine_same rfl
    · cases h; exact Fine.refl Q s
  | switchReached => cases h; exact fine_same rfl
  | cycle now w =>
    unfold step at h
    dsimp only at h
    split at h
    · cases h; exact Fine.refl Q s
    · exact origin_planPath _ w Q q0 (q1 _ (by simp [worlds])) _ _ h q2
  | timer now w =>
    unfold step at h
    dsimp only at h
    split at h
    · exact origin_planPath _ w Q q0 (q1 _ (by simp [worlds])) _ _ h q2
    · cases h; exact Fine.refl Q s
  | topicGoal g w =>
    unfold step cbGoal at h
    dsimp only at h
    split at h
    · cases h; exact Fine.refl Q s
    · rw [Option.map_eq_some_iff] at h
      obtain ⟨⟨s1, b⟩, h1, rfl⟩ := h
      exact fine_setGoal g w s s1 b h1
  | baseGoal late g w =>
    unfold step at h
    dsimp only at h
    split at h
    · cases h; exact (fine_same rfl : Fine Q s { s with count := s.count + 1 }).trans (fine_out _ _ (fun ps h => by cases h))
    · have hr : Fine Q s (receive .base s.count { s with count := s.count + 1 }) := (fine_same rfl).trans (fine_receive _ _ _)
      unfold cbAction at h
      split at h
      · cases h; exact hr
      · rw [Option.map_eq_some_iff] at h
        obtain ⟨⟨s1, b⟩, h1, h2⟩ := h
        have k := (hr.trans (fine_accept .base g.pose _)).trans (fine_setGoal g w _ s1 b h1)
        subst h2
        dsimp only
        split
        · exact k
        · exact k.trans (fine_finish _ _ _)
  | tolGoal late g t w =>
    unfold step at h
    dsimp only at h
    split at h
    · cases h; exact (fine_same rfl : Fine Q s { s with count := s.count + 1 }).trans (fine_out _ _ (fun ps h => by cases h))
    · have hr : Fine Q s (receive .tolerant s.count { s with count := s.count + 1 }) := (fine_same rfl).trans (fine_receive _ _ _)
      unfold cbTolerantAction at h
      split at h
      · cases h; exact hr
      · rw [Option.map_eq_some_iff] at h
        obtain ⟨⟨s1, b⟩, h1, h2⟩ := h
        have k := ((hr.trans (fine_accept .tolerant g.pose _)).trans
          (fine_same rfl : Fine Q _ { accept .tolerant g.pose (receive .tolerant s.count { s with count := s.count + 1 }) with tolGoal := some t })).trans
          (fine_setGoal g w _ s1 b h1)
        subst h2
        dsimp only
        split
        · exact k
        · exact k.trans (fine_finish _ _ _)
  | cancel k =>
    cases k <;> unfold step at h <;> dsimp only at h <;> split at h <;> cases h <;>
      first | exact Fine.refl Q s | exact fine_preempt s
  | escape w =>
    unfold step at h
    dsimp only at h
    split at h
    · exact fine_moves (moves_escapeNow w _ _ h)
    · cases h; exact Fine.refl Q s
  | config c => cases h; exact fine_same rfl

/-- A planning cycle ends by publishing the status, unless it gives up. -/
theorem planPath_last (now : Int) (w : World P) (s s' : St P) (hs : planPath now w s = some s') :
    s'.phase = .done ∨ s'.log.getLast? = some (.status s'.phase s'.error) := by
  have pub : ∀ x : St P, (publishStatus x).phase = .done ∨ (publishStatus x).log.getLast? = some (.status (publishStatus x).phase (publishStatus x).error) :=
    fun x => .inr (by simp [publishStatus, emit])
  unfold planPath at hs
  obtain ⟨t, -, hs⟩ := Option.bind_eq_some_iff.mp hs
  dsimp only at hs
  split_ifs at hs
  all_goals first | (cases hs; exact pub _) | skip
  · unfold planFinish at hs
    dsimp only at hs
    split at hs
    · cases hs
    · split_ifs at hs <;> cases hs <;> exact pub _
  · unfold planMove at hs
    dsimp only at hs
    split_ifs at hs
    · cases hs
      left
      clear hs
      have ph : ∀ k a (x : St P), (finish k a x).phase = x.phase := by
        intro k a x
        obtain ⟨b, t, l, h, -⟩ := finish_rest k a x
        rw [h]
      unfold giveUp finishBoth
      rw [ph, ph]
      rfl
    · cases hs; exact pub _
    · cases hs; exact pub _
    · obtain ⟨r, -, h⟩ := Option.map_eq_some_iff.mp hs
      rw [← h]; exact pub _

end Verif.PlannerNode
