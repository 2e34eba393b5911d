import Verif.PlannerNode.Trace
/-! # No event is undefined -/
namespace Verif.PlannerNode
variable {P : Type}

theorem cache_one (w : World P) (n : Nat) (s : St P) (h : s.escaping ≠ .no ∨ w.goal s.goalRaw ≠ .inRock) :
    ∃ r, cache w (n + 1) s = some r := by
  unfold cache
  dsimp only
  split
  · exact ⟨_, rfl⟩
  split
  · exact ⟨_, rfl⟩
  split
  · exact ⟨_, rfl⟩
  · exact ⟨_, rfl⟩
  · split
    · exact ⟨_, rfl⟩
    · rename_i hg
      rcases h with h | h
      · rw [if_pos h]; exact ⟨_, rfl⟩
      · exact absurd hg h
    · exact ⟨_, rfl⟩
    · exact ⟨_, rfl⟩

theorem takeEscape_escaping (p : P) (b : Bool) (s : St P) : (takeEscape p b s).escaping ≠ .no := by
  unfold takeEscape
  cases b <;> simp

theorem escape_one (w : World P) (hw : Consistent w) (n : Nat) (who : Caller) (s : St P) :
    ∃ r, escapeGoal w (cache w (n + 1)) who s = some r := by
  unfold escapeGoal
  split
  · exact ⟨_, rfl⟩
  split
  · exact ⟨_, rfl⟩
  split
  · split
    · exact ⟨_, rfl⟩
    · obtain ⟨r, hr⟩ := cache_one w n _ (.inl (takeEscape_escaping _ false s))
      rw [hr]; exact ⟨_, rfl⟩
  · split
    · exact ⟨_, rfl⟩
    · rename_i ho
      obtain ⟨r, hr⟩ := cache_one w n (backToOriginal s) (.inr (hw _ _ ho))
      rw [hr]; exact ⟨_, rfl⟩
    · obtain ⟨r, hr⟩ := cache_one w n _ (.inl (takeEscape_escaping _ _ s))
      rw [hr]; exact ⟨_, rfl⟩

theorem cache_defined (w : World P) (hw : Consistent w) (s : St P) : ∃ r, cache w depth s = some r := by
  unfold depth cache
  dsimp only
  split
  · exact ⟨_, rfl⟩
  split
  · exact ⟨_, rfl⟩
  split
  · exact ⟨_, rfl⟩
  · exact ⟨_, rfl⟩
  · split
    · exact ⟨_, rfl⟩
    · split
      · exact ⟨_, rfl⟩
      split
      · obtain ⟨r, hr⟩ := escape_one w hw 0 .cache
          { s with cacheReady := false, startOccupied := false, stuck := s.stuck + 1 }
        rw [hr]; exact ⟨_, rfl⟩
      · exact ⟨_, rfl⟩
    · exact ⟨_, rfl⟩
    · exact ⟨_, rfl⟩

theorem escapeNow_defined (w : World P) (hw : Consistent w) (s : St P) : ∃ r, escapeNow w s = some r :=
  escape_one w hw 1 .robot s

theorem setGoal_defined (g : GoalMsg P) (w : World P) (hw : Consistent w) (s : St P) : ∃ r, setGoal g w s = some r := by
  unfold setGoal
  split
  · exact ⟨_, rfl⟩
  dsimp only
  split
  · obtain ⟨r, hr⟩ := cache_defined w hw
      { s with goalOriginal := g.pose, goalRaw := g.pose, goal := g.pose, escaping := .no, hasGoal := true, stuck := 0 }
    rw [hr]; exact ⟨_, rfl⟩
  · exact ⟨_, rfl⟩

theorem searchPath_defined (w : World P) (hw : Consistent w) (s : St P) : ∃ r, searchPath w s = some r := by
  unfold searchPath
  dsimp only
  split
  · split
    · obtain ⟨r, hr⟩ := escapeNow_defined w hw { s with error := .pathNotFound }
      rw [hr]; exact ⟨_, rfl⟩
    · exact ⟨_, rfl⟩
  · split
    · exact ⟨_, rfl⟩
    · exact ⟨_, rfl⟩

theorem tolerance_defined (s : St P) (h : s.tol.active = true → s.tolGoal ≠ none) : ∃ t, tolerance s = some t := by
  unfold tolerance
  split
  · exact ⟨_, rfl⟩
  split
  · rename_i ha
    cases ht : s.tolGoal with
    | none => exact absurd ht (h ha)
    | some t => exact ⟨_, rfl⟩
  · exact ⟨_, rfl⟩

theorem makePlan_defined (w : World P) (hw : Consistent w) (s : St P) (h : s.tol.active = true → s.tolGoal ≠ none) :
    ∃ r, makePlan w s = some r := by
  unfold makePlan
  split
  · exact ⟨_, rfl⟩
  obtain ⟨t, ht⟩ := tolerance_defined s h
  simp only [ht]
  split
  · split
    · obtain ⟨r, hr⟩ := cache_defined w hw (backToOriginal s)
      rw [hr]; exact ⟨_, rfl⟩
    · split
      · rename_i ha
        cases htg : s.tolGoal with
        | none => exact absurd htg (h ha)
        | some g =>
          dsimp only
          split
          · exact searchPath_defined w hw _
          · exact ⟨_, rfl⟩
      · exact ⟨_, rfl⟩
  · exact searchPath_defined w hw s

theorem planFinish_defined (w : World P) (s : St P) (h : s.tol.active = true → s.tolGoal ≠ none) :
    ∃ r, planFinish w s = some r := by
  have hl : ∃ l, (if s.tol.active = true then s.tolGoal.map Tol.angFinish else some s.cfg.angFinish) = some l := by
    split
    · rename_i ha
      cases htg : s.tolGoal with
      | none => exact absurd htg (h ha)
      | some g => exact ⟨_, rfl⟩
    · exact ⟨_, rfl⟩
  obtain ⟨l, hl⟩ := hl
  unfold planFinish
  simp only [hl]
  by_cases hy : |w.heading (if s.cfg.forceOrientation = true then s.goalRaw else s.goal)| < l
  · rw [if_pos hy]; exact ⟨_, rfl⟩
  · rw [if_neg hy]; exact ⟨_, rfl⟩

theorem planMove_defined (w : World P) (hw : Consistent w) (s : St P) (h : s.tol.active = true → s.tolGoal ≠ none) :
    ∃ r, planMove w s = some r := by
  unfold planMove
  dsimp only
  split
  · exact ⟨_, rfl⟩
  split
  · exact ⟨_, rfl⟩
  · obtain ⟨r, hr⟩ := makePlan_defined w hw { s with error := .goingWell } h
    rw [hr]; exact ⟨_, rfl⟩

theorem planPath_defined (now : Int) (w : World P) (hw : Consistent w) (s : St P)
    (h : s.tol.active = true → s.tolGoal ≠ none) : ∃ r, planPath now w s = some r := by
  have hc : ∃ s1, (if s.hasMap && !s.cacheReady && s.hasGoal then (cache w depth s).map Prod.fst else some s) = some s1 ∧
      SameCore s s1 := by
    split
    · obtain ⟨⟨s1, b⟩, hr⟩ := cache_defined w hw s
      rw [hr]
      exact ⟨s1, rfl, (moves_cache w _ _ _ _ hr).1⟩
    · exact ⟨s, rfl, SameCore.refl s⟩
  obtain ⟨s1, h1, hsc⟩ := hc
  unfold planPath
  rw [h1]
  have h2 : s1.tol.active = true → s1.tolGoal ≠ none := by
    obtain ⟨a, b, c, d, e, f, g, md, rfl⟩ := hsc; exact h
  simp only [Option.bind_some]
  split
  · split
    · exact ⟨_, rfl⟩
    · exact ⟨_, rfl⟩
  split
  · split
    · exact planFinish_defined w _ h2
    · exact planMove_defined w hw _ h2
  split
  · exact ⟨_, rfl⟩
  · exact ⟨_, rfl⟩

theorem applyUpdate_defined (u : Update P) (hw : Consistent u.w) (s : St P) : ∃ r, applyUpdate u s = some r := by
  obtain ⟨r, hr⟩ := cache_defined u.w hw { s with lastCostmap := u.now }
  unfold applyUpdate
  dsimp only
  rw [hr]
  repeat' split
  all_goals exact ⟨_, rfl⟩

theorem cbMapUpdate_defined (u : Update P) (hw : Consistent u.w) (s : St P) (h : s.tol.active = true → s.tolGoal ≠ none) :
    ∃ r, cbMapUpdate u s = some r := by
  unfold cbMapUpdate
  split
  · exact ⟨_, rfl⟩
  split
  · obtain ⟨s1, h1⟩ := applyUpdate_defined u hw { s with timer := false, hasStart := u.located }
    rw [h1]
    have h2 : s1.tol.active = true → s1.tolGoal ≠ none := by
      obtain ⟨a, b, c, d, e, f, g, md, rfl⟩ := applyUpdate_cases u _ s1 h1; exact h
    obtain ⟨s2, hs2⟩ := planPath_defined s1.lastCostmap u.w hw s1 h2
    simp only [Option.bind_some, hs2, Option.map_some]
    exact ⟨_, rfl⟩
  · exact applyUpdate_defined u hw s

theorem step_defined (s : St P) (e : Event P) (h : Inv s) (hw : ∀ w ∈ worlds e, Consistent w) : ∃ r, step s e = some r := by
  unfold step
  cases e with
  | map f w early =>
    dsimp only
    unfold cbMap
    obtain ⟨⟨s1, b⟩, h1⟩ := cache_defined w (hw w (by simp [worlds])) { emit (.path []) s with frame := f, hasMap := true, made := none }
    rw [h1]
    simp only [Option.bind_some]
    cases early with
    | none => exact ⟨_, rfl⟩
    | some u =>
      have h2 : s1.tol.active = true → s1.tolGoal ≠ none := by
        obtain ⟨a, b', c, d, e, f', k, md, rfl⟩ := (moves_cache w _ _ _ _ h1).1; exact h.1.tolGoal
      exact cbMapUpdate_defined u (hw u.w (by simp [worlds])) s1 h2
  | update u => exact cbMapUpdate_defined u (hw u.w (by simp [worlds])) s h.1.tolGoal
  | located ok => dsimp only; split <;> exact ⟨_, rfl⟩
  | switchReached => exact ⟨_, rfl⟩
  | cycle now w =>
    dsimp only
    split
    · exact ⟨_, rfl⟩
    · exact planPath_defined now w (hw w (by simp [worlds])) s h.1.tolGoal
  | timer now w =>
    dsimp only
    split
    · exact planPath_defined now w (hw w (by simp [worlds])) s h.1.tolGoal
    · exact ⟨_, rfl⟩
  | topicGoal g w =>
    dsimp only
    unfold cbGoal
    split
    · exact ⟨_, rfl⟩
    · obtain ⟨r, hr⟩ := setGoal_defined g w (hw w (by simp [worlds])) s
      rw [hr]; exact ⟨_, rfl⟩
  | baseGoal late g w =>
    dsimp only
    split
    · exact ⟨_, rfl⟩
    · unfold cbAction
      split
      · exact ⟨_, rfl⟩
      · obtain ⟨r, hr⟩ := setGoal_defined g w (hw w (by simp [worlds]))
          (accept .base g.pose (receive .base s.count { s with count := s.count + 1 }))
        rw [hr]; exact ⟨_, rfl⟩
  | tolGoal late g t w =>
    dsimp only
    split
    · exact ⟨_, rfl⟩
    · unfold cbTolerantAction
      split
      · exact ⟨_, rfl⟩
      · obtain ⟨r, hr⟩ := setGoal_defined g w (hw w (by simp [worlds]))
          { accept .tolerant g.pose (receive .tolerant s.count { s with count := s.count + 1 }) with tolGoal := some t }
        rw [hr]; exact ⟨_, rfl⟩
  | cancel k => cases k <;> exact ⟨_, rfl⟩
  | escape w =>
    dsimp only
    split
    · exact escapeNow_defined w (hw w (by simp [worlds])) s
    · exact ⟨_, rfl⟩
  | config c => exact ⟨_, rfl⟩

theorem run_defined (h : List (Event P)) (hw : AllConsistent h) : ∀ (s : St P), Inv s → ∃ r, h.foldlM step s = some r := by
  induction h with
  | nil => intro s _; exact ⟨s, rfl⟩
  | cons e h ih =>
    intro s hi
    obtain ⟨s1, h1⟩ := step_defined s e hi (hw e List.mem_cons_self)
    obtain ⟨r, hr⟩ := ih (fun e' he' => hw e' (List.mem_cons_of_mem _ he')) s1 (inv_step s s1 e hi h1)
    refine ⟨r, ?_⟩
    rw [List.foldlM_cons, h1]
    exact hr

end Verif.PlannerNode
