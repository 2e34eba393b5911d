import Verif.PlannerNode.StatusSpec
import Verif.PlannerNode.Props
import Verif.PlannerNode.Guided
/-! # What the status message says about the last planning cycle -/
namespace Verif.PlannerNode
variable {P : Type}

theorem shows_of {s s' : St P} {l : List (Out P)} {ph : Phase} {e : Err} (h : s'.log = s.log ++ (l ++ [.status ph e])) :
    shows (published s s') = some (ph, e) := by
  rw [published_of h]
  unfold shows
  rw [List.getLast?_concat]

/-- Escaping does not touch the error. -/
theorem escapeNow_error (w : World P) (s s' : St P) (h : escapeNow w s = some s') : s'.error = s.error := by
  obtain ⟨a, b, c, d, e, f, g, md, rfl⟩ := (moves_escapeNow w _ _ h).1
  rfl

/-- The search, with no error noted before. -/
theorem searchPath_status (w : World P) (s s' : St P) (ps : List P) (hs : searchPath w s = some (s', ps)) (he : s.error = .goingWell) :
    (s'.error = .goingWell ∧ w.unreachable s.made s.goal = false ∧ w.found s.made s.goal = true ∧ ps = w.poses s.made s.goal ∧ s'.goal = s.goal ∧
      s'.escaping = s.escaping) ∨
    (s'.error = .pathNotFound ∧ (w.unreachable s.made s.goal = true ∨ w.found s.made s.goal = false)) := by
  unfold searchPath at hs
  dsimp only at hs
  split at hs
  · rename_i h1
    split at hs
    · rw [Option.map_eq_some_iff] at hs
      obtain ⟨s2, h2, h3⟩ := hs
      cases h3
      have := escapeNow_error w _ _ h2
      exact .inr ⟨this, .inl h1⟩
    · cases hs
      exact .inr ⟨rfl, .inl h1⟩
  · rename_i h1
    split at hs
    · rename_i h2
      cases hs
      exact .inl ⟨he, by simpa using h1, h2, rfl, rfl, rfl⟩
    · rename_i h2
      cases hs
      exact .inr ⟨rfl, .inr (by simpa using h2)⟩

/-- A plan made while not escaping, with no error noted before. -/
theorem makePlan_status (w : World P) (s s' : St P) (ps : List P) (hs : makePlan w s = some (s', ps)) (he : s.error = .goingWell)
    (hn : s.escaping = .no) :
    (s'.error = .goingWell ∧ (s'.phase = .finishing ∧ NearGoal w s.goal (goalTolerance s) ∨
      w.unreachable s.made s.goal = false ∧ w.found s.made s.goal = true ∧ ps = w.poses s.made s.goal)) ∨
    (s'.error = .inRock ∧ w.starts s.goal = none) ∨
    (s'.error = .pathNotFound ∧ (w.unreachable s.made s.goal = true ∨ w.found s.made s.goal = false)) := by
  unfold makePlan at hs
  split at hs
  · rename_i h0
    cases hs; exact .inr (.inl ⟨rfl, h0⟩)
  rename_i ds hds
  split at hs
  · cases hs
  rename_i t ht
  split at hs
  · rename_i hany
    rw [if_neg (not_not.mpr hn)] at hs
    have near := near_of_any w s.goal ds t hds hany
    rw [goalTolerance_eq s t hn ht] at near
    split at hs
    · split at hs
      · cases hs
      split at hs
      · have hf : (finish .tolerant .passed s).error = s.error ∧ (finish .tolerant .passed s).goal = s.goal ∧
            (finish .tolerant .passed s).made = s.made := by
          unfold finish
          dsimp only
          by_cases ha : s.tol.active = true
          · rw [if_pos ha]
            cases s.tol.current <;> exact ⟨rfl, rfl, rfl⟩
          · rw [if_neg ha]
            exact ⟨rfl, rfl, rfl⟩
        rcases searchPath_status w _ _ _ hs (hf.1.trans he) with ⟨h1, h2, h3, h4, -, -⟩ | ⟨h1, h2⟩
        · dsimp only at h2 h3 h4
          rw [hf.2.1, hf.2.2] at h2 h3 h4
          exact .inl ⟨h1, .inr ⟨h2, h3, h4⟩⟩
        · dsimp only at h2
          rw [hf.2.1, hf.2.2] at h2
          exact .inr (.inr ⟨h1, h2⟩)
      · cases hs
        exact .inl ⟨he, .inl ⟨rfl, near⟩⟩
    · cases hs
      exact .inl ⟨he, .inl ⟨rfl, near⟩⟩
  · rcases searchPath_status w _ _ _ hs he with ⟨h1, h2, h3, h4, -, -⟩ | ⟨h1, h2⟩
    · exact .inl ⟨h1, .inr ⟨h2, h3, h4⟩⟩
    · exact .inr (.inr ⟨h1, h2⟩)

/-- The two ways of a planning attempt that does not give up. -/
theorem planMove_status (w : World P) (s s' : St P) (hs : planMove w s = some s') :
    (s.cfg.maxRetry ≠ -1 ∧ s.stuck > s.cfg.maxRetry ∧ s' = giveUp s) ∨
    (s.cacheReady = false ∧ s'.escaping = s.escaping ∧ s'.error = (if s.startOccupied then .inRock else .pathNotFound) ∧
      s'.log = s.log ++ [.path [], .status s'.phase s'.error]) ∨
    (s.cacheReady = true ∧ ∃ r ps l, makePlan w { s with error := .goingWell } = some (r, ps) ∧ s'.escaping = r.escaping ∧
      s'.phase = r.phase ∧ s'.error = (if r.escaping ≠ .no ∨ s.escaping ≠ .no then (r.escaping.worst s.escaping).err else r.error) ∧
      s'.log = s.log ++ (l ++ [.path ps, .status s'.phase s'.error])) := by
  unfold planMove at hs
  dsimp only at hs
  split at hs
  · rename_i hr
    cases hs
    exact .inl ⟨hr.1, hr.2, rfl⟩
  split at hs
  · rename_i hc
    cases hs
    refine .inr (.inl ⟨by simpa using hc, rfl, rfl, ?_⟩)
    show (s.log ++ [_]) ++ [_] = _
    rw [List.append_assoc]
    rfl
  · rename_i hc
    rw [Option.map_eq_some_iff] at hs
    obtain ⟨⟨r, ps⟩, h1, h2⟩ := hs
    obtain ⟨-, -, -, -, -, l, hl, -⟩ := makePlan_kept w _ r ps h1
    dsimp only at h2 hl
    refine .inr (.inr ⟨by simpa using hc, r, ps, l, h1, ?_⟩)
    have hb : ∀ x : St P, x.escaping = r.escaping → x.phase = r.phase → x.error = r.error → x.log = r.log ++ [.path ps] →
        s' = publishStatus (if x.escaping ≠ .no ∨ s.escaping ≠ .no then { x with error := (x.escaping.worst s.escaping).err } else x) →
        s'.escaping = r.escaping ∧ s'.phase = r.phase ∧
          s'.error = (if r.escaping ≠ .no ∨ s.escaping ≠ .no then (r.escaping.worst s.escaping).err else r.error) ∧
          s'.log = s.log ++ (l ++ [.path ps, .status s'.phase s'.error]) := by
      intro x e1 e2 e3 e4 e5
      rw [e1] at e5
      split at e5
      · rename_i hh
        subst e5
        rw [if_pos hh]
        refine ⟨rfl, e2, rfl, ?_⟩
        show x.log ++ [_] = _
        rw [e4, hl]
        simp [publishStatus, emit]
      · rename_i hh
        subst e5
        rw [if_neg hh]
        refine ⟨e1, e2, e3, ?_⟩
        show x.log ++ [_] = _
        rw [e4, hl]
        simp [publishStatus, emit]
    subst h2
    by_cases hw : r.cfg.waitSwitch = true
    · refine hb { emit (.path ps) r with switchback := w.turns ps } rfl rfl rfl rfl ?_
      rw [if_pos (show (emit (.path ps) r).cfg.waitSwitch = true from hw)]
    · refine hb (emit (.path ps) r) rfl rfl rfl rfl ?_
      rw [if_neg (show ¬ (emit (.path ps) r).cfg.waitSwitch = true from hw)]

/-- The mark "the robot stands in an obstacle" is true. -/
theorem cache_occupied (w : World P) : ∀ (n : Nat) (s s' : St P) (b : Bool), cache w n s = some (s', b) →
    (s.startOccupied = true → w.start = .inRock) → s'.startOccupied = true → w.start = .inRock := by
  intro n
  induction n with
  | zero => intro s s' b h; cases h
  | succ n ih =>
    intro s s' b h h0
    unfold cache at h
    dsimp only at h
    split at h
    · cases h; exact h0
    split at h
    · cases h; exact h0
    split at h
    · cases h; exact fun k => by cases k
    · rename_i hr; cases h; exact fun _ => hr
    · split at h
      · cases h; exact fun k => by cases k
      · split at h
        · cases h; exact fun k => by cases k
        split at h
        · rw [Option.map_eq_some_iff] at h
          obtain ⟨s1, h1, h2⟩ := h
          cases h2
          unfold escapeGoal at h1
          dsimp only at h1
          split at h1
          · cases h1; exact fun k => by cases k
          split at h1
          · cases h1; exact fun k => by cases k
          split at h1
          · split at h1
            · cases h1; exact fun k => by cases k
            · rw [Option.map_eq_some_iff] at h1
              obtain ⟨⟨s2, b2⟩, h3, rfl⟩ := h1
              exact ih _ _ _ h3 (fun k => by cases k)
          · split at h1
            · cases h1; exact fun k => by cases k
            · rw [Option.map_eq_some_iff] at h1
              obtain ⟨⟨s2, b2⟩, h3, rfl⟩ := h1
              exact ih _ _ _ h3 (fun k => by cases k)
            · rw [Option.map_eq_some_iff] at h1
              obtain ⟨⟨s2, b2⟩, h3, rfl⟩ := h1
              exact ih _ _ _ h3 (fun k => by cases k)
        · cases h; exact fun k => by cases k
      · cases h; exact fun k => by cases k
      · cases h; exact fun k => by cases k

/-- The mark is made anew. -/
theorem cache_unmarked (w : World P) (n : Nat) (s : St P) (hg : s.hasGoal = true) (hm : s.hasMap = true) (ha : s.hasStart = true) :
    cache w n s = cache w n { s with startOccupied := false } := by
  cases n with
  | zero => rfl
  | succ n => simp [cache, hg, hm, ha]

/-- Why the estimate was not made. -/
theorem cache_unready (w : World P) (n : Nat) (s s' : St P) (b : Bool) (h : cache w n s = some (s', b)) (hg : s.hasGoal = true)
    (hm : s.hasMap = true) (ha : s.hasStart = true) (hc : s'.cacheReady = false) (ho : s'.startOccupied = false) :
    w.start = .outOfMap ∨ w.goal s.goalRaw = .outOfMap ∨ w.goal s.goalRaw = .inRock := by
  cases n with
  | zero => cases h
  | succ n =>
    unfold cache at h
    dsimp only at h
    rw [if_neg (by simp [hg]), if_neg (by simp [hm, ha])] at h
    split at h
    · rename_i hh; exact .inl hh
    · cases h; cases ho
    · split at h
      · rename_i hh; exact .inr (.inl hh)
      · rename_i hh; exact .inr (.inr hh)
      · cases h; cases hc
      · cases h; cases hc

/-- Without an offer, looking at the goal takes up no escape goal. -/
theorem cache_noEscape (w : World P) : ∀ (n : Nat) (s s' : St P) (b : Bool), cache w n s = some (s', b) → s.escaping = .no →
    (∀ q b, w.crowd .cache s.goalOriginal ≠ .temp q b) → s'.escaping = .no := by
  intro n
  induction n with
  | zero => intro s s' b h; cases h
  | succ n ih =>
    intro s s' b h h0 hq
    unfold cache at h
    dsimp only at h
    split at h
    · cases h; exact h0
    split at h
    · cases h; exact h0
    split at h
    · cases h; exact h0
    · cases h; exact h0
    · split at h
      · cases h; exact h0
      · split at h
        · cases h; rfl
        split at h
        · rename_i hcr
          rw [Option.map_eq_some_iff] at h
          obtain ⟨s1, h1, h2⟩ := h
          cases h2
          unfold escapeGoal at h1
          dsimp only at h1
          split at h1
          · cases h1; exact h0
          split at h1
          · cases h1; exact h0
          split at h1
          · rename_i hx
            simp at hcr hx
            rw [hcr.2] at hx
            cases hx
          · split at h1
            · cases h1; exact h0
            · rw [Option.map_eq_some_iff] at h1
              obtain ⟨⟨s2, b2⟩, h3, rfl⟩ := h1
              exact ih _ _ _ h3 rfl hq
            · rename_i q b2 hh
              exact absurd hh (hq q b2)
        · cases h; exact h0
      · cases h; exact h0
      · cases h; exact h0

/-- A cycle with everything needed: the estimate is refreshed, then a plan is attempted. -/
theorem planPath_ready (now : Int) (w : World P) (s s' : St P) (hs : planPath now w s = some s') (hr : Ready s now) :
    ∃ s1, (s.cacheReady = true ∧ s1 = s ∨ s.cacheReady = false ∧ ∃ b, cache w depth s = some (s1, b)) ∧
      planMove w { s1 with switchback := false } = some s' := by
  obtain ⟨hm, hg, ha, hp, hw⟩ := hr
  unfold planPath at hs
  rw [Option.bind_eq_some_iff] at hs
  obtain ⟨s1, h1, hs⟩ := hs
  have hre : s.cacheReady = true ∧ s1 = s ∨ s.cacheReady = false ∧ ∃ b, cache w depth s = some (s1, b) := by
    split at h1
    · rename_i hc
      rw [Option.map_eq_some_iff] at h1
      obtain ⟨⟨s2, b⟩, h2, rfl⟩ := h1
      refine .inr ⟨?_, b, h2⟩
      simp only [Bool.and_eq_true, Bool.not_eq_true'] at hc
      exact hc.1.2
    · rename_i hc
      cases h1
      refine .inl ⟨?_, rfl⟩
      simpa [hm, hg] using hc
  have hmv : Moves s s1 := by
    rcases hre with ⟨-, rfl⟩ | ⟨-, b, h⟩
    · exact Moves.refl _
    · exact moves_cache w _ _ _ _ h
  refine ⟨s1, hre, ?_⟩
  clear hre h1
  obtain ⟨⟨a, b, c, d, e, f, g, md, rfl⟩, hph, -⟩ := hmv
  dsimp only at hs
  have hng : g ≠ .finishing := by
    rcases hph with hph | ⟨hph, -⟩
    · dsimp only at hph; rw [hph]; exact hp
    · exact absurd hph hp
  split at hs
  · rename_i hst
    exact absurd hst.2 (not_lt.mpr (hw hst.1))
  rw [if_pos (show (s.hasMap && s.hasGoal && s.hasStart) = true by simp [hm, hg, ha])] at hs
  exact hs

/-- Giving up publishes an empty path and answers, no status. -/
theorem giveUp_shows (s : St P) : ∃ l, (giveUp s).log = s.log ++ .path [] :: l ∧ ∀ ph e, shows (.path [] :: l) ≠ some (ph, e) := by
  obtain ⟨-, -, -, -, -, l, hl, ha⟩ := finishBoth_kept .aborted (emit (.path []) { s with error := .pathNotFound, phase := .done, hasGoal := false })
  refine ⟨l, ?_, ?_⟩
  · unfold giveUp
    rw [hl]
    simp [emit]
  · intro ph e hh
    unfold shows at hh
    split at hh
    · rename_i ph' e' hx
      have hm := List.mem_of_getLast? hx
      rcases List.mem_cons.mp hm with hm | hm
      · cases hm
      · obtain ⟨i, -, hi⟩ := ha _ hm
        cases hi
    · cases hh

/-- **C127**: what the status says after a planning cycle with everything needed, and no temporary escape: that it goes well, only if the robot is
at the goal or the path sent is one found to the goal; that the robot is in an obstacle, only if it is; that there is no path, only if the goal
or the robot is out of the map or the goal blocked, or the search found nothing; never that data is missing.  The search was guided by a distance map
for the goal `g` in question if the history was undisturbed (C128), otherwise possibly by that for another one, `d`. -/
theorem status_tells_partial (c : Cfg) (p : P) (h : List (Event P)) (e : Event P) (s s' : St P) (now : Int) (w : World P) (ph : Phase) (er : Err)
    (hr : run c p h = some s) (he : PlansAt s now e) (hw : worlds e = [w]) (hs : step s e = some s') (hy : Ready s now)
    (hn : NoEscape s s' w) (hh : shows (published s s') = some (ph, er)) :
    (er = .goingWell → ∃ d g, Stands (h ++ [e]) s.goalOriginal g ∧ (Undisturbed c p h → d = some g) ∧
      ((ph = .finishing ∧ NearGoal w g (goalTolerance s)) ∨
      (w.unreachable d g = false ∧ w.found d g = true ∧ ∃ l, published s s' = l ++ [.path (w.poses d g), .status ph er]))) ∧
    (er = .inRock → w.start = .inRock ∨ ∃ g, Stands (h ++ [e]) s.goalOriginal g ∧ w.starts g = none) ∧
    (er = .pathNotFound → w.start = .outOfMap ∨ w.goal s.goalOriginal = .outOfMap ∨ w.goal s.goalOriginal = .inRock ∨
      ∃ d g, Stands (h ++ [e]) s.goalOriginal g ∧ (Undisturbed c p h → d = some g) ∧ (w.unreachable d g = true ∨ w.found d g = false)) ∧
    er ≠ .dataMissing := by
  obtain ⟨w', hw', hpl⟩ := plans_at s s' now e he hs
  rw [hw] at hw'
  obtain rfl := List.mem_singleton.mp hw'
  obtain ⟨n1, n2, n3⟩ := hn
  have inv := inv_run c p h s hr
  have hmem : Seen (h ++ [e]) w' := ⟨e, List.mem_append_right _ (List.mem_singleton.mpr rfl), by rw [hw]; exact List.mem_singleton.mpr rfl⟩
  have tgt : Target (Seen (h ++ [e])) s := fun k1 k2 => ((trail_run c p w' h s hr).target k1 k2).mono
    (fun w ⟨e', he', hw⟩ => ⟨e', List.mem_append_left _ he', hw⟩)
  have hok : EscOk s := ⟨inv.1.esc hy.2.1, inv.1.fin hy.2.1⟩
  have hraw : s.goalRaw = s.goalOriginal := hok.1 n1
  obtain ⟨s1, hre, hmv⟩ := planPath_ready now w' s s' hpl hy
  have hcore : SameCore s s1 := by
    rcases hre with ⟨-, rfl⟩ | ⟨-, b, hc⟩
    · exact SameCore.refl _
    · exact (moves_cache w' _ _ _ _ hc).1
  have hesc : s1.escaping = .no := by
    rcases hre with ⟨-, rfl⟩ | ⟨-, b, hc⟩
    · exact n1
    · exact cache_noEscape w' _ _ _ _ hc n1 n3
  have tgt1 : Target (Seen (h ++ [e])) s1 := by
    rcases hre with ⟨-, rfl⟩ | ⟨-, b, hc⟩
    · exact tgt
    · exact target_cache _ w' hmem _ _ _ _ hok tgt hc
  have hst : Stands (h ++ [e]) s.goalOriginal s1.goal := by
    have hg1 : s1.hasGoal = true := by obtain ⟨_, _, _, _, _, _, _, _, rfl⟩ := hcore; exact hy.2.1
    have := (tgt1 hg1 hesc).stands
    obtain ⟨_, _, _, _, _, _, _, _, rfl⟩ := hcore
    exact this
  have htol : goalTolerance s1 = goalTolerance s := by obtain ⟨_, _, _, _, _, _, _, _, rfl⟩ := hcore; rfl
  have hlog : s1.log = s.log := by obtain ⟨_, _, _, _, _, _, _, _, rfl⟩ := hcore; rfl
  rcases planMove_status w' _ s' hmv with ⟨-, -, hgu⟩ | ⟨m1, m2, m3, m4⟩ | ⟨m1, r, ps, l, m2, m3, m4, m5, m6⟩
  · exfalso
    have hk := giveUp_shows { s1 with switchback := false }
    rw [← hgu] at hk
    obtain ⟨l, hl1, hl2⟩ := hk
    rw [show published s s' = .path [] :: l by rw [published_of (s := s) (s' := s') (l := .path [] :: l)]; rw [hl1, ← hlog]] at hh
    exact hl2 _ _ hh
  · dsimp only at m1 m3 m4
    have hcs : ∃ b, cache w' depth s = some (s1, b) := by
      rcases hre with ⟨hc, rfl⟩ | ⟨-, hc⟩
      · rw [m1] at hc; cases hc
      · exact hc
    obtain ⟨b, hc⟩ := hcs
    have hk := shows_of (s := s) (s' := s') (l := [.path []]) (ph := s'.phase) (e := s'.error) (by rw [m4, hlog]; rfl)
    rw [hk] at hh
    obtain ⟨rfl, rfl⟩ := Prod.mk.inj (Option.some.inj hh)
    cases ho : s1.startOccupied with
    | true =>
      rw [ho] at m3
      rw [if_pos rfl] at m3
      rw [m3]
      refine ⟨by simp, fun _ => .inl ?_, by simp, by simp⟩
      exact cache_occupied w' _ _ _ _ ((cache_unmarked w' _ s hy.2.1 hy.1 hy.2.2.1).symm.trans hc) (fun k => by cases k) ho
    | false =>
      rw [ho] at m3
      rw [if_neg (by simp)] at m3
      rw [m3]
      refine ⟨by simp, by simp, fun _ => ?_, by simp⟩
      rcases cache_unready w' _ _ _ _ hc hy.2.1 hy.1 hy.2.2.1 m1 ho with k | k | k
      · exact .inl k
      · exact .inr (.inl (hraw ▸ k))
      · exact .inr (.inr (.inl (hraw ▸ k)))
  · dsimp only at m1 m2 m3 m4 m5 m6
    have hk := shows_of (s := s) (s' := s') (l := l ++ [.path ps]) (ph := s'.phase) (e := s'.error) (by rw [m6, hlog]; simp)
    have hpub : published s s' = l ++ [.path ps, .status s'.phase s'.error] := published_of (by rw [m6, hlog])
    rw [hk] at hh
    obtain ⟨rfl, rfl⟩ := Prod.mk.inj (Option.some.inj hh)
    have hgd : Undisturbed c p h → s1.made = some s1.goal := by
      intro hu
      have hg : G s := g_run c p h s hr hu
      have hg1 : G s1 := by
        rcases hre with ⟨-, rfl⟩ | ⟨-, b, hc⟩
        · exact hg
        · exact g_cache w' _ _ _ _ hc fun _ => hg
      refine hg1.2 ?_ m1
      obtain ⟨_, _, _, _, _, _, _, _, rfl⟩ := hcore
      exact hy.2.1
    have hre : r.escaping = .no := m3.symm.trans n2
    rw [if_neg (by simp [hre, hesc])] at m5
    rcases makePlan_status w' _ _ _ m2 rfl hesc with ⟨q1, q2⟩ | ⟨q1, q2⟩ | ⟨q1, q2⟩
    · dsimp only at q2
      rw [m5, q1]
      refine ⟨fun _ => ⟨s1.made, s1.goal, hst, hgd, ?_⟩, by simp, by simp, by simp⟩
      rcases q2 with ⟨q2, q3⟩ | ⟨q2, q3, q4⟩
      · exact .inl ⟨m4.trans q2, by rw [← htol]; exact q3⟩
      · exact .inr ⟨q2, q3, l, by rw [hpub, m5, q1, q4]⟩
    · rw [m5, q1]
      exact ⟨by simp, fun _ => .inr ⟨s1.goal, hst, q2⟩, by simp, by simp⟩
    · rw [m5, q1]
      exact ⟨by simp, by simp, fun _ => .inr (.inr (.inr ⟨s1.made, s1.goal, hst, hgd, q2⟩)), by simp⟩

/-- **C127**: while a goal is pursued and the costmap is too old, every planning cycle says that data is missing, and sends only empty paths. -/
theorem missing_told (s s' : St P) (e : Event P) (now : Int) (he : PlansAt s now e) (hs : step s e = some s') (hg : s.hasGoal = true)
    (hw : s.cfg.watchdog > 0) (hl : now - s.lastCostmap > s.cfg.watchdog) :
    (∃ ph, shows (published s s') = some (ph, .dataMissing)) ∧ ∀ ps, Out.path ps ∈ published s s' → ps = [] := by
  obtain ⟨w, -, hpl⟩ := plans_at s s' now e he hs
  unfold planPath at hpl
  rw [Option.bind_eq_some_iff] at hpl
  obtain ⟨s1, h1, hpl⟩ := hpl
  have hc : SameCore s s1 := by
    split at h1
    · rw [Option.map_eq_some_iff] at h1
      obtain ⟨⟨s2, b⟩, h2, rfl⟩ := h1
      exact (moves_cache w _ _ _ _ h2).1
    · cases h1; exact SameCore.refl s
  clear h1
  obtain ⟨a, b, c, d, e, f, g, md, rfl⟩ := hc
  dsimp only at hpl
  split at hpl
  case isFalse hst => exact absurd (show Stale _ now from ⟨hw, hl⟩) hst
  rw [if_neg (by simp [emit, hg])] at hpl
  cases hpl
  have hk : published s (publishStatus (emit (.path []) { s with
      cacheReady := a, startOccupied := b, stuck := c, escaping := d, goal := e, goalRaw := f, phase := g, made := md, error := .dataMissing })) =
      [.path [], .status g .dataMissing] := published_of (by simp [publishStatus, emit])
  refine ⟨⟨g, ?_⟩, ?_⟩
  · exact congrArg shows hk
  · intro ps hp
    have hp := hk ▸ hp
    simp at hp
    exact hp

/-- **C127**: without a goal the last error is shown further, or, if so configured, that all is well; and the path is empty. -/
theorem idle_told (s s' : St P) (e : Event P) (now : Int) (he : PlansAt s now e) (hs : step s e = some s') (hg : s.hasGoal = false) :
    (∃ ph, shows (published s s') = some (ph, if s.cfg.retain then
      (if s.cfg.watchdog > 0 ∧ now - s.lastCostmap > s.cfg.watchdog then .dataMissing else s.error) else .goingWell)) ∧
    ∀ ps, Out.path ps ∈ published s s' → ps = [] := by
  obtain ⟨w, -, hpl⟩ := plans_at s s' now e he hs
  unfold planPath at hpl
  rw [if_neg (by simp [hg]), Option.bind_some] at hpl
  by_cases hst : Stale s now
  · rw [if_pos hst] at hpl
    rw [if_pos (show s.cfg.watchdog > 0 ∧ now - s.lastCostmap > s.cfg.watchdog from hst)]
    dsimp only [emit] at hpl
    rw [if_pos (by simp [hg])] at hpl
    cases hr : s.cfg.retain with
    | true =>
      rw [hr, if_pos rfl] at hpl
      cases hpl
      rw [if_pos rfl]
      have hk : published s (publishStatus (emit (.path []) (emit (.path []) { s with error := .dataMissing }))) =
        [.path [], .path [], .status s.phase .dataMissing] := published_of (by simp [publishStatus, emit])
      exact ⟨⟨s.phase, congrArg shows hk⟩, fun ps hp => by have hp := hk ▸ hp; simpa using hp⟩
    | false =>
      rw [hr, if_neg (by simp)] at hpl
      cases hpl
      rw [if_neg (by simp)]
      have hk : published s (publishStatus (emit (.path []) (emit (.path []) { s with error := .goingWell }))) =
        [.path [], .path [], .status s.phase .goingWell] := published_of (by simp [publishStatus, emit])
      exact ⟨⟨s.phase, congrArg shows hk⟩, fun ps hp => by have hp := hk ▸ hp; simpa using hp⟩
  · rw [if_neg hst] at hpl
    rw [if_neg (show ¬ (s.cfg.watchdog > 0 ∧ now - s.lastCostmap > s.cfg.watchdog) from hst)]
    rw [if_neg (by simp [hg]), if_pos (by simp [hg])] at hpl
    cases hr : s.cfg.retain with
    | true =>
      rw [hr, if_pos rfl] at hpl
      cases hpl
      rw [if_pos rfl]
      have hk : published s (publishStatus (emit (.path []) s)) = [.path [], .status s.phase s.error] :=
        published_of (by simp [publishStatus, emit])
      exact ⟨⟨s.phase, congrArg shows hk⟩, fun ps hp => by have hp := hk ▸ hp; simpa using hp⟩
    | false =>
      rw [hr, if_neg (by simp)] at hpl
      cases hpl
      rw [if_neg (by simp)]
      have hk : published s (publishStatus (emit (.path []) { s with error := .goingWell })) = [.path [], .status s.phase .goingWell] :=
        published_of (by simp [publishStatus, emit])
      exact ⟨⟨s.phase, congrArg shows hk⟩, fun ps hp => by have hp := hk ▸ hp; simpa using hp⟩

theorem told {s x : St P} (h : ∃ l, x.log = s.log ++ l) : shows (published s (publishStatus x)) ≠ none := by
  obtain ⟨l, h⟩ := h
  rw [shows_of (s := s) (s' := publishStatus x) (l := l) (ph := x.phase) (e := x.error) (by simp [publishStatus, emit, h])]
  exact fun k => by cases k

/-- **C127**: the only planning cycle without a status is the one that gives up. -/
theorem untold (s s' : St P) (e : Event P) (now : Int) (he : PlansAt s now e) (hs : step s e = some s')
    (hn : shows (published s s') = none) :
    s.hasGoal = true ∧ s'.hasGoal = false ∧ s.cfg.maxRetry ≠ -1 ∧ s'.stuck > s.cfg.maxRetry ∧ s'.phase = .done ∧ s'.error = .pathNotFound := by
  obtain ⟨w, -, hpl⟩ := plans_at s s' now e he hs
  unfold planPath at hpl
  rw [Option.bind_eq_some_iff] at hpl
  obtain ⟨s1, h1, hpl⟩ := hpl
  have hc : SameCore s s1 := by
    split at h1
    · rw [Option.map_eq_some_iff] at h1
      obtain ⟨⟨s2, b⟩, h2, rfl⟩ := h1
      exact (moves_cache w _ _ _ _ h2).1
    · cases h1; exact SameCore.refl s
  clear h1
  have hlog : s1.log = s.log := by obtain ⟨_, _, _, _, _, _, _, _, rfl⟩ := hc; rfl
  have hcfg : s1.cfg = s.cfg := by obtain ⟨_, _, _, _, _, _, _, _, rfl⟩ := hc; rfl
  have hgo : s1.hasGoal = s.hasGoal := by obtain ⟨_, _, _, _, _, _, _, _, rfl⟩ := hc; rfl
  have hq : ∀ x : St P, (∃ l, x.log = s.log ++ l) →
      shows (published s (publishStatus (emit (.path []) (if x.cfg.retain then x else { x with error := .goingWell })))) ≠ none := by
    rintro x ⟨l, hl⟩
    refine told ⟨l ++ [.path []], ?_⟩
    split <;> simp [emit, hl]
  dsimp only at hpl
  split at hpl
  · have hx : ∃ l, (emit (.path []) { s1 with error := .dataMissing }).log = s.log ++ l := ⟨[.path []], by simp [emit, hlog]⟩
    split at hpl
    · cases hpl; exact absurd hn (hq _ hx)
    · cases hpl; exact absurd hn (told hx)
  split at hpl
  · rename_i hall
    split at hpl
    · exfalso
      unfold planFinish at hpl
      dsimp only at hpl
      generalize w.heading _ = yaw at hpl
      split at hpl
      · cases hpl
      split at hpl
      · cases hpl
        refine told ?_ hn
        obtain ⟨-, -, -, -, -, l, hl, -⟩ := finishBoth_kept .reached ({ s1 with switchback := false, phase := .done, hasGoal := false } : St P)
        exact ⟨l, by rw [hl, ← hlog]⟩
      · cases hpl
        refine told ⟨[.path [finalPose s1]], ?_⟩ hn
        simp [finishPath, emit, hlog, finalPose]
    · rcases planMove_status w _ s' hpl with ⟨g1, g2, g3⟩ | ⟨-, -, -, m4⟩ | ⟨-, r, ps, l, -, -, -, -, m6⟩
      · obtain ⟨b, t, l, hf, -⟩ := finishBoth_rest .aborted
          (emit (.path []) { ({ s1 with switchback := false } : St P) with error := .pathNotFound, phase := .done, hasGoal := false })
        unfold giveUp at g3
        rw [hf] at g3
        dsimp only at g1 g2
        subst g3
        rw [hcfg] at g1 g2
        simp only [Bool.and_eq_true] at hall
        exact ⟨hgo ▸ hall.1.2, rfl, g1, g2, rfl, rfl⟩
      · dsimp only at m4
        rw [shows_of (s := s) (s' := s') (l := [.path []]) (ph := s'.phase) (e := s'.error) (by rw [m4, hlog]; rfl)] at hn
        cases hn
      · dsimp only at m6
        rw [shows_of (s := s) (s' := s') (l := l ++ [.path ps]) (ph := s'.phase) (e := s'.error) (by rw [m6, hlog]; simp)] at hn
        cases hn
  split at hpl
  · cases hpl; exact absurd hn (hq s1 ⟨[], by rw [hlog]; simp⟩)
  · cases hpl; exact absurd hn (told ⟨[], by rw [hlog]; simp⟩)

/-- **C127**: the diagnosis is good exactly when the status says that it goes well, and different errors have different texts. -/
theorem diagnosis_tells (a b : Err) : ((diagnose a).1 = .ok ↔ a = .goingWell) ∧ ((diagnose a).2 = (diagnose b).2 → a = b) := by
  cases a <;> cases b <;> simp [diagnose]

/-! ### Cases -/

deriving instance DecidableEq for Out

/-- On an open floor it goes well, and the path goes to the goal. -/
example : ∃ s s', run someCfg 0 (ready ++ [.baseGoal false goal7 (openFloor 100 0)]) = some s ∧
    PlansAt s 1 (.cycle 1 (openFloor 100 0)) ∧ step s (.cycle 1 (openFloor 100 0)) = some s' ∧ s.cfg.watchdog = 5 ∧
    (s.hasMap, s.hasGoal, s.hasStart, s.phase, s.lastCostmap, s.escaping, s'.escaping) = (true, true, true, .doing, 0, .no, .no) ∧
    published s s' = [.path [0, 7], .status .doing .goingWell] ∧ (∀ q b, (openFloor 100 0).crowd .cache s.goalOriginal ≠ .temp q b) :=
  ⟨_, _, rfl, ⟨rfl, rfl⟩, rfl, rfl, rfl, rfl, fun q b h => by cases h⟩

/-- With the goal in an obstacle, there is no path; with the robot in one, it says so. -/
example : ((run someCfg 0 (ready ++ [.baseGoal false goal7 rock, .cycle 1 rock])).bind fun s => shows (s.log)) = some (.doing, .pathNotFound) ∧
    ((run someCfg 0 (ready ++ [.baseGoal false goal7 (openFloor 100 0), .cycle 1 { openFloor 100 0 with starts := fun _ => none }])).bind
      fun s => shows (s.log)) = some (.doing, .inRock) ∧
    ((run someCfg 0 (ready ++ [.baseGoal false goal7 { openFloor 100 0 with start := .inRock }, .cycle 1 { openFloor 100 0 with start := .inRock }])).bind
      fun s => shows (s.log)) = some (.doing, .inRock) ∧
    ((run someCfg 0 (ready ++ [.baseGoal false goal7 (openFloor 100 0), .cycle 9 (openFloor 100 0)])).bind
      fun s => shows (s.log)) = some (.doing, .dataMissing) ∧
    ((run someCfg 0 (ready ++ [.cycle 1 (openFloor 100 0)])).bind fun s => shows (s.log)) = some (.done, .goingWell) :=
  ⟨rfl, rfl, rfl, rfl, rfl⟩

/-- Giving up is not told until the next cycle. -/
example : ∃ s s' s'', run { someCfg with retain := true } 0 (ready ++ [.baseGoal false goal7 rock, .cycle 1 rock]) = some s ∧
    step s (.cycle 1 rock) = some s' ∧ published s s' = [.path [], .answer 0 .aborted] ∧ shows (published s s') = none ∧
    step s' (.cycle 1 rock) = some s'' ∧
    published s' s'' = [.path [], .status .done .pathNotFound] :=
  ⟨_, _, _, rfl, rfl, rfl, rfl, rfl, rfl⟩

/-- **But an error may be shown that is over.**  The costmap became too old while the robot was turning to its final heading.  It is up to date again,
the turn is completed, the goal reached: the status goes on saying that data is missing. -/
theorem old_error_stays : ∃ (c : Cfg) (w w' : World Nat) (u u' : Update Nat), c.watchdog = 5 ∧ u.now = 21 ∧ u'.now = 23 ∧
    (run c 0 (ready ++ [.baseGoal false goal7 w, .cycle 1 w, .cycle 20 w, .update u])).map (fun s => (s.lastCostmap, s.hasGoal, s.log.length)) =
      some (21, true, 8) ∧
    (run c 0 (ready ++ [.baseGoal false goal7 w, .cycle 1 w, .cycle 20 w, .update u, .cycle 22 w', .update u', .cycle 24 w'])).map
      (fun s => (s.lastCostmap, s.log.drop 8)) =
      some (23, [.answer 0 .reached, .status .done .dataMissing, .path [], .status .done .dataMissing]) :=
  ⟨{ someCfg with retain := true }, openFloor 1 2, openFloor 1 0, ⟨21, true, true, openFloor 1 2⟩, ⟨23, true, true, openFloor 1 0⟩,
    rfl, rfl, rfl, by decide +kernel, by decide +kernel⟩

/-- **And an error may be hidden.**  On the way to a temporary goal that is better than the robot's place, the search fails, or the robot is in an
obstacle: the status says that it goes well, although the path is empty. -/
theorem escape_hides_error : ∃ (c : Cfg) (s : St Nat) (w w1 w2 : World Nat),
    run c 0 (ready ++ [.baseGoal false goal7 w, .escape w]) = some s ∧ s.hasGoal = true ∧
    (∀ d g, w1.found d g = false) ∧ (∀ g, w2.starts g = none) ∧
    ((step s (.cycle 1 w1)).map (published s)) = some [.path [], .status .doing .goingWell] ∧
    ((step s (.cycle 1 w2)).map (published s)) = some [.path [], .status .doing .goingWell] :=
  ⟨{ someCfg with tempEscape := true }, _, { openFloor 100 0 with crowd := fun _ _ => .temp 3 true }, noWay,
    { openFloor 100 0 with starts := fun _ => none }, rfl, rfl, fun _ _ => rfl, fun _ => rfl, rfl, rfl⟩

end Verif.PlannerNode
