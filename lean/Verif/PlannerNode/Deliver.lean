import Verif.PlannerNode.Arrive
import Verif.PlannerNode.GuidedProps
/-! # C130: a path that the search can find is delivered -/
namespace Verif.PlannerNode
variable {P : Type}

/-- Not yet at the goal: the path is the outcome of the search. -/
theorem makePlan_found (w : World P) (s : St P) (hi : Inv s) (he : s.escaping = .no) (ds : List (Int × Int)) (hd : w.starts s.goal = some ds)
    (hn : ¬ NearGoal w s.goal (goalTolerance s)) (h1 : w.unreachable s.made s.goal = false) (h2 : w.found s.made s.goal = true) :
    makePlan w s = some ({ s with log := s.log ++ List.replicate (w.waits s.made s.goal) (.path []) }, w.poses s.made s.goal) := by
  have ht : tolerance s = some (goalTolerance s) := by
    unfold tolerance goalTolerance
    rw [if_neg (not_not.mpr he)]
    split
    · rename_i ha
      obtain ⟨t, htg⟩ := Option.ne_none_iff_exists'.mp (hi.1.tolGoal ha)
      rw [htg]; rfl
    · rfl
  have hany : ¬ ds.any (within (goalTolerance s)) = true := fun k => hn (near_of_any w s.goal ds _ hd k)
  unfold makePlan
  rw [hd]
  dsimp only
  rw [ht]
  dsimp only
  rw [if_neg hany]
  unfold searchPath
  dsimp only
  rw [if_neg (by simp [h1]), if_pos h2]

/-- A planning cycle whose search finds a path. -/
theorem deliver_plan (now : Int) (w : World P) (s s' : St P) (hi : Inv s) (hgd : G s) (h1 : s.hasMap = true) (h2 : s.hasGoal = true)
    (h3 : s.hasStart = true) (hph : s.phase ≠ .finishing) (he : s.escaping = .no) (hc : Calm w s.goalOriginal) (hf : ¬ Stale s now) (hp : Patient s)
    (hn : ∀ g, (g = s.goalOriginal ∨ g = s.goal ∨ w.goal s.goalOriginal = .moved g) → (∃ ds, w.starts g = some ds) ∧ ¬ NearGoal w g (goalTolerance s) ∧
      w.unreachable (some g) g = false ∧ w.found (some g) g = true)
    (hs : planPath now w s = some s') :
    ∃ g, (g = s.goalOriginal ∨ g = s.goal ∨ w.goal s.goalOriginal = .moved g) ∧
      s'.log = s.log ++ (List.replicate (w.waits (some g) g) (.path []) ++ [.path (w.poses (some g) g), .status s'.phase .goingWell]) ∧ s'.phase = s.phase := by
  have hraw : s.goalRaw = s.goalOriginal := hi.1.esc h2 he
  obtain ⟨s1, hre, hmv⟩ := planPath_ready now w s s' hs ⟨h1, h2, h3, hph, fun hw => by
    by_contra hk
    exact hf ⟨hw, by omega⟩⟩
  have key : ∃ g b, s1 = { s with goal := g, cacheReady := true, startOccupied := b, made := some g } ∧
      (g = s.goalOriginal ∨ g = s.goal ∨ w.goal s.goalOriginal = .moved g) ∧ Inv s1 := by
    rcases hre with ⟨k, rfl⟩ | ⟨-, b, k⟩
    · refine ⟨s1.goal, s1.startOccupied, ?_, .inr (.inl rfl), hi⟩
      have := hgd.2 h2 k
      cases s1; dsimp only at k this; subst k; subst this; rfl
    · obtain ⟨g, hg, hm⟩ := cache_calm w 1 s s1 b k (hraw ▸ hc) h2 h1 h3
      rw [hraw] at hm
      refine ⟨g, false, hg, hm.elim .inl fun k => .inr (.inr k), ?_⟩
      rw [hg]
      exact ⟨{ acc := hi.1.acc, one := hi.1.one, cb := hi.1.cb, ct := hi.1.ct, tolGoal := hi.1.tolGoal, esc := hi.1.esc, fin := hi.1.fin },
        ⟨hi.2.goal, hi.2.asked⟩⟩
  obtain ⟨g, b, rfl, hg, hi1⟩ := key
  obtain ⟨⟨ds, q1⟩, q2, q3, q4⟩ := hn g hg
  refine ⟨g, hg, ?_⟩
  unfold planMove at hmv
  dsimp only at hmv
  rw [if_neg (by
    rintro ⟨k1, k2⟩
    rcases hp with hp | hp
    · exact k1 hp
    · omega), if_neg (by simp)] at hmv
  rw [makePlan_found w { s with goal := g, cacheReady := true, startOccupied := b, made := some g, switchback := false, error := .goingWell }
    ((hi1.switch false).err .goingWell) he ds q1 q2 q3 q4] at hmv
  cases hw : s.cfg.waitSwitch with
  | true =>
    simp only [emit, hw, if_true, he, ne_eq, not_true_eq_false, or_self, if_false, Option.map_some, Option.some.injEq] at hmv
    subst hmv
    exact ⟨by simp [publishStatus, emit], rfl⟩
  | false =>
    simp only [emit, hw, Bool.false_eq_true, he, ne_eq, not_true_eq_false, or_self, if_false, Option.map_some, Option.some.injEq] at hmv
    subst hmv
    exact ⟨by simp [publishStatus, emit], rfl⟩

/-- **C130**: a path that the search can find is delivered.  A goal is pursued and the robot is not there yet; wherever the goal may stand, the robot has start
cells, the distance map for it does not rule it out and the search guided by that map succeeds.  Then the next planning cycle, in both modes, sends the path of
such a search, after nothing but empty paths, and says that all goes well. -/
theorem path_delivered (c : Cfg) (p : P) (h : List (Event P)) (e : Event P) (s s' : St P) (now : Int) (w : World P)
    (hr : run c p h = some s) (hu : Undisturbed c p h) (he : Looks s now w e) (hf : Recent s (h ++ [e]) now) (hc : Calm w s.goalOriginal)
    (hg : s.hasGoal = true) (hph : s.phase ≠ .finishing) (hn : s.escaping = .no) (hp : Patient s)
    (hfind : ∀ g, Stands (h ++ [e]) s.goalOriginal g → (∃ ds, w.starts g = some ds) ∧ ¬ NearGoal w g (goalTolerance s) ∧
      w.unreachable (some g) g = false ∧ w.found (some g) g = true)
    (hs : step s e = some s') :
    ∃ g n, Stands (h ++ [e]) s.goalOriginal g ∧
      published s s' = List.replicate n (.path []) ++ [.path (w.poses (some g) g), .status s.phase .goingWell] := by
  have hi := inv_run c p h s hr
  obtain ⟨g, a, b, m, t, f, f', s2, k1, k2, k3, rfl, k4, k5⟩ := looks_plan s s' now w e hi hg hn hc he hs
  have tgt := ((trail_run c p w h s hr).target hg hn).stands
  have tgt' : Stands (h ++ [e]) s.goalOriginal s.goal := by
    rcases tgt with k | ⟨e', he', k⟩
    · exact .inl k
    · exact .inr ⟨e', List.mem_append_left _ he', k⟩
  have hmv : ∀ g, w.goal s.goalOriginal = .moved g → Stands (h ++ [e]) s.goalOriginal g :=
    fun g k => .inr ⟨e, List.mem_append_right _ (List.mem_singleton.mpr rfl), w, looks_world he, k⟩
  have hg' : Stands (h ++ [e]) s.goalOriginal g := by
    rcases k2 with rfl | rfl | k
    · exact .inl rfl
    · exact tgt'
    · exact hmv g k
  have any : ∀ g', (g' = s.goalOriginal ∨ g' = g ∨ w.goal s.goalOriginal = .moved g') → Stands (h ++ [e]) s.goalOriginal g' := by
    rintro g' (rfl | rfl | k)
    · exact .inl rfl
    · exact hg'
    · exact hmv g' k
  obtain ⟨g', q1, q2, q3⟩ := deliver_plan now w _ s2 k1 (k5 (g_run c p h s hr hu)) he.1 hg rfl hph hn hc (not_stale s c p h e now t hr hf k4) hp
    (fun g' k => hfind g' (any g' k)) k3
  refine ⟨g', w.waits (some g') g', any g' q1, published_of ?_⟩
  rw [q3] at q2
  exact q2

/-! ### Case -/

/-- A goal at 7 has been taken while the position was known; the robot is ten cells away: the next cycle sends the path found. -/
example : ∃ s s' g n, run someCfg 0 (ready ++ [.baseGoal false goal7 (openFloor 100 0)]) = some s ∧ step s (.cycle 1 (openFloor 100 0)) = some s' ∧
    Stands (ready ++ [.baseGoal false goal7 (openFloor 100 0)] ++ [.cycle 1 (openFloor 100 0)]) 7 g ∧
    published s s' = List.replicate n (.path []) ++ [.path [0, g], .status .doing .goingWell] := by
  have e1 : (run someCfg 0 (ready ++ [.baseGoal false goal7 (openFloor 100 0)])).isSome = true := by decide +kernel
  have e2 : (step (after _ _ e1) (.cycle 1 (openFloor 100 0))).isSome = true := rfl
  obtain ⟨s', hs'⟩ := Option.isSome_iff_exists.mp e2
  obtain ⟨g, n, h1, h2⟩ := path_delivered someCfg 0 (ready ++ [Event.baseGoal false goal7 (openFloor 100 0)]) (.cycle 1 (openFloor 100 0)) (after _ _ e1) s' 1
    (openFloor 100 0) (run_after _ _ e1) (by
      intro h1 e h2 s hh hr hd
      rcases h1 with _ | ⟨e1, _ | ⟨e2, _ | ⟨e3, h1⟩⟩⟩ <;>
        simp only [ready, List.cons_append, List.nil_append, List.cons.injEq] at hh
      · obtain ⟨rfl, -⟩ := hh
        cases hr; exact absurd hd.1 (by decide)
      · obtain ⟨rfl, rfl, -⟩ := hh
        exact hd
      · obtain ⟨rfl, rfl, rfl, -⟩ := hh
        cases hr; exact absurd hd.2 (by decide)
      · exact absurd hh.2.2.2.symm (by simp))
    ⟨rfl, rfl, rfl, rfl, rfl⟩ (fun _ => show (1 : Int) - 0 ≤ 5 by decide) (calm_openFloor _ _ _) rfl (fun k => by cases k) rfl
    (.inr (show (0 : Int) ≤ 2 by decide))
    (fun g _ => ⟨⟨_, rfl⟩, (by
      rintro ⟨ds, k1, d, k2, k3, -⟩
      cases k1
      obtain rfl := List.mem_singleton.mp k2
      exact absurd (show (100 : Int) ≤ 2 * 2 from k3) (by decide)), rfl, rfl⟩) hs'
  exact ⟨_, s', g, n, run_after _ _ e1, hs', h1, h2⟩

end Verif.PlannerNode
