import Verif.PlannerNode.Props
import Verif.PlannerNode.Guided
/-! # C128: searches are guided by a distance map for the goal pursued -/
namespace Verif.PlannerNode
variable {P : Type}

/-- **C128**: as long as no goal and no map comes while the robot's position is unknown, and no parameter changes during a goal, the distance map in use is
the one for the goal pursued, be it the requested pose, the pose it was moved to, or a temporary goal. -/
theorem guided_partial (c : Cfg) (p : P) (h : List (Event P)) (s : St P) (hr : run c p h = some s) (hu : Undisturbed c p h) (hg : s.hasGoal = true)
    (hc : s.cacheReady = true) : s.made = some s.goal :=
  (g_run c p h s hr hu).2 hg hc

/-- **C128**: then every path that planning publishes, in a cycle or after a costmap update, is empty, the outcome of a search for some goal guided by a
distance map for that goal, or the final pose. -/
theorem paths_guided_partial (c : Cfg) (p : P) (h : List (Event P)) (e : Event P) (s s' : St P) (w : World P) (hr : run c p h = some s)
    (hu : Undisturbed c p h) (hs : step s e = some s') (he : (∃ now, PlansAt s now e) ∨ ∃ u, e = .update u) (hw : worlds e = [w]) (ps : List P)
    (hp : Out.path ps ∈ published s s') : WellMade w s' ps := by
  have hg := g_run c p h s hr hu
  have key : Fine (WellMade w s') s s' := by
    rcases he with ⟨now, he⟩ | ⟨u, rfl⟩
    · obtain ⟨w', hw', hpl⟩ := plans_at s s' now e he hs
      rw [hw] at hw'
      obtain rfl := List.mem_singleton.mp hw'
      exact (g_planPath now _ s s' hpl hg).2
    · obtain rfl : u.w = w := List.singleton_inj.mp hw
      have hap : ∀ (x y : St P), applyUpdate u x = some y → y.log = x.log := by
        intro x y hh
        obtain ⟨_, _, _, _, _, _, _, _, rfl⟩ := applyUpdate_cases u _ y hh
        rfl
      unfold step cbMapUpdate at hs
      dsimp only at hs
      split at hs
      · cases hs; exact Fine.refl _ s
      split at hs
      · rw [Option.bind_eq_some_iff] at hs
        obtain ⟨s1, h1, h2⟩ := hs
        rw [Option.map_eq_some_iff] at h2
        obtain ⟨s2, h2, h3⟩ := h2
        have hg1 : G s1 := g_update u _ _ h1 fun _ => ⟨hg.1, hg.2⟩
        have k := (g_planPath _ _ _ _ h2 hg1).2
        have hsame : s'.log = s2.log ∧ WellMade u.w s' = WellMade u.w s2 := by
          rw [← h3]
          split <;> exact ⟨rfl, rfl⟩
        rw [hsame.2]
        exact ((fine_same (hap _ _ h1)).trans k).trans (fine_same hsame.1)
      · exact fine_same (hap _ _ hs)
  obtain ⟨l, h1, h2⟩ := key
  rw [published_of h1] at hp
  exact h2 ps hp

/-- **C128**: an accepted costmap update puts things right, whatever happened before: while a goal is pursued and the robot's position is known, the
distance map is for that goal afterwards. -/
theorem update_guides (s s' : St P) (u : Update P) (hs : step s (.update u) = some s') (hf : u.fits = true) (hm : s.hasMap = true) (hg : s.hasGoal = true)
    (hl : (if s.cfg.trigger then u.located else s.hasStart) = true) (hg' : s'.hasGoal = true) (hc : s'.cacheReady = true) :
    s'.made = some s'.goal :=
  (g_mapUpdate u s s' hs fun hk => absurd ⟨hf, hl, hg, hm⟩ hk).2 hg' hc

/-! ### Cases -/

/-- A history without disturbances: a goal, planning, another goal, planning. -/
example : ∃ s s', Undisturbed someCfg 0 (ready ++ [.baseGoal false goal7 (openFloor 100 0), .cycle 1 (openFloor 100 0)]) ∧
    run someCfg 0 (ready ++ [.baseGoal false goal7 (openFloor 100 0), .cycle 1 (openFloor 100 0)]) = some s ∧
    (s.hasGoal, s.cacheReady, s.made, s.goal) = (true, true, some 7, 7) ∧ step s (.cycle 2 (openFloor 100 0)) = some s' ∧
    published s s' = [.path [0, 7], .status .doing .goingWell] := by
  refine ⟨_, _, ?_, rfl, rfl, rfl, rfl⟩
  intro h1 e h2 s hh hr hd
  rcases h1 with _ | ⟨e1, _ | ⟨e2, _ | ⟨e3, _ | ⟨e4, h1⟩⟩⟩⟩ <;>
    simp only [ready, List.cons_append, List.nil_append, List.cons.injEq] at hh
  · obtain ⟨rfl, -⟩ := hh
    cases hr; exact absurd hd.1 (by decide)
  · obtain ⟨rfl, rfl, -⟩ := hh
    exact hd
  · obtain ⟨rfl, rfl, rfl, -⟩ := hh
    cases hr; exact absurd hd.2 (by decide)
  · obtain ⟨rfl, rfl, rfl, rfl, -⟩ := hh
    exact hd
  · exact absurd hh.2.2.2.2.symm (by simp)

/-- A floor with a wall between 7 and 9: the robot is on the side of 9, so only a distance map for 9, or one still empty, has a value at its place; and a
search guided by an empty distance map goes the long way. -/
def walled : World Nat :=
  { openFloor 100 0 with
    unreachable := fun d _ => d == some 7
    poses := fun d g => if d = none then [0, 5, g] else [0, g] }

/-- The update that makes things right again. -/
def refresh : Update Nat := ⟨2, true, true, walled⟩

/-- **But not for a goal that comes while the position is unknown.**  A goal at 7 was cancelled; the position is lost for a moment, during which a goal at 9
comes.  Then, everything being known, the distance map is still that for 7, and the goal is said to be unreachable, which it is not: after the next
costmap update it is planned for. -/
theorem stale_goal : ∃ (h : List (Event Nat)) (s s' s'' : St Nat) (w : World Nat),
    h = ready ++ [.baseGoal false goal7 (openFloor 100 0), .cancel .base, .located false, .baseGoal false ⟨1, 9, true⟩ w, .located true] ∧
    run someCfg 0 h = some s ∧ (s.hasMap, s.hasStart, s.hasGoal, s.cacheReady, s.goal, s.made) = (true, true, true, true, 9, some 7) ∧
    w.unreachable (some 9) 9 = false ∧ w.found (some 9) 9 = true ∧
    step s (.cycle 1 w) = some s' ∧ published s s' = [.path [], .status .doing .pathNotFound] ∧
    ((step s (.update refresh)).bind fun x => step x (.cycle 3 w)) = some s'' ∧ published s s'' = [.path [0, 9], .status .doing .goingWell] :=
  ⟨_, _, _, _, walled, rfl, rfl, rfl, rfl, rfl, rfl, rfl, rfl, rfl⟩

/-- **Nor after a change of the parameters during a goal**: the distance map is empty until the next costmap update. -/
theorem blank_after_parameters : ∃ (s s' s'' : St Nat) (w : World Nat),
    run someCfg 0 (ready ++ [.baseGoal false goal7 w, .config someCfg]) = some s ∧
    (s.hasMap, s.hasStart, s.hasGoal, s.cacheReady, s.goal, s.made) = (true, true, true, true, 7, none) ∧
    step s (.cycle 1 w) = some s' ∧ published s s' = [.path (w.poses none 7), .status .doing .goingWell] ∧
    ((step s (.update { refresh with w := w })).bind fun x => step x (.cycle 3 w)) = some s'' ∧
    published s s'' = [.path (w.poses (some 7) 7), .status .doing .goingWell] ∧ w.poses none 7 ≠ w.poses (some 7) 7 :=
  ⟨_, _, _, { walled with unreachable := fun _ _ => false }, rfl, rfl, rfl, rfl, rfl, rfl, by decide⟩

end Verif.PlannerNode
