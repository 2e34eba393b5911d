import Verif.PlannerNode.ArriveSpec
import Verif.PlannerNode.Status
import Verif.PlannerNode.Props
/-! # C129: a robot that is at its goal is told so -/
namespace Verif.PlannerNode
variable {P : Type}

/-- In a calm world the goal is made ready without further ado. -/
theorem cache_calm (w : World P) (n : Nat) (s s' : St P) (b : Bool) (h : cache w (n + 1) s = some (s', b)) (hc : Calm w s.goalRaw)
    (h1 : s.hasGoal = true) (h2 : s.hasMap = true) (h3 : s.hasStart = true) :
    ∃ g, s' = { s with goal := g, cacheReady := true, startOccupied := false, made := some g } ∧
      (g = s.goalRaw ∨ w.goal s.goalRaw = .moved g) := by
  obtain ⟨c1, c2, c3, c4⟩ := hc
  unfold cache at h
  rw [if_neg (by simp [h1]), if_neg (by simp [h2, h3])] at h
  dsimp only at h
  split at h
  · rename_i k; exact absurd k c2
  · rename_i k; exact absurd k c1
  split at h
  · rename_i k; exact absurd k c4
  · rename_i k; exact absurd k c3
  · rename_i k; cases h; exact ⟨_, rfl, .inr k⟩
  · cases h; exact ⟨_, rfl, .inl rfl⟩

/-- Turning at the goal `i`. -/
structure Turning (i : Nat) (s : St P) : Prop where
  map : s.hasMap = true
  goal : s.hasGoal = true
  start : s.hasStart = true
  phase : s.phase = .finishing
  esc : s.escaping = .no
  holds : Open s i

/-- What does not change while turning. -/
def Same (s s' : St P) : Prop :=
  s'.cfg = s.cfg ∧ s'.goalOriginal = s.goalOriginal ∧ s'.tol = s.tol ∧ s'.tolGoal = s.tolGoal

theorem Same.heading {s s' : St P} (h : Same s s') : headingTolerance s' = headingTolerance s := by
  unfold headingTolerance; rw [h.1, h.2.2.1, h.2.2.2]

/-- The last turn, in a calm world: the answer is given, or it goes on. -/
theorem turning_plan (i : Nat) (now : Int) (w : World P) (s s' : St P) (hi : Inv s) (ht : Turning i s) (hc : Calm w s.goalOriginal)
    (hs : planPath now w s = some s') :
    (answersTo s'.log i = [.reached] ∨ Turning i s' ∧ Same s s') ∧
    (¬ Stale s now → (∀ g, (g = s.goalOriginal ∨ g = s.goal ∨ w.goal s.goalOriginal = .moved g) → |w.heading g| < headingTolerance s) →
      answersTo s'.log i = [.reached]) := by
  have hraw : s.goalRaw = s.goalOriginal := hi.1.esc ht.goal ht.esc
  unfold planPath at hs
  rw [Option.bind_eq_some_iff] at hs
  obtain ⟨s1, h1, hs⟩ := hs
  have key : ∃ g a b m, s1 = { s with goal := g, cacheReady := a, startOccupied := b, made := m } ∧
      (g = s.goalOriginal ∨ g = s.goal ∨ w.goal s.goalOriginal = .moved g) := by
    split at h1
    · rw [Option.map_eq_some_iff] at h1
      obtain ⟨⟨s2, b⟩, h2, rfl⟩ := h1
      obtain ⟨g, hg, hm⟩ := cache_calm w 1 s s2 b h2 (hraw ▸ hc) ht.goal ht.map ht.start
      rw [hraw] at hm
      exact ⟨g, true, false, some g, hg, hm.elim .inl fun k => .inr (.inr k)⟩
    · cases h1; exact ⟨s.goal, s.cacheReady, s.startOccupied, s.made, rfl, .inr (.inl rfl)⟩
  obtain ⟨g, a, b, m, rfl, hg⟩ := key
  have hs0 : Stale { s with goal := g, cacheReady := a, startOccupied := b, made := m } now ↔ Stale s now := Iff.rfl
  dsimp only at hs
  split at hs
  · rename_i hst
    refine ⟨.inr ?_, fun hn => absurd (hs0.mp hst) hn⟩
    split at hs
    · rename_i hk
      have : (!s.hasGoal) = true := hk
      rw [ht.goal] at this; cases this
    · cases hs
      exact ⟨⟨ht.map, ht.goal, ht.start, ht.phase, ht.esc, ht.holds⟩, rfl, rfl, rfl, rfl⟩
  rw [if_pos (by simp [ht.map, ht.goal, ht.start]), if_pos ht.phase] at hs
  have hlim : (if s.tol.active then s.tolGoal.map Tol.angFinish else some s.cfg.angFinish) = some (headingTolerance s) := by
    unfold headingTolerance
    split
    · rename_i ha
      obtain ⟨t, htg⟩ := Option.ne_none_iff_exists'.mp (hi.1.tolGoal ha)
      rw [htg]; rfl
    · rfl
  unfold planFinish at hs
  dsimp only at hs
  rw [hlim] at hs
  dsimp only at hs
  have done : ∀ x : St P, x.log = s.log → x.base = s.base → x.tol = s.tol → Pre x → answersTo (publishStatus (finishBoth .reached x)).log i = [.reached] := by
    intro x e1 e2 e3 hp
    have hop : Open x i := by
      have := ht.holds
      unfold Open at this ⊢
      rw [e2, e3]; exact this
    have := finishBoth_answers .reached (by decide) x hp i hop
    unfold publishStatus emit
    rw [answersTo_append, this]
    rfl
  have hpre : Pre { s with goal := g, cacheReady := a, startOccupied := b, made := m, switchback := false, phase := .done, hasGoal := false } :=
    { acc := hi.1.acc, one := hi.1.one, cb := hi.1.cb, ct := hi.1.ct, tolGoal := hi.1.tolGoal, esc := (fun k => by cases k), fin := (fun k => by cases k) }
  have hyaw : (∀ g, (g = s.goalOriginal ∨ g = s.goal ∨ w.goal s.goalOriginal = .moved g) → |w.heading g| < headingTolerance s) →
      |w.heading (if s.cfg.forceOrientation = true then s.goalRaw else g)| < headingTolerance s := by
    intro hall
    split
    · exact hall _ (.inl hraw)
    · exact hall _ hg
  generalize w.heading _ = yaw at hs hyaw
  split at hs
  · cases hs
    have := done { s with goal := g, cacheReady := a, startOccupied := b, made := m, switchback := false, phase := .done, hasGoal := false } rfl rfl rfl hpre
    exact ⟨.inl this, fun _ _ => this⟩
  · rename_i hy
    cases hs
    refine ⟨.inr ⟨⟨ht.map, ht.goal, ht.start, ht.phase, ht.esc, ht.holds⟩, rfl, rfl, rfl, rfl⟩, fun _ hall => absurd (hyaw hall) hy⟩

/-- A costmap update, in a calm world. -/
theorem update_calm (u : Update P) (s s' : St P) (hi : Inv s) (hm : s.hasMap = true) (hg : s.hasGoal = true) (he : s.escaping = .no)
    (hc : Calm u.w s.goalOriginal) (hs : applyUpdate u s = some s') :
    ∃ g a b m t, s' = { s with goal := g, cacheReady := a, startOccupied := b, made := m, lastCostmap := t } ∧
      (g = s.goalOriginal ∨ g = s.goal ∨ u.w.goal s.goalOriginal = .moved g) ∧ (u.fits = true → t = u.now) := by
  have hraw : s.goalRaw = s.goalOriginal := hi.1.esc hg he
  have key : s.hasStart = true → ∀ s2, (cache u.w depth { s with lastCostmap := u.now }).map Prod.fst = some s2 →
      ∃ g a b m t, s2 = { s with goal := g, cacheReady := a, startOccupied := b, made := m, lastCostmap := t } ∧
        (g = s.goalOriginal ∨ g = s.goal ∨ u.w.goal s.goalOriginal = .moved g) ∧ (u.fits = true → t = u.now) := by
    intro h3 s2 hh
    rw [Option.map_eq_some_iff] at hh
    obtain ⟨⟨s3, b⟩, h2, rfl⟩ := hh
    obtain ⟨g, rfl, hm⟩ := cache_calm u.w 1 _ s3 b h2 (show Calm u.w s.goalRaw by rw [hraw]; exact hc) hg hm h3
    dsimp only at hm
    rw [hraw] at hm
    exact ⟨g, true, false, some g, u.now, rfl, hm.elim .inl fun k => .inr (.inr k), fun _ => rfl⟩
  unfold applyUpdate at hs
  dsimp only at hs
  split at hs
  · rename_i hf; cases hs; exact ⟨s.goal, s.cacheReady, s.startOccupied, s.made, s.lastCostmap, rfl, .inr (.inl rfl), fun k => by simp [k] at hf⟩
  split at hs
  · cases hs; exact ⟨s.goal, s.cacheReady, s.startOccupied, s.made, _, rfl, .inr (.inl rfl), fun _ => rfl⟩
  rename_i h3
  have h3 : s.hasStart = true := by simpa using h3
  split at hs
  · cases hs; exact ⟨s.goal, s.cacheReady, s.startOccupied, s.made, _, rfl, .inr (.inl rfl), fun _ => rfl⟩
  split at hs
  · exact key h3 _ hs
  split at hs
  · exact key h3 _ hs
  · cases hs; exact ⟨s.goal, s.cacheReady, s.startOccupied, _, _, rfl, .inr (.inl rfl), fun _ => rfl⟩

/-- A triggered cycle: the position is looked up, the update applied, a plan made, the timer set. -/
theorem triggered (u : Update P) (s s' : St P) (hm : s.hasMap = true) (ht : s.cfg.trigger = true) (hl : u.located = true)
    (hs : step s (.update u) = some s') :
    ∃ s1 s2 b, applyUpdate u { s with timer := false, hasStart := true } = some s1 ∧ planPath s1.lastCostmap u.w s1 = some s2 ∧
      s' = { s2 with timer := b } := by
  unfold step cbMapUpdate at hs
  dsimp only at hs
  rw [if_neg (by simp [hm]), if_pos ht, Option.bind_eq_some_iff, hl] at hs
  obtain ⟨s1, h1, hs⟩ := hs
  rw [Option.map_eq_some_iff] at hs
  obtain ⟨s2, h2, rfl⟩ := hs
  refine ⟨s1, s2, if s2.cfg.watchdog > 0 then true else s2.timer, h1, h2, ?_⟩
  split <;> rfl

/-- The last turn goes on, or the answer is given, whatever quiet event comes. -/
theorem turning_step (i : Nat) (s s' : St P) (e : Event P) (hi : Inv s) (ht : Turning i s) (hq : Quiet s.goalOriginal e) (hs : step s e = some s') :
    answersTo s'.log i = [.reached] ∨ Turning i s' ∧ Same s s' := by
  cases e with
  | cycle now w =>
    unfold step at hs
    dsimp only at hs
    split at hs
    · cases hs; exact .inr ⟨ht, rfl, rfl, rfl, rfl⟩
    · exact (turning_plan i now w s s' hi ht hq hs).1
  | timer now w =>
    unfold step at hs
    dsimp only at hs
    split at hs
    · exact (turning_plan i now w s s' hi ht hq hs).1
    · cases hs; exact .inr ⟨ht, rfl, rfl, rfl, rfl⟩
  | update u =>
    by_cases htr : s.cfg.trigger = true
    · obtain ⟨s1, s2, b, h1, h2, rfl⟩ := triggered u s s' ht.map htr hq.2 hs
      have hi0 : Inv { s with timer := false, hasStart := true } :=
        hi.harmless s.cfg s.frame s.hasMap true s.switchback false s.error s.lastCostmap
      have hi1 : Inv s1 := inv_applyUpdate u _ s1 hi0 h1
      obtain ⟨g, a, b', m, t, rfl, -, -⟩ := update_calm u _ s1 hi0 ht.map ht.goal ht.esc hq.1 h1
      exact (turning_plan i _ u.w _ s2 hi1 ⟨ht.map, ht.goal, rfl, ht.phase, ht.esc, ht.holds⟩ hq.1 h2).1.imp id
        fun ⟨k1, k2⟩ => ⟨⟨k1.map, k1.goal, k1.start, k1.phase, k1.esc, k1.holds⟩, k2⟩
    · unfold step cbMapUpdate at hs
      dsimp only at hs
      rw [if_neg (by simp [ht.map]), if_neg htr] at hs
      obtain ⟨g, a, b', m, t, rfl, -, -⟩ := update_calm u s s' hi ht.map ht.goal ht.esc hq.1 hs
      exact .inr ⟨⟨ht.map, ht.goal, ht.start, ht.phase, ht.esc, ht.holds⟩, rfl, rfl, rfl, rfl⟩
  | located ok =>
    refine .inr ?_
    obtain rfl : ok = true := hq
    unfold step at hs
    dsimp only at hs
    split at hs
    · cases hs; exact ⟨⟨ht.map, ht.goal, rfl, ht.phase, ht.esc, ht.holds⟩, rfl, rfl, rfl, rfl⟩
    · cases hs; exact ⟨ht, rfl, rfl, rfl, rfl⟩
  | switchReached =>
    cases hs
    exact .inr ⟨⟨ht.map, ht.goal, ht.start, ht.phase, ht.esc, ht.holds⟩, rfl, rfl, rfl, rfl⟩
  | map _ _ _ => exact absurd hq id
  | topicGoal _ _ => exact absurd hq id
  | baseGoal _ _ _ => exact absurd hq id
  | tolGoal _ _ _ _ => exact absurd hq id
  | cancel _ => exact absurd hq id
  | escape _ => exact absurd hq id
  | config _ => exact absurd hq id

/-- A goal in progress is one the node has. -/
theorem open_hasGoal {s : St P} {i : Nat} (hi : Inv s) (ho : Open s i) : s.hasGoal = true := by
  rcases ho with k | k
  · exact hi.2.goal (.inl k.1)
  · exact hi.2.goal (.inr k.1)

theorem looks_world {s : St P} {now : Int} {w : World P} {e : Event P} (he : Looks s now w e) : w ∈ worlds e := by
  obtain ⟨-, he⟩ := he
  cases e with
  | cycle t v => obtain ⟨-, rfl, -⟩ := he; exact List.mem_singleton.mpr rfl
  | timer t v => obtain ⟨-, rfl, -⟩ := he; exact List.mem_singleton.mpr rfl
  | update u => obtain ⟨-, rfl, -⟩ := he; exact List.mem_singleton.mpr rfl
  | located _ => exact absurd he id
  | switchReached => exact absurd he id
  | map _ _ _ => exact absurd he id
  | topicGoal _ _ => exact absurd he id
  | baseGoal _ _ _ => exact absurd he id
  | tolGoal _ _ _ _ => exact absurd he id
  | cancel _ => exact absurd he id
  | escape _ => exact absurd he id
  | config _ => exact absurd he id

/-- The planning event, taken apart. -/
theorem looks_plan (s s' : St P) (now : Int) (w : World P) (e : Event P) (hi : Inv s) (hg : s.hasGoal = true) (hn : s.escaping = .no)
    (hc : Calm w s.goalOriginal) (he : Looks s now w e) (hs : step s e = some s') :
    ∃ g a b m t f f' s2, Inv { s with goal := g, cacheReady := a, startOccupied := b, made := m, lastCostmap := t, timer := f, hasStart := true } ∧
      (g = s.goalOriginal ∨ g = s.goal ∨ w.goal s.goalOriginal = .moved g) ∧
      planPath now w { s with goal := g, cacheReady := a, startOccupied := b, made := m, lastCostmap := t, timer := f, hasStart := true } = some s2 ∧
      s' = { s2 with timer := f' } ∧ (t = now ∨ t = s.lastCostmap ∧ ∀ h, lastUpdate (h ++ [e]) = lastUpdate h) ∧
      (G s → G { s with goal := g, cacheReady := a, startOccupied := b, made := m, lastCostmap := t, timer := f, hasStart := true }) := by
  obtain ⟨hm, he⟩ := he
  have h0 : s.hasStart = true → { s with hasStart := true } = s := by
    intro h; cases s; dsimp only at h; subst h; rfl
  have hl : ∀ e : Event P, (∀ a, lastUpdate1 a e = a) → ∀ h, lastUpdate (h ++ [e]) = lastUpdate h := by
    intro e h1 h
    unfold lastUpdate
    rw [List.foldl_append, List.foldl_cons, List.foldl_nil, h1]
  cases e with
  | cycle t v =>
    obtain ⟨rfl, rfl, h1, h2⟩ := he
    unfold step at hs
    dsimp only at hs
    rw [if_neg (by simp [h1])] at hs
    refine ⟨s.goal, s.cacheReady, s.startOccupied, s.made, s.lastCostmap, s.timer, s'.timer, s', ?_, .inr (.inl rfl), ?_, rfl, .inr ⟨rfl, hl _ fun _ => rfl⟩,
      fun k => ⟨k.1, k.2⟩⟩
    · exact (h0 h2).symm ▸ hi
    · exact (congrArg (planPath _ _) (h0 h2)).trans hs
  | timer t v =>
    obtain ⟨rfl, rfl, h1, h2⟩ := he
    unfold step at hs
    dsimp only at hs
    rw [if_pos h1] at hs
    refine ⟨s.goal, s.cacheReady, s.startOccupied, s.made, s.lastCostmap, s.timer, s'.timer, s', ?_, .inr (.inl rfl), ?_, rfl, .inr ⟨rfl, hl _ fun _ => rfl⟩,
      fun k => ⟨k.1, k.2⟩⟩
    · exact (h0 h2).symm ▸ hi
    · exact (congrArg (planPath _ _) (h0 h2)).trans hs
  | update u =>
    obtain ⟨rfl, rfl, h1, h2, h3⟩ := he
    obtain ⟨s1, s2, b, k1, k2, rfl⟩ := triggered u s s' hm h3 h2 hs
    have hi0 : Inv { s with timer := false, hasStart := true } :=
      hi.harmless s.cfg s.frame s.hasMap true s.switchback false s.error s.lastCostmap
    have hi1 : Inv s1 := inv_applyUpdate u _ s1 hi0 k1
    obtain ⟨g, a, b', m, t, rfl, hg, ht⟩ := update_calm u _ s1 hi0 hm hg hn hc k1
    have ht := ht h1
    subst ht
    exact ⟨g, a, b', m, u.now, false, b, s2, hi1, hg, k2, rfl, .inl rfl, fun k => g_update u _ _ k1 fun _ => ⟨k.1, k.2⟩⟩
  | located _ => exact absurd he id
  | switchReached => exact absurd he id
  | map _ _ _ => exact absurd he id
  | topicGoal _ _ => exact absurd he id
  | baseGoal _ _ _ => exact absurd he id
  | tolGoal _ _ _ _ => exact absurd he id
  | cancel _ => exact absurd he id
  | escape _ => exact absurd he id
  | config _ => exact absurd he id

/-- At the goal, the last turn begins. -/
theorem makePlan_near (w : World P) (s : St P) (hi : Inv s) (he : s.escaping = .no) (hn : NearGoal w s.goal (goalTolerance s)) (hst : Stopping s) :
    makePlan w s = some (finishPath { s with phase := .finishing }, []) := by
  obtain ⟨ds, hds, d, hd, h1, h2⟩ := hn
  have ht : tolerance s = some (goalTolerance s) := by
    unfold tolerance goalTolerance
    rw [if_neg (not_not.mpr he)]
    split
    · rename_i ha
      obtain ⟨t, htg⟩ := Option.ne_none_iff_exists'.mp (hi.1.tolGoal ha)
      rw [htg]; rfl
    · rfl
  have hany : ds.any (within (goalTolerance s)) = true := List.any_eq_true.mpr ⟨d, hd, by unfold within; exact decide_eq_true ⟨h1, h2⟩⟩
  unfold makePlan
  rw [hds]
  dsimp only
  rw [ht]
  dsimp only
  rw [if_pos hany, if_neg (not_not.mpr he)]
  split
  · rename_i ha
    obtain ⟨t, htg⟩ := Option.ne_none_iff_exists'.mp (hi.1.tolGoal ha)
    rw [htg]
    dsimp only
    rw [if_neg (by simp [hst ha t htg])]
  · rfl

/-- A planning cycle at the goal. -/
theorem arrive_plan (i : Nat) (now : Int) (w : World P) (s s' : St P) (hi : Inv s) (h1 : s.hasMap = true) (h2 : s.hasGoal = true)
    (h3 : s.hasStart = true) (he : s.escaping = .no) (ho : Open s i) (hc : Calm w s.goalOriginal) (hf : ¬ Stale s now) (hp : Patient s)
    (hst : Stopping s)
    (hn : ∀ g, (g = s.goalOriginal ∨ g = s.goal ∨ w.goal s.goalOriginal = .moved g) → NearGoal w g (goalTolerance s))
    (hs : planPath now w s = some s') : answersTo s'.log i = [.reached] ∨ Turning i s' ∧ Same s s' := by
  by_cases hph : s.phase = .finishing
  · exact (turning_plan i now w s s' hi ⟨h1, h2, h3, hph, he, ho⟩ hc hs).1
  have hraw : s.goalRaw = s.goalOriginal := hi.1.esc h2 he
  obtain ⟨s1, hre, hmv⟩ := planPath_ready now w s s' hs ⟨h1, h2, h3, hph, fun hw => by
    by_contra hk
    exact hf ⟨hw, by omega⟩⟩
  have key : ∃ g b m, s1 = { s with goal := g, cacheReady := true, startOccupied := b, made := m } ∧
      (g = s.goalOriginal ∨ g = s.goal ∨ w.goal s.goalOriginal = .moved g) ∧ Inv s1 := by
    rcases hre with ⟨k, rfl⟩ | ⟨-, b, k⟩
    · refine ⟨s1.goal, s1.startOccupied, s1.made, ?_, .inr (.inl rfl), hi⟩
      cases s1; dsimp only at k; subst k; rfl
    · obtain ⟨g, hg, hm⟩ := cache_calm w 1 s s1 b k (hraw ▸ hc) h2 h1 h3
      rw [hraw] at hm
      refine ⟨g, false, some g, hg, hm.elim .inl fun k => .inr (.inr k), ?_⟩
      rw [hg]
      exact ⟨{ acc := hi.1.acc, one := hi.1.one, cb := hi.1.cb, ct := hi.1.ct, tolGoal := hi.1.tolGoal, esc := hi.1.esc, fin := hi.1.fin },
        ⟨hi.2.goal, hi.2.asked⟩⟩
  obtain ⟨g, b, m, rfl, hg, hi1⟩ := key
  unfold planMove at hmv
  dsimp only at hmv
  rw [if_neg (by
    rintro ⟨k1, k2⟩
    rcases hp with hp | hp
    · exact k1 hp
    · omega), if_neg (by simp)] at hmv
  rw [makePlan_near w { s with goal := g, cacheReady := true, startOccupied := b, made := m, switchback := false, error := .goingWell }
    ((hi1.switch false).err .goingWell) he (hn g hg) hst] at hmv
  right
  cases hw : s.cfg.waitSwitch with
  | true =>
    simp only [finishPath, emit, hw, if_true, he, ne_eq, not_true_eq_false, or_self, if_false, Option.map_some, Option.some.injEq] at hmv
    subst hmv
    exact ⟨⟨h1, h2, h3, rfl, rfl, ho⟩, rfl, rfl, rfl, rfl⟩
  | false =>
    simp only [finishPath, emit, hw, Bool.false_eq_true, he, ne_eq, not_true_eq_false, or_self, if_false, Option.map_some, Option.some.injEq] at hmv
    subst hmv
    exact ⟨⟨h1, h2, h3, rfl, rfl, ho⟩, rfl, rfl, rfl, rfl⟩

theorem not_stale (s : St P) (c : Cfg) (p : P) (h : List (Event P)) (e : Event P) (now t : Int) (hr : run c p h = some s) (hf : Recent s (h ++ [e]) now)
    (ht : t = now ∨ t = s.lastCostmap ∧ ∀ h, lastUpdate (h ++ [e]) = lastUpdate h) :
    ¬ (s.cfg.watchdog > 0 ∧ now - t > s.cfg.watchdog) := by
  rintro ⟨k1, k2⟩
  rcases ht with rfl | ⟨rfl, ht⟩
  · omega
  · have := hf k1
    rw [ht, ← lastCostmap_run c p h s hr] at this
    omega

/-- The robot is found at the goal. -/
theorem arrives (c : Cfg) (p : P) (h : List (Event P)) (e : Event P) (s s' : St P) (now : Int) (w : World P) (i : Nat)
    (hr : run c p h = some s) (ho : Open s i) (he : Looks s now w e) (hf : Recent s (h ++ [e]) now) (hc : Calm w s.goalOriginal)
    (hn : s.escaping = .no) (hp : Patient s) (hst : Stopping s)
    (hnear : ∀ g, Stands (h ++ [e]) s.goalOriginal g → NearGoal w g (goalTolerance s)) (hs : step s e = some s') :
    answersTo s'.log i = [.reached] ∨ Turning i s' ∧ Same s s' := by
  have hi := inv_run c p h s hr
  have hg : s.hasGoal = true := open_hasGoal hi ho
  obtain ⟨g, a, b, m, t, f, f', s2, k1, k2, k3, rfl, k4, -⟩ := looks_plan s s' now w e hi hg hn hc he hs
  have hmem : ∃ e' ∈ h ++ [e], w ∈ worlds e' := ⟨e, List.mem_append_right _ (List.mem_singleton.mpr rfl), looks_world he⟩
  have tgt := ((trail_run c p w h s hr).target hg hn).stands
  have tgt' : Stands (h ++ [e]) s.goalOriginal s.goal := by
    rcases tgt with k | ⟨e', he', k⟩
    · exact .inl k
    · exact .inr ⟨e', List.mem_append_left _ he', k⟩
  have hmv : ∀ g, w.goal s.goalOriginal = .moved g → Stands (h ++ [e]) s.goalOriginal g := by
    obtain ⟨e', he', hw⟩ := hmem
    exact fun g k => .inr ⟨e', he', w, hw, k⟩
  have hg' : Stands (h ++ [e]) s.goalOriginal g := by
    rcases k2 with rfl | rfl | k
    · exact .inl rfl
    · exact tgt'
    · exact hmv g k
  have := arrive_plan i now w _ s2 k1 he.1 hg rfl hn ho hc (not_stale s c p h e now t hr hf k4) hp hst (fun g' k => by
    rcases k with rfl | rfl | k
    · exact hnear _ (.inl rfl)
    · exact hnear _ hg'
    · exact hnear _ (hmv g' k)) k3
  exact this.imp id fun ⟨k1, k2⟩ => ⟨⟨k1.map, k1.goal, k1.start, k1.phase, k1.esc, k1.holds⟩, k2⟩

/-- The robot has turned at the goal. -/
theorem turned (c : Cfg) (p : P) (h : List (Event P)) (e : Event P) (s s' : St P) (now : Int) (w : World P) (i : Nat)
    (hr : run c p h = some s) (ht : Turning i s) (he : Looks s now w e) (hf : Recent s (h ++ [e]) now) (hc : Calm w s.goalOriginal)
    (hhead : ∀ g, Stands (h ++ [e]) s.goalOriginal g → |w.heading g| < headingTolerance s) (hs : step s e = some s') :
    answersTo s'.log i = [.reached] := by
  have hi := inv_run c p h s hr
  obtain ⟨g, a, b, m, t, f, f', s2, k1, k2, k3, rfl, k4, -⟩ := looks_plan s s' now w e hi ht.goal ht.esc hc he hs
  have tgt := ((trail_run c p w h s hr).target ht.goal ht.esc).stands
  have tgt' : Stands (h ++ [e]) s.goalOriginal s.goal := by
    rcases tgt with k | ⟨e', he', k⟩
    · exact .inl k
    · exact .inr ⟨e', List.mem_append_left _ he', k⟩
  have hmv : ∀ g, w.goal s.goalOriginal = .moved g → Stands (h ++ [e]) s.goalOriginal g :=
    fun g k => .inr ⟨e, List.mem_append_right _ (List.mem_singleton.mpr rfl), w, looks_world he, k⟩
  have hg' : Stands (h ++ [e]) s.goalOriginal g := by
    rcases k2 with rfl | rfl | k
    · exact .inl rfl
    · exact tgt'
    · exact hmv g k
  exact (turning_plan i now w _ s2 k1 ⟨ht.map, ht.goal, rfl, ht.phase, ht.esc, ht.holds⟩ hc k3).2 (not_stale s c p h e now t hr hf k4) (fun g' k => by
    rcases k with rfl | rfl | k
    · exact hhead _ (.inl rfl)
    · exact hhead _ hg'
    · exact hhead _ (hmv g' k))

/-- While nothing interferes, the last turn goes on until it is answered. -/
theorem turning_run (c : Cfg) (p : P) (i : Nat) (l : List (Event P)) : ∀ (h : List (Event P)) (s s' : St P), run c p h = some s →
    run c p (h ++ l) = some s' → Turning i s → (∀ e ∈ l, Quiet s.goalOriginal e) →
    answersTo s'.log i = [.reached] ∨ Turning i s' ∧ Same s s' := by
  induction l with
  | nil =>
    intro h s s' h1 h2 ht _
    rw [List.append_nil, h1] at h2
    cases h2
    exact .inr ⟨ht, rfl, rfl, rfl, rfl⟩
  | cons e l ih =>
    intro h s s' h1 h2 ht hq
    rw [show h ++ e :: l = (h ++ [e]) ++ l by simp] at h2
    have h3 := h2
    unfold run at h3
    obtain ⟨s1, h3, -⟩ := foldlM_append_some step (h ++ [e]) l _ s' h3
    obtain ⟨s0, h4, h5⟩ := run_snoc c p h e s1 h3
    rw [h1] at h4
    cases h4
    rcases turning_step i s s1 e (inv_run c p h s h1) ht (hq e List.mem_cons_self) h5 with k | ⟨k1, k2⟩
    · exact .inl (answer_final c p (h ++ [e]) l s1 s' h3 h2 i _ k)
    · rcases ih (h ++ [e]) s1 s' h3 h2 k1 (fun e' he' => by rw [k2.2.1]; exact hq e' (List.mem_cons_of_mem _ he')) with k | ⟨k3, k4⟩
      · exact .inl k
      · exact .inr ⟨k3, k4.1.trans k2.1, k4.2.1.trans k2.2.1, k4.2.2.1.trans k2.2.2.1, k4.2.2.2.trans k2.2.2.2⟩

/-- **C129**: A goal that is being processed is answered as reached when the robot is there: in some planning cycle the robot is within the tolerances of the
goal (wherever it may have been moved to), afterwards nothing interferes, and in a later cycle its heading is right, each time with a recent costmap. -/
theorem reached_when_there (c : Cfg) (p : P) (h l : List (Event P)) (e1 e2 : Event P) (s s2 s3 : St P) (now1 now2 : Int) (w1 w2 : World P) (i : Nat)
    (hr : run c p h = some s) (ho : Open s i) (hn : s.escaping = .no) (hp : Patient s) (hst : Stopping s)
    (he1 : Looks s now1 w1 e1) (hf1 : Recent s (h ++ [e1]) now1) (hc1 : Calm w1 s.goalOriginal)
    (hnear : ∀ g, Stands (h ++ [e1]) s.goalOriginal g → NearGoal w1 g (goalTolerance s))
    (hq : ∀ e ∈ l, Quiet s.goalOriginal e) (h2 : run c p (h ++ e1 :: l) = some s2)
    (he2 : Looks s2 now2 w2 e2) (hf2 : Recent s (h ++ e1 :: l ++ [e2]) now2) (hc2 : Calm w2 s.goalOriginal)
    (hhead : ∀ g, Stands (h ++ e1 :: l ++ [e2]) s.goalOriginal g → |w2.heading g| < headingTolerance s)
    (h3 : run c p (h ++ e1 :: l ++ [e2]) = some s3) : answersTo s3.log i = [.reached] := by
  rw [show h ++ e1 :: l = (h ++ [e1]) ++ l by simp] at h2 h3 hf2 hhead
  have h4 := h2
  unfold run at h4
  obtain ⟨s1, h4, -⟩ := foldlM_append_some step (h ++ [e1]) l _ s2 h4
  obtain ⟨s0, k1, k2⟩ := run_snoc c p h e1 s1 h4
  rw [hr] at k1
  cases k1
  obtain ⟨s0, k1, k3⟩ := run_snoc c p _ e2 s3 h3
  rw [h2] at k1
  cases k1
  rcases arrives c p h e1 s s1 now1 w1 i hr ho he1 hf1 hc1 hn hp hst hnear k2 with k | ⟨t1, t2⟩
  · refine answer_final c p (h ++ [e1]) (l ++ [e2]) s1 s3 h4 ?_ i _ k
    rw [← List.append_assoc]; exact h3
  rcases turning_run c p i l (h ++ [e1]) s1 s2 h4 h2 t1 (fun e he => by rw [t2.2.1]; exact hq e he) with k | ⟨t3, t4⟩
  · exact answer_final c p _ [e2] s2 s3 h2 h3 i _ k
  have hcfg : s2.cfg = s.cfg := t4.1.trans t2.1
  have hgo : s2.goalOriginal = s.goalOriginal := t4.2.1.trans t2.2.1
  refine turned c p _ e2 s2 s3 now2 w2 i h2 t3 he2 ?_ (hgo ▸ hc2) ?_ k3
  · unfold Recent; rw [hcfg]; exact hf2
  · rw [hgo, t4.heading, t2.heading]; exact hhead

/-! ## Non-vacuity -/

section
variable (c : Cfg) (h : List (Event Nat)) (hs : (run c 0 h).isSome = true)

/-- The state after a history. -/
def after : St Nat := (run c 0 h).get hs

theorem run_after : run c 0 h = some (after c h hs) := (Option.some_get hs).symm

theorem after_eq {α : Type} (f : St Nat → α) (v : α) (hv : (run c 0 h).map f = some v) : f (after c h hs) = v := by
  rw [run_after c h hs] at hv
  exact Option.some.inj hv

theorem calm_openFloor (d : Int) (y : ℚ) (o : Nat) : Calm (openFloor d y) o := ⟨(by intro k; cases k), (by intro k; cases k), (by intro k; cases k), by intro k; cases k⟩

end

/-- Goal 0 is accepted far away, the robot arrives with a heading that is off, gets an update, turns, and is told that it is there. -/
example : ∃ s3, run someCfg 0 (ready ++ [.baseGoal false goal7 (openFloor 100 0)] ++ .cycle 1 (openFloor 3 1) :: [.cycle 2 (openFloor 9 1), .update ⟨4, true, true, openFloor 9 1⟩] ++
      [.cycle 9 (openFloor 9 0)]) = some s3 ∧ answersTo s3.log 0 = [.reached] := by
  have e1 : (run someCfg 0 (ready ++ [.baseGoal false goal7 (openFloor 100 0)])).isSome = true := by decide +kernel
  have e2 : (run someCfg 0 (ready ++ [.baseGoal false goal7 (openFloor 100 0)] ++ .cycle 1 (openFloor 3 1) ::
    [.cycle 2 (openFloor 9 1), .update ⟨4, true, true, openFloor 9 1⟩])).isSome = true := by decide +kernel
  have e3 : (run someCfg 0 (ready ++ [.baseGoal false goal7 (openFloor 100 0)] ++ .cycle 1 (openFloor 3 1) ::
    [.cycle 2 (openFloor 9 1), .update ⟨4, true, true, openFloor 9 1⟩] ++ [.cycle 9 (openFloor 9 0)])).isSome = true := by decide +kernel
  refine ⟨_, run_after _ _ e3, reached_when_there someCfg 0 (ready ++ [Event.baseGoal false goal7 (openFloor 100 0)])
    [.cycle 2 (openFloor 9 1), .update ⟨4, true, true, openFloor 9 1⟩] (.cycle 1 (openFloor 3 1)) (.cycle 9 (openFloor 9 0)) (after _ _ e1) (after _ _ e2) _ 1 9
    (openFloor 3 1) (openFloor 9 0) 0
    (run_after _ _ e1) (.inl ⟨rfl, rfl⟩) rfl (.inr (show (0 : Int) ≤ 2 by decide)) (fun k => by cases k)
    ⟨rfl, rfl, rfl, rfl, rfl⟩ (fun _ => show (1 : Int) - 0 ≤ 5 by decide) (calm_openFloor _ _ _)
    (fun g _ => ⟨[(3, 0)], rfl, (3, 0), List.mem_singleton.mpr rfl, show (3 : Int) ≤ 2 * 2 by decide, show (0 : Int) ≤ 1 by decide⟩)
    ?_ (run_after _ _ e2)
    ⟨after_eq _ _ _ St.hasMap _ (by decide +kernel), rfl, rfl, after_eq _ _ _ (fun s => s.cfg.trigger) _ (by decide +kernel), after_eq _ _ _ St.hasStart _ (by decide +kernel)⟩
    (fun _ => show (9 : Int) - 4 ≤ 5 by decide) (calm_openFloor _ _ _) (fun g _ => ?_) (run_after _ _ e3)⟩
  · intro e he
    simp only [List.mem_cons, List.mem_singleton, List.not_mem_nil, or_false] at he
    rcases he with rfl | rfl
    · exact calm_openFloor _ _ _
    · exact ⟨calm_openFloor _ _ _, rfl⟩
  · show |(0 : ℚ)| < 1 / 10
    decide +kernel

/-- The same if planning is triggered by costmap updates: goal 0 is a tolerant one, the second update comes after a long pause. -/
example : ∃ s3, run { someCfg with trigger := true } 0 (ready ++ [.update ⟨1, true, true, openFloor 100 0⟩, .tolGoal false goal7 ⟨5, 2, 1 / 2, false⟩ (openFloor 100 0)] ++
      .update ⟨2, true, true, openFloor 20 1⟩ :: [.timer 3 (openFloor 20 1)] ++
      [.update ⟨90, true, true, openFloor 20 (1 / 3)⟩]) = some s3 ∧ answersTo s3.log 0 = [.reached] := by
  have e1 : (run { someCfg with trigger := true } 0 (ready ++ [.update ⟨1, true, true, openFloor 100 0⟩,
    .tolGoal false goal7 ⟨5, 2, 1 / 2, false⟩ (openFloor 100 0)])).isSome = true := by decide +kernel
  have e2 : (run { someCfg with trigger := true } 0 (ready ++ [.update ⟨1, true, true, openFloor 100 0⟩,
    .tolGoal false goal7 ⟨5, 2, 1 / 2, false⟩ (openFloor 100 0)] ++ .update ⟨2, true, true, openFloor 20 1⟩ :: [.timer 3 (openFloor 20 1)])).isSome = true := by decide +kernel
  have e3 : (run { someCfg with trigger := true } 0 (ready ++ [.update ⟨1, true, true, openFloor 100 0⟩,
    .tolGoal false goal7 ⟨5, 2, 1 / 2, false⟩ (openFloor 100 0)] ++ .update ⟨2, true, true, openFloor 20 1⟩ :: [.timer 3 (openFloor 20 1)] ++
      [.update ⟨90, true, true, openFloor 20 (1 / 3)⟩])).isSome = true := by decide +kernel
  refine ⟨_, run_after _ _ e3, reached_when_there _ 0 _ [.timer 3 (openFloor 20 1)] (.update ⟨2, true, true, openFloor 20 1⟩)
    (.update ⟨90, true, true, openFloor 20 (1 / 3)⟩) (after _ _ e1) (after _ _ e2) _ 2 90 (openFloor 20 1) (openFloor 20 (1 / 3)) 0
    (run_after _ _ e1) (.inr ⟨rfl, rfl⟩) rfl (.inr (show (0 : Int) ≤ 2 by decide)) (fun _ t k => by cases k; rfl)
    ⟨rfl, rfl, rfl, rfl, rfl, rfl⟩ (fun _ => show (2 : Int) - 2 ≤ 5 by decide) (calm_openFloor _ _ _)
    (fun g _ => ⟨[(20, 0)], rfl, (20, 0), List.mem_singleton.mpr rfl, show (20 : Int) ≤ 5 * 5 by decide, show (0 : Int) ≤ 2 by decide⟩)
    ?_ (run_after _ _ e2)
    ⟨after_eq _ _ _ St.hasMap _ (by decide +kernel), rfl, rfl, rfl, rfl, after_eq _ _ _ (fun s => s.cfg.trigger) _ (by decide +kernel)⟩
    (fun _ => show (90 : Int) - 90 ≤ 5 by decide) (calm_openFloor _ _ _) (fun g _ => ?_) (run_after _ _ e3)⟩
  · intro e he
    obtain rfl := List.mem_singleton.mp he
    exact calm_openFloor _ _ _
  · show |(1 / 3 : ℚ)| < 1 / 2
    decide +kernel

end Verif.PlannerNode
