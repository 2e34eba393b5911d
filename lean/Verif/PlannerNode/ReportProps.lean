import Verif.PlannerNode.Report
import Verif.PlannerNode.Status
import Verif.PlannerNode.Watch
/-! # C138: feedback and metrics of the planner -/
namespace Verif.PlannerNode
variable {P : Type}

/-! ## One planning cycle -/

theorem canPlan_core {s s1 : St P} (h : SameCore s s1) (now : Int) : CanPlan s1 now ↔ CanPlan s now := by
  obtain ⟨_, _, _, _, _, _, _, _, rfl⟩ := h
  exact Iff.rfl

theorem planPath_told (now : Int) (w : World P) (s s' s1 : St P) (hs : planPath now w s = some s')
    (h1 : (if s.hasMap && !s.cacheReady && s.hasGoal then (cache w depth s).map Prod.fst else some s) = some s1) :
    SameCore s s1 ∧ ((CanPlan s1 now ∧ GivesUp s1 ∧ s' = giveUp { s1 with switchback := false }) ∨
      (¬ (CanPlan s1 now ∧ GivesUp s1) ∧ ∃ l, s'.log = s.log ++ (l ++ [.status s'.phase s'.error]))) := by
  have hc : SameCore s s1 := by
    split at h1
    · rw [Option.map_eq_some_iff] at h1
      obtain ⟨⟨s2, b⟩, h2, rfl⟩ := h1
      exact (moves_cache w _ _ _ _ h2).1
    · cases h1; exact SameCore.refl s
  refine ⟨hc, ?_⟩
  unfold planPath at hs
  rw [h1, Option.bind_some] at hs
  have hlog : s1.log = s.log := by obtain ⟨_, _, _, _, _, _, _, _, rfl⟩ := hc; rfl
  clear h1 hc
  have tell : ∀ x : St P, s' = publishStatus x → (∃ l, x.log = s.log ++ l) → ∃ l, s'.log = s.log ++ (l ++ [.status s'.phase s'.error]) := by
    rintro x rfl ⟨l, hl⟩
    exact ⟨l, by simp [publishStatus, emit, hl]⟩
  have idle : ∀ x : St P, (∃ l, x.log = s.log ++ l) →
      s' = publishStatus (emit (.path []) (if x.cfg.retain then x else { x with error := .goingWell })) →
      ∃ l, s'.log = s.log ++ (l ++ [.status s'.phase s'.error]) := by
    rintro x ⟨l, hl⟩ hx
    refine tell _ hx ⟨l ++ [.path []], ?_⟩
    split <;> simp [emit, hl]
  dsimp only at hs
  split at hs
  · rename_i hst
    refine .inr ⟨fun k => k.1.2.2.2 hst, ?_⟩
    have hx : ∃ l, (emit (.path []) { s1 with error := .dataMissing }).log = s.log ++ l := ⟨[.path []], by simp [emit, hlog]⟩
    split at hs
    · cases hs; exact idle _ hx rfl
    · cases hs; exact tell _ rfl hx
  split at hs
  · rename_i hst hall
    have hp : CanPlan s1 now := by
      simp only [Bool.and_eq_true] at hall
      exact ⟨hall.1.1, hall.1.2, hall.2, hst⟩
    split at hs
    · rename_i hf
      refine .inr ⟨fun k => k.2.1 hf, ?_⟩
      unfold planFinish at hs
      dsimp only at hs
      generalize w.heading _ = yaw at hs
      split at hs
      · cases hs
      split at hs
      · cases hs
        refine tell _ rfl ?_
        obtain ⟨-, -, -, -, -, l, hl, -⟩ := finishBoth_kept .reached ({ s1 with switchback := false, phase := .done, hasGoal := false } : St P)
        exact ⟨l, by rw [hl, ← hlog]⟩
      · cases hs
        refine tell _ rfl ⟨[.path [finalPose s1]], ?_⟩
        simp [finishPath, emit, hlog, finalPose]
    · rename_i hf
      by_cases hgu : s1.cfg.maxRetry ≠ -1 ∧ s1.stuck > s1.cfg.maxRetry
      · refine .inl ⟨hp, ⟨hf, hgu⟩, ?_⟩
        unfold planMove at hs
        dsimp only at hs
        rw [if_pos hgu] at hs
        cases hs
        rfl
      · refine .inr ⟨fun k => hgu k.2.2, ?_⟩
        rcases planMove_status w _ s' hs with ⟨g1, g2, -⟩ | ⟨-, -, -, m4⟩ | ⟨-, r, ps, l, -, -, -, -, m6⟩
        · exact absurd ⟨g1, g2⟩ hgu
        · exact ⟨[.path []], by rw [m4, hlog]; rfl⟩
        · exact ⟨l ++ [.path ps], by rw [m6, hlog]; simp⟩
  rename_i hst hall
  have hno : ¬ CanPlan s1 now := fun k => hall (by simp [k.1, k.2.1, k.2.2.1])
  refine .inr ⟨fun k => hno k.1, ?_⟩
  split at hs
  · cases hs; exact idle s1 ⟨[], by rw [hlog]; simp⟩ rfl
  · cases hs; exact tell _ rfl ⟨[], by rw [hlog]; simp⟩

/-- The age recorded in a cycle. -/
def ageAt (s : St P) (now : Int) : Option Int := if s.cfg.watchdog > 0 then some (now - s.lastCostmap) else none

/-- What a planning cycle reports. -/
theorem reportPlan_spec (now : Int) (w : World P) (x : Extra P) (s s' : St P) (r r' : Rep P) (hs : planPath now w s = some s')
    (hr : reportPlan now w x s r = some r') :
    r'.start = r.start ∧
    r'.feedback = r.feedback ++ (if CanPlan s now then feedbackTo s.base r.start ++ feedbackTo s.tol r.start else []) ∧
    ((CanPlan s now ∧ (∃ s1, SameCore s s1 ∧ GivesUp s1 ∧ s' = giveUp { s1 with switchback := false }) ∧
        r'.metrics = r.metrics ∧ r'.goals = r.goals ∧ r'.pending = r.pending ++ x.before.map .other ++ [.delay (ageAt s now)]) ∨
      ((∃ l, s'.log = s.log ++ (l ++ [.status s'.phase s'.error])) ∧ r'.pending = [] ∧ r'.goals = r.goals ++ [s'.goal] ∧
        r'.metrics = r.metrics ++ [(now, r.pending ++ x.before.map .other ++ [.delay (ageAt s now)] ++ x.after.map .other ++
          [.stuck s'.stuck, .error s'.error, .status s'.phase])])) := by
  unfold reportPlan at hr
  rw [Option.bind_eq_some_iff] at hr
  obtain ⟨s1, h1, hr⟩ := hr
  obtain ⟨hc, hcase⟩ := planPath_told now w s s' s1 hs h1
  have hage : (if s1.cfg.watchdog > 0 then some (now - s1.lastCostmap) else none) = ageAt s now := by
    obtain ⟨_, _, _, _, _, _, _, _, rfl⟩ := hc; rfl
  have hb : s1.base = s.base := by obtain ⟨_, _, _, _, _, _, _, _, rfl⟩ := hc; rfl
  have ht : s1.tol = s.tol := by obtain ⟨_, _, _, _, _, _, _, _, rfl⟩ := hc; rfl
  dsimp only at hr
  rw [hage, hb, ht] at hr
  simp only [canPlan_core hc now] at hr hcase
  rcases hcase with ⟨c1, c2, c3⟩ | ⟨c1, c2⟩
  · rw [if_pos (show CanPlan s now ∧ GivesUp s1 from ⟨c1, c2⟩), if_pos c1] at hr
    cases hr
    exact ⟨rfl, by rw [if_pos c1], .inl ⟨c1, ⟨s1, hc, c2, c3⟩, rfl, rfl, rfl⟩⟩
  · rw [if_neg c1, hs, Option.map_some] at hr
    by_cases hp : CanPlan s now
    · rw [if_pos hp] at hr
      cases hr
      exact ⟨rfl, by rw [if_pos hp], .inr ⟨c2, rfl, rfl, by simp⟩⟩
    · rw [if_neg hp] at hr
      cases hr
      exact ⟨rfl, by rw [if_neg hp]; simp, .inr ⟨c2, rfl, rfl, by simp⟩⟩

/-! ## One event -/

theorem cycleAt_unique (s : St P) (e : Event P) (a b : Int) (ha : CycleAt s a e) (hb : CycleAt s b e) : a = b := by
  cases e with
  | cycle t w => exact ha.1.symm.trans hb.1
  | timer t w => exact ha.1.symm.trans hb.1
  | update u => exact ha.2.2.trans hb.2.2.symm
  | map f w early =>
    cases early with
    | none => exact ha.elim
    | some u => exact ha.2.trans hb.2.symm
  | _ => exact ha.elim

theorem ages_other (l : List String) : ages (l.map .other) = [] := by
  induction l with
  | nil => rfl
  | cons a l ih => exact ih

theorem ages_append (l m : List Metric) : ages (l ++ m) = ages l ++ ages m := List.filterMap_append ..

/-- The state in which the planning cycle of an event starts. -/
def Fore (s s0 : St P) : Prop :=
  s0.base = s.base ∧ s0.tol = s.tol ∧ s0.hasGoal = s.hasGoal ∧ s0.cfg = s.cfg ∧ ∃ l, s0.log = s.log ++ l

theorem Fore.refl (s : St P) : Fore s s := ⟨rfl, rfl, rfl, rfl, [], by simp⟩

theorem Fore.trans {a b c : St P} (h : Fore a b) (k : Fore b c) : Fore a c := by
  obtain ⟨h1, h2, h3, h4, l, h5⟩ := h
  obtain ⟨k1, k2, k3, k4, m, k5⟩ := k
  exact ⟨k1.trans h1, k2.trans h2, k3.trans h3, k4.trans h4, l ++ m, by rw [k5, h5, List.append_assoc]⟩

theorem SameCore.fore {s s0 : St P} (h : SameCore s s0) : Fore s s0 := by
  obtain ⟨_, _, _, _, _, _, _, _, rfl⟩ := h
  exact Fore.refl s

/-- A planning cycle at time `now` with the reports `r'`, between `s0` and `s'`. -/
def Cycled (now : Int) (x : Extra P) (s0 s' : St P) (r r' : Rep P) : Prop :=
  ∃ w s1 f, planPath now w s0 = some s1 ∧ s' = { s1 with timer := f } ∧ reportPlan now w x s0 r = some r'

theorem update_cases (u : Update P) (x : Extra P) (s s' : St P) (r r' : Rep P) (hs : cbMapUpdate u s = some s')
    (hr : reportUpdate u x s r = some r') :
    (s.hasMap = true ∧ s.cfg.trigger = true ∧ ∃ s0, Fore s s0 ∧ s0.hasMap = true ∧ s0.hasStart = u.located ∧
        s0.lastCostmap = (if u.fits then u.now else s.lastCostmap) ∧
        Cycled (if u.fits then u.now else s.lastCostmap) x s0 s' { r with start := if u.located then x.pose else r.start } r') ∨
    (¬ (s.hasMap = true ∧ s.cfg.trigger = true) ∧ r'.feedback = r.feedback ∧ r'.metrics = r.metrics ∧ r'.goals = r.goals ∧
      ages r'.pending = ages r.pending) := by
  unfold cbMapUpdate at hs
  unfold reportUpdate at hr
  cases hm : s.hasMap with
  | false =>
    rw [if_pos (by simp [hm])] at hr
    cases hr
    exact .inr ⟨fun k => by simp at k, rfl, rfl, rfl, rfl⟩
  | true =>
    rw [if_neg (by simp [hm])] at hr hs
    cases ht : s.cfg.trigger with
    | false =>
      rw [if_neg (by simp [ht])] at hr
      cases hr
      refine .inr ⟨fun k => by simp at k, rfl, rfl, rfl, ?_⟩
      dsimp only
      rw [ages_append, ages_other, List.append_nil]
    | true =>
      rw [if_pos ht] at hr hs
      rw [Option.bind_eq_some_iff] at hr hs
      obtain ⟨s0, h0, hs⟩ := hs
      obtain ⟨s0', h0', hr⟩ := hr
      obtain rfl : s0 = s0' := Option.some.inj (h0.symm.trans h0')
      have hc := applyUpdate_cases u _ _ h0
      have hl : s0.lastCostmap = (if u.fits then u.now else s.lastCostmap) := by
        obtain ⟨_, _, _, _, _, _, _, _, rfl⟩ := hc; rfl
      rw [Option.map_eq_some_iff] at hs
      obtain ⟨s1, h1, hs⟩ := hs
      rw [hl] at h1 hr
      refine .inl ⟨rfl, rfl, s0, ?_, ?_, ?_, hl, u.w, s1, s'.timer, h1, ?_, hr⟩
      · exact Fore.trans (b := { s with timer := false, hasStart := u.located, lastCostmap := if u.fits then u.now else s.lastCostmap })
          (Fore.refl s) hc.fore
      · obtain ⟨_, _, _, _, _, _, _, _, rfl⟩ := hc; exact hm
      · obtain ⟨_, _, _, _, _, _, _, _, rfl⟩ := hc; rfl
      · subst hs
        split <;> rfl

theorem stepR_parts {s s' : St P} {r r' : Rep P} {e : Event P} {x : Extra P} (hs : stepR (s, r) (e, x) = some (s', r')) :
    step s e = some s' ∧ report s r x e = some r' := by
  unfold stepR at hs
  rw [Option.bind_eq_some_iff] at hs
  obtain ⟨a, h1, h2⟩ := hs
  rw [Option.map_eq_some_iff] at h2
  obtain ⟨b, h2, h3⟩ := h2
  cases h3
  exact ⟨h1, h2⟩

/-- Every event either contains one planning cycle, or reports nothing. -/
theorem stepR_cases (s s' : St P) (r r' : Rep P) (e : Event P) (x : Extra P) (hs : stepR (s, r) (e, x) = some (s', r')) :
    (∃ now, CycleAt s now e ∧ ∃ s0, Fore s s0 ∧ (s0.hasStart = true ↔ Located s e) ∧ s0.hasMap = s'.hasMap ∧ s0.lastCostmap = s'.lastCostmap ∧
      Cycled now x s0 s' { r with start := robotAt r x e } r') ∨
    ((∀ now, ¬ CycleAt s now e) ∧ r'.feedback = r.feedback ∧ r'.metrics = r.metrics ∧ r'.goals = r.goals ∧ ages r'.pending = ages r.pending) := by
  obtain ⟨hs, hr⟩ := stepR_parts hs
  have quiet : some { r with pending := r.pending ++ x.before.map .other } = some r' →
      r'.feedback = r.feedback ∧ r'.metrics = r.metrics ∧ r'.goals = r.goals ∧ ages r'.pending = ages r.pending := by
    intro h
    cases h
    refine ⟨rfl, rfl, rfl, ?_⟩
    dsimp only
    rw [ages_append, ages_other, List.append_nil]
  have kept : ∀ now (s0 : St P) (r0 : Rep P), Cycled now x s0 s' r0 r' → s0.hasMap = s'.hasMap ∧ s0.lastCostmap = s'.lastCostmap := by
    rintro now s0 r0 ⟨w, s1, f, h1, rfl, -⟩
    obtain ⟨-, k2, k3, -⟩ := planPath_kept now w s0 s1 h1
    exact ⟨k2.symm, k3.symm⟩
  cases e with
  | cycle t w =>
    unfold step at hs; unfold report at hr
    dsimp only at hs hr
    cases ht : s.cfg.trigger with
    | true => rw [if_pos ht] at hr; cases hr; exact .inr ⟨fun now k => by simp [CycleAt, ht] at k, rfl, rfl, rfl, rfl⟩
    | false =>
      rw [if_neg (by simp [ht])] at hr hs
      have hc : Cycled t x s s' r r' := ⟨w, s', s'.timer, hs, rfl, hr⟩
      exact .inl ⟨t, ⟨rfl, ht⟩, s, Fore.refl s, Iff.rfl, (kept _ _ _ hc).1, (kept _ _ _ hc).2, hc⟩
  | timer t w =>
    unfold step at hs; unfold report at hr
    dsimp only at hs hr
    cases ht : s.timer with
    | false => rw [if_neg (by simp [ht])] at hr; cases hr; exact .inr ⟨fun now k => by simp [CycleAt, ht] at k, rfl, rfl, rfl, rfl⟩
    | true =>
      rw [if_pos ht] at hr hs
      have hc : Cycled t x s s' r r' := ⟨w, s', s'.timer, hs, rfl, hr⟩
      exact .inl ⟨t, ⟨rfl, ht⟩, s, Fore.refl s, Iff.rfl, (kept _ _ _ hc).1, (kept _ _ _ hc).2, hc⟩
  | update u =>
    unfold step at hs; unfold report at hr
    rcases update_cases u x s s' r r' hs hr with ⟨h1, h2, s0, f1, f2, f3, f4, f5⟩ | ⟨h1, h2⟩
    · exact .inl ⟨_, ⟨h1, h2, rfl⟩, s0, f1, by rw [f3]; exact Iff.rfl, (kept _ _ _ f5).1, (kept _ _ _ f5).2, f5⟩
    · exact .inr ⟨fun now k => h1 ⟨k.1, k.2.1⟩, h2⟩
  | map f w early =>
    unfold step at hs; unfold report at hr
    dsimp only at hs hr
    unfold cbMap at hs; unfold reportMap at hr
    rw [Option.bind_eq_some_iff] at hs hr
    obtain ⟨⟨s1, b⟩, h1, hs⟩ := hs
    obtain ⟨a1, h1', hr⟩ := hr
    obtain rfl : (s1, b) = a1 := Option.some.inj (h1.symm.trans h1')
    have hc := (moves_cache w _ _ _ _ h1).1
    cases early with
    | none => exact .inr ⟨fun now k => k, quiet hr⟩
    | some u =>
      dsimp only at hs hr
      have hf : Fore s s1 := by
        obtain ⟨_, _, _, _, _, _, _, _, rfl⟩ := hc
        exact ⟨rfl, rfl, rfl, rfl, [.path []], rfl⟩
      have hl : s1.lastCostmap = s.lastCostmap := by obtain ⟨_, _, _, _, _, _, _, _, rfl⟩ := hc; rfl
      have hm : s1.hasMap = true := by obtain ⟨_, _, _, _, _, _, _, _, rfl⟩ := hc; rfl
      rcases update_cases u x s1 s' r r' hs hr with ⟨-, h2, s0, f1, f2, f3, f4, f5⟩ | ⟨k1, k2⟩
      · rw [hl] at f5
        refine .inl ⟨_, ⟨hf.2.2.2.1 ▸ h2, rfl⟩, s0, hf.trans f1, by rw [f3]; exact Iff.rfl, (kept _ _ _ f5).1, (kept _ _ _ f5).2, f5⟩
      · exact .inr ⟨fun now k => k1 ⟨hm, hf.2.2.2.1 ▸ k.1⟩, k2⟩
  | located ok =>
    unfold report at hr
    refine .inr ⟨fun now k => k, ?_⟩
    cases hr
    split <;> exact ⟨rfl, rfl, rfl, rfl⟩
  | switchReached => exact .inr ⟨fun now k => k, quiet hr⟩
  | topicGoal _ _ => exact .inr ⟨fun now k => k, quiet hr⟩
  | baseGoal _ _ _ => exact .inr ⟨fun now k => k, quiet hr⟩
  | tolGoal _ _ _ _ => exact .inr ⟨fun now k => k, quiet hr⟩
  | cancel _ => exact .inr ⟨fun now k => k, quiet hr⟩
  | escape _ => exact .inr ⟨fun now k => k, quiet hr⟩
  | config _ => exact .inr ⟨fun now k => k, quiet hr⟩

/-! ## Histories -/

theorem runR_foldlM : ∀ (h : List (Event P × Extra P)) (s s' : St P) (r r' : Rep P), h.foldlM stepR (s, r) = some (s', r') →
    (h.map Prod.fst).foldlM step s = some s'
  | [], s, s', r, r', hr => by cases hr; rfl
  | (e, x) :: h, s, s', r, r', hr => by
    rw [List.foldlM_cons] at hr
    obtain ⟨⟨s1, r1⟩, h1, h2⟩ := Option.bind_eq_some_iff.mp hr
    rw [List.map_cons, List.foldlM_cons]
    exact Option.bind_eq_some_iff.mpr ⟨s1, (stepR_parts h1).1, runR_foldlM h s1 s' r1 r' h2⟩

/-- The reports leave the node's behaviour alone. -/
theorem runR_run (c : Cfg) (p : P) (h : List (Event P × Extra P)) (s : St P) (r : Rep P) (hr : runR c p h = some (s, r)) :
    run c p (h.map Prod.fst) = some s := runR_foldlM h _ s _ r hr

theorem run_then (c : Cfg) (p : P) (h : List (Event P)) (e : Event P) (s s' : St P) (hr : run c p h = some s) (hs : step s e = some s') :
    run c p (h ++ [e]) = some s' := by
  unfold run at hr ⊢
  rw [List.foldlM_append, hr]
  show (([e] : List (Event P)).foldlM step s) = some s'
  rw [List.foldlM_cons, hs]
  rfl

theorem added_append {A : Type} (l m : List A) : added l (l ++ m) = m := by unfold added; rw [List.drop_left]

theorem feedbackTo_mem (v : Server) (p : P) (i : Nat) (q : P) : (i, q) ∈ feedbackTo v p ↔ v.Holds i ∧ q = p := by
  unfold feedbackTo Server.Holds
  cases v.active <;> cases v.current <;> simp [eq_comm]

/-- Both servers together send at most one feedback, to the goal in progress. -/
theorem feedback_open {s : St P} (hi : Inv s) (p : P) (i : Nat) (ho : Open s i) : feedbackTo s.base p ++ feedbackTo s.tol p = [(i, p)] := by
  rcases ho with ⟨h1, h2⟩ | ⟨h1, h2⟩
  · have ht : s.tol.active = false := by
      cases hb : s.tol.active with
      | false => rfl
      | true => exact absurd ⟨h1, hb⟩ hi.1.one
    simp [feedbackTo, h1, h2, ht]
  · have hb : s.base.active = false := by
      cases hb : s.base.active with
      | false => rfl
      | true => exact absurd ⟨hb, h1⟩ hi.1.one
    simp [feedbackTo, h1, h2, hb]

/-- **C138**: in every planning cycle in which the node has a map, the robot's position and a costmap that is recent enough, the action goal in progress
is sent one feedback, with the robot's position, and nothing else is. -/
theorem feedback_each_cycle (c : Cfg) (p : P) (h : List (Event P × Extra P)) (s s' : St P) (r r' : Rep P) (e : Event P) (x : Extra P) (now : Int)
    (hr : runR c p h = some (s, r)) (hc : CycleAt s now e) (hs : stepR (s, r) (e, x) = some (s', r')) (i : Nat) (hi : Open s i)
    (hm : s'.hasMap = true) (hl : Located s e)
    (hf : s.cfg.watchdog > 0 → now - lastUpdate (h.map Prod.fst ++ [e]) ≤ s.cfg.watchdog) :
    added r.feedback r'.feedback = [(i, robotAt r x e)] := by
  have hrun := runR_run c p h s r hr
  have inv := inv_run c p _ s hrun
  have hl' := lastCostmap_run c p _ s' (run_then c p _ e s s' hrun (stepR_parts hs).1)
  rcases stepR_cases s s' r r' e x hs with ⟨now', hc', s0, ⟨f1, f2, f3, f4, -⟩, g1, g2, g3, w, s1, f, h1, -, h3⟩ | ⟨hn, -⟩
  · obtain rfl := cycleAt_unique s e now now' hc hc'
    obtain ⟨-, k2, -⟩ := reportPlan_spec now w x s0 s1 _ r' h1 h3
    have hp : CanPlan s0 now := by
      refine ⟨g2.trans hm, f3.trans (open_is_pursued c p _ s hrun i hi).1, g1.mpr hl, ?_⟩
      unfold Stale
      rw [f4, g3, hl']
      exact fun k => absurd (hf k.1) (not_le.mpr k.2)
    rw [k2, if_pos hp, added_append, f1, f2]
    exact feedback_open inv _ i hi
  · exact absurd hc (hn now)

/-- **C138**: feedback is sent only in planning cycles, only to a goal that was accepted, is in progress and has not been answered, only while map, position
and a recent costmap are known; it carries the robot's position; and an event sends at most one. -/
theorem feedback_only (c : Cfg) (p : P) (h : List (Event P × Extra P)) (s s' : St P) (r r' : Rep P) (e : Event P) (x : Extra P)
    (hr : runR c p h = some (s, r)) (hs : stepR (s, r) (e, x) = some (s', r')) (i : Nat) (q : P) (hq : (i, q) ∈ added r.feedback r'.feedback) :
    added r.feedback r'.feedback = [(i, q)] ∧ q = robotAt r x e ∧ Open s i ∧ Accepted s.log i ∧ answersTo s.log i = [] ∧ s'.hasMap = true ∧
      Located s e ∧ ∃ now, CycleAt s now e ∧ (s.cfg.watchdog > 0 → now - lastUpdate (h.map Prod.fst ++ [e]) ≤ s.cfg.watchdog) := by
  have hrun := runR_run c p h s r hr
  have inv := inv_run c p _ s hrun
  have hl' := lastCostmap_run c p _ s' (run_then c p _ e s s' hrun (stepR_parts hs).1)
  rcases stepR_cases s s' r r' e x hs with ⟨now, hc, s0, ⟨f1, f2, f3, f4, -⟩, g1, g2, g3, w, s1, f, h1, -, h3⟩ | ⟨-, hn, -⟩
  · obtain ⟨-, k2, -⟩ := reportPlan_spec now w x s0 s1 _ r' h1 h3
    dsimp only at k2
    rw [k2, added_append] at hq ⊢
    by_cases hp : CanPlan s0 now
    · rw [if_pos hp] at hq ⊢
      rw [f1, f2] at hq ⊢
      have ho : Open s i ∧ q = robotAt r x e := by
        rcases List.mem_append.mp hq with hq | hq
        · exact ⟨.inl ((feedbackTo_mem _ _ _ _).mp hq).1, ((feedbackTo_mem _ _ _ _).mp hq).2⟩
        · exact ⟨.inr ((feedbackTo_mem _ _ _ _).mp hq).1, ((feedbackTo_mem _ _ _ _).mp hq).2⟩
      obtain ⟨ho, rfl⟩ := ho
      have ha : Accepted s.log i := ⟨_, (open_is_pursued c p _ s hrun i ho).2⟩
      refine ⟨feedback_open inv _ i ho, rfl, ho, ha, ?_, g2 ▸ hp.1, g1.mp hp.2.2.1, now, hc, fun hw => ?_⟩
      · rcases accepted_one_answer c p _ s hrun i ha with k | k
        · exact k.2
        · exact absurd ho k.1
      · have hst := hp.2.2.2
        unfold Stale at hst
        rw [f4, g3, hl'] at hst
        exact not_lt.mp fun k => hst ⟨hw, k⟩
    · rw [if_neg hp] at hq
      cases hq
  · rw [hn] at hq
    unfold added at hq
    rw [List.drop_length] at hq
    cases hq

/-- **C138**: the robot's position reported is the last one that could be looked up. -/
theorem position_is_last_found (s s' : St P) (r r' : Rep P) (e : Event P) (x : Extra P) (hs : stepR (s, r) (e, x) = some (s', r')) :
    r'.start = (fixOf s x e).getD r.start := by
  obtain ⟨hs1, hr⟩ := stepR_parts hs
  rcases stepR_cases s s' r r' e x hs with ⟨now, hc, s0, -, -, -, -, w, s1, f, h1, -, h3⟩ | ⟨hn, -⟩
  · obtain ⟨k1, -⟩ := reportPlan_spec now w x s0 s1 _ r' h1 h3
    rw [k1]
    cases e with
    | update u => obtain ⟨h4, h5, -⟩ := hc; cases hu : u.located <;> simp [robotAt, fixOf, h4, h5, hu]
    | map _ _ early =>
      cases early with
      | none => exact hc.elim
      | some u => obtain ⟨h4, -⟩ := hc; cases hu : u.located <;> simp [robotAt, fixOf, h4, hu]
    | cycle _ _ => rfl
    | timer _ _ => rfl
    | _ => exact hc.elim
  · cases e with
    | located ok =>
      unfold report at hr
      unfold fixOf
      cases hr
      dsimp only
      split <;> rfl
    | cycle t w =>
      unfold report at hr
      dsimp only at hr
      cases ht : s.cfg.trigger with
      | true => rw [if_pos ht] at hr; cases hr; rfl
      | false => exact absurd ⟨rfl, ht⟩ (hn t)
    | timer t w =>
      unfold report at hr
      dsimp only at hr
      cases ht : s.timer with
      | false => rw [if_neg (by simp [ht])] at hr; cases hr; rfl
      | true => exact absurd ⟨rfl, ht⟩ (hn t)
    | update u =>
      have hb : (s.hasMap && s.cfg.trigger) = false := by
        cases h1 : s.hasMap <;> cases h2 : s.cfg.trigger <;> first | rfl | exact absurd ⟨h1, h2, rfl⟩ (hn _)
      have hr : reportUpdate u x s r = some r' := hr
      unfold reportUpdate at hr
      unfold fixOf
      dsimp only
      rw [hb, Bool.false_and]
      cases hm : s.hasMap with
      | false => rw [if_pos (by simp [hm])] at hr; cases hr; rfl
      | true =>
        rw [hm, Bool.true_and] at hb
        rw [if_neg (by simp [hm]), if_neg (by simp [hb])] at hr
        cases hr; rfl
    | map f w early =>
      unfold report reportMap at hr
      dsimp only at hr
      rw [Option.bind_eq_some_iff] at hr
      obtain ⟨⟨s1, b⟩, h1, hr⟩ := hr
      have hcc := (moves_cache w _ _ _ _ h1).1
      cases early with
      | none => cases hr; rfl
      | some u =>
        have ht : s.cfg.trigger = false := by
          cases h2 : s.cfg.trigger with
          | false => rfl
          | true => exact absurd ⟨h2, rfl⟩ (hn _)
        have hm1 : s1.hasMap = true := by obtain ⟨_, _, _, _, _, _, _, _, rfl⟩ := hcc; rfl
        have ht1 : s1.cfg.trigger = false := by obtain ⟨_, _, _, _, _, _, _, _, rfl⟩ := hcc; exact ht
        dsimp only at hr
        unfold reportUpdate at hr
        rw [if_neg (by simp [hm1]), if_neg (by simp [ht1])] at hr
        cases hr
        simp [fixOf, ht]
    | switchReached => cases hr; rfl
    | topicGoal _ _ => cases hr; rfl
    | baseGoal _ _ _ => cases hr; rfl
    | tolGoal _ _ _ _ => cases hr; rfl
    | cancel _ => cases hr; rfl
    | escape _ => cases hr; rfl
    | config _ => cases hr; rfl

theorem shows_after {s s0 s' : St P} {l : List (Out P)} {ph : Phase} {er : Err} (h : ∃ m, s0.log = s.log ++ m)
    (h' : s'.log = s0.log ++ (l ++ [.status ph er])) : shows (published s s') = some (ph, er) := by
  obtain ⟨m, h⟩ := h
  exact shows_of (l := m ++ l) (by rw [h', h]; simp)

/-- **C138**: every planning cycle publishes one metrics message, with the time of the cycle, the age of the costmap, and, as its last entries, the number of
failures, the error and the status of the status message published in the same cycle; with it the goal is published, and nothing stays behind for the next
message.  The only exception is the cycle that gives up the goal, which publishes none of the three. -/
theorem metrics_each_cycle (c : Cfg) (p : P) (h : List (Event P × Extra P)) (s s' : St P) (r r' : Rep P) (e : Event P) (x : Extra P) (now : Int)
    (hr : runR c p h = some (s, r)) (hc : CycleAt s now e) (hs : stepR (s, r) (e, x) = some (s', r')) :
    (∃ l ph er, shows (published s s') = some (ph, er) ∧ r'.goals = r.goals ++ [s'.goal] ∧ r'.pending = [] ∧
      r'.metrics = r.metrics ++ [(now, l ++ [.stuck s'.stuck, .error er, .status ph])] ∧
      ages l = ages r.pending ++ [if s.cfg.watchdog > 0 then some (now - lastUpdate (h.map Prod.fst ++ [e])) else none]) ∨
    (s.hasGoal = true ∧ s'.hasGoal = false ∧ s.cfg.maxRetry ≠ -1 ∧ s'.stuck > s.cfg.maxRetry ∧ (∀ ph er, shows (published s s') ≠ some (ph, er)) ∧
      r'.goals = r.goals ∧ r'.metrics = r.metrics) := by
  have hrun := runR_run c p h s r hr
  have hl' := lastCostmap_run c p _ s' (run_then c p _ e s s' hrun (stepR_parts hs).1)
  rcases stepR_cases s s' r r' e x hs with ⟨now', hc', s0, ⟨f1, f2, f3, f4, hlog⟩, g1, g2, g3, w, s1, f, h1, h2, h3⟩ | ⟨hn, -⟩
  · obtain rfl := cycleAt_unique s e now now' hc hc'
    obtain ⟨-, -, ⟨k1, ⟨s2, c1, c2, c3⟩, c4, c5, -⟩ | ⟨⟨l, c1⟩, c2, c3, c4⟩⟩ := reportPlan_spec now w x s0 s1 _ r' h1 h3
    · right
      have hgo : s.hasGoal = true := f3 ▸ k1.2.1
      obtain ⟨l, hgl, hgs⟩ := giveUp_shows ({ s2 with switchback := false } : St P)
      have hl2 : s2.log = s0.log := by obtain ⟨_, _, _, _, _, _, _, _, rfl⟩ := c1; rfl
      have hcfg : s2.cfg = s.cfg := by obtain ⟨_, _, _, _, _, _, _, _, rfl⟩ := c1; exact f4
      have hst : s1.stuck = s2.stuck ∧ s1.hasGoal = false := by
        rw [c3]
        obtain ⟨b, t, l, hf, -⟩ := finishBoth_rest .aborted
          (emit (.path []) { ({ s2 with switchback := false } : St P) with error := .pathNotFound, phase := .done, hasGoal := false })
        unfold giveUp
        rw [hf]
        exact ⟨rfl, rfl⟩
      have hs1 : s'.stuck = s1.stuck ∧ s'.hasGoal = s1.hasGoal ∧ s'.log = s1.log := by rw [h2]; exact ⟨rfl, rfl, rfl⟩
      refine ⟨hgo, hs1.2.1.trans hst.2, hcfg ▸ c2.2.1, ?_, ?_, c5, c4⟩
      · rw [hs1.1, hst.1, ← hcfg]; exact c2.2.2
      · obtain ⟨m, hlog⟩ := hlog
        intro ph er hsh
        have hp : published s s' = m ++ (.path [] :: l) := by
          refine published_of ?_
          rw [hs1.2.2, c3, hgl]
          dsimp only
          rw [hl2, hlog, List.append_assoc]
        rw [hp] at hsh
        refine hgs ph er ?_
        unfold shows at hsh ⊢
        rw [List.getLast?_append_of_ne_nil _ (by simp)] at hsh
        exact hsh
    · left
      have hs1 : s'.stuck = s1.stuck ∧ s'.goal = s1.goal ∧ s'.log = s1.log := by rw [h2]; exact ⟨rfl, rfl, rfl⟩
      refine ⟨_, s1.phase, s1.error, shows_after (l := l) hlog (hs1.2.2.trans c1), hs1.2.1 ▸ c3, c2, hs1.1 ▸ c4, ?_⟩
      rw [ages_append, ages_append, ages_append, ages_other, ages_other, List.append_nil, List.append_nil]
      congr 1
      unfold ageAt
      rw [f4, g3, hl']
      rfl
  · exact absurd hc (hn now)

theorem step_cfg (s s' : St P) (e : Event P) (hs : step s e = some s') : s'.cfg = s.cfg ∨ e = .config s'.cfg := by
  cases e with
  | config c => cases hs; exact .inr rfl
  | update u => exact .inl (cbMapUpdate_seen u s s' hs).2.2
  | map f w early =>
    unfold step cbMap at hs
    dsimp only at hs
    rw [Option.bind_eq_some_iff] at hs
    obtain ⟨⟨s1, b⟩, h1, hs⟩ := hs
    have hc := (moves_cache w _ _ _ _ h1).1
    have hcfg : s1.cfg = s.cfg := by obtain ⟨_, _, _, _, _, _, _, _, rfl⟩ := hc; rfl
    cases early with
    | none => cases hs; exact .inl hcfg
    | some u => exact .inl ((cbMapUpdate_seen u s1 s' hs).2.2.trans hcfg)
  | _ => exact .inl (step_timer s s' _ (by trivial) hs).1

/-- **C138**: as long as the number of attempts is not limited, every metrics message carries exactly one age of the costmap, the one of its own cycle. -/
theorem one_age_each (c : Cfg) (p : P) (h : List (Event P × Extra P)) (s : St P) (r : Rep P) (hr : runR c p h = some (s, r)) (hn : NoLimit c h)
    (m : Int × List Metric) (hm : m ∈ r.metrics) : (ages m.2).length = 1 := by
  have key : ∀ (h : List (Event P × Extra P)) (s : St P) (r : Rep P), runR c p h = some (s, r) → NoLimit c h →
      s.cfg.maxRetry = -1 ∧ ages r.pending = [] ∧ ∀ m ∈ r.metrics, (ages m.2).length = 1 := by
    intro h
    induction h using List.reverseRecOn with
    | nil =>
      intro s r hr hn
      cases hr
      exact ⟨hn.1, rfl, fun m hm => by cases hm⟩
    | append_singleton h e ih =>
      intro s' r' hr' hn
      unfold runR at hr'
      rw [List.foldlM_append] at hr'
      obtain ⟨⟨s, r⟩, hr, hs⟩ := Option.bind_eq_some_iff.mp hr'
      obtain ⟨e, x⟩ := e
      have hs : stepR (s, r) (e, x) = some (s', r') := by
        rw [List.foldlM_cons] at hs
        obtain ⟨a, ha, hb⟩ := Option.bind_eq_some_iff.mp hs
        cases hb
        exact ha
      obtain ⟨i1, i2, i3⟩ := ih s r hr ⟨hn.1, fun e' he' => hn.2 e' (List.mem_append_left _ he')⟩
      have hcfg : s'.cfg.maxRetry = -1 := by
        rcases step_cfg s s' e (stepR_parts hs).1 with k | k
        · rw [k]; exact i1
        · exact hn.2 (e, x) (List.mem_append_right _ (List.mem_singleton.mpr rfl)) _ k
      refine ⟨hcfg, ?_⟩
      rcases stepR_cases s s' r r' e x hs with ⟨now, hc, -⟩ | ⟨-, -, k2, -, k4⟩
      · rcases metrics_each_cycle c p h s s' r r' e x now hr hc hs with ⟨l, ph, er, -, -, hp, hm, ha⟩ | ⟨-, -, k, -⟩
        · refine ⟨by rw [hp]; rfl, fun m hm' => ?_⟩
          rw [hm] at hm'
          rcases List.mem_append.mp hm' with hm' | hm'
          · exact i3 m hm'
          · obtain rfl := List.mem_singleton.mp hm'
            dsimp only
            rw [ages_append, ha, i2]
            rfl
        · exact absurd i1 k
      · exact ⟨k4.trans i2, fun m hm' => i3 m (k2 ▸ hm')⟩
  exact (key h s r hr hn).2.2 m hm

/-! ## Examples and the exception -/

/-- The robot at pose 3; a distance map is recorded. -/
def at3 : Extra Nat := ⟨3, ["distance_map_init_dur"], ["path_search_dur"]⟩

def withExtra (h : List (Event Nat)) : List (Event Nat × Extra Nat) := h.map fun e => (e, at3)

/-- An action goal, a planning cycle: feedback to goal 0 with the robot's position, one metrics message. -/
example : ∃ s r s' r', runR someCfg 0 (withExtra (ready ++ [.baseGoal false goal7 (openFloor 100 0)])) = some (s, r) ∧
    CycleAt s 2 (.cycle 2 (openFloor 100 0)) ∧ stepR (s, r) (.cycle 2 (openFloor 100 0), at3) = some (s', r') ∧ Open s 0 ∧ s'.hasMap = true ∧
    Located s (.cycle 2 (openFloor 100 0)) ∧
    (2 : Int) - lastUpdate ((withExtra (ready ++ [.baseGoal false goal7 (openFloor 100 0)])).map Prod.fst ++ [.cycle 2 (openFloor 100 0)]) ≤ s.cfg.watchdog ∧
    added r.feedback r'.feedback = [(0, 3)] ∧ r'.goals = [7] ∧
    r'.metrics = [(2, [.other "distance_map_init_dur", .other "distance_map_init_dur", .other "distance_map_init_dur", .delay (some 2),
      .other "path_search_dur", .stuck 0, .error .goingWell, .status .doing])] :=
  ⟨_, _, _, _, rfl, ⟨rfl, rfl⟩, rfl, .inl ⟨rfl, rfl⟩, rfl, rfl, by decide, rfl, rfl, rfl⟩

/-- The same when costmap updates trigger planning: the position of the robot is the one looked up with the update. -/
example : ∃ s r s' r', runR { someCfg with trigger := true } 0 (withExtra (ready ++ [.baseGoal false goal7 (openFloor 100 0)])) = some (s, r) ∧
    CycleAt s 4 (.update ⟨4, true, true, openFloor 100 0⟩) ∧ stepR (s, r) (.update ⟨4, true, true, openFloor 100 0⟩, ⟨5, [], []⟩) = some (s', r') ∧
    added r.feedback r'.feedback = [(0, 5)] ∧ (r'.metrics.map fun m => (m.1, ages m.2)) = [(0, [some 0]), (4, [some 0])] :=
  ⟨_, _, _, _, rfl, ⟨rfl, rfl, rfl⟩, rfl, rfl, rfl⟩

/-- With no limit of attempts. -/
example : NoLimit { someCfg with maxRetry := -1 } (withExtra (ready ++ [.baseGoal false goal7 rock, .cycle 1 rock, .cycle 2 rock])) ∧
    (runR { someCfg with maxRetry := -1 } 0 (withExtra (ready ++ [.baseGoal false goal7 rock, .cycle 1 rock, .cycle 2 rock]))).map
      (fun a => a.2.metrics.map fun m => ages m.2) = some [[some 1], [some 2]] := by
  refine ⟨⟨rfl, ?_⟩, rfl⟩
  intro e he c' hc
  simp only [withExtra, ready, List.map_append, List.map_cons, List.map_nil, List.cons_append, List.nil_append, List.mem_cons, List.not_mem_nil,
    or_false] at he
  rcases he with rfl | rfl | rfl | rfl | rfl <;> cases hc

/-- **Finding.**  The cycle that gives up leaves its measurements in the buffer: the next message carries the age of the costmap twice, first the one
of the cycle that gave up. -/
theorem metrics_left_over : ∃ s r, runR someCfg 0 (withExtra (ready ++ [.baseGoal false goal7 rock, .cycle 1 rock, .cycle 2 rock, .cycle 4 rock])) =
      some (s, r) ∧ (r.metrics.map fun m => (m.1, ages m.2)) = [(1, [some 1]), (4, [some 2, some 4])] ∧
    (r.feedback.map Prod.fst) = [0, 0] ∧ answersTo s.log 0 = [.aborted] :=
  ⟨_, _, rfl, rfl, rfl, by decide⟩

/-- A goal in an obstacle is sent again each time the previous attempt was given up. -/
def again : List (Event Nat × Extra Nat) := withExtra [.baseGoal false goal7 rock, .cycle 1 rock]

def onceMore : Cfg := { someCfg with maxRetry := 1 }

/-- Waiting for a goal, with map, position and a recent costmap. -/
structure Calls (s : St Nat) : Prop where
  cfg : s.cfg = onceMore
  frame : s.frame = 1
  hasMap : s.hasMap = true
  hasStart : s.hasStart = true
  lastCostmap : s.lastCostmap = 0
  baseOff : s.base.active = false
  basePending : s.base.pending = none
  tolOff : s.tol.active = false

theorem again_step (s : St Nat) (r : Rep Nat) (h : Calls s) : ∃ s' r', again.foldlM stepR (s, r) = some (s', r') ∧ Calls s' ∧ r'.metrics = r.metrics ∧
    ages r'.pending = ages r.pending ++ [some 1] ∧ answersTo s'.log s.count = answersTo s.log s.count ++ [.aborted] ∧ s'.count = s.count + 1 := by
  obtain ⟨cfg, frame, hasMap, hasGoal, hasStart, cacheReady, made, startOccupied, switchback, stuck, escaping, goal, goalRaw, goalOriginal, phase, error,
    lastCostmap, timer, ⟨bc, ba, bp⟩, ⟨tc, ta, tp⟩, tolGoal, count, log⟩ := s
  obtain ⟨h1, h2, h3, h4, h5, h6, h7, h8⟩ := h
  dsimp only at h1 h2 h3 h4 h5 h6 h7 h8
  subst h1 h2 h3 h4 h5 h6 h7 h8
  refine ⟨_, _, rfl, ⟨rfl, rfl, rfl, rfl, rfl, rfl, rfl, rfl⟩, rfl, ?_, ?_, rfl⟩
  · show ages (((r.pending ++ [.other "distance_map_init_dur"]) ++ [.other "distance_map_init_dur"]) ++ [.delay (some 1)]) = _
    rw [ages_append, ages_append, ages_append]
    simp [ages]
  · show answersTo ((((log ++ [.accepted .base count 7]) ++ [.status .doing error]) ++ [.path []]) ++ [.answer count .aborted]) count = _
    simp [answersTo]

/-- **Finding.**  If every planning cycle gives up, because a client repeats a blocked goal as soon as it is refused, the node never publishes metrics, and its
buffer grows without bound. -/
theorem metrics_buffer_grows (n : Nat) : ∃ s r, runR onceMore 0 (withExtra ready ++ (List.replicate n again).flatten) = some (s, r) ∧
    r.metrics = [] ∧ n ≤ r.pending.length := by
  have key : ∀ n, ∃ s r, runR onceMore 0 (withExtra ready ++ (List.replicate n again).flatten) = some (s, r) ∧ Calls s ∧ r.metrics = [] ∧
      (ages r.pending).length = n := by
    intro n
    induction n with
    | zero => exact ⟨_, _, rfl, ⟨rfl, rfl, rfl, rfl, rfl, rfl, rfl, rfl⟩, rfl, rfl⟩
    | succ n ih =>
      obtain ⟨s, r, h1, h2, h3, h4⟩ := ih
      obtain ⟨s', r', k1, k2, k3, k4, -⟩ := again_step s r h2
      refine ⟨s', r', ?_, k2, k3.trans h3, by rw [k4, List.length_append, h4]; rfl⟩
      rw [List.replicate_succ', List.flatten_append, List.flatten_singleton, ← List.append_assoc]
      unfold runR at h1 ⊢
      rw [List.foldlM_append, h1]
      exact k1
  obtain ⟨s, r, h1, -, h3, h4⟩ := key n
  exact ⟨s, r, h1, h3, h4 ▸ List.length_filterMap_le ..⟩

end Verif.PlannerNode
