import Verif.PlannerNode.Trail
/-! # Obligations of the planner node: action goals, watchdog, retry limit, success -/
namespace Verif.PlannerNode
variable {P : Type}

/-! ## Worlds for the examples -/

/-- An empty floor: start and goal are free, the robot is at distance `d` (squared cells) and heading `y` of every goal. -/
def openFloor (d : Int) (y : ℚ) : World Nat where
  start := .ok
  goal := fun _ => .ok
  simple := none
  crowd := fun _ _ => .nothing
  starts := fun _ => some [(d, 0)]
  unreachable := fun _ _ => false
  waits := fun _ _ => 0
  found := fun _ _ => true
  poses := fun _ g => [0, g]
  turns := fun _ => false
  heading := fun _ => y
  lethal := fun _ => false

/-- The goal is inside an obstacle. -/
def rock : World Nat := { openFloor 100 0 with goal := fun _ => .inRock }

/-- Some parameters. -/
def someCfg : Cfg where
  watchdog := 5
  maxRetry := 2
  retain := false
  trigger := false
  crowd := true
  tempEscape := false
  fastUpdate := false
  findBest := false
  waitSwitch := false
  forceOrientation := true
  tolLin := 2
  tolAng := 1
  escLin := 4
  escAng := 2
  angFinish := 1 / 10

/-- A map is known and the robot is located. -/
def ready : List (Event Nat) := [.map 1 (openFloor 100 0) (some ⟨0, true, true, openFloor 100 0⟩), .located true]

/-- A goal at pose 7. -/
def goal7 : GoalMsg Nat := ⟨1, 7, true⟩

/-- A readable part of the outcome: answers to goals 0, 1, 2. -/
def answers3 (s : Option (St Nat)) : Option (List (List Answer)) :=
  s.map fun s => [answersTo s.log 0, answersTo s.log 1, answersTo s.log 2]

/-! ## C19: action goals -/

/-- The two action interfaces never hold an active goal at the same time. -/
theorem one_active (c : Cfg) (p : P) (h : List (Event P)) (s : St P) (hr : run c p h = some s) (i j : Nat) :
    ¬ (s.base.Holds i ∧ s.tol.Holds j) :=
  fun ⟨h1, h2⟩ => (inv_run c p h s hr).1.one ⟨h1.1, h2.1⟩

/-- Every goal received so far is in exactly one of three conditions: accepted, being processed and not answered; waiting, neither
accepted nor answered; or answered exactly once. -/
theorem goal_accounting (c : Cfg) (p : P) (h : List (Event P)) (s : St P) (hr : run c p h = some s) (i : Nat)
    (hi : i < received h) :
    (Open s i ∧ ¬ Waiting s i ∧ Accepted s.log i ∧ answersTo s.log i = []) ∨
    (Waiting s i ∧ ¬ Open s i ∧ ¬ Accepted s.log i ∧ answersTo s.log i = []) ∨
    (¬ Open s i ∧ ¬ Waiting s i ∧ ∃ a, answersTo s.log i = [a]) := by
  have inv := inv_run c p h s hr
  have acc := inv.1.acc
  have hn := acc.nodup
  have hheld : Open s i ↔ i ∈ held s.base ∨ i ∈ held s.tol := by
    unfold Open Server.Holds held
    constructor
    · rintro (⟨h1, h2⟩ | ⟨h1, h2⟩)
      · left; simp [h1, h2]
      · right; simp [h1, h2]
    · rintro (hh | hh)
      · left
        split at hh
        · rename_i ha; exact ⟨ha, by simpa using hh⟩
        · cases hh
      · right
        split at hh
        · rename_i ha; exact ⟨ha, by simpa using hh⟩
        · cases hh
  have hpend : Waiting s i ↔ i ∈ s.base.pending.toList ∨ i ∈ s.tol.pending.toList := by
    unfold Waiting; simp
  have hslots : i ∈ slots s.base s.tol ↔ Open s i ∨ Waiting s i := by
    rw [hheld, hpend]; unfold slots; simp only [List.mem_append]
    constructor
    · rintro ((a | a) | (a | a))
      · exact .inl (.inl a)
      · exact .inr (.inl a)
      · exact .inl (.inr a)
      · exact .inr (.inr a)
    · rintro ((a | a) | (a | a))
      · exact .inl (.inl a)
      · exact .inr (.inl a)
      · exact .inl (.inr a)
      · exact .inr (.inr a)
  by_cases ho : Open s i
  · have hacc := acc.took i (hheld.mp ho)
    exact .inl ⟨ho, fun hw => acc.wait i (hpend.mp hw) hacc, hacc, acc.openL i (hslots.mpr (.inl ho))⟩
  · by_cases hw : Waiting s i
    · exact .inr (.inl ⟨hw, ho, acc.wait i (hpend.mp hw), acc.openL i (hslots.mpr (.inr hw))⟩)
    · refine .inr (.inr ⟨ho, hw, acc.closed i ?_ (fun hm => ?_)⟩)
      · rw [count_run c p h s hr]; exact hi
      · rcases hslots.mp hm with hm | hm
        · exact ho hm
        · exact hw hm

/-- Every accepted goal is being processed and not answered, or it has exactly one answer, which is one of succeeded (in three
forms), aborted and preempted. -/
theorem accepted_one_answer (c : Cfg) (p : P) (h : List (Event P)) (s : St P) (hr : run c p h = some s) (i : Nat)
    (hi : Accepted s.log i) :
    (Open s i ∧ answersTo s.log i = []) ∨
    (¬ Open s i ∧ ∃ a, a ∈ [Answer.reached, .passed, .cleared, .aborted, .preempted] ∧ answersTo s.log i = [a]) := by
  have inv := inv_run c p h s hr
  have hlt : i < received h := by
    rw [← count_run c p h s hr]
    by_contra hge
    exact (inv.1.acc.future i (not_lt.mp hge)).2 hi
  rcases goal_accounting c p h s hr i hlt with ⟨h1, -, -, h2⟩ | ⟨-, -, h1, -⟩ | ⟨h1, -, a, h2⟩
  · exact .inl ⟨h1, h2⟩
  · exact absurd hi h1
  · refine .inr ⟨h1, a, ?_, h2⟩
    have := inv.1.acc.fair i a hi (by rw [h2]; exact List.mem_singleton.mpr rfl)
    cases a <;> simp_all

/-- An answer is final: whatever happens later, it stays the only one. -/
theorem answer_final (c : Cfg) (p : P) (h h' : List (Event P)) (s s' : St P) (hr : run c p h = some s)
    (hr' : run c p (h ++ h') = some s') (i : Nat) (a : Answer) (ha : answersTo s.log i = [a]) : answersTo s'.log i = [a] := by
  by_cases hne : Nonempty (World P)
  · exact answers_stay_run c p hne.some h' h s s' hr hr' i a ha
  · refine absurd ⟨?_⟩ hne
    exact ⟨.ok, fun _ => .ok, none, fun _ _ => .nothing, fun _ => none, fun _ _ => false, fun _ _ => 0, fun _ _ => true, fun _ _ => [],
      fun _ => false, fun _ => 0, fun _ => false⟩

/-- A goal that is being processed is the one the planner pursues. -/
theorem open_is_pursued (c : Cfg) (p : P) (h : List (Event P)) (s : St P) (hr : run c p h = some s) (i : Nat) (hi : Open s i) :
    s.hasGoal = true ∧ AcceptedAs s.log i s.goalOriginal := by
  have inv := inv_run c p h s hr
  exact ⟨inv.2.goal (hi.imp And.left And.left), inv.2.asked i hi⟩

example : ∃ s, run someCfg 0 (ready ++ [.baseGoal false goal7 (openFloor 100 0), .baseGoal false goal7 (openFloor 100 0)]) = some s ∧
    Open s 1 ∧ answersTo s.log 0 = [.preempted] ∧ answersTo s.log 1 = [] :=
  ⟨_, rfl, .inl ⟨rfl, rfl⟩, by decide, by decide⟩

/-- A goal that arrives on one interface while the other one is busy is neither accepted nor answered … -/
theorem busy_goal_waits (c : Cfg) (p : P) (h : List (Event P)) (s : St P) (hr : run c p h = some s) (j : Nat)
    (hj : s.base.Holds j) (g : GoalMsg P) (t : Tol) (w : World P) (s' : St P)
    (hs : step s (.tolGoal false g t w) = some s') :
    Waiting s' (received h) ∧ ¬ Accepted s'.log (received h) ∧ answersTo s'.log (received h) = [] ∧ s'.base.Holds j := by
  have inv := inv_run c p h s hr
  have inv' := inv_step s s' _ inv hs
  have hcnt := count_run c p h s hr
  obtain ⟨-, -, hpd⟩ := pre_receive_tol s inv
  have hta : s.tol.active = false := by
    cases hh : s.tol.active with
    | false => rfl
    | true => exact absurd ⟨hj.1, hh⟩ inv.1.one
  have hb : (receive .tolerant s.count { s with count := s.count + 1 }).base = s.base := by
    unfold receive
    dsimp only
    cases s.tol.pending with
    | none => dsimp only; rw [if_neg (by simp [hta])]
    | some k => dsimp only; rw [if_neg (by simp [hta, emit])]; rfl
  unfold step at hs
  simp only [Bool.false_eq_true, if_false] at hs
  unfold cbTolerantAction at hs
  rw [if_pos (by rw [hb]; exact hj.1)] at hs
  cases hs
  have hw : Waiting (receive .tolerant s.count { s with count := s.count + 1 }) (received h) := .inr (by rw [← hcnt]; exact hpd)
  refine ⟨hw, inv'.1.acc.wait _ (by rcases hw with hw | hw <;> simp [hw]), inv'.1.acc.openL _ ?_, by rw [hb]; exact hj⟩
  rcases hw with hw | hw <;> simp [slots, hw]

/-- … and it stays forgotten after the other interface has become free again: nothing in the node ever takes it up.  (Only a newer
goal on the same interface ends it, as recalled.) -/
theorem waiting_goal_forgotten : ∃ s, run someCfg 0 (ready ++
      [.baseGoal false goal7 (openFloor 100 0), .tolGoal false goal7 ⟨1, 1, 1, false⟩ (openFloor 100 0), .cancel .base] ++
      [.cycle 1 (openFloor 100 0), .cycle 2 (openFloor 0 0), .cycle 3 (openFloor 0 0)]) = some s ∧
    answersTo s.log 0 = [.preempted] ∧ Waiting s 1 ∧ ¬ Open s 0 ∧ ¬ Open s 1 ∧ s.hasGoal = false := by
  refine ⟨_, rfl, by decide, .inr rfl, ?_, ?_, rfl⟩
  · rintro (h | h) <;> exact absurd h.1 (by decide)
  · rintro (h | h) <;> exact absurd h.1 (by decide)

/-- A cancel request ends the goal in progress as preempted. -/
theorem cancel_preempts (c : Cfg) (p : P) (h : List (Event P)) (s s' : St P) (hr : run c p h = some s) (k : Which) (i : Nat)
    (hi : (server k s).Holds i) (hs : step s (.cancel k) = some s') :
    answersTo s'.log i = [.preempted] ∧ s'.hasGoal = false := by
  have inv := inv_run c p h s hr
  cases k with
  | base =>
    have hi : s.base.Holds i := hi
    have hs : some (if s.base.active then cbPreempt s else s) = some s' := hs
    rw [if_pos hi.1] at hs
    cases hs
    exact ⟨finishBoth_answers .preempted (by decide) s inv.1 i (.inl hi), rfl⟩
  | tolerant =>
    have hi : s.tol.Holds i := hi
    have hs : some (if s.tol.active then cbPreempt s else s) = some s' := hs
    rw [if_pos hi.1] at hs
    cases hs
    exact ⟨finishBoth_answers .preempted (by decide) s inv.1 i (.inr hi), rfl⟩

example : answers3 (run someCfg 0 (ready ++ [.tolGoal false goal7 ⟨1, 1, 1, false⟩ (openFloor 100 0), .cancel .tolerant])) =
    some [[.preempted], [], []] := by decide

/-- A goal that cannot be taken: wrong frame, or, with map and robot position known, the robot or the goal lies outside the map. -/
theorem setGoal_refused (g : GoalMsg P) (w : World P) (s : St P) (hb : Refused s g w) :
    ∃ s2, setGoal g w s = some (s2, false) ∧ s2.base = s.base ∧ s2.tol = s.tol ∧ s2.log = s.log ∧ (s.frame = g.frame → s2.hasGoal = false) := by
  unfold setGoal
  rcases hb with hb | ⟨hf, h1, h2, h3, h4⟩
  · rw [if_pos hb]; exact ⟨s, rfl, rfl, rfl, rfl, fun h => absurd h hb⟩
  · rw [if_neg (by simpa using hf)]
    dsimp only
    rw [if_pos h1]
    unfold depth cache
    dsimp only
    rw [if_neg (by simp), if_neg (by simp [h2, h3])]
    rcases h4 with h4 | ⟨h4, h5⟩
    · rw [h4]; exact ⟨_, rfl, rfl, rfl, rfl, fun _ => rfl⟩
    · rw [h5]
      cases hw : w.start with
      | inRock => exact absurd hw h4
      | outOfMap => exact ⟨_, rfl, rfl, rfl, rfl, fun _ => rfl⟩
      | ok => exact ⟨_, rfl, rfl, rfl, rfl, fun _ => rfl⟩
      | moved _ => exact ⟨_, rfl, rfl, rfl, rfl, fun _ => rfl⟩

theorem finish_env (k : Which) (a : Answer) (s : St P) :
    (finish k a s).frame = s.frame ∧ (finish k a s).hasMap = s.hasMap ∧ (finish k a s).hasStart = s.hasStart ∧
    (finish k a s).base.pending = s.base.pending ∧ (finish k a s).tol.pending = s.tol.pending ∧
    (s.base.active = false → (finish k a s).base.active = false) ∧ (s.tol.active = false → (finish k a s).tol.active = false) := by
  unfold finish
  cases k with
  | base =>
    dsimp only
    split
    · split
      · exact ⟨rfl, rfl, rfl, rfl, rfl, fun _ => rfl, fun h => h⟩
      · exact ⟨rfl, rfl, rfl, rfl, rfl, fun h => h, fun h => h⟩
    · exact ⟨rfl, rfl, rfl, rfl, rfl, fun h => h, fun h => h⟩
  | tolerant =>
    dsimp only
    split
    · split
      · exact ⟨rfl, rfl, rfl, rfl, rfl, fun h => h, fun _ => rfl⟩
      · exact ⟨rfl, rfl, rfl, rfl, rfl, fun h => h, fun h => h⟩
    · exact ⟨rfl, rfl, rfl, rfl, rfl, fun h => h, fun h => h⟩

theorem cbPreempt_env (s : St P) :
    (cbPreempt s).frame = s.frame ∧ (cbPreempt s).hasMap = s.hasMap ∧ (cbPreempt s).hasStart = s.hasStart ∧
    (cbPreempt s).base.pending = s.base.pending ∧ (cbPreempt s).tol.pending = s.tol.pending ∧
    (s.base.active = false → (cbPreempt s).base.active = false) ∧ (s.tol.active = false → (cbPreempt s).tol.active = false) := by
  obtain ⟨a1, a2, a3, a4, a5, a6, a7⟩ := finish_env .base .preempted s
  obtain ⟨b1, b2, b3, b4, b5, b6, b7⟩ := finish_env .tolerant .preempted (finish .base .preempted s)
  unfold cbPreempt finishBoth
  dsimp only
  exact ⟨b1.trans a1, b2.trans a2, b3.trans a3, b4.trans a4, b5.trans a5, fun h => b6 (a6 h), fun h => b7 (a7 h)⟩

theorem receive_base_env (n : Nat) (s : St P) (ht : s.tol.active = false) :
    (receive .base n s).frame = s.frame ∧ (receive .base n s).hasMap = s.hasMap ∧ (receive .base n s).hasStart = s.hasStart ∧
    (receive .base n s).tol.active = false ∧ (receive .base n s).base.pending = some n := by
  have key : ∀ s1 : St P, s1.frame = s.frame → s1.hasMap = s.hasMap → s1.hasStart = s.hasStart → s1.tol.active = false → s1.base.pending = some n →
      (if s1.base.active then cbPreempt s1 else s1).frame = s.frame ∧ (if s1.base.active then cbPreempt s1 else s1).hasMap = s.hasMap ∧
      (if s1.base.active then cbPreempt s1 else s1).hasStart = s.hasStart ∧ (if s1.base.active then cbPreempt s1 else s1).tol.active = false ∧
      (if s1.base.active then cbPreempt s1 else s1).base.pending = some n := by
    intro s1 h1 h2 h3 h4 h5
    obtain ⟨a1, a2, a3, a4, a5, a6, a7⟩ := cbPreempt_env s1
    split
    · exact ⟨a1.trans h1, a2.trans h2, a3.trans h3, a7 h4, a4.trans h5⟩
    · exact ⟨h1, h2, h3, h4, h5⟩
  unfold receive
  dsimp only
  cases s.base.pending with
  | none => exact key { s with base := { s.base with pending := some n } } rfl rfl rfl ht rfl
  | some j => exact key { (emit (.answer j .recalled) s) with base := { s.base with pending := some n } } rfl rfl rfl ht rfl

theorem receive_tol_env (n : Nat) (s : St P) (ht : s.base.active = false) :
    (receive .tolerant n s).frame = s.frame ∧ (receive .tolerant n s).hasMap = s.hasMap ∧ (receive .tolerant n s).hasStart = s.hasStart ∧
    (receive .tolerant n s).base.active = false ∧ (receive .tolerant n s).tol.pending = some n := by
  have key : ∀ s1 : St P, s1.frame = s.frame → s1.hasMap = s.hasMap → s1.hasStart = s.hasStart → s1.base.active = false → s1.tol.pending = some n →
      (if s1.tol.active then cbPreempt s1 else s1).frame = s.frame ∧ (if s1.tol.active then cbPreempt s1 else s1).hasMap = s.hasMap ∧
      (if s1.tol.active then cbPreempt s1 else s1).hasStart = s.hasStart ∧ (if s1.tol.active then cbPreempt s1 else s1).base.active = false ∧
      (if s1.tol.active then cbPreempt s1 else s1).tol.pending = some n := by
    intro s1 h1 h2 h3 h4 h5
    obtain ⟨a1, a2, a3, a4, a5, a6, a7⟩ := cbPreempt_env s1
    split
    · exact ⟨a1.trans h1, a2.trans h2, a3.trans h3, a6 h4, a5.trans h5⟩
    · exact ⟨h1, h2, h3, h4, h5⟩
  unfold receive
  dsimp only
  cases s.tol.pending with
  | none => exact key { s with tol := { s.tol with pending := some n } } rfl rfl rfl ht rfl
  | some j => exact key { (emit (.answer j .recalled) s) with tol := { s.tol with pending := some n } } rfl rfl rfl ht rfl

/-- A goal that cannot be taken is answered at once, as aborted, unless the other interface is busy. -/
theorem invalid_goal_refused (c : Cfg) (p : P) (h : List (Event P)) (s s' : St P) (hr : run c p h = some s) (k : Which) (g : GoalMsg P)
    (w : World P) (e : Event P) (he : Brings k false g w e) (hfree : ∀ k', k' ≠ k → (server k' s).active = false) (hb : Refused s g w)
    (hs : step s e = some s') : answersTo s'.log (received h) = [.aborted] ∧ ¬ Open s' (received h) := by
  have inv := inv_run c p h s hr
  have hcnt := count_run c p h s hr
  have hr' : run c p (h ++ [e]) = some s' := by
    unfold run at hr ⊢
    rw [List.foldlM_append, hr]
    simp only [Option.bind_eq_bind, Option.bind_some, List.foldlM_cons, List.foldlM_nil, hs]
    rfl
  have key : (∃ l, s'.log = l ++ [.answer s.count .aborted]) ∧ ¬ Open s' s.count := by
    rcases he with ⟨rfl, rfl⟩ | ⟨rfl, t, rfl⟩
    · have ht : s.tol.active = false := hfree .tolerant (by simp)
      obtain ⟨e1, e2, e3, e4, e5⟩ := receive_base_env s.count { s with count := s.count + 1 } ht
      unfold step at hs
      simp only [Bool.false_eq_true, if_false] at hs
      unfold cbAction at hs
      rw [if_neg (by simp [e4])] at hs
      generalize receive .base s.count { s with count := s.count + 1 } = s1 at *
      have ha : accept .base g.pose s1 = emit (.accepted .base s.count g.pose) { s1 with base := ⟨some s.count, true, none⟩ } := by
        unfold accept; rw [e5]
      obtain ⟨s2, f1, f2, f3, f4, -⟩ := setGoal_refused g w (accept .base g.pose s1) (by
        rw [ha]
        unfold Refused emit
        dsimp only
        rw [e1, e2, e3]
        exact hb)
      rw [f1] at hs
      simp only [Option.map_some, Bool.false_eq_true, if_false, Option.some.injEq] at hs
      subst hs
      rw [ha] at f2 f3
      have f2 : s2.base = ⟨some s.count, true, none⟩ := f2
      have f3 : s2.tol = s1.tol := f3
      unfold finish
      dsimp only
      rw [if_pos (by rw [f2]), f2]
      refine ⟨⟨_, rfl⟩, ?_⟩
      rintro (hh | hh)
      · exact absurd hh.1 (by simp [emit])
      · have := hh.1
        simp only [emit] at this
        rw [f3, e4] at this
        cases this
    · have ht : s.base.active = false := hfree .base (by simp)
      obtain ⟨e1, e2, e3, e4, e5⟩ := receive_tol_env s.count { s with count := s.count + 1 } ht
      unfold step at hs
      simp only [Bool.false_eq_true, if_false] at hs
      unfold cbTolerantAction at hs
      rw [if_neg (by simp [e4])] at hs
      generalize receive .tolerant s.count { s with count := s.count + 1 } = s1 at *
      have ha : accept .tolerant g.pose s1 = emit (.accepted .tolerant s.count g.pose) { s1 with tol := ⟨some s.count, true, none⟩ } := by
        unfold accept; rw [e5]
      obtain ⟨s2, f1, f2, f3, f4, -⟩ := setGoal_refused g w { accept .tolerant g.pose s1 with tolGoal := some t } (by
        rw [ha]
        unfold Refused emit
        dsimp only
        rw [e1, e2, e3]
        exact hb)
      rw [f1] at hs
      simp only [Option.map_some, Bool.false_eq_true, if_false, Option.some.injEq] at hs
      subst hs
      rw [ha] at f2 f3
      have f3 : s2.tol = ⟨some s.count, true, none⟩ := f3
      have f2 : s2.base = s1.base := f2
      unfold finish
      dsimp only
      rw [if_pos (by rw [f3]), f3]
      refine ⟨⟨_, rfl⟩, ?_⟩
      rintro (hh | hh)
      · have := hh.1
        simp only [emit] at this
        rw [f2, e4] at this
        cases this
      · exact absurd hh.1 (by simp [emit])
  obtain ⟨⟨l, hl⟩, hno⟩ := key
  rw [hcnt] at hl hno
  have hmem : Answer.aborted ∈ answersTo s'.log (received h) := by
    rw [hl]; simp [answersTo]
  have hlt : received h < received (h ++ [e]) := by
    rcases he with ⟨rfl, rfl⟩ | ⟨rfl, t, rfl⟩ <;> simp [received]
  rcases goal_accounting c p (h ++ [e]) s' hr' _ hlt with ⟨h1, -⟩ | ⟨-, -, -, h1⟩ | ⟨-, -, a, h1⟩
  · exact absurd h1 hno
  · rw [h1] at hmem; cases hmem
  · rw [h1] at hmem
    rw [List.mem_singleton] at hmem
    rw [h1, ← hmem]
    exact ⟨rfl, hno⟩

example : answers3 (run someCfg 0 (ready ++ [.baseGoal false goal7 { openFloor 100 0 with goal := fun _ => .outOfMap },
    .tolGoal false ⟨2, 7, true⟩ ⟨1, 1, 1, false⟩ (openFloor 100 0)])) = some [[.aborted], [.aborted], []] := by decide

/-! ## C90: why a goal ends -/

theorem someWorld : Nonempty (World P) :=
  ⟨⟨.ok, fun _ => .ok, none, fun _ _ => .nothing, fun _ => none, fun _ _ => false, fun _ _ => 0, fun _ _ => true, fun _ _ => [],
      fun _ => false, fun _ => 0, fun _ => false⟩⟩

theorem answer_why (c : Cfg) (p : P) (h : List (Event P)) (s s' : St P) (e : Event P) (hr : run c p h = some s)
    (hs : step s e = some s') (i : Nat) (a : Answer) (ha : Out.answer i a ∈ published s s') :
    Why (Seen (h ++ [e])) s e s' i a := by
  obtain ⟨w0⟩ := (someWorld : Nonempty (World P))
  exact (step_adds c p w0 h s s' e hr hs).published.2 _ ha i a rfl

/-- A goal is preempted only because the client cancels it or because a newer goal arrives on the same interface. -/
theorem preempted_only_if (c : Cfg) (p : P) (h : List (Event P)) (s s' : St P) (e : Event P) (hr : run c p h = some s)
    (hs : step s e = some s') (i : Nat) (ha : Out.answer i .preempted ∈ published s s') :
    ∃ k, (server k s).Holds i ∧ (e = .cancel k ∨ ∃ g w, Brings k false g w e) :=
  answer_why c p h s s' e hr hs i _ ha

/-- A goal is aborted only on arrival, because its frame is not the map's or it or the robot is outside the map, or while being
processed, because the failure counter exceeds the limit. -/
theorem aborted_only_if (c : Cfg) (p : P) (h : List (Event P)) (s s' : St P) (e : Event P) (hr : run c p h = some s)
    (hs : step s e = some s') (i : Nat) (ha : Out.answer i .aborted ∈ published s s') :
    (i = received h ∧ ∃ k g w, Brings k false g w e ∧
      (s.frame ≠ g.frame ∨ w.start = .outOfMap ∨ w.goal g.pose = .outOfMap)) ∨
    (Open s i ∧ s.cfg.maxRetry ≠ -1 ∧ s'.stuck > s.cfg.maxRetry) := by
  have := answer_why c p h s s' e hr hs i _ ha
  rw [← count_run c p h s hr]
  exact this

/-- A goal is recalled only if it was never accepted: it arrives late, or a newer goal arrives while it waits. -/
theorem recalled_only_if (c : Cfg) (p : P) (h : List (Event P)) (s s' : St P) (e : Event P) (hr : run c p h = some s)
    (hs : step s e = some s') (i : Nat) (ha : Out.answer i .recalled ∈ published s s') :
    (∃ k g w, Brings k true g w e ∧ i = received h) ∨ (∃ k g w, Brings k false g w e ∧ (server k s).pending = some i) := by
  obtain ⟨k, late, g, w, hb, hx⟩ := answer_why c p h s s' e hr hs i _ ha
  cases late with
  | true => exact .inl ⟨k, g, w, hb, by rw [← count_run c p h s hr]; simpa using hx⟩
  | false => exact .inr ⟨k, g, w, hb, by simpa using hx⟩

/-- The answer "goal cleared" is given only to a goal without orientation, on arrival. -/
theorem cleared_only_if (c : Cfg) (p : P) (h : List (Event P)) (s s' : St P) (e : Event P) (hr : run c p h = some s)
    (hs : step s e = some s') (i : Nat) (ha : Out.answer i .cleared ∈ published s s') :
    i = received h ∧ ∃ k g w, Brings k false g w e ∧ g.oriented = false := by
  have := answer_why c p h s s' e hr hs i _ ha
  rw [← count_run c p h s hr]
  exact this

example : answers3 (run someCfg 0 (ready ++ [.baseGoal false ⟨2, 7, true⟩ (openFloor 100 0),
    .baseGoal true goal7 (openFloor 100 0), .baseGoal false ⟨1, 7, false⟩ (openFloor 100 0)])) =
    some [[.aborted], [.recalled], [.cleared]] := by decide

/-! ## C88: success only at the goal -/

/-- A goal is reported as reached only if it was accepted with some pose, the robot's heading is now within the tolerance of that
pose (or of the free pose next to it that it was moved to), and in an earlier planning cycle, while this goal was already being
processed, the robot was within the linear and angular tolerance of that pose. -/
theorem reached_only_at_goal (c : Cfg) (p : P) (h : List (Event P)) (s s' : St P) (e : Event P) (hr : run c p h = some s)
    (hs : step s e = some s') (i : Nat) (ha : Out.answer i .reached ∈ published s s') :
    ∃ pose, AcceptedAs s.log i pose ∧
      (∃ w ∈ worlds e, ∃ g, Stands (h ++ [e]) pose g ∧ |w.heading g| < headingTolerance s) ∧
      (∃ h1 e1 h2 s1, ∃ w1 ∈ worlds e1, ∃ g1, h = h1 ++ e1 :: h2 ∧ run c p h1 = some s1 ∧ Open s1 i ∧ Stands h pose g1 ∧
        NearGoal w1 g1 (goalTolerance s1)) := by
  obtain ⟨w0⟩ := (someWorld : Nonempty (World P))
  obtain ⟨h1, h2, h3, w, hw, g, hg, hy⟩ := answer_why c p h s s' e hr hs i _ ha
  refine ⟨s.goalOriginal, (inv_run c p h s hr).2.asked i h1, ⟨w, hw, g, hg.stands, hy⟩, ?_⟩
  obtain ⟨a1, a2, a3, s1, w1, hw1, g1, b1, b2, b3, b4, -, b6⟩ := (trail_run c p w0 h s hr).near h3 h2
  exact ⟨a1, a2, a3, s1, w1, hw1, g1, b1, b2, b6 i h1, b3.stands, b4⟩

/-- In continuous mode a goal is reported as reached only if the client asked for this mode and the robot is now within the
tolerances the client asked for. -/
theorem passed_only_near_goal (c : Cfg) (p : P) (h : List (Event P)) (s s' : St P) (e : Event P) (hr : run c p h = some s)
    (hs : step s e = some s') (i : Nat) (ha : Out.answer i .passed ∈ published s s') :
    ∃ pose t, AcceptedAs s.log i pose ∧ s.tol.Holds i ∧ s.tolGoal = some t ∧ t.continuous = true ∧
      ∃ w ∈ worlds e, ∃ g, Stands (h ++ [e]) pose g ∧ NearGoal w g (t.lin, t.ang) := by
  obtain ⟨h1, ⟨t, ht, hc⟩, w, hw, g, hg, hn⟩ := answer_why c p h s s' e hr hs i _ ha
  refine ⟨s.goalOriginal, t, (inv_run c p h s hr).2.asked i (.inr h1), h1, ht, hc, w, hw, g, hg.stands, ?_⟩
  unfold goalTolerance at hn
  rw [if_pos h1.1, ht] at hn
  exact hn

example : answers3 (run someCfg 0 (ready ++ [.baseGoal false goal7 (openFloor 100 0), .cycle 1 (openFloor 100 0),
    .cycle 2 (openFloor 3 1), .cycle 3 (openFloor 1 0)])) = some [[.reached], [], []] := by decide +kernel

example : answers3 (run someCfg 0 (ready ++ [.tolGoal false goal7 ⟨3, 1, 1, true⟩ (openFloor 100 0), .cycle 1 (openFloor 100 0),
    .cycle 2 (openFloor 9 1)])) = some [[.passed], [], []] := by decide +kernel

/-- The position is not looked at again: a robot that is carried away during the last turn is still reported as at the goal. -/
theorem reached_after_leaving : answers3 (run someCfg 0 (ready ++ [.baseGoal false goal7 (openFloor 100 0),
    .cycle 1 (openFloor 4 1), .cycle 2 (openFloor 1000000 0)])) = some [[.reached], [], []] := by decide +kernel

/-! ## C20: the costmap watchdog -/

theorem idle_log (s : St P) :
    (publishStatus (emit (.path []) (if s.cfg.retain then s else { s with error := .goingWell }))).log =
      s.log ++ [.path [], .status s.phase (if s.cfg.retain then s.error else .goingWell)] ∧
    (publishStatus (emit (.path []) (if s.cfg.retain then s else { s with error := .goingWell }))).phase = s.phase := by
  cases h : s.cfg.retain <;> simp [publishStatus, emit]

theorem stale_log (s s' : St P)
    (hs : (if !s.hasGoal then some (publishStatus (emit (.path []) (if s.cfg.retain then s else { s with error := .goingWell })))
      else some (publishStatus s)) = some s') :
    s'.log = s.log ++ (if s.hasGoal then [.status s'.phase s.error]
      else [.path [], .status s'.phase (if s.cfg.retain then s.error else .goingWell)]) := by
  cases hg : s.hasGoal with
  | true => rw [if_neg (by simp [hg])] at hs; cases hs; rfl
  | false =>
    rw [if_pos (by simp [hg])] at hs
    cases hs
    obtain ⟨l1, l2⟩ := idle_log s
    rw [l1, l2]
    rfl

/-- If the watchdog is on and the last costmap update is older than the limit, a planning cycle (of the main loop or of the
no-update timer) publishes only empty paths, at least one, gives no goal an answer, and reports "data missing" if there is a goal
or the last error is to be kept. -/
theorem stale_stops (c : Cfg) (p : P) (h : List (Event P)) (s s' : St P) (now : Int) (e : Event P) (hr : run c p h = some s)
    (hp : PlansAt s now e) (hs : step s e = some s') (hw : s.cfg.watchdog > 0) (hold : now - lastUpdate h > s.cfg.watchdog) :
    published s s' =
      if s.hasGoal then [.path [], .status s'.phase .dataMissing]
      else [.path [], .path [], .status s'.phase (if s.cfg.retain then .dataMissing else .goingWell)] := by
  obtain ⟨w, -, hs⟩ := plans_at s s' now e hp hs
  rw [← lastCostmap_run c p h s hr] at hold
  unfold planPath at hs
  rw [Option.bind_eq_some_iff] at hs
  obtain ⟨s1, h1, hs⟩ := hs
  have hsc : SameCore s s1 := by
    split at h1
    · rw [Option.map_eq_some_iff] at h1
      obtain ⟨⟨s2, b⟩, h2, rfl⟩ := h1
      exact (moves_cache w _ _ _ _ h2).1
    · cases h1; exact SameCore.refl s
  obtain ⟨q1, q2, q3, q4⟩ : s1.cfg = s.cfg ∧ s1.log = s.log ∧ s1.hasGoal = s.hasGoal ∧ s1.lastCostmap = s.lastCostmap := by
    obtain ⟨a, b, d, e', f, g, k, md, rfl⟩ := hsc; exact ⟨rfl, rfl, rfl, rfl⟩
  rw [if_pos (show Stale s1 now by unfold Stale; rw [q1, q4]; exact ⟨hw, hold⟩)] at hs
  have hl := stale_log (emit (.path []) { s1 with error := .dataMissing }) s' hs
  refine published_of ?_
  rw [hl]
  simp only [emit, q1, q2, q3]
  cases s.hasGoal <;> simp

/-- In particular, while an action goal is in progress, "data missing" is reported and no other path than the empty one goes out. -/
theorem stale_reported (c : Cfg) (p : P) (h : List (Event P)) (s s' : St P) (now : Int) (e : Event P) (hr : run c p h = some s)
    (hp : PlansAt s now e) (hs : step s e = some s') (hw : s.cfg.watchdog > 0) (hold : now - lastUpdate h > s.cfg.watchdog)
    (i : Nat) (hi : Open s i) : published s s' = [.path [], .status s'.phase .dataMissing] ∧ Open s' i := by
  have hg := (open_is_pursued c p h s hr i hi).1
  have hpub := stale_stops c p h s s' now e hr hp hs hw hold
  rw [if_pos hg] at hpub
  refine ⟨hpub, ?_⟩
  obtain ⟨w0⟩ := (someWorld : Nonempty (World P))
  have hlog := (step_adds c p w0 h s s' e hr hs).published.1
  have hnil : answersTo s.log i = [] := by
    rcases accepted_one_answer c p h s hr i ⟨_, (open_is_pursued c p h s hr i hi).2⟩ with ⟨-, h1⟩ | ⟨h1, -⟩
    · exact h1
    · exact absurd hi h1
  have hr' := run_step c p h e s s' hr hs
  have hacc : Accepted s'.log i := by
    obtain ⟨k, hk⟩ := (open_is_pursued c p h s hr i hi).2
    exact ⟨_, k, by rw [hlog]; exact List.mem_append_left _ hk⟩
  rcases accepted_one_answer c p _ s' hr' i hacc with ⟨h1, -⟩ | ⟨-, a, -, h2⟩
  · exact h1
  · rw [hlog, hpub, answersTo_append, hnil] at h2
    simp [answersTo] at h2

example : ∃ s s', run someCfg 0 (ready ++ [.baseGoal false goal7 (openFloor 100 0)]) = some s ∧
    step s (.cycle 6 (openFloor 100 0)) = some s' ∧ PlansAt s 6 (.cycle 6 (openFloor 100 0)) ∧ s.cfg.watchdog = 5 ∧
    lastUpdate (ready ++ [.baseGoal false goal7 (openFloor 100 0)]) = 0 ∧
    published s s' = [.path [], .status .doing .dataMissing] :=
  ⟨_, _, rfl, rfl, ⟨rfl, rfl⟩, rfl, rfl, rfl⟩

/-- Within the limit the planner does drive. -/
example : ∃ s s', run someCfg 0 (ready ++ [.baseGoal false goal7 (openFloor 100 0)]) = some s ∧
    step s (.cycle 5 (openFloor 100 0)) = some s' ∧
    published s s' = [.path [0, 7], .status .doing .goingWell] :=
  ⟨_, _, rfl, rfl, rfl⟩

/-- False as stated: without a goal the missing data is not reported, unless `retain_last_error_status` is set. -/
theorem stale_unreported_without_goal : ∃ s s', run someCfg 0 ready = some s ∧ step s (.cycle 1000 (openFloor 100 0)) = some s' ∧
    PlansAt s 1000 (.cycle 1000 (openFloor 100 0)) ∧ s.cfg.watchdog = 5 ∧ lastUpdate ready = 0 ∧
    published s s' = [.path [], .path [], .status .done .goingWell] :=
  ⟨_, _, rfl, rfl, ⟨rfl, rfl⟩, rfl, rfl, rfl⟩

/-- False as stated: when planning is triggered by costmap updates, an update that does not fit the map is rejected but still
triggers planning, with the time of the last accepted update as "now", so that the age of the data is never noticed. -/
theorem rejected_update_hides_age : ∃ s s', run { someCfg with trigger := true } 0
      ([.map 1 (openFloor 100 0) (some ⟨0, true, true, openFloor 100 0⟩), .baseGoal false goal7 (openFloor 100 0)]) = some s ∧
    lastUpdate [.map 1 (openFloor 100 0) (some ⟨0, true, true, openFloor 100 0⟩), .baseGoal false goal7 (openFloor 100 0)] = 0 ∧
    s.cfg.watchdog = 5 ∧ step s (.update ⟨1000, false, true, openFloor 100 0⟩) = some s' ∧
    published s s' = [.path [0, 7], .status .doing .goingWell] :=
  ⟨_, _, rfl, rfl, rfl, rfl, rfl⟩

/-! ## C59: the retry limit -/

/-- When the failure counter is over the limit, the next planning cycle (with fresh data, outside the finishing phase) publishes an
empty path, aborts the action goal in progress and drops the goal.  Missing from the property: the error status is not published
in this cycle. -/
theorem retry_limit_aborts_partial (c : Cfg) (p : P) (h : List (Event P)) (s s' : St P) (now : Int) (e : Event P)
    (hr : run c p h = some s) (hp : PlansAt s now e) (hs : step s e = some s')
    (hw : ¬ (s.cfg.watchdog > 0 ∧ now - lastUpdate h > s.cfg.watchdog))
    (hm : s.hasMap = true) (hg : s.hasGoal = true) (ha : s.hasStart = true) (hph : s.phase ≠ .finishing)
    (hmax : s.cfg.maxRetry ≠ -1) (hst : s.stuck > s.cfg.maxRetry) :
    s'.hasGoal = false ∧ s'.phase = .done ∧ s'.error = .pathNotFound ∧ (∀ i, ¬ Open s' i) ∧
    (∀ i, Open s i → published s s' = [.path [], .answer i .aborted]) ∧
    ((∀ i, ¬ Open s i) → published s s' = [.path []]) := by
  have inv := inv_run c p h s hr
  obtain ⟨w, -, hs⟩ := plans_at s s' now e hp hs
  rw [← lastCostmap_run c p h s hr] at hw
  obtain ⟨s1, hsc, rfl⟩ := planPath_giveUp now w s s' hs hw hm hg ha hph ⟨hmax, hst⟩
  have hpre : Pre (emit (.path []) { s1 with switchback := false, error := .pathNotFound, phase := .done, hasGoal := false }) := by
    obtain ⟨a, b, d, e', f, g, k, md, rfl⟩ := hsc
    refine Pre.emit ?_ (.path []) trivial
    exact { acc := inv.1.acc, one := inv.1.one, cb := inv.1.cb, ct := inv.1.ct, tolGoal := inv.1.tolGoal,
            esc := (fun hh => by cases hh), fin := (fun hh => by cases hh) }
  have hoff := finishBoth_off .aborted (by decide) _ hpre
  obtain ⟨b, t, l, he, -⟩ := finishBoth_rest .aborted
    (emit (.path []) { s1 with switchback := false, error := .pathNotFound, phase := .done, hasGoal := false })
  have hlog : s1.log = s.log ∧ s1.base = s.base ∧ s1.tol = s.tol := by
    obtain ⟨a, b, d, e', f, g, k, md, rfl⟩ := hsc; exact ⟨rfl, rfl, rfl⟩
  have hoff' : (giveUp { s1 with switchback := false }).base.active = false ∧
      (giveUp { s1 with switchback := false }).tol.active = false := hoff
  refine ⟨?_, ?_, ?_, ?_, ?_, ?_⟩
  · unfold giveUp; rw [he]; rfl
  · unfold giveUp; rw [he]; rfl
  · unfold giveUp; rw [he]; rfl
  · rintro i (hi | hi)
    · have := hi.1; rw [hoff'.1] at this; cases this
    · have := hi.1; rw [hoff'.2] at this; cases this
  · intro i hi
    refine published_of ?_
    unfold giveUp finishBoth
    rcases hi with hi | hi
    · have hta : s.tol.active = false := by
        cases hh : s.tol.active with
        | false => rfl
        | true => exact absurd ⟨hi.1, hh⟩ inv.1.one
      simp only [finish, emit, hlog.1, hlog.2.1, hlog.2.2, hi.1, hi.2, hta, if_true, Bool.false_eq_true, if_false]
      simp
    · have hta : s.base.active = false := by
        cases hh : s.base.active with
        | false => rfl
        | true => exact absurd ⟨hh, hi.1⟩ inv.1.one
      simp only [finish, emit, hlog.1, hlog.2.1, hlog.2.2, hi.1, hi.2, hta, if_true, Bool.false_eq_true, if_false]
      simp
  · intro hno
    have hb : s.base.active = false := by
      cases hh : s.base.active with
      | false => rfl
      | true =>
        cases hc : s.base.current with
        | none => exact absurd hc (inv.1.cb hh)
        | some j => exact absurd (.inl ⟨hh, hc⟩) (hno j)
    have ht : s.tol.active = false := by
      cases hh : s.tol.active with
      | false => rfl
      | true =>
        cases hc : s.tol.current with
        | none => exact absurd hc (inv.1.ct hh)
        | some j => exact absurd (.inr ⟨hh, hc⟩) (hno j)
    refine published_of ?_
    unfold giveUp finishBoth
    simp only [finish, emit, hlog.1, hlog.2.1, hlog.2.2, hb, ht, Bool.false_eq_true, if_false]

/-- What is published in the planning cycle after giving up (with fresh data): the error is reported only if
`retain_last_error_status` is set, otherwise "going well". -/
theorem next_cycle_after_giving_up (c : Cfg) (p : P) (h : List (Event P)) (s s' : St P) (now : Int) (e : Event P)
    (hr : run c p h = some s) (hp : PlansAt s now e) (hs : step s e = some s')
    (hw : ¬ (s.cfg.watchdog > 0 ∧ now - lastUpdate h > s.cfg.watchdog)) (hg : s.hasGoal = false) :
    published s s' = [.path [], .status s.phase (if s.cfg.retain then s.error else .goingWell)] := by
  obtain ⟨w, -, hs⟩ := plans_at s s' now e hp hs
  rw [← lastCostmap_run c p h s hr] at hw
  unfold planPath at hs
  rw [if_neg (by simp [hg])] at hs
  simp only [Option.bind_some] at hs
  rw [if_neg (show ¬ Stale s now from hw), if_neg (by simp [hg]), if_pos (by simp [hg])] at hs
  cases hs
  exact published_of (idle_log s).1

theorem run_append (c : Cfg) (p : P) (h h' : List (Event P)) (s' : St P) (hr : run c p (h ++ h') = some s') :
    ∃ s, run c p h = some s ∧ h'.foldlM step s = some s' := foldlM_append_some step h h' (init c p) s' hr

/-- An action goal that arrives when the robot or the goal is inside an obstacle (and no temporary goal is looked for) is aborted
by the `max_retry_num`-th planning cycle, if nothing changes, and not before. -/
theorem blocked_goal_gives_up (c : Cfg) (p : P) (h : List (Event P)) (s : St P) (hr : run c p h = some s)
    (hm : s.hasMap = true) (ha : s.hasStart = true) (htr : s.cfg.trigger = false)
    (hmode : (s.cfg.tempEscape && s.cfg.crowd) = false) (hfree : ∀ j, ¬ s.tol.Holds j) (hretry : 0 ≤ s.cfg.maxRetry)
    (g : GoalMsg P) (w : World P) (hf : g.frame = s.frame) (ho : g.oriented = true) (hb : Blocked w g.pose)
    (l : List (Int × World P)) (hl : ∀ x ∈ l, Blocked x.2 g.pose ∧ ¬ (s.cfg.watchdog > 0 ∧ x.1 - lastUpdate h > s.cfg.watchdog))
    (s' : St P) (hr' : run c p (h ++ .baseGoal false g w :: l.map fun x => .cycle x.1 x.2) = some s') :
    (s.cfg.maxRetry ≤ l.length → l ≠ [] → answersTo s'.log (received h) = [.aborted]) ∧
    ((l.length : Int) < s.cfg.maxRetry → Open s' (received h)) := by
  obtain ⟨w0⟩ := (someWorld : Nonempty (World P))
  have inv := inv_run c p h s hr
  have hcnt := count_run c p h s hr
  -- the goal is accepted
  rw [show h ++ Event.baseGoal false g w :: l.map (fun x => Event.cycle x.1 x.2) =
    (h ++ [.baseGoal false g w]) ++ l.map (fun x => Event.cycle x.1 x.2) by simp] at hr'
  obtain ⟨s1, hr1, hl1⟩ := run_append c p _ _ s' hr'
  obtain ⟨s0, hr0, hs1⟩ := run_snoc c p h _ s1 hr1
  rw [hr] at hr0; cases hr0
  have hta : s.tol.active = false := by
    cases hh : s.tol.active with
    | false => rfl
    | true =>
      cases hc : s.tol.current with
      | none => exact absurd hc (inv.1.ct hh)
      | some j => exact absurd ⟨hh, hc⟩ (hfree j)
  obtain ⟨inv2, hb2, hp2⟩ := pre_receive_base s inv
  obtain ⟨k1, k2, k3⟩ := receive_kept .base s.count { s with count := s.count + 1 }
  have ex : ∃ r : St P, receive .base s.count { s with count := s.count + 1 } = r ∧ r.hasMap = true ∧ r.hasStart = true ∧
      r.cfg = s.cfg ∧ r.frame = s.frame ∧ r.lastCostmap = s.lastCostmap ∧ r.tol.active = false ∧ r.base.active = false ∧
      r.base.pending = some s.count := by
    refine ⟨_, rfl, by rw [k1]; exact hm, ?_, (congrArg Prod.fst k3), ?_, k2, ?_, hb2, hp2⟩
    · have key : ∀ s1 : St P, s1.hasStart = true → (if s1.base.active then cbPreempt s1 else s1).hasStart = true := by
        intro s1 e1
        split
        · obtain ⟨b, t, l, he, -⟩ := finishBoth_rest .preempted s1
          unfold cbPreempt; rw [he]; exact e1
        · exact e1
      unfold receive
      dsimp only
      cases s.base.pending with
      | none => exact key { s with count := s.count + 1, base := { s.base with pending := some s.count } } ha
      | some j =>
        exact key { emit (.answer j .recalled) { s with count := s.count + 1 } with base := { s.base with pending := some s.count } } ha
    · exact (receive_base s inv (fun _ => True) (fun _ _ => trivial) (fun _ _ => trivial)).2.1
    · cases hh : (receive .base s.count { s with count := s.count + 1 }).tol.active with
      | false => rfl
      | true =>
        cases hc : (receive .base s.count { s with count := s.count + 1 }).tol.current with
        | none => exact absurd hc (inv2.1.ct hh)
        | some j => exact absurd (receive_base_tol { s with count := s.count + 1 } _ j ⟨hh, hc⟩) (hfree j)
  obtain ⟨r, hrr, r1, r2, r3, r4, r5, r6, r7, r8⟩ := ex
  unfold step at hs1
  simp only [Bool.false_eq_true, if_false] at hs1
  rw [hrr] at hs1
  unfold cbAction at hs1
  rw [if_neg (by simp [r6])] at hs1
  have hac : accept .base g.pose r = { r with base := ⟨some s.count, true, none⟩, log := r.log ++ [.accepted .base s.count g.pose] } := by
    unfold accept; simp only [r8]; rfl
  rw [hac] at hs1
  unfold setGoal at hs1
  dsimp only at hs1
  rw [if_neg (by rw [r4, hf]; simp), if_pos ho] at hs1
  obtain ⟨o, hcb⟩ := cache_blocked w 1
    { r with base := ⟨some s.count, true, none⟩, log := r.log ++ [.accepted .base s.count g.pose], goalOriginal := g.pose, goalRaw := g.pose, goal := g.pose, escaping := .no, hasGoal := true, stuck := 0 }
    rfl r1 r2 rfl (by dsimp only; rw [r3]; exact hmode) hb
  unfold depth at hs1
  rw [hcb] at hs1
  simp only [Option.map_some, if_true] at hs1
  have jam : Jam g.pose 1 s1 ∧ s1.cfg = s.cfg ∧ s1.base.Holds s.count ∧ s1.lastCostmap = s.lastCostmap := by
    cases hs1
    exact ⟨{ goal := rfl, map := r1, start := r2, esc := rfl, raw := rfl, ready := rfl, phase := rfl, stuck := rfl,
             trig := by show r.cfg.trigger = false; rw [r3]; exact htr,
             mode := by show (r.cfg.tempEscape && r.cfg.crowd) = false; rw [r3]; exact hmode },
           r3, ⟨rfl, rfl⟩, r5⟩
  obtain ⟨jam, jc, jh, jl⟩ := jam
  rw [← hcnt]
  rw [← lastCostmap_run c p h s hr] at hl
  -- the cycles
  have cyc : ∀ (l : List (Int × World P)) (n : Int) (h1 : List (Event P)) (s1 : St P), run c p h1 = some s1 → 1 ≤ n → Jam g.pose n s1 →
      s1.cfg = s.cfg → s1.base.Holds s.count → s1.lastCostmap = s.lastCostmap →
      (∀ x ∈ l, Blocked x.2 g.pose ∧ ¬ (s.cfg.watchdog > 0 ∧ x.1 - s.lastCostmap > s.cfg.watchdog)) →
      ∀ s', run c p (h1 ++ l.map fun x => .cycle x.1 x.2) = some s' →
      (s.cfg.maxRetry ≤ n - 1 + l.length → l ≠ [] → answersTo s'.log s.count = [.aborted]) ∧
      (n - 1 + (l.length : Int) < s.cfg.maxRetry → Open s' s.count) := by
    intro l
    induction l with
    | nil =>
      intro n h1 s1 e1 e2 e3 e4 e5 e6 e7 s' e8
      rw [List.map_nil, List.append_nil, e1] at e8
      cases e8
      exact ⟨fun _ hne => absurd rfl hne, fun _ => .inl e5⟩
    | cons x l ih =>
      intro n h1 s1 e1 e2 e3 e4 e5 e6 e7 s' e8
      rw [List.map_cons, show h1 ++ Event.cycle x.1 x.2 :: l.map (fun x => Event.cycle x.1 x.2) =
        (h1 ++ [.cycle x.1 x.2]) ++ l.map (fun x => Event.cycle x.1 x.2) by simp] at e8
      obtain ⟨s2, f1, -⟩ := run_append c p _ _ s' e8
      obtain ⟨s1', f2, f3⟩ := run_snoc c p h1 _ s2 f1
      rw [e1] at f2; cases f2
      obtain ⟨hbx, hstx⟩ := e7 x List.mem_cons_self
      have hns : ¬ Stale s1 x.1 := by unfold Stale; rw [e4, e6]; exact hstx
      rcases jam_cycle g.pose n x.1 x.2 s1 s2 e3 hbx hns f3 with ⟨q1, q2, q3⟩ | ⟨q1, q2, q3, q4, q5, q6⟩
      · rw [e4] at q1 q2
        have hab : answersTo s2.log s.count = [.aborted] := by
          obtain ⟨s3, hsc, rfl⟩ := q3
          have inv1 := inv_run c p h1 s1 e1
          obtain ⟨a, b, d, e', f, g', k, md, rfl⟩ := hsc
          refine finishBoth_answers .aborted (by decide) _ ?_ s.count (.inl e5)
          refine Pre.emit ?_ (.path []) trivial
          exact { acc := inv1.1.acc, one := inv1.1.one, cb := inv1.1.cb, ct := inv1.1.ct, tolGoal := inv1.1.tolGoal,
                  esc := (fun hh => by cases hh), fin := (fun hh => by cases hh) }
        refine ⟨fun _ _ => answers_stay_run c p w0 _ _ s2 s' f1 e8 _ _ hab, fun hlt => ?_⟩
        exfalso
        rw [List.length_cons] at hlt
        push_cast at hlt
        omega
      · have hrec := ih (n + 1) (h1 ++ [.cycle x.1 x.2]) s2 f1 (by omega) q2 (q3.trans e4) (by rw [q4]; exact e5) (q6.trans e6)
          (fun y hy => e7 y (List.mem_cons_of_mem _ hy)) s' e8
        rw [List.length_cons]
        push_cast
        constructor
        · intro hle _
          by_cases hnil : l = []
          · exfalso
            subst hnil
            rw [e4] at q1
            refine q1 ⟨by omega, ?_⟩
            simp only [List.length_nil] at hle
            push_cast at hle
            omega
          · exact hrec.1 (by omega) hnil
        · intro hlt
          exact hrec.2 (by omega)
  have := cyc l 1 (h ++ [.baseGoal false g w]) s1 hr1 (le_refl _) jam jc jh jl hl s' hr'
  simpa using this

/-- The case with the default `max_retry_num = 2` of the examples: the second cycle gives up; the error is never reported. -/
theorem giving_up_unreported : ∃ s, run someCfg 0 (ready ++ [.baseGoal false goal7 rock, .cycle 1 rock, .cycle 2 rock, .cycle 3 rock]) =
      some s ∧
    s.log.drop 1 = [.accepted .base 0 7, .status .doing .goingWell, .path [], .status .doing .pathNotFound,
      .path [], .answer 0 .aborted, .path [], .status .done .goingWell] :=
  ⟨_, rfl, rfl⟩

/-- Robot and goal are on free cells, but no path connects them. -/
def noWay : World Nat := { openFloor 100 0 with found := fun _ _ => false }

theorem waiting_state : ∃ s0, run someCfg 0 (ready ++ [.baseGoal false goal7 noWay]) = some s0 ∧ Open s0 0 ∧
      s0.log = [.path [], .accepted .base 0 7, .status .doing .goingWell] ∧
      ∀ e l, step { s0 with error := e, log := l } (.cycle 1 noWay) =
        some { s0 with error := .pathNotFound, log := l ++ [.path [], .status .doing .pathNotFound] } := by
  let s0 : St Nat :=
    { cfg := someCfg, frame := 1, hasMap := true, hasGoal := true, hasStart := true, cacheReady := true, made := some 7, startOccupied := false,
      switchback := false, stuck := 0, escaping := .no, goal := 7, goalRaw := 7, goalOriginal := 7, phase := .doing,
      error := .goingWell, lastCostmap := 0, timer := false, base := ⟨some 0, true, none⟩, tol := ⟨none, false, none⟩,
      tolGoal := none, count := 1, log := [.path [], .accepted .base 0 7, .status .doing .goingWell] }
  refine ⟨s0, rfl, .inl ⟨rfl, rfl⟩, rfl, fun e l => ?_⟩
  have hp : makePlan noWay { s0 with error := .goingWell, log := l } = some ({ s0 with error := .pathNotFound, log := l }, []) := by
    unfold makePlan searchPath
    simp [s0, noWay, openFloor, tolerance, within, someCfg]
  unfold step
  dsimp only
  rw [if_neg (by simp [s0, someCfg])]
  unfold planPath
  rw [if_neg (by simp [s0])]
  simp only [Option.bind_some]
  rw [if_neg (show ¬ Stale _ 1 by unfold Stale; simp [s0, someCfg]), if_pos (by simp [s0]), if_neg (by simp [s0])]
  unfold planMove
  dsimp only
  rw [if_neg (by simp [s0, someCfg]), if_neg (by simp [s0])]
  have : makePlan noWay { s0 with switchback := false, error := .goingWell, log := l } = _ := hp
  rw [this]
  simp [emit, publishStatus, s0, someCfg]

/-- Failed searches are not counted: if robot and goal stand on free cells and no path connects them, the goal is never aborted,
however often the planning fails. -/
theorem failed_search_never_aborts (n : Nat) :
    ∃ s, run someCfg 0 (ready ++ .baseGoal false goal7 noWay :: List.replicate n (.cycle 1 noWay)) = some s ∧ Open s 0 ∧
      s.log = [.path [], .accepted .base 0 7, .status .doing .goingWell] ++
        (List.replicate n [.path [], .status .doing .pathNotFound]).flatten := by
  obtain ⟨s0, h0, h1, h2, h3⟩ := waiting_state
  have key : ∀ n, ∃ e, (List.replicate n (Event.cycle 1 noWay)).foldlM step s0 = some { s0 with error := e, log := s0.log ++
        (List.replicate n [Out.path [], .status .doing .pathNotFound]).flatten } := by
    intro n
    induction n with
    | zero => exact ⟨s0.error, by simp⟩
    | succ n ih =>
      obtain ⟨e, ih⟩ := ih
      refine ⟨.pathNotFound, ?_⟩
      rw [List.replicate_succ', List.foldlM_append, ih]
      simp only [List.foldlM_cons, List.foldlM_nil, Option.bind_eq_bind, Option.bind_some, h3]
      rw [List.replicate_succ', List.flatten_append]
      simp
  obtain ⟨e, hk⟩ := key n
  have hrun : run someCfg 0 (ready ++ .baseGoal false goal7 noWay :: List.replicate n (.cycle 1 noWay)) =
      (List.replicate n (Event.cycle 1 noWay)).foldlM step s0 := by
    unfold run at h0 ⊢
    rw [show ready ++ Event.baseGoal false goal7 noWay :: List.replicate n (Event.cycle 1 noWay) =
      (ready ++ [.baseGoal false goal7 noWay]) ++ List.replicate n (Event.cycle 1 noWay) by simp, List.foldlM_append, h0]
    rfl
  refine ⟨_, hrun.trans hk, h1, ?_⟩
  dsimp only
  rw [h2]

/-! ## C89: no undefined behaviour -/

/-- Whatever happens, in whatever order, the node never reads the tolerance of a tolerant goal that does not exist, and the mutual
recursion between estimating the cost and looking for a temporary goal ends after two rounds — provided the search for a temporary
goal returns to the original goal only when that goal is not inside an obstacle. -/
theorem never_undefined (c : Cfg) (p : P) (h : List (Event P)) (hc : AllConsistent h) : ∃ s, run c p h = some s :=
  run_defined h hc (init c p) (inv_init c p)

/-- The condition on the worlds is met by the worlds of the examples … -/
example : AllConsistent (ready ++ [.baseGoal false goal7 (openFloor 100 0), .cycle 1 rock]) := by
  intro e he w hw
  simp only [ready, List.cons_append, List.nil_append, List.mem_cons, List.not_mem_nil, or_false] at he
  rcases he with rfl | rfl | rfl | rfl <;>
    simp only [worlds, Option.map_some, Option.toList_some, List.mem_cons, List.not_mem_nil, or_false] at hw
  · rcases hw with rfl | rfl <;> exact fun _ _ h => absurd h (by simp [openFloor])
  · rcases hw with rfl; exact fun _ _ h => absurd h (by simp [openFloor])
  · rcases hw with rfl; exact fun _ _ h => absurd h (by simp [rock, openFloor])

/-- A world whose answers disagree: the goal is in rock, and the search for a temporary goal returns to it. -/
def loopWorld : World Nat := { rock with crowd := fun _ _ => .original }

/-- … and without it the recursion would not end: for any depth there is a world in which it goes deeper. -/
theorem recursion_needs_consistency (n : Nat) : ∃ (w : World Nat) (s : St Nat), cache w n s = none := by
  refine ⟨loopWorld,
    { init { someCfg with tempEscape := true } 0 with hasMap := true, hasGoal := true, hasStart := true }, ?_⟩
  have w1 : loopWorld.start = .ok := rfl
  have w2 : ∀ g, loopWorld.goal g = .inRock := fun _ => rfl
  have w3 : ∀ a b, loopWorld.crowd a b = .original := fun _ _ => rfl
  have key : ∀ (n : Nat) (s : St Nat), s.hasMap = true → s.hasGoal = true → s.hasStart = true → s.escaping = .no →
      s.switchback = false → s.cfg.tempEscape = true → s.cfg.crowd = true → cache loopWorld n s = none := by
    intro n
    induction n with
    | zero => intro s _ _ _ _ _ _ _; rfl
    | succ n ih =>
      intro s h1 h2 h3 h4 h5 h6 h7
      unfold cache
      simp only [h1, h2, h3, h4, h6, h7, Bool.not_true, Bool.false_eq_true, if_false, Bool.or_false, w1, w2, ne_eq,
        not_true_eq_false, Bool.and_true, if_true]
      unfold escapeGoal
      simp only [h1, h2, h3, h5, h7, Bool.not_true, Bool.false_eq_true, if_false, Bool.or_false, w3]
      rw [ih _ (by first | exact h1 | rfl) (by first | exact h2 | rfl) (by first | exact h3 | rfl) rfl
        (by first | exact h5 | rfl) (by exact h6) (by exact h7)]
      rfl
  exact key n _ rfl rfl rfl rfl rfl rfl rfl

end Verif.PlannerNode
