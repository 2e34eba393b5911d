import Verif.PlannerNode.WatchSpec
import Verif.PlannerNode.Props
/-! # The no-update timer: when planning is triggered by costmap updates, missing updates are noticed -/
namespace Verif.PlannerNode
variable {P : Type}

theorem planPath_timer (now : Int) (w : World P) (s s' : St P) (h : planPath now w s = some s') : s'.cfg = s.cfg ∧ s'.timer = s.timer := by
  obtain ⟨h1, -⟩ := planPath_kept now w s s' h
  exact ⟨congrArg Prod.fst h1, congrArg Prod.snd h1⟩

/-- Other events than maps, updates and parameters leave the timer alone. -/
theorem step_timer (s s' : St P) (e : Event P) (he : Silent e) (hs : step s e = some s') : s'.cfg = s.cfg ∧ s'.timer = s.timer := by
  have done : (s'.cfg, s'.timer) = (s.cfg, s.timer) → s'.cfg = s.cfg ∧ s'.timer = s.timer := fun h => ⟨congrArg Prod.fst h, congrArg Prod.snd h⟩
  unfold step at hs
  cases e with
  | map f w early => exact he.elim
  | update u => exact he.elim
  | config c => exact he.elim
  | located ok =>
    dsimp only at hs
    split at hs <;> cases hs <;> exact ⟨rfl, rfl⟩
  | switchReached => dsimp only at hs; cases hs; exact ⟨rfl, rfl⟩
  | cycle now w =>
    dsimp only at hs
    split at hs
    · cases hs; exact ⟨rfl, rfl⟩
    · exact planPath_timer now w s s' hs
  | timer now w =>
    dsimp only at hs
    split at hs
    · exact planPath_timer now w s s' hs
    · cases hs; exact ⟨rfl, rfl⟩
  | topicGoal g w =>
    dsimp only at hs
    unfold cbGoal at hs
    split at hs
    · cases hs; exact ⟨rfl, rfl⟩
    · rw [Option.map_eq_some_iff] at hs
      obtain ⟨⟨s1, b⟩, h1, rfl⟩ := hs
      exact done (setGoal_kept g w _ _ _ h1).2.2
  | baseGoal late g w =>
    dsimp only at hs
    split at hs
    · cases hs; exact ⟨rfl, rfl⟩
    · exact done ((cbAction_kept g w _ s' hs).2.2.trans (receive_kept .base s.count { s with count := s.count + 1 }).2.2)
  | tolGoal late g t w =>
    dsimp only at hs
    split at hs
    · cases hs; exact ⟨rfl, rfl⟩
    · exact done ((cbTolerant_kept g t w _ s' hs).2.2.trans (receive_kept .tolerant s.count { s with count := s.count + 1 }).2.2)
  | cancel k =>
    cases k with
    | base =>
      dsimp only at hs
      split at hs
      · cases hs; exact done (cbPreempt_kept s).2.2
      · cases hs; exact ⟨rfl, rfl⟩
    | tolerant =>
      dsimp only at hs
      split at hs
      · cases hs; exact done (cbPreempt_kept s).2.2
      · cases hs; exact ⟨rfl, rfl⟩
  | escape w =>
    dsimp only at hs
    split at hs
    · exact done (escapeNow_kept w s s' hs).2.2
    · cases hs; exact ⟨rfl, rfl⟩

theorem lastUpdate_silent (h : List (Event P)) (e : Event P) (he : Silent e) : lastUpdate (h ++ [e]) = lastUpdate h := by
  unfold lastUpdate
  rw [List.foldl_append]
  cases e <;> first | rfl | exact he.elim

/-- While the timer runs and no update comes: one of the calls of the timer falls into every period of this length. -/
theorem fires_again {δ ρ : Int} (c : Cfg) (p : P) {T0 T : Int} (l : List (Call P)) :
    ∀ (h : List (Event P)) (s : St P) (d t : Int) (y : Timed P) (t' : Int), run c p h = some s → s.timer = true → s.cfg.watchdog > 0 →
      d ≤ T0 + ρ + s.cfg.watchdog → Runs δ ρ ⟨s, some d⟩ t l y t' → (∀ k ∈ l, Silent k.ev) → Until δ y t' T → T0 + s.cfg.watchdog + ρ + δ < T →
      ∃ l1 k l2 x x' w, l = l1 ++ k :: l2 ∧ k.ev = .timer k.at_ w ∧ T0 ≤ k.at_ ∧ k.at_ ≤ T0 + s.cfg.watchdog + ρ + δ ∧
        run c p (h ++ l1.map Call.ev) = some x ∧ x.cfg = s.cfg ∧ x.timer = true ∧ step x k.ev = some x' ∧
        lastUpdate (h ++ l1.map Call.ev) = lastUpdate h := by
  induction l with
  | nil =>
    intro h s d t y t' hr ht hw hd hl _ hu hT
    cases hl
    have := hu.2 d rfl
    omega
  | cons k l ih =>
    intro h s d t y t' hr ht hw hd hl hq hu hT
    cases hl with
    | @cons _ _ _ _ _ _ s1 after ends short late fires does rest =>
      have hk := hq k List.mem_cons_self
      obtain ⟨hc, htm⟩ := step_timer s s1 k.ev hk does
      have hlate := late d rfl
      have hr1 : run c p (h ++ [k.ev]) = some s1 := run_step c p h k.ev s s1 hr does
      have go : ∀ d1, due' (⟨s, some d⟩ : Timed P) k.till k.ev s1 = some d1 → d1 ≤ T0 + ρ + s.cfg.watchdog →
          ∃ l1 k' l2 x x' w, k :: l = l1 ++ k' :: l2 ∧ k'.ev = .timer k'.at_ w ∧ T0 ≤ k'.at_ ∧ k'.at_ ≤ T0 + s.cfg.watchdog + ρ + δ ∧
            run c p (h ++ l1.map Call.ev) = some x ∧ x.cfg = s.cfg ∧ x.timer = true ∧ step x k'.ev = some x' ∧
            lastUpdate (h ++ l1.map Call.ev) = lastUpdate h := by
        intro d1 e1 hd1
        rw [e1] at rest
        obtain ⟨l1, k', l2, x, x', w, g1, g2, g3, g4, g5, g6, g7, g8, g9⟩ := ih (h ++ [k.ev]) s1 d1 k.till y t' hr1 (htm.trans ht) (by rw [hc]; exact hw)
          (by rw [hc]; exact hd1) rest (fun q hq' => hq q (List.mem_cons_of_mem _ hq')) hu (by rw [hc]; exact hT)
        rw [hc] at g4 g6
        refine ⟨k :: l1, k', l2, x, x', w, by rw [g1]; rfl, g2, g3, g4, ?_, g6, g7, g8, ?_⟩
        · rw [← g5, List.map_cons, List.append_assoc]
          rfl
        · rw [List.map_cons, show h ++ k.ev :: l1.map Call.ev = h ++ [k.ev] ++ l1.map Call.ev by simp, g9, lastUpdate_silent h k.ev hk]
      by_cases hf : ∃ now w, k.ev = .timer now w
      · obtain ⟨now, w, he⟩ := hf
        obtain ⟨rfl, -⟩ := fires now w he
        rcases Int.lt_or_le k.at_ T0 with h0 | h0
        · refine go (k.till + s1.cfg.watchdog) ?_ (by rw [hc]; omega)
          unfold due'
          rw [htm, ht, he]
          rfl
        · refine ⟨[], k, l, s, s1, w, rfl, he, h0, by omega, ?_, rfl, ht, does, ?_⟩
          · simpa using hr
          · simp
      · refine go d ?_ hd
        unfold due'
        rw [htm, ht, if_pos rfl]
        have : creates k.ev = false := by
          cases hke : k.ev with
          | map f w early => rw [hke] at hk; exact hk.elim
          | update u => rw [hke] at hk; exact hk.elim
          | timer now w => exact absurd ⟨now, w, hke⟩ hf
          | _ => rfl
        rw [this]
        rfl

/-- After an update was handled in the mode that plans on updates, the timer runs. -/
theorem update_starts_timer (u : Update P) (s s' : St P) (hm : s.hasMap = true) (ht : s.cfg.trigger = true) (hw : s.cfg.watchdog > 0)
    (hs : step s (.update u) = some s') : s'.timer = true ∧ s'.cfg = s.cfg := by
  refine ⟨?_, (cbMapUpdate_seen u s s' hs).2.2⟩
  have hs : cbMapUpdate u s = some s' := hs
  unfold cbMapUpdate at hs
  rw [if_neg (by simp [hm]), if_pos ht, Option.bind_eq_some_iff] at hs
  obtain ⟨s1, h1, hs⟩ := hs
  rw [Option.map_eq_some_iff] at hs
  obtain ⟨s2, h2, rfl⟩ := hs
  have h3 := (planPath_timer _ _ _ _ h2).1
  obtain ⟨a, b, e, f, g, k, q, md, rfl⟩ := applyUpdate_cases u _ s1 h1
  rw [if_pos]
  rw [h3]
  exact hw

theorem runs_run {δ ρ : Int} (c : Cfg) (p : P) {x y : Timed P} {t t' : Int} {l : List (Call P)} (hl : Runs δ ρ x t l y t') :
    ∀ h, run c p h = some x.node → run c p (h ++ l.map Call.ev) = some y.node := by
  induction hl with
  | nil x t => intro h hr; simpa using hr
  | @cons x y t t' k l s after ends short late fires does rest ih =>
    intro h hr
    have := ih (h ++ [k.ev]) (run_step c p h k.ev x.node s hr does)
    simpa using this

theorem runs_append {δ ρ : Int} {l2 : List (Call P)} (l1 : List (Call P)) : ∀ {x y : Timed P} {t t' : Int}, Runs δ ρ x t (l1 ++ l2) y t' →
    ∃ z tz, Runs δ ρ x t l1 z tz ∧ Runs δ ρ z tz l2 y t' := by
  induction l1 with
  | nil => intro x y t t' h; exact ⟨x, t, .nil x t, h⟩
  | cons k l1 ih =>
    intro x y t t' h
    cases h with
    | cons after ends short late fires does rest =>
      obtain ⟨z, tz, h1, h2⟩ := ih rest
      exact ⟨z, tz, .cons after ends short late fires does h1, h2⟩

/-- **Missing updates are noticed.**  Planning is triggered by costmap updates and the watchdog is on.  After an update, as long as no map, update or
change of the parameters comes, whatever else happens: for every moment `T0` after the end of that update at which the last accepted update is older than
the watchdog allows, a planning cycle begins not later than the watchdog's time plus `ρ + δ` after `T0`; it publishes nothing but empty paths and the
status, which says "data missing" if there is a goal or the last error is kept. -/
theorem age_noticed {δ ρ : Int} (c : Cfg) (p : P) {l1 l2 : List (Call P)} {k : Call P} {u : Update P} {s0 : St P} {y : Timed P} {t0 t' T0 T : Int}
    (hr : Runs δ ρ ⟨init c p, none⟩ t0 (l1 ++ k :: l2) y t') (hk : k.ev = .update u) (hs0 : run c p (l1.map Call.ev) = some s0)
    (hm : s0.hasMap = true) (ht : s0.cfg.trigger = true) (hw : s0.cfg.watchdog > 0) (hq : ∀ e ∈ l2, Silent e.ev)
    (h0 : k.till ≤ T0) (hold : T0 - lastUpdate (l1.map Call.ev ++ [k.ev]) > s0.cfg.watchdog) (hu : Until δ y t' T) (hT : T0 + s0.cfg.watchdog + ρ + δ < T)
    (hρ : 0 ≤ ρ) :
    ∃ m1 q m2 x x' w, l2 = m1 ++ q :: m2 ∧ q.ev = .timer q.at_ w ∧ T0 ≤ q.at_ ∧ q.at_ ≤ T0 + s0.cfg.watchdog + ρ + δ ∧
      run c p ((l1 ++ k :: m1).map Call.ev) = some x ∧ step x q.ev = some x' ∧
      published x x' = if x.hasGoal then [.path [], .status x'.phase .dataMissing]
        else [.path [], .path [], .status x'.phase (if s0.cfg.retain then .dataMissing else .goingWell)] := by
  obtain ⟨z, tz, r1, r2⟩ := runs_append l1 hr
  have hz := runs_run c p r1 [] rfl
  rw [List.nil_append, hs0] at hz
  cases hz
  cases r2 with
  | @cons _ _ _ _ _ _ s1 after ends short late fires does rest =>
    rw [hk] at does
    obtain ⟨e1, e2⟩ := update_starts_timer u z.node s1 hm ht hw does
    have hd : due' z k.till k.ev s1 = some (k.till + z.node.cfg.watchdog) := by
      unfold due'
      rw [e1, hk, e2]
      rfl
    rw [hd] at rest
    have hr1 : run c p (l1.map Call.ev ++ [k.ev]) = some s1 := run_step c p _ _ _ _ hs0 (by rw [hk]; exact does)
    obtain ⟨m1, q, m2, x, x', w, g1, g2, g3, g4, g5, g6, g7, g8, g9⟩ := fires_again c p (T0 := T0) (T := T) l2 _ s1 _ _ y t' hr1 e1 (by rw [e2]; exact hw)
      (by rw [e2]; omega) rest hq hu (by rw [e2]; exact hT)
    rw [e2] at g4
    have hrx : run c p ((l1 ++ k :: m1).map Call.ev) = some x := by
      rw [← g5]
      simp
    refine ⟨m1, q, m2, x, x', w, g1, g2, g3, g4, hrx, g8, ?_⟩
    have := stale_stops c p _ x x' q.at_ q.ev g5 (by rw [g2]; exact ⟨rfl, g7⟩) g8 (by rw [g6, e2]; exact hw) (by rw [g9, g6, e2]; omega)
    rw [this, g6, e2]

/-- The parameters of the other examples, with planning on updates. -/
def onUpdate : Cfg := { someCfg with trigger := true }

/-- A map and a goal at time 0. -/
def before : List (Call Nat) :=
  [⟨0, 0, .map 1 (openFloor 100 0) (some ⟨0, true, true, openFloor 100 0⟩)⟩, ⟨0, 0, .baseGoal false goal7 (openFloor 100 0)⟩]

/-- An update at time 1. -/
def lastCall : Call Nat := ⟨1, 1, .update ⟨1, true, true, openFloor 100 0⟩⟩

/-- Then nothing but the timer. -/
def afterwards : List (Call Nat) := [⟨6, 7, .timer 6 (openFloor 100 0)⟩, ⟨12, 12, .timer 12 (openFloor 100 0)⟩]

/-- The timer may run, or something else happens in time. -/
def inTime (δ : Int) (due : Option Int) (t : Int) (e : Event P) : Bool :=
  match due, e with
  | some d, .timer now _ => decide (now = t ∧ d ≤ t ∧ t ≤ d + δ)
  | none, .timer _ _ => false
  | some d, _ => decide (t ≤ d + δ)
  | none, _ => true

/-- Carries out a sequence of calls, if it is one. -/
def carry (δ ρ : Int) : Timed P → Int → List (Call P) → Option (Timed P × Int)
  | x, t, [] => some (x, t)
  | x, t, k :: l =>
    if t ≤ k.at_ ∧ k.at_ ≤ k.till ∧ k.till ≤ k.at_ + ρ ∧ inTime δ x.due k.at_ k.ev = true then
      (step x.node k.ev).bind fun s => carry δ ρ ⟨s, due' x k.till k.ev s⟩ k.till l
    else none

theorem carry_runs {δ ρ : Int} (l : List (Call P)) : ∀ {x y : Timed P} {t t' : Int}, carry δ ρ x t l = some (y, t') → Runs δ ρ x t l y t' := by
  induction l with
  | nil =>
    intro x y t t' h
    cases h
    exact .nil x t
  | cons k l ih =>
    intro x y t t' h
    unfold carry at h
    split at h
    · rename_i hc
      obtain ⟨h1, h2, h3, h4⟩ := hc
      rw [Option.bind_eq_some_iff] at h
      obtain ⟨s, hs, h⟩ := h
      refine .cons h1 h2 h3 (fun d hd => ?_) (fun now w he => ?_) hs (ih h)
      · rw [hd] at h4
        unfold inTime at h4
        split at h4 <;> simp_all
      · rw [he] at h4
        unfold inTime at h4
        split at h4
        · rename_i e1 e2
          cases e2
          simp only [decide_eq_true_eq] at h4
          exact ⟨h4.1, _, e1, h4.2.1⟩
        · cases h4
        · rename_i e1
          exact absurd rfl (e1 _ _)
        · rename_i e1
          exact absurd rfl (e1 _ _)
    · cases h

/-- The timer runs at 6, when the data is just not too old, and at 12. -/
example : ∃ y s0, Runs 1 1 ⟨init onUpdate 0, none⟩ 0 (before ++ lastCall :: afterwards) y 12 ∧ run onUpdate 0 (before.map Call.ev) = some s0 ∧
    s0.hasMap = true ∧ s0.cfg.trigger = true ∧ s0.cfg.watchdog = 5 ∧ (∀ e ∈ afterwards, Silent e.ev) ∧ lastCall.till ≤ 7 ∧
    7 - lastUpdate (before.map Call.ev ++ [lastCall.ev]) > 5 ∧ Until 1 y 12 15 ∧ (7 : Int) + 5 + 1 + 1 < 15 := by
  refine ⟨_, _, carry_runs _ rfl, rfl, rfl, rfl, rfl, ?_, by decide, by decide, ⟨by decide, ?_⟩, by decide⟩
  · intro e he
    simp only [afterwards, List.mem_cons, List.not_mem_nil, or_false] at he
    rcases he with rfl | rfl <;> trivial
  · intro d h
    have : d = 17 := (Option.some.inj h).symm
    omega

/-- **But not after a change of the parameters.**  It stops the timer; until the next costmap update no planning cycle takes place, however old the data
gets. -/
theorem parameters_silence_watchdog (c : Cfg) (p : P) (h : List (Event P)) (s s' : St P) (hr : run c p h = some s) (c' : Cfg) (ht : c'.trigger = true)
    (l : List (Event P)) (hl : ∀ e ∈ l, ∃ now w, e = .cycle now w ∨ e = .timer now w) (hs : run c p (h ++ .config c' :: l) = some s') :
    published s s' = [] := by
  have hr1 : run c p (h ++ [.config c']) = some { s with cfg := c', timer := false, made := none } := run_step c p h _ s _ hr rfl
  have key : ∀ l : List (Event P), (∀ e ∈ l, ∃ now w, e = .cycle now w ∨ e = .timer now w) →
      l.foldlM step { s with cfg := c', timer := false, made := none } = some { s with cfg := c', timer := false, made := none } := by
    intro l
    induction l with
    | nil => intro _; rfl
    | cons e l ih =>
      intro hl
      obtain ⟨now, w, he⟩ := hl e List.mem_cons_self
      have : step { s with cfg := c', timer := false, made := none } e = some { s with cfg := c', timer := false, made := none } := by
        rcases he with rfl | rfl
        · unfold step
          simp only [ht, if_true]
        · rfl
      rw [List.foldlM_cons, this]
      exact ih fun e he => hl e (List.mem_cons_of_mem _ he)
  unfold run at hr1 hs
  rw [show h ++ Event.config c' :: l = h ++ [.config c'] ++ l by simp, List.foldlM_append, hr1] at hs
  have := (key l hl).symm.trans hs
  cases this
  unfold published
  simp

/-- For example: the robot is on its way, the parameters are set again to what they were, no update comes any more; the path sent last remains the
one to follow, although the data is a thousand seconds old and the watchdog allows five. -/
example : ∃ s s', run onUpdate 0 (before.map Call.ev ++ [lastCall.ev]) = some s ∧ s.log.drop (s.log.length - 2) = [.path [0, 7], .status .doing .goingWell] ∧
    run onUpdate 0 (before.map Call.ev ++ [lastCall.ev] ++ .config onUpdate :: [.timer 500 (openFloor 100 0), .cycle 1000 (openFloor 100 0)]) = some s' ∧
    s'.log = s.log ∧ s'.cfg.watchdog = 5 ∧ s'.lastCostmap = 1 :=
  ⟨_, _, rfl, rfl, rfl, rfl, rfl, rfl⟩

end Verif.PlannerNode
