import Verif.DistMap.Grid
import Verif.DistMap.Term

/-!
# Properties of the distance map (C13, C14, C15, C62, C63)

All theorems quantify over every map, start, goal, number of parallel tasks, processing order of equal
priorities and interleaving of the worker threads (`Fill` contains all of them).
-/
set_option linter.unusedVariables false
set_option linter.unusedSectionVars false
namespace Verif.DistMap
open Spec
open Verif.Astar (CostType setF setF_le)

variable {V C : Type} [DecidableEq V] [CostType C]

/-- C13: after `create` with start and goal inside the map, every value is `FLT_MAX`, or belongs to the goal
(which holds 0), or is the cost of an actual chain of permitted steps to the goal. -/
theorem create_sound {E : Env V C} {s e : V} {m m' : DM V C} (hs : E.inMap s = true) (he : E.inMap e = true)
    (h : Create E s e m m') (v : V) :
    (v = e ∧ m'.g v = 0) ∨ m'.g v = CostType.top ∨ Route E e v (m'.g v) := by
  cases h with
  | out h => rcases h with h | h <;> simp_all
  | fill _ _ hf =>
    have inv := invS_fill hf (goal := e) ⟨by
      intro x hx
      simp at hx; subst hx; exact .goal, by
      intro v
      simp only [setF]
      split
      · rename_i h; subst h; exact .inr .goal
      · exact .inl rfl⟩
    by_cases hv : v = e
    · exact .inl ⟨hv, by simp [setF, hv]⟩
    · right
      have := inv.vals v
      simpa [setF, hv] using this

theorem connected_of_route {E : Env V C} {goal v : V} {c : C} (h : Route E goal v c) : Connected E goal v := by
  induction h with
  | goal => exact .goal
  | step _ hs ih => exact .step ih hs

/-- C13: a cell that no chain of permitted steps connects with the goal keeps `FLT_MAX`. -/
theorem create_unreachable {E : Env V C} {s e : V} {m m' : DM V C} (hs : E.inMap s = true)
    (he : E.inMap e = true) (h : Create E s e m m') {v : V} (hv : ¬ Connected E e v) :
    m'.g v = CostType.top := by
  rcases create_sound hs he h v with ⟨rfl, _⟩ | h | h
  · exact absurd .goal hv
  · exact h
  · exact absurd (connected_of_route h) hv

/-- C13: the goal holds the least value. -/
theorem create_goal_least {E : Env V C} {s e : V} {m m' : DM V C} (L : Laws2 E e) (hs : E.inMap s = true)
    (he : E.inMap e = true) (h : Create E s e m m') : m'.g e = 0 ∧ ∀ v, (0 : C) ≤ m'.g v := by
  have hge : m'.g e = 0 := by
    cases h with
    | out h => rcases h with h | h <;> simp_all
    | fill _ _ hf => simp [setF]
  refine ⟨hge, fun v => ?_⟩
  by_cases hv : v = e
  · rw [hv, hge]
  · rcases create_sound hs he h v with ⟨h, _⟩ | h | h
    · exact absurd h hv
    · rw [h]; exact le_of_lt L.top0
    · rcases route_pos L h with h | h
      · exact absurd h.1 hv
      · exact h

/-- C14: after `create`, every cell with a route whose cost is within the covered range
(not above the start's value plus the overshoot, below `FLT_MAX`) holds exactly the minimal route cost.
If the start is the goal cell itself, the value the expansion compares with is `E.base`. -/
theorem create_exact {E : Env V C} {s e : V} {m m' : DM V C} (L : Laws2 E e) (ht : 0 < E.tasks)
    (hs : E.inMap s = true) (he : E.inMap e = true) (h : Create E s e m m') {v : V} (hv : v ≠ e) {c : C}
    (hr : Route E e v c) (hc : c < CostType.top)
    (hcut : E.cut c (if s = e then E.base else m'.g s) = false) : ExactAt E e m'.g v := by
  have hsound := create_sound hs he h
  cases h with
  | out h => rcases h with h | h <;> simp_all
  | @fill f _ _ hf =>
    have hbt : E.base ≤ CostType.top := le_trans L.base_le (le_of_lt L.top0)
    have inv := invX_fill L.toLaws ht hf ⟨by
      intro v
      simp only [setF]; split
      · exact hbt
      · exact le_refl _, by
      intro x hx
      simp at hx; subst hx; simp [setF], by
      intro v hv
      simp only [setF] at hv
      split at hv
      · rename_i h; subst h
        exact .inl ⟨_, List.mem_singleton.mpr rfl, rfl, by simp [setF]⟩
      · exact absurd hv (lt_irrefl _)⟩
    have hmono := fill_mono hf
    have hgoal : f.g e ≤ E.base := by have := hmono e; simpa [setF] using this
    have hge : f.g e = E.base := by
      have hS := invS_fill hf (goal := e) ⟨by
        intro x hx
        simp at hx; subst hx; exact .goal, by
        intro v
        simp only [setF]
        split
        · rename_i h; subst h; exact .inr .goal
        · exact .inl rfl⟩
      rcases hS.vals e with h | h
      · exact le_antisymm hgoal (by rw [h]; exact hbt)
      · rcases route_pos L h with h | h
        · exact h.2
        · exact le_antisymm hgoal (le_trans L.base_le h)
    have hse : (if s = e then E.base else setF f.g e 0 s) = f.g s := by
      split
      · rename_i h; rw [h, hge]
      · rename_i h; simp [setF, h]
    simp only at hcut ⊢
    rw [hse] at hcut
    have hval : setF f.g e (0 : C) v = f.g v := by simp [setF, hv]
    have hle : f.g v ≤ c := exact_of_inv L.toLaws inv.1 inv.2 hgoal hr hcut hc
    refine ⟨?_, ?_⟩
    · rcases hsound v with ⟨h, _⟩ | h | h
      · exact absurd h hv
      · simp only at h
        rw [hval] at h; rw [h] at hle; exact absurd (lt_of_le_of_lt hle hc) (lt_irrefl _)
      · exact h
    · intro c' hr'
      rw [hval]
      by_cases hc' : c' < CostType.top
      · by_cases hcut' : E.cut c' (f.g s) = false
        · exact exact_of_inv L.toLaws inv.1 inv.2 hgoal hr' hcut' hc'
        · rcases le_total c c' with h | h
          · exact le_trans hle h
          · have hcut' : E.cut c' (f.g s) = true := by simpa using hcut'
            rw [L.cut_mono _ _ _ _ h (le_refl _) hcut'] at hcut; cases hcut
      · exact le_trans hle (le_trans (le_of_lt hc) (not_lt.mp hc'))

/-- C14 at the start: the start cell, if any chain of permitted steps connects it with the goal, holds exactly the
minimal route cost, whatever the overshoot. -/
theorem create_exact_start {E : Env V C} {s e : V} {m m' : DM V C} (L : Laws2 E e) (ht : 0 < E.tasks)
    (hs : E.inMap s = true) (he : E.inMap e = true) (h : Create E s e m m') (hse : s ≠ e) {c : C}
    (hr : Route E e s c) (hc : c < CostType.top) : ExactAt E e m'.g s := by
  by_cases hle : c ≤ m'.g s
  · exact create_exact L ht hs he h hse hr hc (by rw [if_neg hse]; exact L.cut_self _ _ hle)
  · have hlt : m'.g s < c := not_le.mp hle
    have hR : Route E e s (m'.g s) := by
      rcases create_sound hs he h s with ⟨h, _⟩ | h | h
      · exact absurd h hse
      · rw [h] at hlt; exact absurd (lt_trans hlt hc) (lt_irrefl _)
      · exact h
    exact create_exact L ht hs he h hse hR (lt_trans hlt hc)
      (by rw [if_neg hse]; exact L.cut_self _ _ (le_refl _))

/-! ### Extension toward another start while nothing changed (C62) -/

theorem good_of_create {E : Env V C} {s e : V} {m m' : DM V C} (L : Laws2 E e) (ht : 0 < E.tasks)
    (hs : E.inMap s = true) (he : E.inMap e = true) (h : Create E s e m m') :
    Good E e m'.g m'.edges ∧ (s ≠ e → CoveredFor E e s m'.g m'.edges) ∧ m'.goal = some e := by
  have hsound := create_sound hs he h
  have hleast := create_goal_least L hs he h
  cases h with
  | out h => rcases h with h | h <;> simp_all
  | @fill f _ _ hf =>
    have hbt : E.base ≤ CostType.top := le_trans L.base_le (le_of_lt L.top0)
    have inv := invX_fill L.toLaws ht hf ⟨by
      intro v
      simp only [setF]; split
      · exact hbt
      · exact le_refl _, by
      intro x hx
      simp at hx; subst hx; simp [setF], by
      intro v hv
      simp only [setF] at hv
      split at hv
      · rename_i h; subst h
        exact .inl ⟨_, List.mem_singleton.mpr rfl, rfl, by simp [setF]⟩
      · exact absurd hv (lt_irrefl _)⟩
    have hS := invS_fill hf (goal := e) ⟨by
        intro x hx
        simp at hx; subst hx; exact .goal, by
        intro v
        simp only [setF]
        split
        · rename_i h; subst h; exact .inr .goal
        · exact .inl rfl⟩
    have hmono := fill_mono hf
    have hgoal : f.g e ≤ E.base := by have := hmono e; simpa [setF] using this
    have hge : f.g e = E.base := by
      rcases hS.vals e with h | h
      · exact le_antisymm hgoal (by rw [h]; exact hbt)
      · rcases route_pos L h with h | h
        · exact h.2
        · exact le_antisymm hgoal (le_trans L.base_le h)
    have hval : ∀ v, v ≠ e → setF f.g e (0 : C) v = f.g v := fun v hv => by simp [setF, hv]
    -- the goal's own entry is never cut: it has the least value
    have hrelax : ∀ v, f.g v < CostType.top → Relaxed E f.g v ∨
        (E.cut (f.g v) (f.g s) = true ∧ f.edges v = true) := by
      intro v hv
      rcases inv.1.todo v hv with ⟨x, hx, _⟩ | h | h | h
      · rw [inv.2] at hx; simp at hx
      · exact .inl h
      · exact .inr h
      · exact absurd h id
    have hmap : ∀ v c, Route E e v c → E.inMap v = true := by
      intro v c h
      cases h with
      | goal => exact he
      | step _ hs => obtain ⟨eu, hd⟩ := hs; exact L.inMap _ _ hd
    have hgR : Relaxed E f.g e := by
      rcases hrelax e (by rw [hge]; exact lt_of_le_of_lt L.base_le L.top0) with h | h
      · exact h
      · have : E.cut (f.g e) (f.g s) = false := by
          apply L.cut_self
          rw [hge]
          rcases hS.vals s with h | h
          · rw [h]; exact hbt
          · rcases route_pos L h with h | h
            · rw [h.2]
            · exact le_trans L.base_le h
        rw [this] at h; cases h.1
    have hrel : ∀ v, v ≠ e → Relaxed E f.g v → Relaxed E (setF f.g e 0) v := by
      intro v hv hr x w hst
      rw [hval v hv]
      by_cases hx : x = e
      · subst hx
        simp only [setF, if_true]
        obtain ⟨eu, hd⟩ := hst
        have hw := (L.nonneg _ _ w hd rfl).1
        refine le_trans ?_ (CostType.le_add _ _ hw)
        rcases hS.vals v with h | h
        · rw [h]; exact le_of_lt L.top0
        · rcases route_pos L h with h | h
          · exact absurd h.1 hv
          · exact h
      · rw [hval x hx]; exact hr x w hst
    refine ⟨⟨?_, hleast.1, hleast.2, ?_, ?_, ?_, ?_⟩, ?_, rfl⟩
    · intro v
      simp only [setF]; split
      · exact le_of_lt L.top0
      · exact inv.1.top v
    · intro v hv
      rcases hsound v with ⟨h, _⟩ | h | h
      · exact absurd h hv
      · exact .inl h
      · exact .inr h
    · intro v hv
      by_cases hve : v = e
      · rw [hve]; exact he
      · rcases hsound v with ⟨h, _⟩ | h | h
        · exact absurd h hve
        · rw [h] at hv; exact absurd hv (lt_irrefl _)
        · exact hmap v _ h
    · intro x w hst hx
      simp only; rw [hval x hx, ← hge]; exact hgR x w hst
    · intro v hv hvt
      simp only at hvt ⊢
      rw [hval v hv] at hvt
      rcases hrelax v hvt with h | h
      · exact .inl (hrel v hv h)
      · exact .inr h.2
    · intro hse v hv hvt
      simp only at hvt ⊢
      rw [hval v hv] at hvt
      rcases hrelax v hvt with h | h
      · exact .inl (hrel v hv h)
      · refine .inr ⟨?_, h.2⟩
        rw [hval v hv, hval s hse]; exact h.1

theorem good_of_update {E : Env V C} {cells : List V} {s e : V} {m m' : DM V C} (L : Laws2 E e)
    (ht : 0 < E.tasks) (hcells : ∀ v, E.inMap v = true → v ∈ cells)
    (hg : Good E e m.g m.edges) (hm : m.goal = some e)
    (hs : E.inMap s = true) (he : E.inMap e = true) (h : Update E cells s e [] m m') :
    Good E e m'.g m'.edges ∧ CoveredFor E e s m'.g m'.edges ∧ m'.goal = some e := by
  have h0t : (CostType.top : C) ≠ 0 := ne_of_gt L.top0
  cases h with
  | newGoal h _ => exact absurd hm h
  | goalInRect _ h0 _ => exact absurd h0 (by simpa [rectMin] using h0t)
  | out _ _ ho => rcases ho with h | h <;> simp_all
  | run _ h0 _ _ her hf =>
    rename_i g q o ed f _ _ _
    have hq : (if m.g s > (rectMin m.g [] (e, CostType.top)).2 then [s] else []) ++
         (if (rectMin m.g [] (e, (CostType.top : C))).2 ≠ CostType.top
          then [(rectMin m.g [] (e, (CostType.top : C))).1] else []) = [] := by
      have := not_lt.mpr (hg.top s)
      simp [rectMin, this]
    rw [hq] at her
    have hr : (g, q, o, ed) = (m.g, [], [], m.edges) := by
      generalize hst : ((m.g, [], [], m.edges) : (V → C) × List V × List (C × V) × (V → Bool)) = st at her
      cases her with
      | nil => exact hst.symm ▸ rfl
      | skip hp => cases hst; exact absurd hp.length_eq (by simp)
      | erase hp => cases hst; exact absurd hp.length_eq (by simp)
    obtain ⟨rfl, rfl, rfl, rfl⟩ : g = m.g ∧ q = [] ∧ o = [] ∧ ed = m.edges := by simpa using hr
    have hres := invU_fill L ht hf
      { top := hg.top, zero := hg.zero, pos := hg.pos, sound := hg.sound, inMap := hg.inMap
        goalR := hg.goalR
        ents := by
          intro x hx
          simp only at hx
          by_cases hx2 : x.2 = e
          · exact .inl hx2
          · right
            split at hx
            · simp at hx; subst hx; exact absurd rfl hx2
            · simp only [List.append_nil, List.mem_map, List.mem_filter] at hx
              obtain ⟨v, _, rfl⟩ := hx
              refine ⟨hx2, le_refl _, hg.pos _, ?_⟩
              rcases hg.sound v hx2 with h | h
              · exact .inr h
              · exact .inl h
        goalE := by
          intro x hx hxe
          simp only at hx
          split at hx
          · simp at hx; subst hx; exact .inr rfl
          · simp only [List.append_nil, List.mem_map, List.mem_filter] at hx
            obtain ⟨v, _, rfl⟩ := hx
            simp only at hxe
            left; simp only; rw [hxe]; exact hg.zero
        todo := by
          intro v hv hvt
          rcases hg.todo v hv hvt with h | h
          · exact .inr (.inl h)
          · left
            have hmem : (m.g v, v) ∈ (cells.filter (fun v => m.edges v)).map (fun v => (m.g v, v)) :=
              List.mem_map.mpr ⟨v, List.mem_filter.mpr ⟨hcells v (hg.inMap v hvt), h⟩, rfl⟩
            refine ⟨(m.g v, v), ?_, rfl, rfl⟩
            simp only [List.append_nil]
            split
            · rename_i hnil; rw [hnil] at hmem; simp at hmem
            · exact hmem }
    exact ⟨hres.1, hres.2, hm⟩

/-- C62: after one `create` and any number of no-change updates toward other starts, the map is still
sound everywhere, and exact for the last start: every cell with a route within the covered range
of that start holds the minimal route cost; in particular the last start itself. -/
theorem extend_exact {E : Env V C} {cells : List V} {s e : V} {m : DM V C} (L : Laws2 E e)
    (ht : 0 < E.tasks) (hcells : ∀ v, E.inMap v = true → v ∈ cells) (h : Hist E cells e s m)
    (hse : s ≠ e) :
    (∀ v, v ≠ e → m.g v = CostType.top ∨ Route E e v (m.g v)) ∧
    (∀ v c, v ≠ e → Route E e v c → c < CostType.top → E.cut c (m.g s) = false → ExactAt E e m.g v) ∧
    (∀ c, Route E e s c → c < CostType.top → ExactAt E e m.g s) := by
  have key : ∀ {s : V} {m : DM V C}, Hist E cells e s m →
      Good E e m.g m.edges ∧ (s ≠ e → CoveredFor E e s m.g m.edges) ∧ m.goal = some e := by
    intro s m h
    induction h with
    | create hs he h => exact good_of_create L ht hs he h
    | update hh hs he h ih =>
      obtain ⟨r1, r2, r3⟩ := good_of_update L ht hcells ih.1 ih.2.2 hs he h
      exact ⟨r1, fun _ => r2, r3⟩
  obtain ⟨hg, hcov, _⟩ := key h
  have hcov := hcov hse
  have hex : ∀ v c, v ≠ e → Route E e v c → c < CostType.top → E.cut c (m.g s) = false → ExactAt E e m.g v := by
    intro v c hv hr hc hcut
    have hle : m.g v ≤ c := exact_of_good L hg hcov hr hcut hc hv
    refine ⟨?_, ?_⟩
    · rcases hg.sound v hv with h | h
      · rw [h] at hle; exact absurd (lt_of_le_of_lt hle hc) (lt_irrefl _)
      · exact h
    · intro c' hr'
      by_cases hc' : c' < CostType.top
      · by_cases hcut' : E.cut c' (m.g s) = false
        · exact exact_of_good L hg hcov hr' hcut' hc' hv
        · rcases le_total c c' with h | h
          · exact le_trans hle h
          · have hcut' : E.cut c' (m.g s) = true := by simpa using hcut'
            rw [L.cut_mono _ _ _ _ h (le_refl _) hcut'] at hcut; cases hcut
      · exact le_trans hle (le_trans (le_of_lt hc) (not_lt.mp hc'))
  refine ⟨hg.sound, hex, ?_⟩
  intro c hr hc
  by_cases hle : c ≤ m.g s
  · exact hex s c hse hr hc (L.cut_self _ _ hle)
  · have hlt : m.g s < c := not_le.mp hle
    rcases hg.sound s hse with h | h
    · rw [h] at hlt; exact absurd (lt_trans hlt hc) (lt_irrefl _)
    · exact hex s _ hse h (lt_trans hlt hc) (L.cut_self _ _ (le_refl _))

/-! ### Termination (C63) -/

/-- C63: the expansion ends: on a finite map with finitely many cost values there is no infinite
sequence of rounds, whatever the schedule, ... -/
theorem fill_terminates [Finite V] [WellFoundedLT C] (E : Env V C) (start : V) (run : Nat → FSt V C) :
    ¬ ∀ n, Round E start (run n) (run (n + 1)) := by
  intro hall
  obtain ⟨m, ⟨n, rfl⟩, hmin⟩ := (wf_rounds E start).has_min (Set.range run) ⟨run 0, 0, rfl⟩
  exact hmin (run (n + 1)) ⟨n + 1, rfl⟩ (hall n)

/-- C63: ... it never gets stuck, and so `create` always returns. -/
theorem create_returns [Finite V] [WellFoundedLT C] (E : Env V C) (s e : V) (m : DM V C) :
    ∃ m', Create E s e m m' := by
  by_cases h : E.inMap s = true ∧ E.inMap e = true
  · obtain ⟨f, hf⟩ := fill_exists E s ⟨setF (fun _ => CostType.top) e E.base, [(E.base, e)], fun _ => false⟩
    exact ⟨_, .fill h.1 h.2 hf⟩
  · refine ⟨_, .out ?_⟩
    cases h1 : E.inMap s <;> cases h2 : E.inMap e <;> simp_all

/-! ### C15 -/

/-- C15, the part that holds: when start and goal are inside the map, what `create` leaves does not depend on what was
stored before. -/
theorem create_forgets_partial {E : Env V C} {s e : V} {m m0 m' : DM V C} (hs : E.inMap s = true)
    (he : E.inMap e = true) (h : Create E s e m m') : Create E s e m0 m' ∧ m'.goal = some e := by
  cases h with
  | out h => rcases h with h | h <;> simp_all
  | fill hs he hf => exact ⟨.fill hs he hf, rfl⟩

/-- C15, the part that does not: a request with the start outside the map stores the new goal but leaves every
value as it was; the following no-change `update` for that goal then does not rebuild the map. -/
theorem create_out_keeps_values {E : Env V C} {s e : V} {m m' : DM V C} (hs : E.inMap s = false)
    (h : Create E s e m m') : m'.g = m.g ∧ m'.edges = m.edges ∧ m'.goal = some e := by
  cases h with
  | out h => exact ⟨rfl, rfl, rfl⟩
  | fill h _ _ => rw [hs] at h; cases h

section Examples
open Grid

/-- Corridor of five cells `0 … 4` in a row with unit steps; cell 9 stands for anything outside.
`block` removes the steps out of the blocked cells. -/
def lineEnv (block : List (Fin 5)) (over : Rat) : Env (Fin 5) Rat where
  nexts p := ([⟨p.1 + 1, 1⟩, ⟨p.1 - 1, 1⟩] : List (Nat × Rat)).filterMap (fun x =>
    if h : x.1 < 5 then
      if x.1 = p.1 then none
      else some ⟨⟨x.1, h⟩, 1, if p ∈ block then none else some 1⟩
    else none)
  base := -1 / 2
  cut a s := decide (a - over > s)
  tasks := 2
  inMap v := decide (v ≠ 4)
  neigh4 p := ([p.1 + 1, p.1 - 1] : List Nat).filterMap (fun x =>
    if h : x < 5 then (if x = p.1 then none else some ⟨x, h⟩) else none)

/-- Counterexample to C15: a map for goal 0 is created; then a request for goal 3 arrives while the start is
outside the map (cell 4); then the robot is back and the planner asks for an update toward goal 3 with no
change: the values are still those of goal 0, so cell 1 claims distance 1/2 although every route from it to cell 3 costs at
least 1. -/
theorem stale_goal : ∃ (E : Env (Fin 5) Rat) (m1 m2 m3 : DM (Fin 5) Rat),
    Create E 1 0 initDM m1 ∧ Create E 4 3 m1 m2 ∧ Update E [0, 1, 2, 3, 4] 1 3 [] m2 m3 ∧
    m3.goal = some 3 ∧ m3.g 1 = 1 / 2 ∧ m3.g 0 = 0 ∧ ¬ Route E 3 1 (1 / 2) ∧ Route E 3 1 (3 / 2) := by
  let E := lineEnv [] 10
  obtain ⟨m1, h1⟩ : ∃ m, createD E 20 1 0 initDM = some m := Option.isSome_iff_exists.mp (by decide +kernel)
  obtain ⟨m2, h2⟩ : ∃ m, (createD E 20 1 0 initDM).bind (createD E 20 4 3) = some m :=
    Option.isSome_iff_exists.mp (by decide +kernel)
  obtain ⟨m3, h3⟩ : ∃ m, ((createD E 20 1 0 initDM).bind (createD E 20 4 3)).bind
      (updateD E [0, 1, 2, 3, 4] 20 1 3 []) = some m :=
    Option.isSome_iff_exists.mp (by decide +kernel)
  have k : (((createD E 20 1 0 initDM).bind (createD E 20 4 3)).bind
      (updateD E [0, 1, 2, 3, 4] 20 1 3 [])).map (fun m => (m.goal, m.g 1, m.g 0)) = some (some 3, 1 / 2, 0) := by
    decide +kernel
  rw [h3] at k
  rw [h2] at h3
  rw [h1] at h2
  simp only [Option.bind_some] at h2 h3
  simp only [Option.map_some, Option.some.injEq, Prod.mk.injEq] at k
  have hpos : ∀ v c, Route E 3 v c → (v = 3 ∧ c = -1 / 2) ∨ (v.val = 2 ∧ (1 : Rat) / 2 ≤ c) ∨ (v.val = 4 ∧ (1 : Rat) / 2 ≤ c) ∨
      1 ≤ c := by
    intro v c h
    induction h with
    | goal => exact .inl ⟨rfl, rfl⟩
    | @step p x c w _ hs ih =>
      obtain ⟨eu, hd⟩ := hs
      have key : ∀ p : Fin 5, ∀ d ∈ E.nexts p, d.cost = some 1 ∧ (p = 3 → d.next.val = 2 ∨ d.next.val = 4) := by
        decide +kernel
      have := key p _ hd
      simp only [Option.some.injEq] at this
      obtain ⟨rfl, hx⟩ := this
      rcases ih with ⟨rfl, rfl⟩ | ⟨_, h⟩ | ⟨_, h⟩ | h
      · rcases hx rfl with h | h
        · exact .inr (.inl ⟨h, by norm_num⟩)
        · exact .inr (.inr (.inl ⟨h, by norm_num⟩))
      · exact .inr (.inr (.inr (by linarith)))
      · exact .inr (.inr (.inr (by linarith)))
      · exact .inr (.inr (.inr (by linarith)))
  refine ⟨E, m1, m2, m3, createD_create E _ _ _ _ h1, createD_create E _ _ _ _ h2,
    updateD_update E _ _ _ _ _ _ h3, k.1, k.2.1, k.2.2, ?_, ?_⟩
  · intro h
    rcases hpos 1 _ h with h | h | h | h
    · exact absurd h.1 (by decide)
    · exact absurd h.1 (by decide)
    · exact absurd h.1 (by decide)
    · norm_num at h
  · have s1 : Step E 3 2 1 := ⟨1, by decide +kernel⟩
    have s2 : Step E 2 1 1 := ⟨1, by decide +kernel⟩
    have hr := ((Route.goal (E := E) (goal := 3)).step s1).step s2
    have hb : E.base + 1 + 1 = (3 / 2 : Rat) := by decide +kernel
    rw [hb] at hr
    exact hr

/-- Ring of six cells with unit steps; no step leaves a blocked (lethal) cell. -/
def ringEnv (block : List (Fin 6)) : Env (Fin 6) Rat where
  nexts p := [⟨p + 1, 1, if p ∈ block then none else some 1⟩, ⟨p - 1, 1, if p ∈ block then none else some 1⟩]
  base := -1 / 2
  cut a s := decide (a > s)
  tasks := 1
  inMap _ := true
  neigh4 p := [p + 1, p - 1]

/-- C64 fails: the map is created for goal 0 and start 1; then cells 1 and 5, the only ways out of the goal, become
lethal and `update` is told exactly that (rectangle `{1, 5}`); the robot is at 2.  Only the branch of the first
cell with the least value is erased; the other branch keeps its stale values and the expansion
continues from its remembered border, so the start is reported reachable although nothing is
connected with the goal any more. -/
theorem update_stale : ∃ m1 m2 : DM (Fin 6) Rat,
    Create (ringEnv []) 1 0 initDM m1 ∧
    Update (ringEnv [1, 5]) [0, 1, 2, 3, 4, 5] 2 0 [1, 5] m1 m2 ∧
    m2.g 2 = 7 / 2 ∧ m2.g 4 = 3 / 2 ∧ m2.g 2 < CostType.top ∧
    ¬ Connected (ringEnv [1, 5]) 0 2 ∧ ¬ Connected (ringEnv [1, 5]) 0 4 := by
  obtain ⟨m1, h1⟩ : ∃ m, createD (ringEnv []) 20 1 0 initDM = some m :=
    Option.isSome_iff_exists.mp (by decide +kernel)
  obtain ⟨m2, h2⟩ : ∃ m, (createD (ringEnv []) 20 1 0 initDM).bind
      (updateD (ringEnv [1, 5]) [0, 1, 2, 3, 4, 5] 20 2 0 [1, 5]) = some m :=
    Option.isSome_iff_exists.mp (by decide +kernel)
  have k : ((createD (ringEnv []) 20 1 0 initDM).bind
      (updateD (ringEnv [1, 5]) [0, 1, 2, 3, 4, 5] 20 2 0 [1, 5])).map (fun m => (m.g 2, m.g 4)) =
      some (7 / 2, 3 / 2) := by decide +kernel
  rw [h2] at k
  rw [h1] at h2
  simp only [Option.bind_some] at h2
  simp only [Option.map_some, Option.some.injEq, Prod.mk.injEq] at k
  have hconn : ∀ v, Connected (ringEnv [1, 5]) 0 v → v = 0 ∨ v = 1 ∨ v = 5 := by
    intro v h
    induction h with
    | goal => exact .inl rfl
    | @step p x w _ hs ih =>
      obtain ⟨eu, hd⟩ := hs
      have key : ∀ p : Fin 6, (p = 0 ∨ p = 1 ∨ p = 5) → ∀ d ∈ (ringEnv [1, 5]).nexts p,
          d.cost ≠ none → d.next = 0 ∨ d.next = 1 ∨ d.next = 5 := by decide +kernel
      exact key p ih _ hd (by simp)
  refine ⟨m1, m2, createD_create _ _ _ _ _ h1, updateD_update _ _ _ _ _ _ _ h2, k.1, k.2, ?_,
    fun h => ?_, fun h => ?_⟩
  · rw [k.1]; decide +kernel
  · exact absurd (hconn 2 h) (by decide)
  · exact absurd (hconn 4 h) (by decide)

/-! ### The actual grid -/

/-- Conditions on the inputs: no negative weight, and a step costs at least one cell. -/
structure GoodCfg (c : Cfg) : Prop where
  ec0 : 0 ≤ c.ec0
  res : 0 ≤ c.res
  wc : 0 ≤ c.wc
  wr : 0 ≤ c.wr
  over : 0 ≤ c.over
  eu : ∀ d ∈ diffs, c.ec0 ≤ c.eu d
  gl : ∀ d ∈ diffs, 0 ≤ c.gl d
  cm : ∀ p, 0 ≤ c.cm p
  hist : ∀ p, 0 ≤ c.hist p
  ec0_lt : c.ec0 < CostType.top

theorem sum_nonneg_int : ∀ (l : List Int), (∀ x ∈ l, 0 ≤ x) → 0 ≤ l.sum
  | [], _ => by simp
  | a :: l, h => by
    have := sum_nonneg_int l (fun x hx => h x (by simp [hx]))
    have := h a (by simp)
    simp only [List.sum_cons]; omega

theorem stepCost_ge {c : Cfg} (hc : GoodCfg c) {p d : Pos} (hd : d ∈ diffs) {w : Rat}
    (h : stepCost c p d = some w) : c.eu d ≤ w := by
  unfold stepCost at h
  split at h
  · cases h
  · simp only [Option.some.injEq] at h
    have h1 : (0 : Rat) ≤ (((posOf d).map (fun q => c.cm (add p q))).sum : Int) := by
      have := sum_nonneg_int ((posOf d).map (fun q => c.cm (add p q))) (by
        intro x hx
        rw [List.mem_map] at hx
        obtain ⟨q, _, rfl⟩ := hx
        exact hc.cm _)
      exact_mod_cast this
    have h2 : (0 : Rat) ≤ (((posOf d).map (fun q => c.hist (add p q))).sum : Int) := by
      have := sum_nonneg_int ((posOf d).map (fun q => c.hist (add p q))) (by
        intro x hx
        rw [List.mem_map] at hx
        obtain ⟨q, _, rfl⟩ := hx
        exact hc.hist _)
      exact_mod_cast this
    have h3 : (0 : Rat) ≤ (c.res / 100 * c.gl d) * (((((posOf d).map (fun q => c.cm (add p q))).sum : Int) : Rat) * c.wc +
        ((((posOf d).map (fun q => c.hist (add p q))).sum : Int) : Rat) * c.wr) := by
      have g1 := hc.gl d hd
      have g2 := hc.res
      have g3 := hc.wc
      have g4 := hc.wr
      positivity
    have h4 : 0 ≤ c.eu d := le_trans hc.ec0 (hc.eu d hd)
    subst h
    split
    · linarith
    · linarith

/-- The grid with non-negative weights satisfies every assumption of the general theorems. -/
theorem grid_laws {c : Cfg} (hc : GoodCfg c) (goal : Pos) : Laws2 (env c) goal where
  nonneg := by
    intro p d w hd hw
    simp only [env, List.mem_map, List.mem_filter] at hd
    obtain ⟨d', ⟨hd', _⟩, rfl⟩ := hd
    have h1 := stepCost_ge hc hd' hw
    exact ⟨le_trans (le_trans hc.ec0 (hc.eu d' hd')) h1, h1⟩
  mono_left := by intro a b w h; linarith
  mono_right := by intro a b w h; linarith
  cut_mono := by
    intro a b s t h1 h2 h3
    simp only [env, decide_eq_true_eq] at h3 ⊢
    linarith
  base_le := by
    have := hc.ec0
    simp only [env]; linarith
  back := by
    intro p x w hs
    obtain ⟨eu, hd⟩ := hs
    simp only [env, List.mem_map, List.mem_filter] at hd
    obtain ⟨d', ⟨hd', _⟩, he⟩ := hd
    have hw : stepCost c p d' = some w := by
      have := congrArg Edge.cost he; exact this
    have h1 := stepCost_ge hc hd' hw
    have h2 := hc.eu d' hd'
    have h3 := hc.ec0
    simp only [env]; linarith
  top0 := lt_of_le_of_lt hc.ec0 hc.ec0_lt
  inMap := by
    intro p d hd
    simp only [env, List.mem_map, List.mem_filter] at hd
    obtain ⟨d', ⟨_, hd'⟩, rfl⟩ := hd
    exact hd'
  cut_self := by
    intro a s h
    have := hc.over
    simp only [env, decide_eq_false_iff_not, not_lt, gt_iff_lt]
    linarith

/-- C13 on the grid: no permitted step departs from a lethal cell or checks a lethal cell on
its line, and it ends inside the map. -/
theorem grid_step_free {c : Cfg} {p x : Pos} {w : Rat} (h : Step (env c) p x w) :
    c.cm p ≤ 99 ∧ inMap c x = true ∧
    ∃ d ∈ diffs, x = add p d ∧ ∀ q ∈ posOf d, c.cm (add p q) ≤ 99 := by
  obtain ⟨eu, hd⟩ := h
  simp only [env, List.mem_map, List.mem_filter] at hd
  obtain ⟨d, ⟨hd1, hd2⟩, he⟩ := hd
  have hx : x = add p d := (congrArg Edge.next he).symm
  have hw : stepCost c p d = some w := congrArg Edge.cost he
  have hfree : ∀ q ∈ posOf d, c.cm (add p q) ≤ 99 := by
    intro q hq
    unfold stepCost at hw
    split at hw
    · cases hw
    · rename_i hany
      simp only [List.any_eq_true, decide_eq_true_eq, not_exists, not_and, not_lt, gt_iff_lt] at hany
      exact hany q hq
  refine ⟨?_, by rw [hx]; exact hd2, d, hd1, hx, hfree⟩
  have := hfree (0, 0) (posOf_zero d hd1)
  simpa [add] using this

/-- C65: every map cell read while examining a step from a cell inside the map toward a destination
inside the map is inside the map, for every map size. -/
theorem reads_in_map {c : Cfg} {p d q : Pos} (hd : d ∈ diffs) (hp : inMap c p = true)
    (hn : inMap c (add p d) = true) (hq : q ∈ readsOf p d) : inMap c q = true := by
  simp only [readsOf, List.mem_map] at hq
  obtain ⟨r, hr, rfl⟩ := hq
  have hb := posOf_box d hd r hr
  have hp := of_decide_eq_true hp
  have hn := of_decide_eq_true hn
  refine decide_eq_true ?_
  simp only [add] at hn ⊢
  omega

/-- The neighbour table, independently: all non-zero offsets within Euclidean distance 4. -/
theorem mem_diffs_iff (d : Pos) : d ∈ diffs ↔ d ≠ (0, 0) ∧ d.1 * d.1 + d.2 * d.2 ≤ 16 := by
  constructor
  · revert d; decide +kernel
  · rintro ⟨h0, h⟩
    obtain ⟨x, y⟩ := d
    have hx : -4 ≤ x ∧ x ≤ 4 := by constructor <;> nlinarith [mul_self_nonneg y]
    have hy : -4 ≤ y ∧ y ≤ 4 := by constructor <;> nlinarith [mul_self_nonneg x]
    have key : ∀ x ∈ ([-4, -3, -2, -1, 0, 1, 2, 3, 4] : List Int),
        ∀ y ∈ ([-4, -3, -2, -1, 0, 1, 2, 3, 4] : List Int),
        ((x, y) : Pos) ≠ (0, 0) → x * x + y * y ≤ 16 → ((x, y) : Pos) ∈ diffs := by decide +kernel
    refine key x ?_ y ?_ h0 h
    · simp only [List.mem_cons, List.not_mem_nil, or_false]; omega
    · simp only [List.mem_cons, List.not_mem_nil, or_false]; omega

/-- C14 on the grid: the start holds exactly the minimal route cost. -/
theorem grid_create_exact {c : Cfg} (hc : GoodCfg c) (ht : 0 < c.tasks) {s e : Pos} {m m' : DM Pos Rat}
    (hs : inMap c s = true) (he : inMap c e = true) (h : Create (env c) s e m m') (hse : s ≠ e) {k : Rat}
    (hr : Route (env c) e s k) (hk : k < CostType.top) : ExactAt (env c) e m'.g s :=
  create_exact_start (grid_laws hc e) ht hs he h hse hr hk

/-- A 3×2 map with a lethal cell in the middle of the first row. -/
def exCfg : Cfg where
  w := 3
  h := 2
  cm p := if p = (1, 0) then 100 else if p = (1, 1) then 50 else 0
  hist _ := 0
  eu d := if d.1 * d.1 + d.2 * d.2 ≤ 1 then 1 else if d.1 * d.1 + d.2 * d.2 ≤ 2 then 3 / 2 else 2
  gl _ := 1
  ec0 := 1
  res := 1
  wc := 1
  wr := 1
  over := 4
  tasks := 3

theorem exCfg_good : GoodCfg exCfg where
  ec0 := by decide +kernel
  res := by decide +kernel
  wc := by decide +kernel
  wr := by decide +kernel
  over := by decide +kernel
  eu := by decide +kernel
  gl := by decide +kernel
  cm := by intro p; simp only [exCfg]; split <;> (try split) <;> decide
  hist := by intro p; simp [exCfg]
  ec0_lt := by decide +kernel

/-- The hypotheses of `create_sound`, `create_exact`, `create_goal_least`, `extend_exact` are met: the map is created for the
goal (0,0) and start (2,0), and the start gets a finite value around the lethal cell. -/
example : ∃ m, Create (env exCfg) (2, 0) (0, 0) initDM m ∧ m.g (2, 0) = 3 ∧ Laws2 (env exCfg) (0, 0) ∧
    inMap exCfg (2, 0) = true ∧ inMap exCfg (0, 0) = true ∧
    Hist (env exCfg) [(0, 0), (1, 0), (2, 0), (0, 1), (1, 1), (2, 1)] (0, 0) (2, 0) m := by
  obtain ⟨m, h⟩ : ∃ m, createD (env exCfg) 30 (2, 0) (0, 0) initDM = some m :=
    Option.isSome_iff_exists.mp (by decide +kernel)
  have k : (createD (env exCfg) 30 (2, 0) (0, 0) initDM).map (fun m => m.g (2, 0)) = some 3 := by
    decide +kernel
  rw [h] at k
  simp only [Option.map_some, Option.some.injEq] at k
  have hc := createD_create _ _ _ _ _ h
  exact ⟨m, hc, k, grid_laws exCfg_good _, by decide +kernel, by decide +kernel,
    .create (by decide +kernel) (by decide +kernel) hc⟩

/-- A cell cut off by a lethal cell: hypotheses of `create_unreachable`. -/
example : ∃ m, Create (ringEnv [1, 5]) 2 0 initDM m ∧ m.g 3 = CostType.top := by
  obtain ⟨m, h⟩ : ∃ m, createD (ringEnv [1, 5]) 30 2 0 initDM = some m :=
    Option.isSome_iff_exists.mp (by decide +kernel)
  have hc := createD_create _ _ _ _ _ h
  refine ⟨m, hc, create_unreachable rfl rfl hc ?_⟩
  intro h
  have hconn : ∀ v, Connected (ringEnv [1, 5]) 0 v → v = 0 ∨ v = 1 ∨ v = 5 := by
    intro v h
    induction h with
    | goal => exact .inl rfl
    | @step p x w _ hs ih =>
      obtain ⟨eu, hd⟩ := hs
      have key : ∀ p : Fin 6, (p = 0 ∨ p = 1 ∨ p = 5) → ∀ d ∈ (ringEnv [1, 5]).nexts p,
          d.cost ≠ none → d.next = 0 ∨ d.next = 1 ∨ d.next = 5 := by decide +kernel
      exact key p ih _ hd (by simp)
  exact absurd (hconn 3 h) (by decide)

end Examples

end Verif.DistMap
