import Verif.Astar.Finite
import Verif.Astar.Final

set_option linter.unusedSectionVars false
set_option linter.unusedVariables false

/-!
# Property theorems about the graph search (C05 – C10)

Every theorem quantifies over all schedules: `Reach`/`Final`/`Search` allow every thread
interleaving, batch composition, tie-break and choice of dropped entry.
-/
namespace Verif.Astar
open Spec Vec Vec.Spec

section Vector
variable {C : Type} [CostType C]

/-- A legal path of the search on cells, in terms of the grid. -/
theorem legal_vec {P : VProb C} (wf : WellFormed P) {path : List (List Int)} {v : List Int} (h : LegalPath (toProb P) path v) :
    ∃ hne : path ≠ [],
      (∃ s ∈ P.starts, IsNormalOf P (path.head hne) s.1) ∧ path.getLast hne = v ∧
      path.IsChain (Step P) ∧ (∀ v ∈ path.tail, InMap P.size v) ∧
      ((∀ s ∈ P.starts, ∀ x, IsNormalOf P x s.1 → InMap P.size x) → ∀ v ∈ path, InMap P.size v) := by
  obtain ⟨hne, hfirst, hlast, hmoves⟩ := h
  have hstart : ∃ s ∈ P.starts, path.head hne = norm P s.1 := by
    simp only [toProb, List.map_map, List.mem_map, Function.comp] at hfirst
    obtain ⟨y, hy, hy'⟩ := hfirst
    exact ⟨y, hy, hy'.symm⟩
  have hgen : ∀ (l : List (List Int)) (a : List Int), (a :: l).IsChain (Move (toProb P)) →
      a.length = P.size.length → (a :: l).IsChain (Step P) ∧ ∀ v ∈ l, InMap P.size v := by
    intro l
    induction l with
    | nil => intro a _ _; simp
    | cons b t ih =>
      intro a hc ha
      rw [List.isChain_cons_cons] at hc
      have hst := (move_iff wf ha).mp hc.1
      obtain ⟨i1, i2⟩ := ih b hc.2 (InMap.length hst.2.1)
      refine ⟨List.isChain_cons_cons.mpr ⟨hst, i1⟩, ?_⟩
      intro v hv
      rcases List.mem_cons.mp hv with rfl | hv
      · exact hst.2.1
      · exact i2 v hv
  obtain ⟨s0, hs0, hs0e⟩ := hstart
  have hnorm := norm_spec wf (wf.starts_len s0 hs0)
  have hall : path.IsChain (Step P) ∧ ∀ v ∈ path.tail, InMap P.size v := by
    cases path with
    | nil => exact absurd rfl hne
    | cons a t =>
      simp only [List.head_cons] at hs0e
      refine hgen t a hmoves ?_
      rw [hs0e]; exact norm_length wf (wf.starts_len s0 hs0)
  refine ⟨hne, ⟨s0, hs0, hs0e ▸ hnorm⟩, hlast, hall.1, hall.2, ?_⟩
  intro hin v hv
  cases path with
  | nil => exact absurd rfl hne
  | cons a t =>
    rcases List.mem_cons.mp hv with rfl | hv
    · exact hin s0 hs0 v (by simp only [List.head_cons] at hs0e; rw [hs0e]; exact hnorm)
    · exact hall.2 v hv

/-- C05 and C10 (second half): every path of a successful search starts at a given start, ends at the
goal (or at a cell accepted by the leave test), and consists of admissible moves only; every cell
after the first is inside the map, and all of them are when the starts are. No assumption on threads, batch size
or queue limit. -/
theorem search_path_legal {P : VProb C} (wf : WellFormed P) (hs : ∀ x ∈ P.starts, (0 : C) ≤ x.2)
    {rb : Bool} {why : Why} {path : List (List Int)} (h : Search P rb why (true, path)) :
    ∃ hne : path ≠ [],
      (∃ s ∈ P.starts, IsNormalOf P (path.head hne) s.1) ∧
      (IsNormalOf P (path.getLast hne) P.goal ∨ ∃ p raw, P.leave p raw = true ∧
        (p = raw + P.estim (path.getLast hne) ∨ (∃ s ∈ P.starts,
          IsNormalOf P (path.getLast hne) s.1 ∧ raw = s.2 ∧
          p = P.startEstim (path.getLast hne) + raw))) ∧
      path.IsChain (Step P) ∧ path.Nodup ∧ (∀ v ∈ path.tail, InMap P.size v) ∧
      ((∀ s ∈ P.starts, ∀ x, IsNormalOf P x s.1 → InMap P.size x) → ∀ v ∈ path, InMap P.size v) := by
  have hs' : ∀ x ∈ (toProb P).starts, (0 : C) ≤ x.2 := by
    intro x hx
    simp only [toProb, List.mem_map] at hx
    obtain ⟨y, hy, rfl⟩ := hx
    exact hs y hy
  generalize hres : (true, path) = r at h
  cases h with
  | noStart => cases hres
  | same => cases hres
  | @run s f h1 h2 hf =>
    cases f with
    | exhausted => simp only [result] at hres; split at hres <;> cases hres
    | aborted => simp only [result] at hres; split at hres <;> cases hres
    | found e =>
      obtain ⟨hend, l, hl, hlp, hnd⟩ := found_spec (rb := rb) hs' hf
      rw [hl] at hres
      cases hres
      obtain ⟨hne, hstart, hlast, hch, htail, hin⟩ := legal_vec wf hlp
      refine ⟨hne, hstart, ?_, hch, hnd, htail, hin⟩
      rw [hlast]
      rcases hend with h | ⟨p, raw, hlv, h | ⟨h, h'⟩⟩
      · exact .inl (h ▸ norm_spec wf wf.goal_len)
      · exact .inr ⟨p, raw, hlv, .inl h⟩
      · simp only [toProb, List.mem_map, Prod.mk.injEq] at h
        obtain ⟨y, hy, hy1, hy2⟩ := h
        exact .inr ⟨p, raw, hlv, .inr ⟨y, hy, hy1 ▸ norm_spec wf (wf.starts_len y hy), hy2.symm, h'⟩⟩

/-- C06: whatever the schedule, walking back from any cell that has a recorded predecessor (or is a start)
ends, at a start, along admissible moves and without repeating a cell. -/
theorem predecessors_loop_free {V : Type} [DecidableEq V] {P : Prob V C}
    (hs : ∀ x ∈ P.starts, (0 : C) ≤ x.2) {s : St V C} (hr : Reach P s) (v : V)
    (hv : v ∈ P.starts.map Prod.fst ∨ ∃ p, plookup s.par v = some p) :
    ∃ l, findPath (P.starts.map Prod.fst) s.par v [] = (true, l) ∧ LegalPath P l v ∧ l.Nodup := by
  obtain ⟨l, h1, h2, h3, _⟩ := findPath_known (inv_reach hs hr) hv
  exact ⟨l, h1, h2, h3⟩

/-- C06: a search whose loop found its goal answers `true` (reconstruction cannot fail). -/
theorem found_returns_true {P : VProb C} (hs : ∀ x ∈ P.starts, (0 : C) ≤ x.2) {rb : Bool}
    {r : Bool × List (List Int)} (h : Search P rb .found r) : r.1 = true := by
  generalize hw : Why.found = w at h
  cases h with
  | noStart => cases hw
  | same => cases hw
  | @run s f h1 h2 hf =>
    cases f with
    | exhausted => cases hw
    | aborted => cases hw
    | found e =>
      obtain ⟨_, l, hl, _⟩ := found_spec (rb := rb) (P := toProb P) (by
        intro x hx
        simp only [toProb, List.mem_map] at hx
        obtain ⟨y, hy, rfl⟩ := hx
        exact hs y hy) hf
      rw [hl]

/-- C06: with `return_best`, the path handed out on failure is a legal path from a start too. -/
theorem best_effort_path_legal {V : Type} [DecidableEq V] {P : Prob V C}
    (hs : ∀ x ∈ P.starts, (0 : C) ≤ x.2) {s : St V C} {f : Fin V} (hf : Final P s f)
    (hn : ∀ e, f ≠ .found e) :
    ∃ l, result P s f true = (false, l) ∧ LegalPath P l s.better ∧ l.Nodup := by
  obtain ⟨l, h1, h2, h3⟩ := better_known hs hf
  refine ⟨l, ?_, h2, h3⟩
  cases f with
  | found e => exact absurd rfl (hn e)
  | exhausted => simp only [result, if_true]; rw [show P.starts.map Prod.fst = SS P from rfl, h1]
  | aborted => simp only [result, if_true]; rw [show P.starts.map Prod.fst = SS P from rfl, h1]

/-- C05, C06: whatever path a call of the search hands out, be it found, or the best known one of a search that failed or was stopped, it starts at a given
start and consists of admissible moves only, without repeating a cell; every cell after the first is inside the map, and all of them are when the starts are. -/
theorem search_any_path_legal {P : VProb C} (wf : WellFormed P) (hs : ∀ x ∈ P.starts, (0 : C) ≤ x.2)
    {rb b : Bool} {why : Why} {path : List (List Int)} (h : Search P rb why (b, path)) (hne : path ≠ []) :
    (∃ s ∈ P.starts, IsNormalOf P (path.head hne) s.1) ∧ path.IsChain (Step P) ∧ path.Nodup ∧ (∀ v ∈ path.tail, InMap P.size v) ∧
      ((∀ s ∈ P.starts, ∀ x, IsNormalOf P x s.1 → InMap P.size x) → ∀ v ∈ path, InMap P.size v) := by
  have hs' : ∀ x ∈ (toProb P).starts, (0 : C) ≤ x.2 := by
    intro x hx
    simp only [toProb, List.mem_map] at hx
    obtain ⟨y, hy, rfl⟩ := hx
    exact hs y hy
  generalize hres : (b, path) = r at h
  cases h with
  | noStart => cases hres; exact absurd rfl hne
  | same => cases hres; exact absurd rfl hne
  | @run s f h1 h2 hf =>
    have key : ∃ c l v, result (toProb P) s f rb = (c, l) ∧ LegalPath (toProb P) l v ∧ l.Nodup := by
      by_cases hf' : ∃ e, f = .found e
      · obtain ⟨e, rfl⟩ := hf'
        obtain ⟨-, l, hl, hlp, hnd⟩ := found_spec (rb := rb) hs' hf
        exact ⟨_, l, _, hl, hlp, hnd⟩
      · cases rb with
        | true =>
          obtain ⟨l, hl, hlp, hnd⟩ := best_effort_path_legal hs' hf (fun e k => hf' ⟨e, k⟩)
          exact ⟨_, l, _, hl, hlp, hnd⟩
        | false =>
          cases f with
          | found e => exact absurd ⟨e, rfl⟩ hf'
          | exhausted => cases hres; exact absurd rfl hne
          | aborted => cases hres; exact absurd rfl hne
    obtain ⟨c, l, v, hl, hlp, hnd⟩ := key
    rw [hl] at hres
    cases hres
    obtain ⟨_, k1, -, k2, k3, k4⟩ := legal_vec wf hlp
    exact ⟨k1, k2, hnd, k3, k4⟩

/-- C07: a search that ran to exhaustion (at least one task per round, no queue limit) was right: no
sequence of admissible moves reaches the goal.  The last hypothesis says costs do not overflow to the "unreached"
value along a route. -/
theorem exhausted_unreachable {P : VProb C} (wf : WellFormed P) (ht : 0 < P.tasks) (hl : P.limit = 0)
    (hs : ∀ x ∈ P.starts, (0 : C) ≤ x.2 ∧ x.2 < CostType.top) (h0 : (0 : C) ≤ CostType.top)
    (hno : ∀ p c x, Route (toProb P) p c → c < CostType.top → Step P p x →
      c + P.cost p x < CostType.top)
    {rb : Bool} {r : Bool × List (List Int)} (h : Search P rb .exhausted r) :
    r.1 = false ∧ ∀ x, IsNormalOf P x P.goal → ¬ Vec.Spec.Reachable P x := by
  generalize hw : Why.exhausted = w at h
  cases h with
  | noStart => cases hw
  | same => cases hw
  | @run s f h1 h2 hf =>
    cases f with
    | found => cases hw
    | aborted => cases hw
    | exhausted =>
      refine ⟨by simp only [result]; split <;> rfl, ?_⟩
      intro x hx hre
      have hxe := (norm_iff wf wf.goal_len).mp hx
      subst hxe
      obtain ⟨hre, _⟩ := (reachable_iff wf).mpr hre
      have hs' : ∀ x ∈ (toProb P).starts, (0 : C) ≤ x.2 ∧ x.2 < CostType.top := by
        intro x hx
        simp only [toProb, List.mem_map] at hx
        obtain ⟨y, hy, rfl⟩ := hx
        exact hs y hy
      have hlen : ∀ {p c}, Route (toProb P) p c → p.length = P.size.length := by
        intro p c hr
        induction hr with
        | start h =>
          simp only [toProb, List.mem_map, Prod.mk.injEq] at h
          obtain ⟨s, hs, rfl, rfl⟩ := h
          exact norm_length wf (wf.starts_len s hs)
        | move _ hm ih => exact InMap.length ((move_iff wf ih).mp hm).2.1
      generalize hf' : Fin.exhausted = f' at hf
      cases hf with
      | found => cases hf'
      | aborted => cases hf'
      | @exhausted s o' hr hc =>
        have hopen : s.open_ = [] := exhausted_open ht hc
        obtain ⟨ic, _⟩ := invC_reach (P := toProb P) hl hs' h0
          (fun p c x hr' hc' hm => hno p c x hr' hc' ((move_iff wf (hlen hr')).mp hm)) hr
        have key : ∀ {v}, Astar.Spec.Reachable (toProb P) v → s.gh v ≠ CostType.top := by
          intro v hv
          induction hv with
          | start h => exact ic.starts _ h
          | @move p x _ hm ih =>
            rcases ic.todo _ ih with ⟨e, he, _⟩ | h | h
            · rw [hopen] at he; simp at he
            · exact h _ hm
            · exact absurd h id
        obtain ⟨e, he, _⟩ := ic.goal (key hre)
        rw [hopen] at he; simp at he

/-- C08: on a finite map there is no infinite run, whatever the type of costs and the schedule. -/
theorem search_terminates {P : VProb C} (wf : WellFormed P)
    (hs : ∀ x ∈ P.starts, (0 : C) ≤ x.2) (h0 : (0 : C) ≤ CostType.top)
    (run : Nat → St (List Int) C) (h : Reach (toProb P) (run 0)) :
    ¬ ∀ n, Round (toProb P) (run n) (run (n + 1)) := by
  intro hall
  have hs' : ∀ x ∈ (toProb P).starts, (0 : C) ≤ x.2 := by
    intro x hx
    simp only [toProb, List.mem_map] at hx
    obtain ⟨y, hy, rfl⟩ := hx
    exact hs y hy
  have hreach : ∀ n, Reach (toProb P) (run n) := by
    intro n
    induction n with
    | zero => exact h
    | succ n ih => exact .round ih (hall n)
  have hwf := wf_rounds_any (closed_cells wf) hs' h0
  obtain ⟨m, ⟨n, rfl⟩, hmin⟩ := hwf.has_min (Set.range run) ⟨run 0, 0, rfl⟩
  exact hmin (run (n + 1)) ⟨n + 1, rfl⟩ ⟨hreach n, hall n⟩

/-- C08: and it never gets stuck: from every reachable state either another round or an end of the search is possible;
together with `search_terminates`, every run ends. -/
theorem search_progress {V : Type} [DecidableEq V] {P : Prob V C} {s : St V C} (hr : Reach P s) :
    (∃ s', Round P s s') ∨ ∃ s' f, Final P s' f ∧ s'.par = s.par := by
  obtain ⟨cs, o', r, hc⟩ := collect_total P P.tasks s.open_
  cases r with
  | some e => exact .inr ⟨_, _, .found hr hc, rfl⟩
  | none =>
    by_cases hcs : cs = []
    · subst hcs
      exact .inr ⟨_, _, .exhausted hr hc, rfl⟩
    · obtain ⟨s', h⟩ := acts_total P.limit (cs.flatMap (expand P s.g)) { s with open_ := o', better := s.better }
      exact .inl ⟨s', .mk hc hcs (List.Perm.refl _) (.inl rfl) h⟩

/-- C10: with a positive limit the open list never holds more entries than the limit, or than it held
initially if that was more. -/
theorem queue_bounded {V : Type} [DecidableEq V] {P : Prob V C} (hl : 0 < P.limit) {s : St V C}
    (hr : Reach P s) : s.open_.length ≤ max P.limit P.starts.length := by
  induction hr with
  | init b hb => simp [init]
  | round hr h ih =>
    cases h with
    | mk hc hne hp hb ha =>
      refine acts_bound hl ha (le_max_left _ _) ?_
      exact le_trans (collect_length hc) ih

/-- Finding (C07 fails without `0 < tasks`): with zero tasks per round the very first round already
collects nothing, so the loop ends and the answer is "no path", whatever the problem. -/
theorem zero_tasks_never_finds {V : Type} [DecidableEq V] {P : Prob V C} (ht : P.tasks = 0)
    {s : St V C} {f : Fin V} (hf : Final P s f) (rb : Bool) : (result P s f rb).1 = false := by
  cases hf with
  | found hr hc => rw [ht] at hc; cases hc
  | exhausted hr hc => simp only [result]; split <;> rfl
  | aborted hr hc => simp only [result]; split <;> rfl

/-- C09: with one task per round, no queue limit, a leave test that accepts nothing but the goal, exact addition and a
consistent estimate (`OptHyp`), the path returned by a successful search is a cheapest one: its total
cost (start cost plus moves) is at most the cost of *every* route to the goal. -/
theorem path_optimal {V : Type} [DecidableEq V] {P : Prob V C} (ex : ExactAdd C) (hyp : OptHyp P)
    {s : St V C} {e : V} {rb : Bool} (hf : Final P s (.found e)) :
    e = P.goal ∧ ∃ l c0, result P s (.found e) rb = (true, l) ∧
      (∃ hl : LegalPath P l P.goal, (l.head hl.ne, c0) ∈ P.starts) ∧
      ∀ c, Route P P.goal c → movesCost P l c0 ≤ c := by
  have hs : ∀ x ∈ P.starts, (0 : C) ≤ x.2 := fun x hx => (hyp.starts0 x hx).1
  generalize hf' : Fin.found e = f at hf
  cases hf with
  | exhausted => cases hf'
  | aborted => cases hf'
  | @found s cs o' e' hr hc =>
    cases hf'
    have inv := inv_reach hs hr
    have io := invO_reach ex hyp hr
    have ir := invR_reach hr
    rw [hyp.tasks] at hc
    have hmin : e' ∈ s.open_ ∧ (∀ x ∈ s.open_, e'.p ≤ x.p) ∧ e'.v = P.goal := by
      generalize ho : s.open_ = o at hc
      generalize hr' : some e' = r at hc
      cases hc with
      | empty => cases hr'
      | hit n o e rest hp hm hh =>
        cases hr'
        have hmem : e' ∈ s.open_ := ho ▸ hp.symm.subset (by simp)
        refine ⟨hp.symm.subset (by simp), hm, ?_⟩
        rcases hh with h | h
        · exact h
        · rcases prio_reach hr e' hmem with h1 | ⟨h1, h2⟩
          · rw [h1, hyp.leave] at h; cases h
          · rw [h2, hyp.leaveStart _ _ h1] at h; cases h
      | take _ _ _ hc2 => cases hc2; cases hr'
    obtain ⟨h1, h2, h3⟩ := hmin
    have hbest := best_of_min ex hyp io h1 h2
    have hk := (inv.ents e' h1).2.2
    obtain ⟨l, hl1, hl2, hl3, hl4⟩ := findPath_known inv hk.1
    have hvals := ir.vals e'.v
    obtain ⟨c0, hc0, hcost⟩ := pathCost_le ex hyp inv io hl2 hl4 hvals
    refine ⟨h3, l, c0, hl1, ⟨h3 ▸ hl2, hc0⟩, ?_⟩
    intro c hc'
    rw [← h3] at hc'
    exact le_trans hcost (hbest c hc')

end Vector

/-! ### Concrete cases meeting the hypotheses, and counterexamples -/
section Examples

/-- Integer costs, `top` = 1000000. -/
local instance intCost : CostType Int where
  top := 1000000
  neg1 := -1
  neg1_lt_zero := by decide
  le_add := by intro c w h; omega

theorem intExact : ExactAdd Int where
  assoc := by intros; omega
  mono_right := by intro a b w h; exact Int.add_le_add_left h w
  mono_left := by intro a b w h; exact Int.add_le_add_right h w
  strict_left := by intro a b w _ h; exact Int.add_lt_add_right h w

/-- A 3×1 map with 4 headings; `grids` are the offered displacements. -/
def exV (tasks limit : Nat) (grids : List (List Int)) (goal : List Int) : VProb Int where
  nonc := 2
  size := [3, 1, 4]
  grids _ := grids
  estim _ := 0
  cost _ _ := 1
  startEstim _ := 0
  starts := [([0, 0, 0], 0)]
  goal := goal
  leave _ _ := false
  tasks := tasks
  limit := limit

/-- Right, and turning either way. -/
abbrev turns : List (List Int) := [[1, 0, 0], [0, 0, 1], [0, 0, -1]]

theorem exV_wf (t l : Nat) (gr : List (List Int)) (hgr : ∀ d ∈ gr, d.length = 3) (g : List Int)
    (hg : g.length = 3) : WellFormed (exV t l gr g) where
  size_pos := by simp [exV]
  nonc_le := by simp [exV]
  goal_len := by simpa [exV] using hg
  starts_len := by simp [exV]
  grids_len := by simpa [exV] using hgr

theorem exV_run (t l : Nat) (gr : List (List Int)) (g : List Int) (n : Nat) {s f}
    (h : exec (toProb (exV t l gr g)) n (init (toProb (exV t l gr g)) [0, 0, 0]) = some (s, f)) :
    Final (toProb (exV t l gr g)) s f :=
  exec_final _ n _ (.init _ (List.mem_map.mpr ⟨([0, 0, 0], 0), List.mem_cons_self, rfl⟩)) h

/-- Why the concrete run ended, and the parents it recorded. -/
def exRun (t l : Nat) (gr : List (List Int)) (g : List Int) (n : Nat) :
    Option (List (List Int × List Int) × Why) :=
  (exec (toProb (exV t l gr g)) n (init (toProb (exV t l gr g)) [0, 0, 0])).map
    fun r => (r.1.par, whyOf r.2)

theorem exV_search {t l : Nat} {gr : List (List Int)} {g : List Int} {n : Nat} {w : Why}
    (hg : g ≠ [0, 0, 0]) (h : (exRun t l gr g n).map Prod.snd = some w) (rb : Bool) :
    ∃ r, Search (exV t l gr g) rb w r := by
  unfold exRun at h
  cases he : exec (toProb (exV t l gr g)) n (init (toProb (exV t l gr g)) [0, 0, 0]) with
  | none => rw [he] at h; simp at h
  | some r =>
    rw [he] at h
    simp only [Option.map_some, Option.some.injEq] at h
    subst h
    exact ⟨_, .run (by simp [exV]) (by simp [exV]; exact fun h => hg h.symm) (exV_run t l gr g n he)⟩

/-- C05/C06/C08/C10 are about real runs: two tasks per round, goal given with heading -1 (= 3),
with and without a queue limit. -/
example : ∃ path, Search (exV 2 0 turns [2, 0, -1]) false .found (true, path) := by
  obtain ⟨⟨b, p⟩, h⟩ := exV_search (t := 2) (l := 0) (gr := turns) (g := [2, 0, -1]) (n := 10)
    (w := .found) (by decide) (by decide) false
  have := found_returns_true (by simp [exV]) h
  simp only at this; subst this
  exact ⟨p, h⟩
example : ∃ path, Search (exV 2 3 turns [2, 0, -1]) false .found (true, path) := by
  obtain ⟨⟨b, p⟩, h⟩ := exV_search (t := 2) (l := 3) (gr := turns) (g := [2, 0, -1]) (n := 10)
    (w := .found) (by decide) (by decide) false
  have := found_returns_true (by simp [exV]) h
  simp only at this; subst this
  exact ⟨p, h⟩
example : WellFormed (exV 2 3 turns [2, 0, -1]) := exV_wf _ _ _ (by simp) _ rfl

/-- C07: an exhausted run whose hypotheses (including the no-overflow one) hold. -/
example : ∃ r, Search (exV 2 0 [[1, 0, 0]] [0, 0, 1]) false .exhausted r ∧ r.1 = false ∧
    ∀ x, IsNormalOf (exV 2 0 [[1, 0, 0]] [0, 0, 1]) x [0, 0, 1] →
      ¬ Vec.Spec.Reachable (exV 2 0 [[1, 0, 0]] [0, 0, 1]) x := by
  obtain ⟨r, h⟩ := exV_search (t := 2) (l := 0) (gr := [[1, 0, 0]]) (g := [0, 0, 1]) (n := 10)
    (w := .exhausted) (by decide) (by decide) false
  refine ⟨r, h, exhausted_unreachable (exV_wf _ _ _ (by simp) _ rfl) (by decide) rfl
    (by simp [exV, CostType.top]) (by decide) ?_ h⟩
  have hroute : ∀ p c, Route (toProb (exV 2 0 [[1, 0, 0]] [0, 0, 1])) p c →
      p = [c, 0, 0] ∧ 0 ≤ c ∧ c < 3 := by
    intro p c hr
    induction hr with
    | start h =>
      have h2 : (_, _) ∈ [(([0, 0, 0] : List Int), (0 : Int))] := h
      simp only [List.mem_singleton, Prod.mk.injEq] at h2
      obtain ⟨rfl, rfl⟩ := h2
      simp
    | @move p x c _ hm ih =>
      obtain ⟨rfl, h0, h3⟩ := ih
      have hst := (move_iff (exV_wf 2 0 [[1, 0, 0]] (by simp) [0, 0, 1] rfl)
        (p := [c, 0, 0]) rfl).mp hm
      obtain ⟨⟨d, hd, hn⟩, hin, _⟩ := hst
      simp only [exV, List.mem_singleton] at hd
      subst hd
      have hx := isNormal_unique (P := exV 2 0 [[1, 0, 0]] [0, 0, 1]) (v := [c + 1, 0 + 0, 0 + 0]) rfl hn (y := [c + 1, 0, 0])
        (by
          refine ⟨rfl, ?_⟩
          intro i h1 h2 h3
          simp only [exV, List.length_cons, List.length_nil] at h1 h2 h3 ⊢
          match i with
          | 0 => simp
          | 1 => simp
          | 2 => simp [CyclicVec.Spec.InUnsignedRange, CyclicVec.Spec.SameHeading]
          | n + 3 => omega)
      subst hx
      simp only [InMap, exV] at hin
      cases hin with
      | cons h1 _ => exact ⟨rfl, h1.1, h1.2⟩
  intro p c x hr _ _
  obtain ⟨_, _, h⟩ := hroute p c hr
  show c + 1 < 1000000
  omega

/-- C08: a cost type as required (saturation plays no role). -/
example : ∃ (C : Type) (_ : CostType C), (0 : C) ≤ CostType.top ∧ (0 : C) < CostType.top := by
  let inst : CostType (WithBot ℕ) :=
    { (inferInstance : LinearOrder (WithBot ℕ)), (inferInstance : Add (WithBot ℕ)),
      (inferInstance : Zero (WithBot ℕ)) with
      top := ((1000 : ℕ) : WithBot ℕ)
      neg1 := ⊥
      neg1_lt_zero := WithBot.bot_lt_coe 0
      le_add := fun c w h => le_add_of_nonneg_right h }
  refine ⟨WithBot ℕ, inst, ?_, ?_⟩
  · exact WithBot.coe_le_coe.mpr (Nat.zero_le 1000)
  · exact WithBot.coe_lt_coe.mpr (Nat.zero_lt_succ 999)

/-- Diamond: 0 → 1 → 3 costs 1 + 1, 0 → 3 costs 10. -/
def dia (tasks : Nat) : Prob Nat Int where
  nexts v := if v = 0 then [1, 3] else if v = 1 then [3] else []
  estim _ := 0
  cost a b := if a = 0 ∧ b = 3 then 10 else 1
  starts := [(0, 0)]
  startEstim _ := 0
  goal := 3
  leave _ _ := false
  tasks := tasks
  limit := 0

theorem route_nonneg {V C : Type} [CostType C] {P : Prob V C} (hs : ∀ x ∈ P.starts, (0 : C) ≤ x.2)
    {x : V} {c : C} (h : Route P x c) : 0 ≤ c := by
  induction h with
  | start h => exact hs _ h
  | move _ hm ih => exact le_trans ih (CostType.le_add _ _ hm.2.2.1)

/-- C09: the hypotheses of `path_optimal` hold for the diamond with one task per round. -/
theorem dia_hyp : OptHyp (dia 1) where
  tasks := rfl
  limit := rfl
  leave _ _ := rfl
  leaveStart _ _ _ := rfl
  consistent p c x _ hm := by
    have h := hm.2.2.1
    show (0 : Int) ≤ (dia 1).cost p x + 0
    omega
  startEstim s c h := by simp [dia]
  startBest s c c' h hr := by
    have h2 : (s, c) ∈ [((0 : Nat), (0 : Int))] := h
    simp only [List.mem_singleton, Prod.mk.injEq] at h2
    obtain ⟨rfl, rfl⟩ := h2
    exact route_nonneg (P := dia 1) (by simp [dia]) hr
  starts0 := by simp [dia, CostType.top]
  top0 := by decide

theorem dia_run (t n : Nat) {s f} (h : exec (dia t) n (init (dia t) 0) = some (s, f)) : Final (dia t) s f :=
  exec_final _ n _ (.init _ (List.mem_map.mpr ⟨(0, 0), List.mem_cons_self, rfl⟩)) h

example : ∃ s, Final (dia 1) s (.found 3) ∧ result (dia 1) s (.found 3) false = (true, [0, 1, 3]) := by
  refine ⟨_, dia_run 1 6 rfl, ?_⟩
  show findPath [0] [(3, 1), (1, 0)] 3 [] = _
  rw [findPath_eq_step (p := 1) (by decide) (by decide), findPath_eq_step (p := 0) (by decide) (by decide),
    findPath_eq_start (by decide)]

/-- Finding (C09 is false for two or more tasks per round): same problem, two tasks per round; the goal is
taken in the round in which its cheaper predecessor is expanded, and the search returns the direct
move of cost 10 although a route of cost 2 exists. -/
theorem batch_not_optimal : ∃ s, Final (dia 2) s (.found 3) ∧
    result (dia 2) s (.found 3) false = (true, [0, 3]) ∧ movesCost (dia 2) [0, 3] 0 = 10 ∧
    Route (dia 2) 3 2 := by
  refine ⟨_, dia_run 2 6 rfl, ?_, by decide, ?_⟩
  · show findPath [0] [(3, 0), (1, 0)] 3 [] = _
    rw [findPath_eq_step (p := 0) (by decide) (by decide), findPath_eq_start (by decide)]
  · have h0 : Route (dia 2) 0 0 := .start (by simp [dia])
    have h1 : Route (dia 2) 1 (0 + 1) := .move h0 ⟨by decide, ⟨by decide, by decide⟩, ⟨by decide, by decide⟩⟩
    have h2 : Route (dia 2) 3 (0 + 1 + 1) := .move h1 ⟨by decide, ⟨by decide, by decide⟩, ⟨by decide, by decide⟩⟩
    exact h2

/-- Two starts, the second one expensive (10) but reachable from the first with cost 1. -/
def twoStarts : Prob Nat Int where
  nexts v := if v = 0 then [1] else if v = 1 then [2] else []
  estim _ := 0
  cost _ _ := 1
  starts := [(0, 0), (1, 10)]
  startEstim _ := 0
  goal := 2
  leave _ _ := false
  tasks := 1
  limit := 0

/-- Finding (C09 needs `startBest`): with several starts, reconstruction stops at the first start
it meets, so the returned path begins at a start whose own cost was never the one used: here cost
10 + 1 although a route of cost 2 exists. -/
theorem multi_start_not_optimal : ∃ s, Final twoStarts s (.found 2) ∧
    result twoStarts s (.found 2) false = (true, [1, 2]) ∧ movesCost twoStarts [1, 2] 10 = 11 ∧
    (∀ c, ((1 : Nat), c) ∈ twoStarts.starts → c = 10) ∧ Route twoStarts 2 2 := by
  refine ⟨_, exec_final _ 6 _ (.init 0 (by decide)) rfl, ?_, by decide, ?_, ?_⟩
  · show findPath [0, 1] [(2, 1), (1, 0)] 2 [] = _
    rw [findPath_eq_step (p := 1) (by decide) (by decide), findPath_eq_start (by decide)]
  · intro c hc
    have h2 : (1, c) ∈ [((0 : Nat), (0 : Int)), (1, 10)] := hc
    simpa using h2
  · have h0 : Route twoStarts 0 0 := .start (by simp [twoStarts])
    have h1 : Route twoStarts 1 (0 + 1) := .move h0 ⟨by decide, ⟨by decide, by decide⟩, ⟨by decide, by decide⟩⟩
    have h2 : Route twoStarts 2 (0 + 1 + 1) := .move h1 ⟨by decide, ⟨by decide, by decide⟩, ⟨by decide, by decide⟩⟩
    exact h2

end Examples
end Verif.Astar
