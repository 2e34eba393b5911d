import Verif.Patrol.Spec
/-! # Properties of the patrol node (C51) -/
namespace Verif.Patrol
open Spec

/-- Simulation: the members are determined by the observations. -/
def Inv (h : List (Event P)) : Prop :=
    (run h).client = status h ∧
    ((¬ Finished h ∧ (run h).path = lastPath h ∧ goals h = (lastPath h).take (run h).pos ∧
        (run h).pos ≤ (lastPath h).length) ∨
      (Finished h ∧ (run h).path = [] ∧ goals h = lastPath h ∧ lastPath h ≠ []))

theorem run_spec (h : List (Event P)) : Inv h := by
  induction h with
  | nil => exact ⟨rfl, .inl ⟨id, rfl, rfl, Nat.le_refl _⟩⟩
  | cons e h ih =>
    obtain ⟨hc, hi⟩ := ih
    cases e with
    | path ps =>
      refine ⟨?_, .inl ⟨id, rfl, by simp [goals, run, step, cbPath], by simp [run, step, cbPath]⟩⟩
      simp only [run, step, cbPath, status, output]
      split
      · rename_i hx; split at hx <;> cases hx
      · exact hc
    | state g =>
      refine ⟨rfl, ?_⟩
      rcases hi with ⟨h0, h1, h2, h3⟩ | ⟨h0, h1, h2, h3⟩
      · exact .inl ⟨h0, h1, by simpa [goals, goalOf, output, step, run, lastPath] using h2, h3⟩
      · exact .inr ⟨h0, h1, by simpa [goals, goalOf, output, step, run, lastPath] using h2, h3⟩
    | tick =>
      -- a turn that does nothing
      have idle : tick (run h) = (run h, none) →
          ¬ (goals h = lastPath h ∧ goals h ≠ [] ∧ Ended (status h)) ∨ Finished h → Inv (.tick :: h) := fun ht hq => by
        have ho : output h .tick = none := by simp [output, step, ht]
        have hr : run (.tick :: h) = run h := by simp [run, step, ht]
        unfold Inv
        rw [hr]
        refine ⟨by simp only [status, ho]; exact hc, ?_⟩
        have hg : goals (.tick :: h) = goals h := by simp [goals, ho, goalOf]
        rw [hg]
        rcases hi with ⟨h0, h1, h2, h3⟩ | ⟨h0, h1, h2, h3⟩
        · refine .inl ⟨?_, h1, h2, h3⟩
          rintro (hf | hf)
          · exact h0 hf
          · rcases hq with hq | hq
            · exact hq hf
            · exact h0 hq
        · exact .inr ⟨.inl h0, h1, h2, h3⟩
      rcases hi with ⟨h0, h1, h2, h3⟩ | ⟨h0, h1, h2, h3⟩
      · by_cases hl : lastPath h = []
        · refine idle (by simp [tick, h1, hl]) (.inl ?_)
          rintro ⟨a, b, _⟩; exact b (a.trans hl)
        · -- the path is running
          have hlen : (run h).path.length ≠ 0 := by rw [h1]; simpa using hl
          have send : tick (run h) = sendNextGoal (run h) → ((run h).pos ≠ 0 → Ended (status h)) → Inv (.tick :: h) := fun ht he => by
            cases hp : (lastPath h)[(run h).pos]? with
            | none =>
              have hpos : (run h).pos = (lastPath h).length := by
                have := List.getElem?_eq_none_iff.mp hp; omega
              have hne : (run h).pos ≠ 0 := by
                intro hz; rw [hz] at hpos; exact hl (List.length_eq_zero_iff.mp hpos.symm)
              have ht' : tick (run h) = ({ run h with path := [] }, none) := by
                rw [ht]; simp [sendNextGoal, h1, hp]
              have ho : output h .tick = none := by simp [output, step, ht']
              have hr : run (.tick :: h) = { run h with path := [] } := by simp [run, step, ht']
              have hg : goals (.tick :: h) = goals h := by simp [goals, ho, goalOf]
              have hgl : goals h = lastPath h := by rw [h2, hpos, List.take_length]
              refine ⟨by rw [hr]; simp only [status, ho]; exact hc, .inr ⟨.inr ⟨hgl, by rw [hgl]; exact hl, he hne⟩, by rw [hr],
                by rw [hg]; exact hgl, hl⟩⟩
            | some p =>
              have hlt : (run h).pos < (lastPath h).length := (List.getElem?_eq_some_iff.mp hp).1
              have ht' : tick (run h) = ({ run h with pos := (run h).pos + 1, client := .pending }, some (.goal p)) := by
                rw [ht]; simp [sendNextGoal, h1, hp]
              have ho : output h .tick = some (.goal p) := by simp [output, step, ht']
              have hr : run (.tick :: h) = { run h with pos := (run h).pos + 1, client := .pending } := by
                simp [run, step, ht']
              refine ⟨by rw [hr]; simp only [status, ho], .inl ⟨?_, by rw [hr]; exact h1, ?_, by rw [hr]; exact hlt⟩⟩
              · rintro (hf | ⟨hf, _⟩)
                · exact h0 hf
                · rw [h2] at hf
                  have := congrArg List.length hf
                  rw [List.length_take] at this; omega
              · rw [hr]
                simp only [goals, ho, goalOf, lastPath]
                rw [h2, List.take_add_one, hp]; rfl
          by_cases hz : (run h).pos = 0
          · exact send (by simp [tick, hlen, hz]) (fun h => absurd hz h)
          · by_cases he : Ended (status h)
            · refine send ?_ (fun _ => he)
              rcases he with he | he <;> simp [tick, hlen, hz, hc, he]
            · refine idle ?_ (.inl fun hx => he hx.2.2)
              rw [← hc] at he
              have h4 : (run h).client ≠ .succeeded := fun hx => he (.inl hx)
              have h5 : (run h).client ≠ .aborted := fun hx => he (.inr hx)
              simp [tick, hlen, hz, h4, h5]
      · exact idle (by simp [tick, h1]) (.inr h0)

/-- **C51** (order, nothing skipped or repeated).  After every history the goals sent since the last path are an
initial segment of that path. -/
theorem goals_in_order (h : List (Event P)) : goals h <+: lastPath h := by
  rcases (run_spec h).2 with ⟨_, _, h2, _⟩ | ⟨_, _, h2, _⟩
  · rw [h2]; exact List.take_prefix _ _
  · rw [h2]; exact List.prefix_refl _

/-- **C51** (when a goal is sent).  On a turn of the loop a goal is sent exactly when it is the next pose of the path and
either it is the first or the previous goal succeeded or was aborted.  No other event sends a goal. -/
theorem sends_iff (h : List (Event P)) (e : Event P) (p : P) :
    output h e = some (.goal p) ↔
      e = .tick ∧ goals h ++ [p] <+: lastPath h ∧ (goals h = [] ∨ Ended (status h)) := by
  obtain ⟨hc, hi⟩ := run_spec h
  cases e with
  | path ps =>
    simp only [output, step, cbPath, reduceCtorEq, false_and, iff_false]
    split <;> simp
  | state g => simp [output, step]
  | tick =>
    simp only [output, step, true_and]
    rcases hi with ⟨h0, h1, h2, h3⟩ | ⟨h0, h1, h2, h3⟩
    · have hg : goals h = [] ↔ (run h).pos = 0 ∨ lastPath h = [] := by
        rw [h2]; exact List.take_eq_nil_iff
      have hpre : goals h ++ [p] <+: lastPath h ↔ (lastPath h)[(run h).pos]? = some p := by
        constructor
        · rintro ⟨t, ht⟩
          have hlen : (goals h).length = (run h).pos := by rw [h2, List.length_take]; omega
          rw [← ht, ← hlen]; simp
        · intro hp
          have := List.take_prefix ((run h).pos + 1) (lastPath h)
          rwa [List.take_add_one, hp, ← h2] at this
      have hs : (sendNextGoal (run h)).2 = some (.goal p) ↔ (lastPath h)[(run h).pos]? = some p := by
        simp only [sendNextGoal, h1]
        cases (lastPath h)[(run h).pos]? <;> simp
      rw [hpre]
      by_cases hl : lastPath h = []
      · simp [tick, h1, hl]
      · have hlen : (run h).path.length ≠ 0 := by rw [h1]; simpa using hl
        by_cases hz : (run h).pos = 0
        · rw [show tick (run h) = sendNextGoal (run h) by simp [tick, hlen, hz], hs]
          simp [hg.mpr (.inl hz)]
        · have hgn : goals h ≠ [] := by rw [Ne, hg]; simp [hz, hl]
          by_cases he : Ended (status h)
          · rw [show tick (run h) = sendNextGoal (run h) by
              rcases he with he | he <;> simp [tick, hlen, hz, hc, he], hs]
            simp [he]
          · have he' := he
            rw [← hc] at he'
            have h4 : (run h).client ≠ .succeeded := fun hx => he' (.inl hx)
            have h5 : (run h).client ≠ .aborted := fun hx => he' (.inr hx)
            simp [tick, hlen, hz, h4, h5, hgn, he]
    · simp only [tick, h1, List.length_nil, if_true]
      constructor
      · intro hx; cases hx
      · rintro ⟨hx, _⟩
        rw [h2] at hx
        have := hx.length_le
        simp at this
        omega

/-- **C51** (a new path).  A path cancels outstanding goals exactly when the previous patrol was not finished, and the
patrol restarts from its first pose. -/
theorem new_path (h : List (Event P)) (p : P) (ps : List P) :
    (output h (.path (p :: ps)) = some .cancelAll ↔ lastPath h ≠ [] ∧ ¬ Finished h) ∧
    output (.path (p :: ps) :: h) .tick = some (.goal p) := by
  constructor
  · obtain ⟨hc, hi⟩ := run_spec h
    simp only [output, step, cbPath]
    rcases hi with ⟨h0, h1, h2, h3⟩ | ⟨h0, h1, h2, h3⟩
    · rw [h1]
      simp [h0, List.length_pos_iff]
    · simp [h1, h0]
  · rw [sends_iff]
    refine ⟨rfl, ?_, .inl rfl⟩
    simp [goals, lastPath]

theorem goals_laps (h : List (Event P)) (r : GoalState) (hr : Ended r) (ps : List P) (n : Nat) :
    goals (laps r n ++ .tick :: .path ps :: h) = ps.take (n + 1) ∧
      lastPath (laps r n ++ .tick :: .path ps :: h) = ps := by
  induction n with
  | zero =>
    refine ⟨?_, rfl⟩
    simp only [laps, List.nil_append, goals]
    cases ps with
    | nil => simp [output, step, run, cbPath, tick, goalOf]
    | cons p ps => rw [(new_path h p ps).2]; rfl
  | succ n ih =>
    obtain ⟨i1, i2⟩ := ih
    refine ⟨?_, by simpa [laps, lastPath] using i2⟩
    simp only [laps, List.cons_append, goals]
    generalize hh : laps r n ++ .tick :: .path ps :: h = k at i1 i2
    have hk : goals (Event.state r :: k) = ps.take (n + 1) := by
      simp [goals, output, step, goalOf, i1]
    have hlp : lastPath (Event.state r :: k) = ps := by simpa [lastPath] using i2
    have hs : status (Event.state r :: k) = r := rfl
    have hnil : goals k ++ goalOf (output k (.state r)) = goals (Event.state r :: k) := rfl
    rw [hnil]
    cases hp : ps[n + 1]? with
    | none =>
      have : goalOf (output (Event.state r :: k) .tick) = [] := by
        cases ho : output (Event.state r :: k) .tick with
        | none => rfl
        | some o =>
          cases o with
          | cancelAll => rfl
          | goal q =>
            exfalso
            have := ((sends_iff _ _ _).mp ho).2.1.length_le
            rw [hk, hlp] at this
            have hp' := List.getElem?_eq_none_iff.mp hp
            simp at this
            omega
      rw [this, hk, List.append_nil, List.take_add_one (i := n + 1), hp]; simp
    | some p =>
      have : output (Event.state r :: k) .tick = some (.goal p) := by
        rw [sends_iff, hk, hlp, hs]
        refine ⟨rfl, ?_, .inr hr⟩
        have := List.take_prefix (n + 1 + 1) ps
        rwa [List.take_add_one, hp] at this
      rw [this, hk, List.take_add_one (i := n + 1), hp]; rfl

/-- **C51** (completion).  From every history: if the server ends every goal (successfully or not), every pose of a new
path is sent. -/
theorem patrol_completes (h : List (Event P)) (ps : List P) (r : GoalState) (hr : Ended r) :
    goals (laps r ps.length ++ .tick :: .path ps :: h) = ps := by
  rw [(goals_laps h r hr ps ps.length).1, List.take_of_length_le (by omega)]

/-- **C51** (limit of the claim).  A goal that ends preempted, rejected or recalled stalls the patrol: however many turns
pass, no further goal is sent. -/
theorem stalls (h : List (Event P)) (g : GoalState) (hg : ¬ Ended g) (hn : goals h ≠ []) (n : Nat) :
    goals (List.replicate n .tick ++ .state g :: h) = goals h := by
  have key : ∀ n, goals (List.replicate n Event.tick ++ .state g :: h) = goals h ∧
      status (List.replicate n Event.tick ++ .state g :: h) = g := by
    intro n
    induction n with
    | zero => exact ⟨by simp [goals, output, step, goalOf], rfl⟩
    | succ n ih =>
      obtain ⟨i1, i2⟩ := ih
      rw [List.replicate_succ, List.cons_append]
      generalize List.replicate n Event.tick ++ Event.state g :: h = k at i1 i2
      have hno : ∀ p, output k .tick ≠ some (.goal p) := by
        intro p hp
        rcases ((sends_iff _ _ _).mp hp).2.2 with h1 | h1
        · exact hn (i1 ▸ h1)
        · rw [i2] at h1; exact hg h1
      cases ho : output k .tick with
      | none => exact ⟨by simp [goals, ho, goalOf, i1], by simp [status, ho, i2]⟩
      | some o =>
        cases o with
        | cancelAll => exact ⟨by simp [goals, ho, goalOf, i1], by simp [status, ho, i2]⟩
        | goal p => exact absurd ho (hno p)
  exact (key n).1

/-! ## Concrete cases -/

example : goals [.tick, .state .succeeded, .tick, .tick, .path [10, 20, 30]] = [10, 20] := by decide
example : output [.tick, .path [10, 20, 30]] (.path [1]) = some .cancelAll := by decide
example : goals (.state .preempted :: [.tick, .path [10, 20]]) = [10] ∧ ¬ Ended .preempted := by decide

end Verif.Patrol
