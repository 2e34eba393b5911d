import Verif.Astar.Props
import Mathlib.Algebra.Group.Submonoid.Pointwise
import Mathlib.Order.WellFoundedSet
import Mathlib.Algebra.Order.Field.Basic
import Mathlib.Algebra.Order.Monoid.WithTop
import Mathlib.Data.Set.Finite.Lattice
import Mathlib.Tactic.NormNum
/-! # Termination with exact costs

C08 for costs that are not well-founded as a type (rational or real numbers): the values stored by a search are sums of
finitely many non-negative numbers, and such sums cannot decrease for ever. -/
set_option linter.unusedSectionVars false
set_option linter.unusedVariables false
namespace Verif.Astar
open Spec
open Verif.Astar.Vec Verif.Astar.Vec.Spec

section
variable {C : Type} [CostType C]

theorem route_cell {P : VProb C} (wf : WellFormed P) {p : List Int} {c : C} (h : Route (toProb P) p c) :
    p ∈ cells P ∧ p.length = P.size.length := by
  have hcl := closed_cells wf
  induction h with
  | start h =>
    refine ⟨hcl.1 _ h, ?_⟩
    simp only [toProb, List.mem_map, Prod.mk.injEq] at h
    obtain ⟨s, hs, rfl, rfl⟩ := h
    exact norm_length wf (wf.starts_len s hs)
  | move _ hm ih => exact ⟨hcl.2 _ ih.1 _ hm.1, InMap.length ((move_iff wf ih.2).mp hm).2.1⟩

/-- If all costs of routes lie in a well-founded set, there is no infinite run, whatever the schedule. -/
theorem ends_in {P : VProb C} (wf : WellFormed P) (hs : ∀ x ∈ P.starts, (0 : C) ≤ x.2) (h0 : (0 : C) ≤ CostType.top)
    {W : Set C} (hW : W.IsWF) (htop : CostType.top ∈ W) (hneg : CostType.neg1 ∈ W) (hst : ∀ x ∈ P.starts, x.2 ∈ W)
    (hcl : ∀ c ∈ W, 0 ≤ c → ∀ p ∈ cells P, ∀ x, Vec.Spec.Step P p x → c + P.cost p x ∈ W)
    (run : Nat → St (List Int) C) (h : Reach (toProb P) (run 0)) : ¬ ∀ n, Round (toProb P) (run n) (run (n + 1)) := by
  intro hall
  have hs' : ∀ x ∈ (toProb P).starts, (0 : C) ≤ x.2 := by
    intro x hx
    simp only [toProb, List.mem_map] at hx
    obtain ⟨y, hy, rfl⟩ := hx
    exact hs y hy
  have hreach : ∀ n, Reach (toProb P) (run n) := by
    intro n
    induction n with
    | zero => exact h
    | succ n ih => exact .round ih (hall n)
  have hroute : ∀ {p c}, Route (toProb P) p c → c ∈ W ∧ 0 ≤ c := by
    intro p c hr
    induction hr with
    | start h =>
      simp only [toProb, List.mem_map, Prod.mk.injEq] at h
      obtain ⟨s, hm, -, rfl⟩ := h
      exact ⟨hst s hm, hs s hm⟩
    | move hr hm ih =>
      obtain ⟨h1, h2⟩ := route_cell wf hr
      have hst := (move_iff wf h2).mp hm
      exact ⟨hcl _ ih.1 ih.2 _ h1 _ hst, le_trans ih.2 (CostType.le_add _ _ hst.2.2.2.1)⟩
  have hval : ∀ n v, (run n).g v ∈ W := by
    intro n v
    rcases (inv_reach hs' (hreach n)).ghost v with h1 | h1
    · rw [h1]
      rcases (invR_reach (hreach n)).vals v with h2 | h2
      · rw [h2]; exact htop
      · exact (hroute h2).1
    · rw [h1]; exact hneg
  haveI : WellFoundedLT W := ⟨hW⟩
  have hL := closed_cells wf
  have hwf : WellFounded (Prod.Lex (α := {v // v ∈ cells P} → W) (β := ℕ) (· < ·) (· < ·)) :=
    (wellFounded_lt (α := {v // v ∈ cells P} → W)).prod_lex wellFounded_lt
  let m : Nat → ({v // v ∈ cells P} → W) × ℕ := fun n => (fun v => ⟨(run n).g v.1, hval n v.1⟩, (run n).open_.length)
  obtain ⟨y, ⟨n, rfl⟩, hmin⟩ := hwf.has_min (Set.range m) ⟨m 0, 0, rfl⟩
  refine hmin (m (n + 1)) ⟨n + 1, rfl⟩ ?_
  obtain ⟨_, h1, h2⟩ := round_effect hL hs' h0 (hreach n) (reach_in hL hs' h0 (hreach n)) (hall n)
  show Prod.Lex _ _ _ _
  rw [Prod.lex_def]
  have hle : (m (n + 1)).1 ≤ (m n).1 := fun v => h1 v.1
  rcases h2 with ⟨v, hv, hlt⟩ | h2
  · exact .inl (lt_of_le_not_ge hle (fun hge => absurd (hge ⟨v, hv⟩) (not_le.mpr hlt)))
  · rcases lt_or_eq_of_le hle with h | h
    · exact .inl h
    · exact .inr ⟨h, h2⟩

/-- If there is no infinite run, a search whose progress callback does not stop it has a result. -/
theorem has_result {P : VProb C}
    (hend : ∀ run : Nat → St (List Int) C, Reach (toProb P) (run 0) → ¬ ∀ n, Round (toProb P) (run n) (run (n + 1)))
    (rb : Bool) : ∃ why r, why ≠ .aborted ∧ Search P rb why r := by
  by_cases h1 : P.starts = []
  · exact ⟨_, _, by simp, .noStart h1⟩
  by_cases h2 : ∃ s ∈ P.starts, s.1 = P.goal
  · exact ⟨_, _, by simp, .same h2⟩
  have h2' : ∀ s ∈ P.starts, s.1 ≠ P.goal := fun s hs he => h2 ⟨s, hs, he⟩
  by_contra hno
  have hfin : ∀ s f, Final (toProb P) s f → whyOf f = .aborted := by
    intro s f hf
    by_contra hne
    exact hno ⟨_, _, hne, .run h1 h2' hf⟩
  have hstep : ∀ s, Reach (toProb P) s → ∃ s', Round (toProb P) s s' := by
    intro s hr
    obtain ⟨cs, o', r, hc⟩ := collect_total (toProb P) (toProb P).tasks s.open_
    cases r with
    | some e => exact absurd (hfin _ _ (.found hr hc)) (by simp [whyOf])
    | none =>
      by_cases hcs : cs = []
      · subst hcs
        exact absurd (hfin _ _ (.exhausted hr hc)) (by simp [whyOf])
      · obtain ⟨s', h⟩ := acts_total (toProb P).limit (cs.flatMap (expand (toProb P) s.g)) { s with open_ := o', better := s.better }
        exact ⟨s', .mk hc hcs (List.Perm.refl _) (.inl rfl) h⟩
  obtain ⟨x, hx⟩ := List.exists_mem_of_ne_nil _ h1
  have hb : Vec.norm P x.1 ∈ (toProb P).starts.map Prod.fst := by
    simp only [toProb, List.map_map, List.mem_map, Function.comp]
    exact ⟨x, hx, rfl⟩
  let R := {s : St (List Int) C // Reach (toProb P) s}
  let next : R → R := fun s => ⟨(hstep s.1 s.2).choose, .round s.2 (hstep s.1 s.2).choose_spec⟩
  let run : Nat → R := fun n => Nat.rec ⟨_, .init _ hb⟩ (fun _ s => next s) n
  exact hend (fun n => (run n).1) (run 0).2 (fun n => (hstep (run n).1 (run n).2).choose_spec)

end

/-- Sums of finitely many non-negative numbers, with a largest element and -1 added, cannot decrease for ever. -/
theorem sums_wf {K : Type} [AddCommGroup K] [LinearOrder K] [IsOrderedAddMonoid K] (S : Set K) (hS : S.Finite)
    (h0 : ∀ x ∈ S, 0 ≤ x) (m : WithTop K) :
    (insert ⊤ (insert m ((fun r : K => (r : WithTop K)) '' (AddSubmonoid.closure S : Set K)))).IsWF := by
  apply Set.IsWF.insert
  apply Set.IsWF.insert
  exact ((Set.IsPWO.addSubmonoid_closure h0 hS.isPWO).image_of_monotone (fun a b h => WithTop.coe_le_coe.2 h)).isWF

section
variable {K : Type} [Field K] [LinearOrder K] [IsStrictOrderedRing K]

/-- Exact costs with a largest value. -/
@[reducible] def exactCost : CostType (WithTop K) :=
  { (inferInstance : LinearOrder (WithTop K)), (inferInstance : Add (WithTop K)), (inferInstance : Zero (WithTop K)) with
    top := ⊤
    neg1 := ((-1 : K) : WithTop K)
    neg1_lt_zero := by
      change ((-1 : K) : WithTop K) < ((0 : K) : WithTop K)
      rw [WithTop.coe_lt_coe]; norm_num
    le_add := fun c w h => by
      change c ≤ c + w
      exact le_add_of_nonneg_right h }

attribute [local instance] exactCost

/-- The finite costs of the moves between cells of the map and of the starts. -/
def costSet (P : VProb (WithTop K)) : Set K :=
  {r | 0 ≤ r ∧ ((∃ s ∈ P.starts, s.2 = (r : WithTop K)) ∨ ∃ p ∈ cells P, ∃ x ∈ cells P, P.cost p x = (r : WithTop K))}

theorem costSet_finite (P : VProb (WithTop K)) : (costSet P).Finite := by
  have hfin : (((P.starts.map Prod.snd) ++ ((cells P).flatMap fun p => (cells P).map fun x => P.cost p x)).toFinset
      : Set (WithTop K)).Finite := Finset.finite_toSet _
  refine (hfin.preimage (f := fun r : K => (r : WithTop K)) (fun a _ b _ h => WithTop.coe_injective h)).subset ?_
  rintro r ⟨-, h⟩
  simp only [Set.mem_preimage, List.coe_toFinset, Set.mem_setOf_eq, List.mem_append, List.mem_map, List.mem_flatMap]
  rcases h with ⟨s, hs, h⟩ | ⟨p, hp, x, hx, h⟩
  · exact Or.inl ⟨s, hs, h⟩
  · exact Or.inr ⟨p, hp, x, hx, h⟩

/-- A search over a well-formed problem with exact costs does not run for ever, for any batch size, queue
limit and schedule. -/
theorem ends_exact {P : VProb (WithTop K)} (wf : Vec.Spec.WellFormed P) (hs : ∀ x ∈ P.starts, (0 : WithTop K) ≤ x.2)
    (run : Nat → St (List Int) (WithTop K)) (h : Reach (toProb P) (run 0)) : ¬ ∀ n, Round (toProb P) (run n) (run (n + 1)) := by
  refine ends_in wf hs le_top (sums_wf (costSet P) (costSet_finite P) (fun x hx => hx.1) ((-1 : K) : WithTop K)) ?_ ?_ ?_ ?_ run h
  · exact Set.mem_insert _ _
  · exact Set.mem_insert_of_mem _ (Set.mem_insert _ _)
  · intro x hx
    rcases h : x.2 with _ | r
    · exact Set.mem_insert _ _
    · refine Set.mem_insert_of_mem _ (Set.mem_insert_of_mem _ ⟨r, ?_, rfl⟩)
      refine AddSubmonoid.subset_closure ⟨?_, Or.inl ⟨x, hx, h⟩⟩
      have := hs x hx
      rw [h] at this
      exact WithTop.coe_le_coe.1 this
  · intro c hc h0 p hp x hst
    have hl : p.length = P.size.length := by
      simp only [cells, List.mem_filter, decide_eq_true_eq] at hp
      exact hp.2
    have hx : x ∈ cells P := (closed_cells wf).2 p hp x ((move_iff wf hl).2 hst).1
    rcases hc with rfl | rfl | ⟨r, hr, rfl⟩
    · rw [WithTop.top_add]
      exact Set.mem_insert _ _
    · exact absurd h0 (not_le.2 (CostType.neg1_lt_zero (C := WithTop K)))
    · rcases hw : P.cost p x with _ | w
      · exact Set.mem_insert _ _
      · refine Set.mem_insert_of_mem _ (Set.mem_insert_of_mem _ ⟨r + w, ?_, WithTop.coe_add r w⟩)
        refine AddSubmonoid.add_mem _ hr (AddSubmonoid.subset_closure ⟨?_, Or.inr ⟨p, hp, x, hx, hw⟩⟩)
        have := hst.2.2.2.1
        rw [hw] at this
        exact WithTop.coe_le_coe.1 this

end

end Verif.Astar
