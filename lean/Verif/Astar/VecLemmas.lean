import Verif.Astar.VecSpec
import Verif.Astar.Term
import Verif.CyclicVec.Props

set_option linter.unusedSectionVars false
set_option linter.unusedVariables false
namespace Verif.Astar.Vec
open Verif.Astar Verif.CyclicVec Verif.CyclicVec.Spec Spec

variable {C : Type} [CostType C]

theorem isNormal_unique {P : VProb C} {x y v : List Int} (hlen : v.length = P.size.length)
    (hx : IsNormalOf P x v) (hy : IsNormalOf P y v) : x = y := by
  obtain ⟨hl, h⟩ := hx
  obtain ⟨hl', h'⟩ := hy
  apply List.ext_getElem (by omega)
  intro i h1 h2
  have a := h i (by omega) (by omega) h1
  have b := h' i (by omega) (by omega) h2
  by_cases hi : i < P.nonc
  · rw [a.1 hi, b.1 hi]
  · exact unsigned_unique _ _ _ (a.2 (by omega)).1 (b.2 (by omega)).1
      ((a.2 (by omega)).2.trans (b.2 (by omega)).2.symm)

theorem cyc_spec {P : VProb C} (wf : WellFormed P) {v : List Int} (hlen : v.length = P.size.length) :
    ∃ w, cycleUnsigned P.nonc v P.size = some w ∧ IsNormalOf P w v :=
  cycleUnsigned_spec P.nonc v P.size hlen (fun i h _ => wf.size_pos _ (List.getElem_mem h))

theorem norm_spec {P : VProb C} (wf : WellFormed P) {v : List Int} (hlen : v.length = P.size.length) :
    IsNormalOf P (norm P v) v := by
  obtain ⟨w, hw, hn⟩ := cyc_spec wf hlen
  simp only [norm, hw, Option.getD_some]; exact hn

theorem norm_iff {P : VProb C} (wf : WellFormed P) {v x : List Int} (hlen : v.length = P.size.length) :
    IsNormalOf P x v ↔ x = norm P v :=
  ⟨fun h => isNormal_unique hlen h (norm_spec wf hlen), fun h => h ▸ norm_spec wf hlen⟩

theorem exceeded_iff : ∀ (n : Nat) (v s : List Int), v.length = s.length →
    (exceeded n v s = false ↔ ∀ i (h : i < v.length) (h' : i < s.length), i < n → 0 ≤ v[i] ∧ v[i] < s[i])
  | 0, v, s, _ => by simp [exceeded]
  | n + 1, [], [], _ => by simp [exceeded]
  | n + 1, e :: es, r :: rs, hl => by
    simp only [exceeded, Bool.or_eq_false_iff, decide_eq_false_iff_not,
      exceeded_iff n es rs (by simpa using hl)]
    constructor
    · rintro ⟨h1, h2⟩ i h h' hi
      cases i with
      | zero => simp; omega
      | succ i => exact h2 i (by simpa using h) (by simpa using h') (by omega)
    · intro h
      refine ⟨?_, fun i hi hi' hin => h (i + 1) (by simpa using hi) (by simpa using hi') (by omega)⟩
      have := h 0 (by simp) (by simp) (by omega)
      simp at this; omega
  | n + 1, [], _ :: _, hl => by simp at hl
  | n + 1, _ :: _, [], hl => by simp at hl

theorem inMap_iff {P : VProb C} {x v : List Int} (hlen : v.length = P.size.length)
    (hn : IsNormalOf P x v) : InMap P.size x ↔ exceeded P.nonc x P.size = false := by
  have hxl : x.length = P.size.length := by rw [hn.1, hlen]
  rw [exceeded_iff _ _ _ hxl]
  unfold InMap
  rw [List.forall₂_iff_get]
  constructor
  · rintro ⟨_, h⟩ i h1 h2 _
    exact h i h1 h2
  · intro h
    refine ⟨hxl, fun i h1 h2 => ?_⟩
    by_cases hi : i < P.nonc
    · exact h i h1 h2 hi
    · exact ((hn.2 i (by omega) h2 h1).2 (by omega)).1

theorem InMap.length {s v : List Int} (h : InMap s v) : v.length = s.length := h.length_eq

theorem nextOf_iff {P : VProb C} (wf : WellFormed P) {p d x : List Int} (hp : p.length = P.size.length)
    (hd : d.length = P.size.length) :
    nextOf P p d = some x ↔ IsNormalOf P x (List.zipWith (· + ·) p d) ∧ InMap P.size x := by
  have hlen : (vadd p d).length = P.size.length := by simp [vadd, hp, hd]
  obtain ⟨w, hw, hn⟩ := cyc_spec wf hlen
  unfold nextOf
  rw [hw]
  simp only
  constructor
  · intro h
    split at h
    · cases h
    · rename_i he
      cases h
      exact ⟨hn, (inMap_iff hlen hn).mpr (by simpa using he)⟩
  · rintro ⟨h1, h2⟩
    obtain rfl := isNormal_unique hlen h1 hn
    rw [if_neg]
    rw [(inMap_iff hlen hn).mp h2]; simp

theorem move_iff {P : VProb C} (wf : WellFormed P) {p x : List Int} (hp : p.length = P.size.length) :
    Move (toProb P) p x ↔ Step P p x := by
  unfold Move Step
  simp only [toProb, List.mem_filterMap]
  constructor
  · rintro ⟨⟨d, hd, h⟩, h2, h3⟩
    rw [nextOf_iff wf hp (wf.grids_len p d hd)] at h
    exact ⟨⟨d, hd, h.1⟩, h.2, h2, h3⟩
  · rintro ⟨⟨d, hd, h⟩, hm, h2, h3⟩
    exact ⟨⟨d, hd, (nextOf_iff wf hp (wf.grids_len p d hd)).mpr ⟨h, hm⟩⟩, h2, h3⟩

theorem norm_length {P : VProb C} (wf : WellFormed P) {v : List Int} (hlen : v.length = P.size.length) :
    (norm P v).length = P.size.length := by rw [(norm_spec wf hlen).1, hlen]

theorem reachable_iff {P : VProb C} (wf : WellFormed P) {x : List Int} :
    (Astar.Spec.Reachable (toProb P) x ∧ x.length = P.size.length) ↔ Reachable P x := by
  constructor
  · rintro ⟨h, hx⟩
    clear hx
    suffices Reachable P x ∧ x.length = P.size.length from this.1
    induction h with
    | start h =>
      simp only [toProb, List.mem_map, Prod.mk.injEq] at h
      obtain ⟨s, hs, rfl, rfl⟩ := h
      exact ⟨.start hs (norm_spec wf (wf.starts_len s hs)), norm_length wf (wf.starts_len s hs)⟩
    | move _ hm ih =>
      obtain ⟨h1, h2⟩ := ih
      rw [move_iff wf h2] at hm
      exact ⟨.move h1 hm, InMap.length hm.2.1⟩
  · intro h
    induction h with
    | @start s x hs hn =>
      have := (norm_iff wf (wf.starts_len s hs)).mp hn
      subst this
      refine ⟨.start (c := s.2) ?_, norm_length wf (wf.starts_len s hs)⟩
      exact List.mem_map_of_mem (f := fun s : List Int × C => (norm P s.1, s.2)) hs
    | move _ hm ih =>
      exact ⟨.move ih.1 ((move_iff wf ih.2).mpr hm), InMap.length hm.2.1⟩

/-- All vectors of a box. -/
def allVecs : List Int → List (List Int)
  | [] => [[]]
  | s :: ss => (List.range s.toNat).flatMap fun (k : Nat) => (allVecs ss).map ((k : Int) :: ·)

theorem mem_allVecs : ∀ {s v : List Int}, InMap s v → v ∈ allVecs s
  | [], _, h => by cases h; simp [allVecs]
  | s :: ss, _, h => by
    cases h with
    | cons h1 h2 =>
      rename_i e es
      simp only [allVecs, List.mem_flatMap, List.mem_range, List.mem_map]
      exact ⟨e.toNat, by omega, es, mem_allVecs h2, by congr 1; omega⟩

/-- The cells of the map together with the starts. -/
def cells (P : VProb C) : List (List Int) :=
  (allVecs P.size ++ P.starts.map fun s => norm P s.1).filter (fun v => v.length = P.size.length)

theorem closed_cells {P : VProb C} (wf : WellFormed P) : Closed (toProb P) (cells P) := by
  constructor
  · intro x hx
    simp only [toProb, List.mem_map] at hx
    obtain ⟨s, hs, rfl⟩ := hx
    simp only [cells, List.mem_filter, List.mem_append, decide_eq_true_eq]
    exact ⟨.inr (List.mem_map_of_mem (f := fun s : List Int × C => norm P s.1) hs),
      norm_length wf (wf.starts_len s hs)⟩
  · intro p hp x hx
    simp only [cells, List.mem_filter, List.mem_append, decide_eq_true_eq] at hp ⊢
    simp only [toProb, List.mem_filterMap] at hx
    obtain ⟨d, hd, h⟩ := hx
    rw [nextOf_iff wf hp.2 (wf.grids_len p d hd)] at h
    exact ⟨.inl (mem_allVecs h.2), InMap.length h.2⟩

end Verif.Astar.Vec
