import Verif.Slices.Props
/-! # Which heights become floors -/
namespace Verif.Slices
open Verif.Slices.Spec

variable {K : Type} [Field K] [LinearOrder K] [IsStrictOrderedRing K] [FloorRing K]

theorem hist_eq (pts : List Pt) (i : Int) : hist pts i = pointsAt pts i := by
  simp [hist, pointsAt, List.countP_eq_length_filter]

theorem le_foldr_max (l : List Nat) : ∀ a ∈ l, a ≤ l.foldr max 0 := by
  induction l with
  | nil => simp
  | cons b l ih =>
    intro a ha
    rw [List.foldr_cons]
    rcases List.mem_cons.mp ha with rfl | ha
    · exact le_max_left _ _
    · exact (ih a ha).trans (le_max_right _ _)

theorem foldr_max_mem (l : List Nat) : l.foldr max 0 = 0 ∨ l.foldr max 0 ∈ l := by
  induction l with
  | nil => exact .inl rfl
  | cons b l ih =>
    rw [List.foldr_cons]
    rcases max_choice b (l.foldr max 0) with h | h
    · rw [h]; exact .inr List.mem_cons_self
    · rw [h]
      exact ih.imp id (List.mem_cons_of_mem _)

theorem pointsAt_pos {pts : List Pt} {i : Int} (h : pointsAt pts i ≠ 0) : ∃ p ∈ pts, p.h = i := by
  have := List.countP_pos_iff.mp (Nat.pos_of_ne_zero h)
  simpa using this

/-- The largest count of the histogram. -/
theorem hist_max {pts : List Pt} {j : Int} (hj : ∀ k, pointsAt pts k ≤ pointsAt pts j) :
    (pts.map (fun p => hist pts p.h)).foldr max 0 = pointsAt pts j := by
  apply le_antisymm
  · rcases foldr_max_mem (pts.map (fun p => hist pts p.h)) with h | h
    · rw [h]; exact Nat.zero_le _
    · obtain ⟨p, _, hp⟩ := List.mem_map.mp h
      rw [← hp, hist_eq]
      exact hj p.h
  · by_cases h0 : pointsAt pts j = 0
    · rw [h0]; exact Nat.zero_le _
    · obtain ⟨p, hp, rfl⟩ := pointsAt_pos h0
      apply le_foldr_max
      exact List.mem_map.mpr ⟨p, hp, hist_eq pts p.h⟩

/-- There is a fullest height. -/
theorem fullest_exists (pts : List Pt) : ∃ j, ∀ k, pointsAt pts k ≤ pointsAt pts j := by
  rcases foldr_max_mem (pts.map (fun p => hist pts p.h)) with h | h
  · refine ⟨0, fun k => ?_⟩
    by_contra hc
    obtain ⟨p, hp, rfl⟩ := pointsAt_pos (i := k) (pts := pts) (by omega)
    have := le_foldr_max (pts.map (fun p => hist pts p.h)) (hist pts p.h) (List.mem_map.mpr ⟨p, hp, rfl⟩)
    rw [hist_eq] at this
    omega
  · obtain ⟨q, _, hq⟩ := List.mem_map.mp h
    refine ⟨q.h, fun k => ?_⟩
    by_cases h0 : pointsAt pts k = 0
    · rw [h0]; exact Nat.zero_le _
    · obtain ⟨p, hp, rfl⟩ := pointsAt_pos h0
      have := le_foldr_max (pts.map (fun p => hist pts p.h)) (hist pts p.h) (List.mem_map.mpr ⟨p, hp, rfl⟩)
      rw [← hq, hist_eq, hist_eq] at this
      exact this

theorem tall_iff (c : Cfg K) (pts : List Pt) (i : Int) : tall c pts i = true ↔ Dense c pts i := by
  obtain ⟨j, hj⟩ := fullest_exists pts
  have key : tall c pts i = true ↔ (pointsAt pts j : K) * c.pointsThreshRate < (pointsAt pts i : K) := by
    unfold tall minPoints
    rw [hist_max hj, decide_eq_true_iff, gt_iff_lt, Int.floor_lt, hist_eq]
    simp
  rw [key]
  constructor
  · intro h; exact ⟨j, hj, h⟩
  · rintro ⟨j', hj', h⟩
    rw [le_antisymm (hj' j) (hj j')]
    exact h

theorem runnable_eq (c : Cfg K) (pts : List Pt) (i : Int) : runnable c pts i = travelable c pts i := by
  unfold runnable travelable
  by_cases h : Dense c pts i
  · rw [if_pos ((tall_iff c pts i).mpr h), if_pos h]
    have hs : {v : Cell | HasFloor c pts i v ∧ ¬ HasObstacle c pts i v} =
        ↑((pts.map Pt.cell).dedup.filter (fun v => floorOf c pts i v = some false)).toFinset := by
      ext v
      have hm := (mark_fold c i pts (fun _ => none) v).2
      simp only [reduceCtorEq, false_or, true_and] at hm
      simp only [Set.mem_setOf_eq, List.coe_toFinset, List.mem_filter, List.mem_dedup, List.mem_map, decide_eq_true_eq]
      unfold floorOf
      rw [hm]
      constructor
      · rintro ⟨h1, h2⟩
        have h1' := h1
        obtain ⟨p, hp, e, _⟩ := h1'
        exact ⟨⟨p, hp, e⟩, h2, h1⟩
      · rintro ⟨_, h1, h2⟩
        exact ⟨h2, h1⟩
    rw [hs, Set.ncard_coe_finset, List.toFinset_card_of_nodup ((List.nodup_dedup _).filter _)]
  · rw [if_neg (fun h' => h ((tall_iff c pts i).mp h')), if_neg h]

theorem foldl_min_mem {α : Type} (f : α → Int) (l : List α) (a : Int) :
    l.foldl (fun m q => min m (f q)) a = a ∨ ∃ q ∈ l, l.foldl (fun m q => min m (f q)) a = f q := by
  induction l generalizing a with
  | nil => exact .inl rfl
  | cons b l ih =>
    rw [List.foldl_cons]
    rcases ih (min a (f b)) with h | ⟨q, hq, h⟩
    · rw [h]
      rcases min_choice a (f b) with h' | h'
      · exact .inl h'
      · exact .inr ⟨b, List.mem_cons_self, h'⟩
    · exact .inr ⟨q, List.mem_cons_of_mem _ hq, h⟩

theorem foldl_max_mem {α : Type} (f : α → Int) (l : List α) (a : Int) :
    l.foldl (fun m q => max m (f q)) a = a ∨ ∃ q ∈ l, l.foldl (fun m q => max m (f q)) a = f q := by
  induction l generalizing a with
  | nil => exact .inl rfl
  | cons b l ih =>
    rw [List.foldl_cons]
    rcases ih (max a (f b)) with h | ⟨q, hq, h⟩
    · rw [h]
      rcases max_choice a (f b) with h' | h'
      · exact .inl h'
      · exact .inr ⟨b, List.mem_cons_self, h'⟩
    · exact .inr ⟨q, List.mem_cons_of_mem _ hq, h⟩

/-- The heights looked at are those of the span, from the lowest to the highest. -/
theorem heights_eq {pts : List Pt} (hne : pts ≠ []) : ∃ lo hi, lo ≤ hi ∧ (∀ i, InSpan pts i ↔ lo ≤ i ∧ i ≤ hi) ∧
    heights pts = (List.range (hi + 1 - lo).toNat).map (fun (i : Nat) => lo + (i : Int)) := by
  cases pts with
  | nil => exact absurd rfl hne
  | cons p ps =>
    refine ⟨ps.foldl (fun m q => min m q.h) p.h, (p :: ps).foldl (fun m q => max m q.h) 0, ?_, ?_, rfl⟩
    · exact (foldl_min_le Pt.h ps p.h).1.trans ((le_foldl_max Pt.h (p :: ps) 0).2 p List.mem_cons_self)
    · intro i
      unfold InSpan
      refine and_congr ⟨?_, ?_⟩ ⟨?_, ?_⟩
      · rintro ⟨q, hq, hi⟩
        refine le_trans ?_ hi
        rcases List.mem_cons.mp hq with rfl | hq
        · exact (foldl_min_le Pt.h ps _).1
        · exact (foldl_min_le Pt.h ps _).2 q hq
      · intro h
        rcases foldl_min_mem Pt.h ps p.h with e | ⟨q, hq, e⟩
        · exact ⟨p, List.mem_cons_self, by rw [← e]; exact h⟩
        · exact ⟨q, List.mem_cons_of_mem _ hq, by rw [← e]; exact h⟩
      · rintro (h | ⟨q, hq, h⟩)
        · exact h.trans (le_foldl_max Pt.h (p :: ps) 0).1
        · exact h.trans ((le_foldl_max Pt.h (p :: ps) 0).2 q hq)
      · intro h
        rcases foldl_max_mem Pt.h (p :: ps) 0 with e | ⟨q, hq, e⟩
        · left; rw [← e]; exact h
        · exact .inr ⟨q, hq, by rw [← e]; exact h⟩

theorem mem_heights {pts : List Pt} (i : Int) : i ∈ heights pts ↔ InSpan pts i := by
  by_cases hne : pts = []
  · subst hne; simp [heights, InSpan]
  · obtain ⟨lo, hi, hle, hs, e⟩ := heights_eq hne
    rw [e, hs]
    simp only [List.mem_map, List.mem_range]
    constructor
    · rintro ⟨k, hk, rfl⟩; omega
    · rintro ⟨h1, h2⟩; exact ⟨(i - lo).toNat, by omega, by omega⟩

theorem heights_ends {pts : List Pt} {i : Int} (h : InSpan pts i) :
    ((heights pts).head? = some i ↔ ¬ InSpan pts (i - 1)) ∧ ((heights pts).getLast? = some i ↔ ¬ InSpan pts (i + 1)) := by
  have hne : pts ≠ [] := by rintro rfl; simp [InSpan] at h
  obtain ⟨lo, hi, hle, hs, e⟩ := heights_eq hne
  obtain ⟨n, hn⟩ : ∃ n : Nat, (hi + 1 - lo).toNat = n + 1 := ⟨(hi - lo).toNat, by omega⟩
  rw [hs] at h ⊢
  rw [hs, e, hn]
  constructor
  · rw [List.head?_map, List.head?_range, if_neg (by omega), Option.map_some, Option.some.injEq]
    push_cast
    omega
  · rw [List.getLast?_map, List.getLast?_range, if_neg (by omega), Option.map_some, Option.some.injEq]
    omega

theorem runnable_max {c : Cfg K} {pts : List Pt} {j : Int} (hj : InSpan pts j)
    (hm : ∀ k, InSpan pts k → travelable c pts k ≤ travelable c pts j) :
    ((heights pts).map (runnable c pts)).foldr max 0 = travelable c pts j := by
  apply le_antisymm
  · rcases foldr_max_mem ((heights pts).map (runnable c pts)) with h | h
    · rw [h]; exact Nat.zero_le _
    · obtain ⟨k, hk, e⟩ := List.mem_map.mp h
      rw [← e, runnable_eq]
      exact hm k ((mem_heights k).mp hk)
  · apply le_foldr_max
    exact List.mem_map.mpr ⟨j, (mem_heights j).mpr hj, runnable_eq c pts j⟩

theorem widest_exists (c : Cfg K) {pts : List Pt} {i : Int} (hi : InSpan pts i) : ∃ j, InSpan pts j ∧
    ∀ k, InSpan pts k → travelable c pts k ≤ travelable c pts j := by
  rcases foldr_max_mem ((heights pts).map (runnable c pts)) with h | h
  · refine ⟨i, hi, fun k hk => ?_⟩
    have := le_foldr_max _ _ (List.mem_map.mpr ⟨k, (mem_heights k).mpr hk, runnable_eq c pts k⟩)
    omega
  · obtain ⟨j, hj, e⟩ := List.mem_map.mp h
    refine ⟨j, (mem_heights j).mp hj, fun k hk => ?_⟩
    have := le_foldr_max _ _ (List.mem_map.mpr ⟨k, (mem_heights k).mpr hk, runnable_eq c pts k⟩)
    rw [← e, runnable_eq] at this
    exact this

theorem candidate_iff (c : Cfg K) (pts : List Pt) (i : Int) (hi : InSpan pts i) :
    candidate c pts (heights pts) i = true ↔ Offered c pts i := by
  obtain ⟨j, hj, hm⟩ := widest_exists c hi
  unfold candidate Offered
  rw [runnable_max hj hm]
  simp only [Bool.and_eq_true, Bool.or_eq_true, decide_eq_true_eq, (heights_ends hi).1, (heights_ends hi).2, tall_iff,
    runnable_eq]
  constructor
  · rintro ⟨⟨⟨h1, h2⟩, h3⟩, h4⟩
    exact ⟨hi, h1, fun h => h2.resolve_left (not_not.mpr h), fun h => h3.resolve_left (not_not.mpr h), j, hj, hm, h4⟩
  · rintro ⟨_, h1, h2, h3, j', hj', hm', h4⟩
    refine ⟨⟨⟨h1, ?_⟩, ?_⟩, ?_⟩
    · by_cases h : InSpan pts (i - 1)
      · exact .inr (h2 h)
      · exact .inl h
    · by_cases h : InSpan pts (i + 1)
      · exact .inr (h3 h)
      · exact .inl h
    · rw [le_antisymm (hm' j hj) (hm j' hj')]
      exact h4

/-- **C73** (selection).  For every cloud: the floors offered for merging are, in ascending order, those of exactly the heights that hold
more than the given share of the points of the fullest height, have at least as many travelable cells as the heights just below and above,
and more than the given share of the travelable cells of the widest height; each says for every cell what the cloud says. -/
theorem floors_selected (c : Cfg K) (pts : List Pt) :
    (∀ i, i ∈ (candidates c pts).map (·.h) ↔ Offered c pts i) ∧ ((candidates c pts).map (·.h)).Pairwise (· < ·) ∧
    ∀ m ∈ candidates c pts, m.area = travelable c pts m.h ∧
      ∀ v, (m.data v = 100 ↔ HasObstacle c pts m.h v) ∧ (m.data v = 0 ↔ HasFloor c pts m.h v ∧ ¬ HasObstacle c pts m.h v) := by
  have hmap : (candidates c pts).map (·.h) = (heights pts).filter (candidate c pts (heights pts)) := by
    unfold candidates
    rw [List.map_map]
    have : ((fun m : Map => m.h) ∘ toMap c pts) = id := rfl
    rw [this, List.map_id]
  refine ⟨fun i => ?_, ?_, fun m hm => ?_⟩
  · rw [hmap, List.mem_filter, mem_heights]
    constructor
    · rintro ⟨h1, h2⟩; exact (candidate_iff c pts i h1).mp h2
    · intro h; exact ⟨h.1, (candidate_iff c pts i h.1).mpr h⟩
  · rw [hmap]
    refine List.Pairwise.filter _ ?_
    by_cases hne : pts = []
    · subst hne; exact List.Pairwise.nil
    · obtain ⟨lo, hi, _, _, e⟩ := heights_eq hne
      rw [e, List.pairwise_map]
      exact List.pairwise_lt_range.imp (fun h => by omega)
  · obtain ⟨i, _, rfl⟩ := List.mem_map.mp hm
    exact ⟨runnable_eq c pts i, fun v => ⟨(slice_spec c pts i v).1, (slice_spec c pts i v).2.1⟩⟩

/-- **C73** (published heights).  For every cloud: every published floor is at an offered height, and the floors come in ascending order of
height. -/
theorem published_heights (c : Cfg K) (pts : List Pt) :
    (∀ m ∈ cbPoints c pts, Offered c pts m.h) ∧ ((cbPoints c pts).map (·.h)).Pairwise (· < ·) := by
  unfold cbPoints
  cases hr : rectOf pts with
  | none => simp
  | some r =>
    have hsub : List.Sublist ((publish c r (mergeAll r (candidates c pts))).map (·.h)) ((candidates c pts).map (·.h)) := by
      rw [← (mergeAll_spec r (candidates c pts)).1]
      unfold publish
      rw [List.map_map]
      exact List.Sublist.map _ List.filter_sublist
    obtain ⟨h1, h2, _⟩ := floors_selected c pts
    refine ⟨fun m hm => (h1 m.h).mp (hsub.subset (List.mem_map.mpr ⟨m, hm, rfl⟩)), h2.sublist hsub⟩

/-! ## Concrete case: of the two heights of the cloud `exP`, only the lower one is a floor -/

example : Offered exC exP 0 ∧ ¬ Offered exC exP 1 ∧ InSpan exP 1 := by
  have e : (candidates exC exP).map (·.h) = [0] := by decide +kernel
  have h := (floors_selected exC exP).1
  rw [e] at h
  exact ⟨(h 0).mp (by simp), fun h' => absurd ((h 1).mpr h') (by simp),
    ⟨⟨⟨0, 0, 0⟩, by decide, by decide⟩, .inr ⟨⟨2, 0, 1⟩, by decide, by decide⟩⟩⟩

end Verif.Slices
