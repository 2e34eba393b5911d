import Verif.PlannerMap.Props
/-! # The map without headings hides no free cell (C118) -/
namespace Verif.PlannerMap
open Verif.GridMetric (Cell)

theorem least_le (top : Int) (f : Nat → Int) : ∀ n, least top n f ≤ top ∧ ∀ k < n, least top n f ≤ f k := by
  intro n
  induction n with
  | zero => exact ⟨by simp [least], fun k hk => absurd hk (by omega)⟩
  | succ n ih =>
    have e : least top (n + 1) f = min (least top n f) (f n) := by
      unfold least
      rw [List.range_succ, List.foldl_append]
      rfl
    rw [e]
    refine ⟨le_trans (min_le_left _ _) ih.1, fun k hk => ?_⟩
    rcases Nat.lt_succ_iff_lt_or_eq.mp hk with h | rfl
    · exact le_trans (min_le_left _ _) (ih.2 k h)
    · exact min_le_right _ _

/-- **C118** (partial: without overwriting updates).  After any history of base maps and updates, if the last accepted update was not
applied in overwriting mode and has data for all headings, the map without headings is nowhere above the map with headings. -/
theorem rough_below_partial (unk : Int) (h : List Event) (hs : AllSmall h) (s : St) (hr : run unk h = some s) (m : BaseMap)
    (hm : (past h).base = some m)
    (hl : ∀ o u, (past h).last = some (o, u) → o = false ∧ u.yaw = 0 ∧ u.angle = m.angle) (c : Cell)
    (hc : InMap m.width m.height m.angle c) : s.rough ⟨c.x, c.y, 0⟩ ≤ s.cm c := by
  have hr' : InMap m.width m.height 1 ⟨c.x, c.y, 0⟩ := by
    unfold InMap at hc ⊢
    simp only
    omega
  rw [costmap_is_base_with_last_update unk h hs s hr m hm c hc,
    rough_costmap_is_base_with_last_update unk h hs s hr m hm c.x c.y hr']
  obtain ⟨k, hk⟩ : ∃ k : Nat, c.yaw = k := ⟨c.yaw.toNat, by unfold InMap at hc; omega⟩
  have hka : k < m.angle := by unfold InMap at hc; omega
  have hb : (least 100 m.angle fun k => m.at unk ⟨c.x, c.y, k⟩) ≤ m.at unk c := by
    have := (least_le 100 (fun k => m.at unk ⟨c.x, c.y, k⟩) m.angle).2 k hka
    have e : (⟨c.x, c.y, (k : Int)⟩ : Cell) = c := by rw [← hk]
    simpa only [e] using this
  unfold expected expectedRough
  cases hlast : (past h).last with
  | none => exact hb
  | some ou =>
    obtain ⟨o, u⟩ := ou
    obtain ⟨rfl, hy, ha⟩ := hl o u hlast
    dsimp only
    unfold overlay
    by_cases hcol : (u.x : Int) ≤ c.x ∧ c.x < (u.x : Int) + u.width ∧ (u.y : Int) ≤ c.y ∧ c.y < (u.y : Int) + u.height
    · have hcov : Covers u c := by
        unfold Covers
        rw [hy, ha]
        unfold InMap at hc
        omega
      rw [if_pos hcol, if_pos hcov]
      simp only [Bool.false_eq_true, if_false]
      have hu : (least 100 u.angle fun k => u.at ⟨c.x, c.y, (u.yaw : Int) + k⟩) ≤ u.at c := by
        have := (least_le 100 (fun k => u.at ⟨c.x, c.y, (u.yaw : Int) + k⟩) u.angle).2 k (by omega)
        have e : (⟨c.x, c.y, (u.yaw : Int) + (k : Int)⟩ : Cell) = c := by rw [hy, ← hk]; simp
        simpa only [e] using this
      exact max_le_max hb hu
    · have hcov : ¬ Covers u c := fun h => hcol (by unfold Covers at h; omega)
      rw [if_neg hcol, if_neg hcov]
      exact hb

/-- A map of three cells, the middle one lethal, and an update that declares the middle cell free. -/
def wallMap : BaseMap := ⟨0, 3, 1, 1, [0, 100, 0]⟩
def freeing : Update := ⟨1, 1, 0, 0, 1, 1, 1, [0]⟩

/-- **C118** (the full statement fails).  In overwriting mode an update frees the lethal cell in the map with headings, but the map without
headings, from which the distances to the goal are computed, keeps it lethal. -/
theorem overwriting_hides_free : ∃ s, AllSmall [.map true wallMap, .update true freeing] ∧
    run 0 [.map true wallMap, .update true freeing] = some s ∧ s.cm ⟨1, 0, 0⟩ = 0 ∧ s.rough ⟨1, 0, 0⟩ = 100 := by
  have hs : AllSmall [.map true wallMap, .update true freeing] := by
    intro o u hu
    simp only [List.mem_cons, Event.update.injEq, reduceCtorEq, List.not_mem_nil, or_false, false_or] at hu
    obtain ⟨-, rfl⟩ := hu
    unfold Small freeing
    norm_num
  obtain ⟨s, hr⟩ : ∃ s, run 0 [.map true wallMap, .update true freeing] = some s :=
    complete_messages_defined 0 _ hs (by
      intro e he
      simp only [List.mem_cons, List.not_mem_nil, or_false] at he
      rcases he with rfl | rfl
      · exact (by decide : 3 * 1 * 1 ≤ 3)
      · exact (by decide : (0 = 0) ∧ 1 * 1 * 1 ≤ 1))
  have hp : past [.map true wallMap, .update true freeing] = ⟨some wallMap, some (true, freeing), none⟩ := by
    simp only [past, List.foldl_cons, List.foldl_nil, past1]
    rw [if_pos (by unfold Fits wallMap freeing; norm_num)]
  have hm : (past [.map true wallMap, .update true freeing]).base = some wallMap := by rw [hp]
  have h1 := costmap_is_base_with_last_update 0 _ hs s hr wallMap hm ⟨1, 0, 0⟩ (by unfold InMap wallMap; norm_num)
  have h2 := rough_costmap_is_base_with_last_update 0 _ hs s hr wallMap hm 1 0 (by unfold InMap wallMap; norm_num)
  rw [hp] at h1 h2
  refine ⟨s, hs, hr, ?_, ?_⟩
  · rw [h1]; decide +kernel
  · rw [h2]; decide +kernel

/-- The partial statement applies to the same messages when updates do not overwrite. -/
example : ∃ s, run 0 [.map false wallMap, .update false freeing] = some s ∧ s.rough ⟨1, 0, 0⟩ ≤ s.cm ⟨1, 0, 0⟩ := by
  have hs : AllSmall [.map false wallMap, .update false freeing] := by
    intro o u hu
    simp only [List.mem_cons, Event.update.injEq, reduceCtorEq, List.not_mem_nil, or_false, false_or] at hu
    obtain ⟨-, rfl⟩ := hu
    unfold Small freeing
    norm_num
  obtain ⟨s, hr⟩ : ∃ s, run 0 [.map false wallMap, .update false freeing] = some s :=
    complete_messages_defined 0 _ hs (by
      intro e he
      simp only [List.mem_cons, List.not_mem_nil, or_false] at he
      rcases he with rfl | rfl
      · exact (by decide : 3 * 1 * 1 ≤ 3)
      · exact (by decide : (0 = 0) ∧ 1 * 1 * 1 ≤ 1))
  have hp : past [.map false wallMap, .update false freeing] = ⟨some wallMap, some (false, freeing), none⟩ := by
    simp only [past, List.foldl_cons, List.foldl_nil, past1]
    rw [if_pos (by unfold Fits wallMap freeing; norm_num)]
  exact ⟨s, hr, rough_below_partial 0 _ hs s hr wallMap (by rw [hp]) (by
    intro o u h
    rw [hp] at h
    cases h
    exact ⟨rfl, rfl, rfl⟩) ⟨1, 0, 0⟩ (by unfold InMap wallMap; norm_num)⟩

end Verif.PlannerMap
