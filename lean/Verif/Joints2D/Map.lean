import Verif.Joints2D.Search
/-! # The costmap of joint angles -/
set_option linter.unusedVariables false
set_option linter.unusedSectionVars false
namespace Verif.Joints2D
open Verif.Model3D (upTo)
variable {K : Type} [Field K] [LinearOrder K] [IsStrictOrderedRing K] [FloorRing K]

theorem mem_cells (p : Par K) (c : Int × Int) : c ∈ cells p ↔ inMap p c = true := by
  rw [inMap_iff]
  unfold cells
  simp only [List.mem_flatMap, List.mem_map, Model3D.mem_upTo]
  constructor
  · rintro ⟨a, ha, b, hb, rfl⟩; dsimp only; omega
  · rintro ⟨h1, h2⟩; exact ⟨c.1, by omega, c.2, by omega, rfl⟩

theorem fade_range (r k : Int) (hr : 0 < r) (h0 : 0 ≤ k) (hk : k ≤ r) : 0 ≤ fade r k ∧ fade r k ≤ 100 ∧ (fade r k = 100 ↔ k = 0) := by
  have hr' : (0 : ℚ) < (r : ℚ) := by exact_mod_cast hr
  have hk' : (k : ℚ) ≤ r := by exact_mod_cast hk
  have h0' : (0 : ℚ) ≤ k := by exact_mod_cast h0
  unfold fade
  refine ⟨?_, ?_, ?_⟩
  · apply Int.floor_nonneg.mpr
    apply div_nonneg _ hr'.le
    push_cast
    nlinarith
  · have : ((100 * (r - k : Int) : ℚ) / (r : ℚ)) < ((101 : Int) : ℚ) := by
      rw [div_lt_iff₀ hr']; push_cast; nlinarith
    have := Int.floor_lt.mpr this
    omega
  · constructor
    · intro h
      have := Int.floor_le ((100 * (r - k : Int) : ℚ) / (r : ℚ))
      rw [h, le_div_iff₀ hr'] at this
      push_cast at this
      have : (k : ℚ) ≤ 0 := by nlinarith
      have : k ≤ 0 := by exact_mod_cast this
      omega
    · rintro rfl
      have : (100 * ((r - 0 : Int) : ℚ)) / (r : ℚ) = ((100 : Int) : ℚ) := by push_cast; field_simp; ring
      rw [this, Int.floor_intCast]

theorem fade_antitone (r k k' : Int) (hr : 0 < r) (h : k ≤ k') : fade r k' ≤ fade r k := by
  have hr' : (0 : ℚ) < (r : ℚ) := by exact_mod_cast hr
  unfold fade
  apply Int.floor_le_floor
  apply div_le_div_of_nonneg_right _ hr'.le
  have : (k : ℚ) ≤ k' := by exact_mod_cast h
  push_cast
  linarith

theorem raise1_apply (p : Par K) (r : Int) (c : Int × Int) (m : Int × Int → Int) (d x : Int × Int) :
    raise1 p r c m d x = if x = (c.1 + d.1, c.2 + d.2) ∧ inMap p x = true then max (m x) (raised r d) else m x := by
  unfold raise1
  by_cases h1 : inMap p (c.1 + d.1, c.2 + d.2) = false
  · rw [if_pos h1, if_neg]
    rintro ⟨rfl, h⟩
    rw [h1] at h; cases h
  · rw [if_neg h1]
    have h1 : inMap p (c.1 + d.1, c.2 + d.2) = true := by simpa using h1
    by_cases h2 : m (c.1 + d.1, c.2 + d.2) < raised r d
    · rw [if_pos h2]
      by_cases hx : x = (c.1 + d.1, c.2 + d.2)
      · subst hx
        rw [if_pos rfl, if_pos ⟨rfl, h1⟩, max_eq_right h2.le]
      · rw [if_neg hx, if_neg (fun h => hx h.1)]
    · rw [if_neg h2]
      split
      · rename_i h
        rw [max_eq_left]
        rw [h.1]; exact not_lt.mp h2
      · rfl

theorem raise_fold (p : Par K) (r : Int) (c : Int × Int) (x : Int × Int) : ∀ (l : List (Int × Int)) (m : Int × Int → Int), l.Nodup →
    l.foldl (raise1 p r c) m x =
      if (x.1 - c.1, x.2 - c.2) ∈ l ∧ inMap p x = true then max (m x) (raised r (x.1 - c.1, x.2 - c.2)) else m x
  | [], m, _ => by simp
  | d :: l, m, hn => by
    rw [List.nodup_cons] at hn
    rw [List.foldl_cons, raise_fold p r c x l _ hn.2, raise1_apply]
    have e : x = (c.1 + d.1, c.2 + d.2) ↔ (x.1 - c.1, x.2 - c.2) = d := by
      constructor
      · intro h; rw [h]; exact Prod.ext (by dsimp only; ring) (by dsimp only; ring)
      · intro h; rw [← h]; exact Prod.ext (by dsimp only; ring) (by dsimp only; ring)
    simp only [e]
    by_cases hd : (x.1 - c.1, x.2 - c.2) = d
    · rw [hd]
      have : ¬ (d ∈ l ∧ inMap p x = true) := fun h => hn.1 h.1
      rw [if_neg this]
      by_cases hx : inMap p x = true
      · rw [if_pos ⟨rfl, hx⟩, if_pos ⟨List.mem_cons_self, hx⟩]
      · rw [if_neg (fun h => hx h.2), if_neg (fun h => hx h.2)]
    · rw [show (if (x.1 - c.1, x.2 - c.2) = d ∧ inMap p x = true then max (m x) (raised r d) else m x) = m x from if_neg fun h => hd h.1]
      by_cases hx : (x.1 - c.1, x.2 - c.2) ∈ l ∧ inMap p x = true
      · rw [if_pos hx, if_pos ⟨List.mem_cons_of_mem _ hx.1, hx.2⟩]
      · rw [if_neg hx, if_neg]
        rintro ⟨h1, h2⟩
        rcases List.mem_cons.mp h1 with h1 | h1
        · exact hd h1
        · exact hx ⟨h1, h2⟩

theorem upTo_nodup (a b : Int) : (upTo a b).Nodup := by
  unfold upTo
  exact List.Nodup.map (fun x y h => by omega) List.nodup_range

theorem ring_nodup (r : Int) : (ring r).Nodup := by
  unfold ring
  rw [List.nodup_flatMap]
  refine ⟨fun a _ => List.Nodup.map (fun x y h => (Prod.mk.inj h).2) (upTo_nodup _ _), ?_⟩
  refine (upTo_nodup (-r) r).imp ?_
  intro a b hab
  rw [Function.onFun, List.disjoint_left]
  intro x hx hy
  obtain ⟨u, -, rfl⟩ := List.mem_map.mp hx
  obtain ⟨w, -, hw⟩ := List.mem_map.mp hy
  exact hab (Prod.mk.inj hw).1.symm

/-- One lethal cell. -/
theorem raiseCell_apply (p : Par K) (m : Int × Int → Int) (c : Int × Int) (hc : m c = 100) (hr : reach p ≠ 0) :
    ∃ m', raiseCell p m c = some m' ∧ ∀ x, m' x =
      if far x c ≤ reach p ∧ inMap p x = true then max (m x) (fade (reach p) (far x c)) else m x := by
  refine ⟨_, by unfold raiseCell; rw [if_neg (by simpa using hc), if_neg hr], fun x => ?_⟩
  rw [raise_fold p _ c x _ m (ring_nodup _)]
  have e : (x.1 - c.1, x.2 - c.2) ∈ ring (reach p) ↔ far x c ≤ reach p := by
    rw [mem_ring]; unfold far; rw [max_le_iff]
  simp only [e]
  rfl

/-- The map after some cells have been expanded. -/
structure Part (p : Par K) (collide : K → K → Bool) (done : List (Int × Int)) (m : Int × Int → Int) : Prop where
  lethal : ∀ x, m x = 100 ↔ collide (toMetric p x).1 (toMetric p x).2 = true
  low : ∀ x, 0 ≤ m x
  high : ∀ x, m x ≤ 100
  ge : ∀ x, inMap p x = true → ∀ c ∈ done, collide (toMetric p c).1 (toMetric p c).2 = true → far x c ≤ reach p → fade (reach p) (far x c) ≤ m x
  eq : ∀ x, m x = 100 ∨ m x = 0 ∨ ∃ c ∈ done, collide (toMetric p c).1 (toMetric p c).2 = true ∧ far x c ≤ reach p ∧ m x = fade (reach p) (far x c)

theorem far_nonneg (a b : Int × Int) : 0 ≤ far a b := le_max_of_le_left (abs_nonneg _)

theorem far_zero (a b : Int × Int) : far a b = 0 ↔ a = b := by
  unfold far
  constructor
  · intro h
    have h1 : |a.1 - b.1| ≤ 0 := h ▸ le_max_left _ _
    have h2 : |a.2 - b.2| ≤ 0 := h ▸ le_max_right _ _
    have := abs_eq_zero.mp (le_antisymm h1 (abs_nonneg _))
    have := abs_eq_zero.mp (le_antisymm h2 (abs_nonneg _))
    exact Prod.ext (by omega) (by omega)
  · rintro rfl; simp

theorem part_fold (p : Par K) (collide : K → K → Bool) (hr : 0 < reach p) : ∀ (l done : List (Int × Int)) (m : Int × Int → Int),
    Part p collide done m → ∃ m', l.foldlM (raiseCell p) m = some m' ∧ Part p collide (done ++ l) m'
  | [], done, m, h => ⟨m, rfl, by rwa [List.append_nil]⟩
  | c :: l, done, m, h => by
    have key : ∃ m1, raiseCell p m c = some m1 ∧ Part p collide (done ++ [c]) m1 := by
      by_cases hc : m c = 100
      · obtain ⟨m1, e1, hm1⟩ := raiseCell_apply p m c hc hr.ne'
        refine ⟨m1, e1, ?_⟩
        have hcol := (h.lethal c).mp hc
        have hf : ∀ x, far x c ≤ reach p → _ := fun x hx => fade_range (reach p) (far x c) hr (far_nonneg x c) hx
        constructor
        · intro x
          rw [hm1]
          split
          · rename_i hx
            obtain ⟨f0, f1, f2⟩ := hf x hx.1
            rw [← h.lethal x]
            constructor
            · intro hmax
              rcases max_choice (m x) (fade (reach p) (far x c)) with hmx | hmx
              · rw [hmx] at hmax; exact hmax
              · rw [hmx] at hmax
                rw [(far_zero x c).mp (f2.mp hmax)]; exact hc
            · intro hmx; rw [hmx]; exact max_eq_left f1
          · exact h.lethal x
        · intro x
          rw [hm1]
          split
          · exact le_max_of_le_left (h.low x)
          · exact h.low x
        · intro x
          rw [hm1]
          split
          · rename_i hx
            exact max_le (h.high x) (hf x hx.1).2.1
          · exact h.high x
        · intro x hin c' hc' hcol' hfar
          rw [hm1]
          rcases List.mem_append.mp hc' with hc' | hc'
          · have := h.ge x hin c' hc' hcol' hfar
            split
            · exact le_max_of_le_left this
            · exact this
          · rw [List.mem_singleton] at hc'
            subst hc'
            rw [if_pos ⟨hfar, hin⟩]
            exact le_max_right _ _
        · intro x
          rw [hm1]
          have old : m x = 100 ∨ m x = 0 ∨ ∃ c' ∈ done ++ [c], collide (toMetric p c').1 (toMetric p c').2 = true ∧ far x c' ≤ reach p ∧
              m x = fade (reach p) (far x c') := by
            rcases h.eq x with h1 | h1 | ⟨c', h1, h2⟩
            · exact .inl h1
            · exact .inr (.inl h1)
            · exact .inr (.inr ⟨c', List.mem_append_left _ h1, h2⟩)
          split
          · rename_i hx
            rcases max_choice (m x) (fade (reach p) (far x c)) with hmx | hmx
            · rw [hmx]; exact old
            · rw [hmx]; exact .inr (.inr ⟨c, by simp, hcol, hx.1, rfl⟩)
          · exact old
      · refine ⟨m, by unfold raiseCell; rw [if_pos hc], h.lethal, h.low, h.high, ?_, ?_⟩
        · intro x hin c' hc' hcol hfar
          rcases List.mem_append.mp hc' with hc' | hc'
          · exact h.ge x hin c' hc' hcol hfar
          · rw [List.mem_singleton] at hc'
            subst hc'
            exact absurd ((h.lethal _).mpr hcol) hc
        · intro x
          rcases h.eq x with h1 | h1 | ⟨c', h1, h2⟩
          · exact .inl h1
          · exact .inr (.inl h1)
          · exact .inr (.inr ⟨c', List.mem_append_left _ h1, h2⟩)
    obtain ⟨m1, e1, h1⟩ := key
    obtain ⟨m2, e2, h2⟩ := part_fold p collide hr l _ m1 h1
    refine ⟨m2, ?_, by rwa [List.append_assoc] at h2⟩
    rw [List.foldlM_cons, e1]
    exact e2

theorem build_costmap (p : Par K) (collide : K → K → Bool) (hr : 0 < reach p) :
    ∃ m, buildMap p collide = some m ∧ Costmap p collide m ∧ ∀ x, 0 ≤ m x := by
  have h0 : Part p collide [] (baseMap p collide) := by
    refine ⟨?_, ?_, ?_, ?_, ?_⟩
    · intro x; unfold baseMap; split <;> simp_all
    · intro x; unfold baseMap; split <;> norm_num
    · intro x; unfold baseMap; split <;> norm_num
    · intro x _ c hc; cases hc
    · intro x; unfold baseMap; split
      · exact .inl rfl
      · exact .inr (.inl rfl)
  obtain ⟨m, hm, h⟩ := part_fold p collide hr (cells p) [] _ h0
  rw [List.nil_append] at h
  refine ⟨m, hm, ⟨fun x _ => h.lethal x, fun x _ => ⟨h.low x, h.high x⟩, ?_, ?_⟩, h.low⟩
  · intro x hx c hc
    exact h.ge x hx c ((mem_cells p c).mpr hc)
  · intro x hx
    rcases h.eq x with h1 | h1 | ⟨c, h1, h2, h3, h4⟩
    · exact .inl ((h.lethal x).mp h1)
    · exact .inr (.inl h1)
    · exact .inr (.inr ⟨c, (mem_cells p c).mp h1, h2, h3, h4⟩)

end Verif.Joints2D
