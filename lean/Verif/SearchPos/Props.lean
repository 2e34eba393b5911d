import Verif.SearchPos.Spec
import Verif.Model3D.Model
import Mathlib.Tactic.Linarith
import Mathlib.Tactic.Ring
/-! # C18: relocation returns the nearest free cell in range -/
namespace Verif.SearchPos
open Verif.GridMetric (Cell)
open Verif.Model3D (upTo sqlen cycU)

section helpers

theorem mem_upTo (a b k : Int) : k ∈ upTo a b ↔ a ≤ k ∧ k ≤ b := by
  unfold upTo
  simp only [List.mem_map, List.mem_range]
  constructor
  · rintro ⟨n, hn, rfl⟩; omega
  · rintro ⟨h1, h2⟩; exact ⟨(k - a).toNat, by omega, by omega⟩

theorem mem_offsets (R A : Int) (d : Cell) :
    d ∈ offsets R A ↔ (-A ≤ d.yaw ∧ d.yaw ≤ A) ∧ (-R ≤ d.x ∧ d.x ≤ R) ∧ (-R ≤ d.y ∧ d.y ≤ R) := by
  unfold offsets
  simp only [List.mem_flatMap, List.mem_map, mem_upTo]
  constructor
  · rintro ⟨a, ha, x, hx, y, hy, rfl⟩; exact ⟨ha, hx, hy⟩
  · rintro ⟨ha, hx, hy⟩; exact ⟨_, ha, _, hx, _, hy, rfl⟩

theorem cycU_spec (e A : Int) (hA : 0 < A) : 0 ≤ cycU e A ∧ cycU e A < A ∧ A ∣ cycU e A - e := by
  unfold cycU CyclicVec.cycleUnsignedElement
  rw [if_neg (by omega)]
  have h1 := Int.tmod_lt_of_pos e hA
  have h2 : -A < e.tmod A := Int.lt_tmod_of_pos e hA
  have h3 : e.tmod A - e = -(A * e.tdiv A) := by have := Int.tmod_add_mul_tdiv e A; omega
  dsimp only
  split
  · refine ⟨by simp only [Option.getD_some]; omega, by simp only [Option.getD_some]; omega, ?_⟩
    simp only [Option.getD_some]
    exact ⟨1 - e.tdiv A, by rw [mul_sub]; omega⟩
  · refine ⟨by simp only [Option.getD_some]; omega, by simp only [Option.getD_some]; omega, ?_⟩
    simp only [Option.getD_some]
    exact ⟨- e.tdiv A, by rw [mul_neg]; omega⟩

theorem cycU_id (e A : Int) (h0 : 0 ≤ e) (h1 : e < A) : cycU e A = e := by
  unfold cycU CyclicVec.cycleUnsignedElement
  rw [if_neg (by omega)]
  have : e.tmod A = e := Int.tmod_eq_of_lt h0 h1
  simp only [this, if_neg (show ¬ e < 0 by omega), Option.getD_some]

theorem eq_of_dvd (A a b : Int) (ha : 0 ≤ a ∧ a < A) (hb : 0 ≤ b ∧ b < A) (h : A ∣ a - b) : a = b := by
  obtain ⟨k, hk⟩ := h
  have hA : 0 < A := by omega
  have : k = 0 := by
    by_contra hne
    rcases Int.lt_or_gt_of_ne hne with h | h
    · have : A * k ≤ A * (-1) := Int.mul_le_mul_of_nonneg_left (by omega) (by omega)
      omega
    · have : A * 1 ≤ A * k := Int.mul_le_mul_of_nonneg_left (by omega) (by omega)
      omega
  subst this; omega

theorem reached_iff (m : Map) (hA : 0 < m.angle) (s d c : Cell) (hc : 0 ≤ c.yaw ∧ c.yaw < m.angle) :
    Reached m s d c ↔ c = shift m s d := by
  obtain ⟨p0, p1, p2⟩ := cycU_spec (s.yaw + d.yaw) m.angle hA
  constructor
  · rintro ⟨h1, h2, h3⟩
    obtain ⟨cx, cy, ca⟩ := c
    simp only at h1 h2 h3 hc
    have : ca = cycU (s.yaw + d.yaw) m.angle := eq_of_dvd m.angle _ _ hc ⟨p0, p1⟩ (by
      have := Int.dvd_sub h3 p2
      rwa [show ca - (s.yaw + d.yaw) - (cycU (s.yaw + d.yaw) m.angle - (s.yaw + d.yaw))
        = ca - cycU (s.yaw + d.yaw) m.angle by ring] at this)
    unfold shift; rw [h1, h2, this]
  · rintro rfl; exact ⟨rfl, rfl, p2⟩

theorem validate_iff (r w h a x y z : Int) :
    Gridmap.validateLoop r 2 [x, y, z] [w, h, a] = true ↔
      (r ≤ x ∧ x < w - r) ∧ (r ≤ y ∧ y < h - r) ∧ (0 ≤ z ∧ z < a) := by
  simp only [Gridmap.validateLoop]
  split
  · constructor
    · intro h; cases h
    · omega
  · split
    · constructor
      · intro h; cases h
      · omega
    · split
      · constructor
        · intro h; cases h
        · omega
      · constructor
        · intro; omega
        · intro; trivial

/-- The tests of the loop body are the eligibility of the specification. -/
theorem taken_iff (m : Map) (hA : 0 < m.angle) (cm : Cell → Int) (s d : Cell) (R A r acc : Int) (hd : d ∈ offsets R A) :
    taken m cm s R r acc d = true ↔ Eligible m cm s R A r acc d (shift m s d) := by
  rw [mem_offsets] at hd
  obtain ⟨p0, p1, -⟩ := cycU_spec (s.yaw + d.yaw) m.angle hA
  have hR : Reached m s d (shift m s d) := (reached_iff m hA s d _ ⟨p0, p1⟩).mpr rfl
  have hsq : sqlen d = d.x ^ 2 + d.y ^ 2 := by unfold sqlen; ring
  have hz : (d.x = 0 ∧ d.y = 0 ∧ d.yaw = 0) ↔ d = ⟨0, 0, 0⟩ := by
    obtain ⟨a, b, c⟩ := d; simp
  have hv := validate_iff m.range m.width m.height m.angle (shift m s d).x (shift m s d).y (shift m s d).yaw
  have e1 : R * R = R ^ 2 := by ring
  have e2 : r * r = r ^ 2 := by ring
  have hyaw : |d.yaw| ≤ A := abs_le.mpr hd.1
  unfold taken Eligible WithinRange Inside
  simp only [hz, hsq, e1, e2]
  constructor
  · intro h
    split at h
    · cases h
    rename_i h1
    split at h
    · cases h
    rename_i h2
    split at h
    · cases h
    rename_i h3
    split at h
    · cases h
    rename_i h4
    split at h
    · cases h
    rename_i h5
    split at h
    · cases h
    rename_i h6
    have h5' := hv.mp (by simpa using h5)
    exact ⟨hR, ⟨h1, by omega, by omega, by omega, hyaw⟩,
      ⟨h5'.1.1, h5'.1.2, by omega, by omega, h5'.2.1.1, h5'.2.1.2, by omega, by omega, h5'.2.2.1, h5'.2.2.2⟩, by omega⟩
  · rintro ⟨-, ⟨h1, h2, h3, h4, -⟩, ⟨i1, i2, i3, i4, i5, i6, i7, i8, i9, i10⟩, h6⟩
    have h5 := hv.mpr ⟨⟨i1, i2⟩, ⟨i5, i6⟩, ⟨i9, i10⟩⟩
    rw [if_neg h1, if_neg (by omega), if_neg (by omega), if_neg (by omega), if_neg (by rw [h5]; decide),
      if_neg (by omega)]

theorem eligible_offset (m : Map) (cm : Cell → Int) (s d c : Cell) (R A r acc : Int)
    (h : Eligible m cm s R A r acc d c) : d ∈ offsets R A := by
  obtain ⟨-, ⟨-, h0, h1, -, h2⟩, -, -⟩ := h
  rw [mem_offsets]
  have hx := sq_nonneg d.x
  have hy := sq_nonneg d.y
  have a1 : |d.x| ≤ R := abs_le_of_sq_le_sq (by linarith) h0
  have a2 : |d.y| ≤ R := abs_le_of_sq_le_sq (by linarith) h0
  exact ⟨abs_le.mp h2, abs_le.mp a1, abs_le.mp a2⟩

/-- Loop invariant: after some offsets the best so far is the nearest among those taken. -/
theorem fold_spec (m : Map) (cm : Cell → Int) (dist : Cell → ℝ) (s : Cell) (R r acc : Int) :
    ∀ (l : List Cell) (best : Option (ℝ × Cell)),
      (∀ b, l.foldl (visit m cm dist s R r acc) best = some b →
        ((best = some b) ∨ ∃ d ∈ l, taken m cm s R r acc d = true ∧ b = (dist d, shift m s d)) ∧
        (∀ b0, best = some b0 → b.1 ≤ b0.1) ∧ (∀ d ∈ l, taken m cm s R r acc d = true → b.1 ≤ dist d)) ∧
      (l.foldl (visit m cm dist s R r acc) best = none →
        best = none ∧ ∀ d ∈ l, taken m cm s R r acc d = false) := by
  intro l
  induction l with
  | nil =>
    intro best
    refine ⟨fun b hb => ⟨Or.inl hb, fun b0 h0 => ?_, (fun d hd => by cases hd)⟩, fun h => ⟨h, (fun d hd => by cases hd)⟩⟩
    simp only [List.foldl_nil] at hb
    rw [hb] at h0; cases h0; exact le_refl _
  | cons d ds ih =>
    intro best
    simp only [List.foldl_cons]
    obtain ⟨ih1, ih2⟩ := ih (visit m cm dist s R r acc best d)
    by_cases ht : taken m cm s R r acc d = true
    · cases best with
      | none =>
        have hv : visit m cm dist s R r acc none d = some (dist d, shift m s d) := by
          unfold visit; rw [if_pos ht]
        rw [hv] at ih1 ih2 ⊢
        constructor
        · intro b hb
          obtain ⟨q1, q2, q3⟩ := ih1 b hb
          refine ⟨Or.inr ?_, (fun b0 h0 => by cases h0), ?_⟩
          · rcases q1 with q1 | ⟨d', hd', hh⟩
            · exact ⟨d, List.mem_cons_self .., ht, (Option.some.inj q1).symm⟩
            · exact ⟨d', List.mem_cons_of_mem _ hd', hh⟩
          · intro d' hd' ht'
            rcases List.mem_cons.mp hd' with rfl | hd'
            · exact q2 _ rfl
            · exact q3 d' hd' ht'
        · intro h
          have := (ih2 h).1; cases this
      | some b1 =>
        obtain ⟨rm, so⟩ := b1
        by_cases hlt : dist d < rm
        · have hv : visit m cm dist s R r acc (some (rm, so)) d = some (dist d, shift m s d) := by
            unfold visit; rw [if_pos ht]; exact if_pos hlt
          rw [hv] at ih1 ih2 ⊢
          constructor
          · intro b hb
            obtain ⟨q1, q2, q3⟩ := ih1 b hb
            refine ⟨Or.inr ?_, fun b0 h0 => ?_, ?_⟩
            · rcases q1 with q1 | ⟨d', hd', hh⟩
              · exact ⟨d, List.mem_cons_self .., ht, (Option.some.inj q1).symm⟩
              · exact ⟨d', List.mem_cons_of_mem _ hd', hh⟩
            · cases h0; exact (q2 _ rfl).trans hlt.le
            · intro d' hd' ht'
              rcases List.mem_cons.mp hd' with rfl | hd'
              · exact q2 _ rfl
              · exact q3 d' hd' ht'
          · intro h
            have := (ih2 h).1; cases this
        · have hv : visit m cm dist s R r acc (some (rm, so)) d = some (rm, so) := by
            unfold visit; rw [if_pos ht]; exact if_neg hlt
          rw [hv] at ih1 ih2 ⊢
          constructor
          · intro b hb
            obtain ⟨q1, q2, q3⟩ := ih1 b hb
            refine ⟨?_, fun b0 h0 => q2 b0 h0, ?_⟩
            · rcases q1 with q1 | ⟨d', hd', hh⟩
              · exact Or.inl q1
              · exact Or.inr ⟨d', List.mem_cons_of_mem _ hd', hh⟩
            · intro d' hd' ht'
              rcases List.mem_cons.mp hd' with rfl | hd'
              · exact (q2 _ rfl).trans (not_lt.mp hlt)
              · exact q3 d' hd' ht'
          · intro h
            have := (ih2 h).1; cases this
    · have hv : visit m cm dist s R r acc best d = best := by
        unfold visit; rw [if_neg ht]
      rw [hv] at ih1 ih2 ⊢
      constructor
      · intro b hb
        obtain ⟨q1, q2, q3⟩ := ih1 b hb
        refine ⟨?_, q2, ?_⟩
        · rcases q1 with q1 | ⟨d', hd', hh⟩
          · exact Or.inl q1
          · exact Or.inr ⟨d', List.mem_cons_of_mem _ hd', hh⟩
        · intro d' hd' ht'
          rcases List.mem_cons.mp hd' with rfl | hd'
          · exact absurd ht' ht
          · exact q3 d' hd' ht'
      · intro h
        obtain ⟨q1, q2⟩ := ih2 h
        refine ⟨q1, fun d' hd' => ?_⟩
        rcases List.mem_cons.mp hd' with rfl | hd'
        · simpa using ht
        · exact q2 d' hd'

theorem scan_some (m : Map) (hA : 0 < m.angle) (cm : Cell → Int) (dist : Cell → ℝ) (s : Cell) (R A r acc : Int) (c : Cell)
    (h : scan m cm dist s R A r acc = some c) : Nearest m cm dist s R A r acc c := by
  unfold scan at h
  rw [Option.map_eq_some_iff] at h
  obtain ⟨b, hb, rfl⟩ := h
  obtain ⟨q1, -, q3⟩ := (fold_spec m cm dist s R r acc _ none).1 b hb
  rcases q1 with q1 | ⟨d, hd, ht, rfl⟩
  · cases q1
  refine ⟨d, (taken_iff m hA cm s d R A r acc hd).mp ht, fun d' c' h' => ?_⟩
  have hd' := eligible_offset _ _ _ _ _ _ _ _ _ h'
  refine q3 d' hd' ((taken_iff m hA cm s d' R A r acc hd').mpr ?_)
  have : c' = shift m s d' := (reached_iff m hA s d' c' ⟨h'.2.2.1.2.2.2.2.2.2.2.2.1, h'.2.2.1.2.2.2.2.2.2.2.2.2⟩).mp h'.1
  rwa [← this]

theorem scan_none (m : Map) (hA : 0 < m.angle) (cm : Cell → Int) (dist : Cell → ℝ) (s : Cell) (R A r acc : Int)
    (h : scan m cm dist s R A r acc = none) : ¬ Exists m cm s R A r acc := by
  unfold scan at h
  rw [Option.map_eq_none_iff] at h
  obtain ⟨-, q⟩ := (fold_spec m cm dist s R r acc _ none).2 h
  rintro ⟨d, c, hE⟩
  have hd := eligible_offset _ _ _ _ _ _ _ _ _ hE
  have hc : c = shift m s d := (reached_iff m hA s d c ⟨hE.2.2.1.2.2.2.2.2.2.2.2.1, hE.2.2.1.2.2.2.2.2.2.2.2.2⟩).mp hE.1
  rw [hc] at hE
  have := (taken_iff m hA cm s d R A r acc hd).mpr hE
  rw [q d hd] at this; cases this

theorem scan_yaw (m : Map) (hA : 0 < m.angle) (cm : Cell → Int) (dist : Cell → ℝ) (s : Cell) (R A r acc : Int) (c : Cell)
    (h : scan m cm dist s R A r acc = some c) : (⟨c.x, c.y, cycU c.yaw m.angle⟩ : Cell) = c := by
  obtain ⟨d, hE, -⟩ := scan_some m hA cm dist s R A r acc c h
  rw [cycU_id c.yaw m.angle hE.2.2.1.2.2.2.2.2.2.2.2.1 hE.2.2.1.2.2.2.2.2.2.2.2.2]

end helpers

/-- **C18** (what is returned).  A relocated pose is an eligible cell for the requested acceptable cost (the configured one when
none is given) such that no eligible cell is nearer; or no such cell exists and it is the nearest cell that is cheaper than
lethal. -/
theorem search_returns_nearest (m : Map) (hA : 0 < m.angle) (cm : Cell → Int) (dist : Cell → ℝ) (s : Cell)
    (R A acc r : Int) (c : Cell) (h : searchAvailablePos m cm dist s R A acc r = some c) :
    let acc' := if acc = -1 then m.acceptable else acc
    Nearest m cm dist s R A r acc' c ∨
      (¬ Exists m cm s R A r acc' ∧ Nearest m cm dist s R A 0 100 c) := by
  intro acc'
  unfold searchAvailablePos at h
  change (match scan m cm dist s R A r acc' with
    | some out => some (⟨out.x, out.y, cycU out.yaw m.angle⟩ : Cell)
    | none => if acc' ≠ 100 then
        (scan m cm dist s R A 0 100).map fun out => (⟨out.x, out.y, cycU out.yaw m.angle⟩ : Cell) else none) = some c at h
  cases h1 : scan m cm dist s R A r acc' with
  | some out =>
    rw [h1] at h
    simp only [scan_yaw m hA cm dist s R A r acc' out h1, Option.some.injEq] at h
    subst h
    exact Or.inl (scan_some m hA cm dist s R A r acc' out h1)
  | none =>
    rw [h1] at h
    simp only at h
    refine Or.inr ⟨scan_none m hA cm dist s R A r acc' h1, ?_⟩
    split at h
    · rw [Option.map_eq_some_iff] at h
      obtain ⟨out, h2, h3⟩ := h
      rw [scan_yaw m hA cm dist s R A 0 100 out h2] at h3
      subst h3
      exact scan_some m hA cm dist s R A 0 100 out h2
    · cases h

/-- **C18** (failure).  The request fails exactly when there is no eligible cell: neither for the acceptable cost, nor, unless
that cost already is the lethal one, any cell in range cheaper than lethal. -/
theorem search_fails_iff (m : Map) (hA : 0 < m.angle) (cm : Cell → Int) (dist : Cell → ℝ) (s : Cell) (R A acc r : Int) :
    let acc' := if acc = -1 then m.acceptable else acc
    searchAvailablePos m cm dist s R A acc r = none ↔
      ¬ Exists m cm s R A r acc' ∧ (acc' ≠ 100 → ¬ Exists m cm s R A 0 100) := by
  intro acc'
  unfold searchAvailablePos
  change (match scan m cm dist s R A r acc' with
    | some out => some (⟨out.x, out.y, cycU out.yaw m.angle⟩ : Cell)
    | none => if acc' ≠ 100 then
        (scan m cm dist s R A 0 100).map fun out => (⟨out.x, out.y, cycU out.yaw m.angle⟩ : Cell) else none) = none ↔ _
  have some_ex : ∀ r acc out, scan m cm dist s R A r acc = some out → Exists m cm s R A r acc := fun r acc out h => by
    obtain ⟨d, hE, -⟩ := scan_some m hA cm dist s R A r acc out h
    exact ⟨d, out, hE⟩
  cases h1 : scan m cm dist s R A r acc' with
  | some out =>
    constructor
    · intro h; cases h
    · intro h; exact absurd (some_ex _ _ _ h1) h.1
  | none =>
    have n1 := scan_none m hA cm dist s R A r acc' h1
    by_cases h100 : acc' = 100
    · simp [h100] at n1 ⊢; exact n1
    · simp only [ne_eq, h100, not_false_eq_true, if_true, Option.map_eq_none_iff, true_implies]
      constructor
      · intro h2; exact ⟨n1, scan_none m hA cm dist s R A 0 100 h2⟩
      · intro h2
        cases h3 : scan m cm dist s R A 0 100 with
        | none => rfl
        | some out => exact absurd (some_ex _ _ _ h3) h2.2

/-- **C18** (when a pose is moved).  A pose closer to the border than the margin is reported as outside the map and a pose
that is not lethal is kept; a lethal pose is moved to the nearest free cell, or reported as blocked when there is none. -/
theorem relocate_cases (m : Map) (hA : 0 < m.angle) (cm rough : Cell → Int) (dist : Cell → ℝ) (s : Cell) (R A : Int)
    (useRough : Bool) :
    let s0 : Cell := if useRough then ⟨s.x, s.y, 0⟩ else s
    let own := if useRough then rough else cm
    let inMap := (m.range ≤ s0.x ∧ s0.x < m.width - m.range) ∧ (m.range ≤ s0.y ∧ s0.y < m.height - m.range) ∧
      (0 ≤ s0.yaw ∧ s0.yaw < m.angle)
    match relocate m cm rough dist s R A useRough with
    | (.outOfMap, c) => ¬ inMap ∧ c = s0
    | (.ok, c) => inMap ∧ own s0 ≠ 100 ∧ c = s0
    | (.inRock, c) => inMap ∧ own s0 = 100 ∧ c = s0 ∧ ¬ Exists m cm s0 R A 0 m.acceptable ∧
        (m.acceptable ≠ 100 → ¬ Exists m cm s0 R A 0 100)
    | (.relocated, c) => inMap ∧ own s0 = 100 ∧
        (Nearest m cm dist s0 R A 0 m.acceptable c ∨
          (¬ Exists m cm s0 R A 0 m.acceptable ∧ Nearest m cm dist s0 R A 0 100 c)) := by
  intro s0 own inMap
  have hr : relocate m cm rough dist s R A useRough = relocateImpl m own cm dist R A s0 := by
    unfold relocate; cases useRough <;> rfl
  rw [hr]
  have hv := validate_iff m.range m.width m.height m.angle s0.x s0.y s0.yaw
  unfold relocateImpl
  by_cases hin : inMap
  · have hv' := hv.mpr hin
    rw [if_neg (by rw [hv']; decide)]
    by_cases h100 : own s0 = 100
    · rw [if_pos h100]
      cases hs : searchAvailablePos m cm dist s0 R A with
      | none =>
        have := (search_fails_iff m hA cm dist s0 R A (-1) 0).mp hs
        simp only [if_true] at this
        exact ⟨hin, h100, rfl, this.1, this.2⟩
      | some c =>
        have := search_returns_nearest m hA cm dist s0 R A (-1) 0 c hs
        simp only [if_true] at this
        exact ⟨hin, h100, this⟩
    · rw [if_neg h100]; exact ⟨hin, h100, rfl⟩
  · have : Gridmap.validateLoop m.range 2 [s0.x, s0.y, s0.yaw] [m.width, m.height, m.angle] = false := by
      cases hh : Gridmap.validateLoop m.range 2 [s0.x, s0.y, s0.yaw] [m.width, m.height, m.angle] with
      | false => rfl
      | true => exact absurd (hv.mp hh) hin
    rw [if_pos this]
    exact ⟨hin, rfl⟩

/-- **C18** (nearness in the node).  With the planner's own distance, no eligible cell that needs the same turn is closer in
the plane than the one returned. -/
theorem nearest_in_plane (g : Model3D.Geo) (w : Model3D.Wt) (hw : 0 < w.ec0) (m : Map) (cm : Cell → Int) (s : Cell)
    (R A r acc : Int) (c : Cell) (h : Nearest m cm (Model3D.euclidCost g w) s R A r acc c) :
    ∃ d, Eligible m cm s R A r acc d c ∧
      ∀ d' c', Eligible m cm s R A r acc d' c' → d'.yaw = d.yaw → d.x ^ 2 + d.y ^ 2 ≤ d'.x ^ 2 + d'.y ^ 2 := by
  obtain ⟨d, hE, hmin⟩ := h
  refine ⟨d, hE, fun d' c' hE' hy => ?_⟩
  have h1 := hmin d' c' hE'
  have rough : ∀ v : Cell, Model3D.euclidCostRough w v = √((v.x ^ 2 + v.y ^ 2 : Int) : ℝ) * w.ec0 := by
    intro v
    have e : 0 + v.x * v.x + v.y * v.y = v.x ^ 2 + v.y ^ 2 := by ring
    unfold Model3D.euclidCostRough Model3D.linCache
    simp only [e, ite_self]
  unfold Model3D.euclidCost at h1
  rw [hy, rough, rough] at h1
  have h2 : √((d.x ^ 2 + d.y ^ 2 : Int) : ℝ) ≤ √((d'.x ^ 2 + d'.y ^ 2 : Int) : ℝ) := by
    have : √((d.x ^ 2 + d.y ^ 2 : Int) : ℝ) * w.ec0 ≤ √((d'.x ^ 2 + d'.y ^ 2 : Int) : ℝ) * w.ec0 := by linarith
    exact le_of_mul_le_mul_right this hw
  have h3 : (0 : ℝ) ≤ ((d'.x ^ 2 + d'.y ^ 2 : Int) : ℝ) := by
    exact_mod_cast add_nonneg (sq_nonneg _) (sq_nonneg _)
  have := (Real.sqrt_le_sqrt_iff h3).mp h2
  exact_mod_cast this

/-! ### Examples -/

/-- A 5 × 5 map with four headings, margin 1. -/
def ex : Map := ⟨5, 5, 4, 1, 50⟩

/-- Cell (2,2) is lethal, (3,2) costs 10, the rest is at 60. -/
def exCm : Cell → Int := fun c => if c.x = 2 ∧ c.y = 2 then 100 else if c.x = 3 ∧ c.y = 2 then 10 else 60

/-- The hypotheses of the theorems are met: the search from the lethal cell succeeds. -/
example : Exists ex exCm ⟨2, 2, 0⟩ 1 0 0 50 :=
  ⟨⟨1, 0, 0⟩, ⟨3, 2, 0⟩, ⟨rfl, rfl, ⟨0, by decide⟩⟩, ⟨by decide, by decide, by decide, by decide, by decide⟩,
    ⟨by decide, by decide, by decide, by decide, by decide, by decide, by decide, by decide, by decide, by decide⟩, by decide⟩

example (dist : Cell → ℝ) : ∃ c, searchAvailablePos ex exCm dist ⟨2, 2, 0⟩ 1 0 = some c := by
  cases h : searchAvailablePos ex exCm dist ⟨2, 2, 0⟩ 1 0 with
  | some c => exact ⟨c, rfl⟩
  | none =>
    have := ((search_fails_iff ex (by decide) exCm dist ⟨2, 2, 0⟩ 1 0 (-1) 0).mp h).1
    exact absurd ⟨⟨1, 0, 0⟩, ⟨3, 2, 0⟩, ⟨rfl, rfl, ⟨0, by decide⟩⟩,
      ⟨by decide, by decide, by decide, by decide, by decide⟩,
      ⟨by decide, by decide, by decide, by decide, by decide, by decide, by decide, by decide, by decide, by decide⟩,
      by decide⟩ this

/-- An empty 9 × 9 map of cost 60. -/
def wide : Map := ⟨9, 9, 4, 0, 50⟩

/-- Plain squared distance. -/
def sqDist (d : Cell) : ℝ := ((d.x ^ 2 + d.y ^ 2 : Int) : ℝ)

/-- The minimum distance is not kept by the fallback: with acceptable cost 50 and a minimum distance of 3 cells on a map of
cost 60, a cell next to the request is returned, although cells at distance 3 are just as free. -/
theorem fallback_ignores_minimum :
    ∃ c, searchAvailablePos wide (fun _ => 60) sqDist ⟨4, 4, 0⟩ 4 0 50 3 = some c ∧
      (c.x - 4) ^ 2 + (c.y - 4) ^ 2 < 3 ^ 2 := by
  have e1 : Eligible wide (fun _ => 60) ⟨4, 4, 0⟩ 4 0 0 100 ⟨1, 0, 0⟩ ⟨5, 4, 0⟩ :=
    ⟨⟨rfl, rfl, ⟨0, by decide⟩⟩, ⟨by decide, by decide, by decide, by decide, by decide⟩,
      ⟨by decide, by decide, by decide, by decide, by decide, by decide, by decide, by decide, by decide, by decide⟩,
      by decide⟩
  cases h : searchAvailablePos wide (fun _ => 60) sqDist ⟨4, 4, 0⟩ 4 0 50 3 with
  | none =>
    have hno := ((search_fails_iff wide (by decide) (fun _ => 60) sqDist ⟨4, 4, 0⟩ 4 0 50 3).mp h).2 (by decide)
    exact absurd ⟨_, _, e1⟩ hno
  | some c =>
    refine ⟨c, rfl, ?_⟩
    rcases search_returns_nearest wide (by decide) (fun _ => 60) sqDist ⟨4, 4, 0⟩ 4 0 50 3 c h with h | ⟨-, h⟩
    · obtain ⟨d, ⟨-, -, -, h4⟩, -⟩ := h
      simp only [show ¬ ((50 : Int) = -1) by decide, if_false] at h4
      omega
    · obtain ⟨d, ⟨⟨h1, h2, -⟩, -, -, -⟩, hmin⟩ := h
      have := hmin _ _ e1
      unfold sqDist at this
      have h3 : d.x ^ 2 + d.y ^ 2 ≤ 1 := by
        have : ((d.x ^ 2 + d.y ^ 2 : Int) : ℝ) ≤ ((1 : Int) : ℝ) := by simpa using this
        exact_mod_cast this
      simp only at h1 h2
      rw [show c.x - 4 = d.x by omega, show c.y - 4 = d.y by omega]
      omega

end Verif.SearchPos
