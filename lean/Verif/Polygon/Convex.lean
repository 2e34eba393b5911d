import Verif.Polygon.Region
/-! # The inside test is exact for convex footprints (C116) -/
namespace Verif.Polygon
open Spec Filter Topology

theorem edge_mem {pts : List (Pt ℝ)} {u v : Pt ℝ} (h : Edge (close pts) u v) : u ∈ pts ∧ v ∈ pts := by
  obtain ⟨l, r, e⟩ := h
  exact ⟨mem_close (by rw [e]; simp), mem_close (by rw [e]; simp)⟩

theorem third {pts : List (Pt ℝ)} (h : 3 ≤ pts.length) (hn : pts.Nodup) (u v : Pt ℝ) : ∃ w ∈ pts, w ≠ u ∧ w ≠ v := by
  match pts, h with
  | a :: b :: c :: rest, _ =>
    simp only [List.nodup_cons, List.mem_cons, not_or] at hn
    obtain ⟨⟨hab, hac, -⟩, ⟨hbc, -⟩, -⟩ := hn
    by_cases ha : a = u ∨ a = v
    · by_cases hb : b = u ∨ b = v
      · refine ⟨c, by simp, ?_, ?_⟩
        · rintro rfl; rcases ha with rfl | rfl
          · exact hac rfl
          · rcases hb with rfl | rfl
            · exact hbc rfl
            · exact hab rfl
        · rintro rfl; rcases ha with rfl | rfl
          · rcases hb with rfl | rfl
            · exact hab rfl
            · exact hbc rfl
          · exact hac rfl
      · exact ⟨b, by simp, fun h => hb (Or.inl h), fun h => hb (Or.inr h)⟩
    · exact ⟨a, by simp, fun h => ha (Or.inl h), fun h => ha (Or.inr h)⟩

theorem leftOf_self (u v : Pt ℝ) : leftOf u v u = 0 ∧ leftOf u v v = 0 := by
  unfold leftOf; constructor <;> ring

theorem leftOf_swap (u v a : Pt ℝ) : leftOf v u a = - leftOf u v a := by unfold leftOf; ring

theorem leftOf_onSegment {u v q : Pt ℝ} (h : OnSegment u v q) : leftOf u v q = 0 := by
  obtain ⟨t, -, -, rfl⟩ := h; unfold leftOf; simp only; ring

theorem leftOf_mix (u v p q : Pt ℝ) (t : ℝ) :
    leftOf u v (p.1 + t * (q.1 - p.1), p.2 + t * (q.2 - p.2)) = (1 - t) * leftOf u v p + t * leftOf u v q := by
  unfold leftOf; simp only; ring

/-- Points strictly to the left of every edge. -/
def interior (pts : List (Pt ℝ)) : Set (Pt ℝ) := {a | ∀ u v, Edge (close pts) u v → 0 < leftOf u v a}

theorem interior_convex (pts : List (Pt ℝ)) : Convex ℝ (interior pts) := by
  intro p hp q hq a b ha hb hab u v he
  have h1 := hp u v he
  have h2 := hq u v he
  have e : a • p + b • q = (p.1 + b * (q.1 - p.1), p.2 + b * (q.2 - p.2)) := by
    have : a = 1 - b := by linarith
    subst this
    apply Prod.ext <;> simp <;> ring
  rw [e, leftOf_mix]
  have : a = 1 - b := by linarith
  rw [← this]
  rcases eq_or_lt_of_le ha with h | h
  · rw [← h] at hab ⊢
    have : b = 1 := by linarith
    rw [this]; linarith
  · have := mul_pos h h1
    have := mul_nonneg hb h2.le
    linarith

theorem interior_off {pts : List (Pt ℝ)} {a : Pt ℝ} (h : a ∈ interior pts) : ¬ OnOutline (close pts) a := by
  rintro ⟨l, u, v, r, e, hs⟩
  have := h u v ⟨l, r, e⟩
  rw [leftOf_onSegment hs] at this
  exact lt_irrefl _ this

theorem still_local (m : Pt ℝ) (v : List (Pt ℝ)) (h : v ≠ []) (hoff : ¬ OnOutline v m) :
    ∀ᶠ b : Pt ℝ in 𝓝 m, (crossings b v + crossings m v + flip id (fun _ => v.head h) m b + flip id (fun _ => v.getLast h) m b) % 2 = 0 := by
  have e : ∀ q : Pt ℝ, at_ (v.map fun w (_ : Pt ℝ) => w) q = v := by
    intro q; unfold at_; rw [List.map_map]; exact (List.map_congr_left (fun _ _ => rfl)).trans (List.map_id _)
  have := crossings_local (A := id) (s₀ := m) continuousAt_id (v.map fun w (_ : Pt ℝ) => w) (by simpa using h)
    (fun W hW => by obtain ⟨w, -, rfl⟩ := List.mem_map.1 hW; exact continuousAt_const) (by rw [e]; exact hoff)
  simpa only [e, id, List.head_map, List.getLast_map] using this

section
variable {pts : List (Pt ℝ)} (hc : ConvexCCW pts)
include hc

theorem vertex_nonneg {u v w : Pt ℝ} (he : Edge (close pts) u v) (hw : w ∈ pts) : 0 ≤ leftOf u v w := by
  by_cases h1 : w = u
  · rw [h1, (leftOf_self u v).1]
  · by_cases h2 : w = v
    · rw [h2, (leftOf_self u v).2]
    · exact (hc.2.2 u v he w hw h1 h2).le

theorem edge_ne {u v : Pt ℝ} (he : Edge (close pts) u v) : u ≠ v := by
  rintro rfl
  obtain ⟨w, hw, h1, -⟩ := third hc.1 hc.2.1 u u
  have := hc.2.2 u u he w hw h1 h1
  unfold leftOf at this
  simp at this

theorem no_reverse {u v : Pt ℝ} (he : Edge (close pts) u v) (he' : Edge (close pts) v u) : False := by
  obtain ⟨w, hw, h1, h2⟩ := third hc.1 hc.2.1 u v
  have a := hc.2.2 u v he w hw h1 h2
  have b := hc.2.2 v u he' w hw h2 h1
  rw [leftOf_swap] at b
  linarith

/-- The middle of an edge is strictly left of every other edge. -/
theorem middle_left {u v u' v' : Pt ℝ} (he : Edge (close pts) u v) (he' : Edge (close pts) u' v') (hd : ¬ (u' = u ∧ v' = v)) :
    0 < leftOf u' v' (u.1 + 1 / 2 * (v.1 - u.1), u.2 + 1 / 2 * (v.2 - u.2)) := by
  rw [leftOf_mix]
  obtain ⟨mu, mv⟩ := edge_mem he
  have n1 := vertex_nonneg hc he' mu
  have n2 := vertex_nonneg hc he' mv
  by_cases h1 : u ≠ u' ∧ u ≠ v'
  · have := hc.2.2 u' v' he' u mu h1.1 h1.2
    linarith
  · by_cases h2 : v ≠ u' ∧ v ≠ v'
    · have := hc.2.2 u' v' he' v mv h2.1 h2.2
      linarith
    · exfalso
      have hne := edge_ne hc he
      have h1' : u = u' ∨ u = v' := by by_contra h; exact h1 (not_or.mp h)
      have h2' : v = u' ∨ v = v' := by by_contra h; exact h2 (not_or.mp h)
      rcases h1' with rfl | rfl
      · rcases h2' with rfl | rfl
        · exact hne rfl
        · exact hd ⟨rfl, rfl⟩
      · rcases h2' with rfl | rfl
        · exact no_reverse hc he he'
        · exact hne rfl

/-- Some edge rises. -/
theorem rising_edge : ∃ u v, Edge (close pts) u v ∧ u.2 < v.2 := by
  by_contra hno
  have hno' : ∀ u v, Edge (close pts) u v → v.2 ≤ u.2 := fun u v he => by
    by_contra h; exact hno ⟨u, v, he, not_le.mp h⟩
  -- heights never rise along the closed list, so they are all equal
  have mono : ∀ (v : List (Pt ℝ)), (∀ p q, Edge v p q → q.2 ≤ p.2) → ∀ p ∈ v, ∀ h : v ≠ [], p.2 ≤ (v.head h).2 ∧ (v.getLast h).2 ≤ p.2 := by
    intro v
    induction v with
    | nil => intro _ p hp; simp at hp
    | cons x xs ih =>
      intro hv p hp h
      cases xs with
      | nil => simp at hp; subst hp; simp
      | cons y ys =>
        have ih' := ih (fun p q ⟨l, r, e⟩ => hv p q ⟨x :: l, r, by rw [e]; rfl⟩)
        have hxy := hv x y ⟨[], ys, rfl⟩
        rw [List.getLast_cons (by simp)]
        simp only [List.head_cons] at ih' ⊢
        rcases List.mem_cons.1 hp with rfl | hp
        · have := ih' y (by simp) (by simp)
          exact ⟨le_refl _, this.2.trans hxy⟩
        · have := ih' p hp (by simp)
          exact ⟨this.1.trans hxy, this.2⟩
  obtain ⟨hl, hn, hcv⟩ := hc
  cases pts with
  | nil => simp at hl
  | cons p ps =>
    have heq : ∀ q ∈ p :: ps, q.2 = p.2 := by
      intro q hq
      have hq' : q ∈ close (p :: ps) := by simp [close] at hq ⊢; tauto
      have := mono _ hno' q hq' close_ne
      have hlast : (close (p :: ps)).getLast close_ne = p := by simp [close]
      rw [hlast] at this
      simp only [close, List.cons_append, List.head_cons] at this
      linarith
    cases ps with
    | nil => simp at hl
    | cons q qs =>
      have he : Edge (close (p :: q :: qs)) p q := ⟨[], qs ++ [p], rfl⟩
      obtain ⟨w, hw, h1, h2⟩ := third hl hn p q
      have := hcv p q he w hw h1 h2
      unfold leftOf at this
      rw [heq w hw, heq q (by simp)] at this
      simp at this

/-- An edge is not repeated in the rest of the list. -/
theorem edge_once {l r : List (Pt ℝ)} {u v : Pt ℝ} (e : close pts = l ++ u :: v :: r) :
    ¬ Edge (l ++ [u]) u v ∧ ¬ Edge (v :: r) u v := by
  have hd : pts = l ++ u :: (v :: r).dropLast := by
    have h1 : (close pts).dropLast = pts := by
      cases pts with
      | nil => rfl
      | cons p ps => simp only [close]; rw [List.dropLast_concat]
    rw [← h1, e, List.dropLast_append_of_ne_nil (by simp), List.dropLast_cons_of_ne_nil (by simp)]
  have hn := hc.2.1
  rw [hd, List.nodup_append] at hn
  obtain ⟨-, h2, h3⟩ := hn
  constructor
  · rintro ⟨l', r', e'⟩
    have hu : u ∈ l := by
      have : (l ++ [u]).dropLast = l := List.dropLast_concat
      rw [← this, e', List.dropLast_append_of_ne_nil (by simp), List.dropLast_cons_of_ne_nil (by simp)]
      simp
    exact h3 u hu u (by simp) rfl
  · rintro ⟨l', r', e'⟩
    have hu : u ∈ (v :: r).dropLast := by
      rw [e', List.dropLast_append_of_ne_nil (by simp), List.dropLast_cons_of_ne_nil (by simp)]
      simp
    exact (List.nodup_cons.mp h2).1 hu

/-- Some point strictly inside is reported inside. -/
theorem exists_inside : ∃ a ∈ interior pts, inside (close pts) a = true := by
  obtain ⟨u, v, he, hup⟩ := rising_edge hc
  obtain ⟨l, r, e⟩ := he
  have he : Edge (close pts) u v := ⟨l, r, e⟩
  set m : Pt ℝ := (u.1 + 1 / 2 * (v.1 - u.1), u.2 + 1 / 2 * (v.2 - u.2)) with hm
  have hm1 : u.2 < m.2 := by rw [hm]; simp only; linarith
  have hm2 : m.2 < v.2 := by rw [hm]; simp only; linarith
  have hother : ∀ p q, Edge (close pts) p q → ¬ (p = u ∧ q = v) → 0 < leftOf p q m :=
    fun p q h hd => middle_left hc he h hd
  have hsub1 : ∀ p q, Edge (l ++ [u]) p q → Edge (close pts) p q := by
    rintro p q ⟨l', r', e'⟩
    refine ⟨l', r' ++ v :: r, ?_⟩
    have : l ++ u :: v :: r = (l ++ [u]) ++ v :: r := by simp
    rw [e, this, e']; simp
  have hsub2 : ∀ p q, Edge (v :: r) p q → Edge (close pts) p q := by
    rintro p q ⟨l', r', e'⟩
    refine ⟨l ++ u :: l', r', ?_⟩
    rw [e, e']; simp
  obtain ⟨ho1, ho2⟩ := edge_once hc e
  have hoff1 : ¬ OnOutline (l ++ [u]) m := by
    rintro ⟨l', p, q, r', e', hs⟩
    have hE : Edge (l ++ [u]) p q := ⟨l', r', e'⟩
    have := hother p q (hsub1 p q hE) (by rintro ⟨rfl, rfl⟩; exact ho1 hE)
    rw [leftOf_onSegment hs] at this
    exact lt_irrefl _ this
  have hoff2 : ¬ OnOutline (v :: r) m := by
    rintro ⟨l', p, q, r', e', hs⟩
    have hE : Edge (v :: r) p q := ⟨l', r', e'⟩
    have := hother p q (hsub2 p q hE) (by rintro ⟨rfl, rfl⟩; exact ho2 hE)
    rw [leftOf_onSegment hs] at this
    exact lt_irrefl _ this
  -- near the middle of the edge
  have hint : ∀ᶠ b : Pt ℝ in 𝓝 m, ∀ p q, Edge (close pts) p q → ¬ (p = u ∧ q = v) → 0 < leftOf p q b := by
    have hfin : {pq : Pt ℝ × Pt ℝ | Edge (close pts) pq.1 pq.2 ∧ ¬ (pq.1 = u ∧ pq.2 = v)}.Finite := by
      apply Set.Finite.subset (((List.finite_toSet pts).prod (List.finite_toSet pts)))
      rintro ⟨p, q⟩ ⟨h, -⟩
      exact Set.mk_mem_prod (edge_mem h).1 (edge_mem h).2
    have := (Filter.eventually_all_finite hfin (l := 𝓝 m) (p := fun pq b => 0 < leftOf pq.1 pq.2 b)).2 (by
      rintro ⟨p, q⟩ ⟨h, hd⟩
      have hcont : Continuous fun b : Pt ℝ => leftOf p q b := by unfold leftOf; fun_prop
      exact continuousAt_const.eventually_lt hcont.continuousAt (hother p q h hd))
    filter_upwards [this] with b hb p q h hd
    exact hb (p, q) ⟨h, hd⟩
  have hall := (hint.and ((still_local m (l ++ [u]) (by simp) hoff1).and (still_local m (v :: r) (by simp) hoff2)))
  -- points at the same height, slightly left and right
  have hline : Tendsto (fun x : ℝ => ((x, m.2) : Pt ℝ)) (𝓝 m.1) (𝓝 m) := by
    have : Continuous fun x : ℝ => ((x, m.2) : Pt ℝ) := by fun_prop
    have h := this.tendsto m.1
    simpa using h
  have hev := hline.eventually hall
  obtain ⟨ε, hε, hball⟩ := Metric.eventually_nhds_iff.1 hev
  have hA := hball (y := m.1 - ε / 2) (by rw [Real.dist_eq]; rw [show m.1 - ε / 2 - m.1 = -(ε / 2) by ring, abs_neg, abs_of_pos (by linarith)]; linarith)
  have hB := hball (y := m.1 + ε / 2) (by rw [Real.dist_eq]; rw [show m.1 + ε / 2 - m.1 = ε / 2 by ring, abs_of_pos (by linarith)]; linarith)
  obtain ⟨hAi, hA1, hA2⟩ := hA
  obtain ⟨-, hB1, hB2⟩ := hB
  have hflip : ∀ (x : ℝ) (w : Pt ℝ), flip id (fun _ => w) m (x, m.2) = 0 := by
    intro x w
    unfold flip
    rw [if_neg]
    rintro ⟨h1, -, h3⟩
    simp only [id] at h1 h3
    linarith
  simp only [hflip, add_zero] at hA1 hA2 hB1 hB2
  have hsplit : ∀ b, crossings b (close pts) = crossings b (l ++ [u]) + (hit b u v + crossings b (v :: r)) := by
    intro b
    rw [e, crossings_append b u l (v :: r), crossings_cons]
  have hlx : ∀ x : ℝ, lx (x, m.2) u v = m.1 := by
    intro x
    unfold lx
    have : v.2 - u.2 ≠ 0 := by linarith
    rw [hm]; simp only; field_simp; ring
  have hitA : hit (m.1 - ε / 2, m.2) u v = 1 := by
    rw [hit_low, if_pos]
    refine ⟨?_, by rw [hlx]; simp only; linarith⟩
    have h1 : low (m.1 - ε / 2, m.2) u = true := by simp [low, hm1.le]
    have h2 : low (m.1 - ε / 2, m.2) v = false := by simp [low, hm2]
    rw [h1, h2]; simp
  have hitB : hit (m.1 + ε / 2, m.2) u v = 0 := by
    rw [hit_low, if_neg]
    rintro ⟨-, h⟩
    rw [hlx] at h; simp only at h; linarith
  have hside : ∀ x : ℝ, leftOf u v (x, m.2) = (v.2 - u.2) * (m.1 - x) := by
    intro x
    have : leftOf u v m = 0 := leftOf_onSegment ⟨1 / 2, by norm_num, by norm_num, rfl⟩
    unfold leftOf at this ⊢
    simp only
    linarith
  -- the right one lies outside the hull
  have hBout : inside (close pts) (m.1 + ε / 2, m.2) = false := by
    by_contra hb
    have hb : inside (close pts) (m.1 + ε / 2, m.2) = true := by simpa using hb
    have hh := inside_in_hull pts _ hb (v.2 - u.2) (-(v.1 - u.1)) ((v.2 - u.2) * u.1 - (v.1 - u.1) * u.2) (by
      intro p hp
      have := vertex_nonneg hc he hp
      unfold leftOf at this
      linarith)
    have h2 := hside (m.1 + ε / 2)
    unfold leftOf at h2
    simp only at h2 hh
    have : 0 < (v.2 - u.2) * (ε / 2) := mul_pos (by linarith) (by linarith)
    linarith
  refine ⟨(m.1 - ε / 2, m.2), ?_, ?_⟩
  · intro p q h
    by_cases hd : p = u ∧ q = v
    · obtain ⟨rfl, rfl⟩ := hd
      rw [hside]
      exact mul_pos (by linarith) (by linarith)
    · exact hAi p q h hd
  · unfold inside at hBout ⊢
    have hB3 : crossings (m.1 + ε / 2, m.2) (close pts) % 2 ≠ 1 := by simpa using hBout
    have a := hsplit (m.1 - ε / 2, m.2)
    have b := hsplit (m.1 + ε / 2, m.2)
    rw [hitA] at a
    rw [hitB] at b
    have : crossings (m.1 - ε / 2, m.2) (close pts) % 2 = 1 := by omega
    simpa using this

/-- C116: for a convex footprint the test is exact: a point off the outline is reported inside if and only if it lies
strictly to the left of every edge. -/
theorem inside_convex (a : Pt ℝ) (hoff : ¬ OnOutline (close pts) a) :
    inside (close pts) a = true ↔ ∀ u v, Edge (close pts) u v → 0 < leftOf u v a := by
  constructor
  · intro h u v he
    have hnn : 0 ≤ leftOf u v a := by
      have hh := inside_in_hull pts a h (v.2 - u.2) (-(v.1 - u.1)) ((v.2 - u.2) * u.1 - (v.1 - u.1) * u.2) (by
        intro p hp
        have := vertex_nonneg hc he hp
        unfold leftOf at this
        linarith)
      unfold leftOf
      linarith
    by_contra hz
    have hz : leftOf u v a = 0 := le_antisymm (not_lt.mp hz) hnn
    apply hoff
    obtain ⟨x0, x1, hx0, hx1, hL, hR⟩ := inside_between pts a h
    -- points of the outline on the line of the edge are on the edge
    have hon : ∀ q, OnOutline (close pts) q → 0 ≤ leftOf u v q ∧ (leftOf u v q = 0 → OnSegment u v q) := by
      rintro q ⟨l', p1, p2, r', e', hs⟩
      have hE : Edge (close pts) p1 p2 := ⟨l', r', e'⟩
      obtain ⟨m1, m2⟩ := edge_mem hE
      have n1 := vertex_nonneg hc he m1
      have n2 := vertex_nonneg hc he m2
      obtain ⟨t, t0, t1, rfl⟩ := hs
      rw [leftOf_mix]
      have c1 := mul_nonneg (sub_nonneg.mpr t1) n1
      have c2 := mul_nonneg t0 n2
      refine ⟨by linarith, fun h0 => ?_⟩
      have z1 : (1 - t) * leftOf u v p1 = 0 := by linarith
      have z2 : t * leftOf u v p2 = 0 := by linarith
      have hend : ∀ p ∈ pts, leftOf u v p = 0 → p = u ∨ p = v := by
        intro p hp h0
        by_contra hc'
        obtain ⟨a1, a2⟩ := not_or.mp hc'
        exact absurd h0 (hc.2.2 u v he p hp a1 a2).ne'
      have vert : ∀ p, p = u ∨ p = v → OnSegment u v p := by
        rintro p (rfl | rfl)
        · exact ⟨0, le_refl _, zero_le_one, by simp⟩
        · exact ⟨1, zero_le_one, le_refl _, by simp⟩
      rcases mul_eq_zero.mp z1 with h1 | h1
      · have : t = 1 := by linarith
        subst this
        rcases mul_eq_zero.mp z2 with h2 | h2
        · norm_num at h2
        · have := vert p2 (hend p2 m2 h2)
          simpa using this
      · rcases mul_eq_zero.mp z2 with h2 | h2
        · subst h2
          have := vert p1 (hend p1 m1 h1)
          simpa using this
        · have hne := edge_ne hc hE
          rcases hend p1 m1 h1 with rfl | rfl
          · rcases hend p2 m2 h2 with rfl | rfl
            · exact absurd rfl hne
            · exact ⟨t, t0, t1, rfl⟩
          · rcases hend p2 m2 h2 with rfl | rfl
            · exact onSegment_symm ⟨t, t0, t1, rfl⟩
            · exact absurd rfl hne
    obtain ⟨nL, zL⟩ := hon _ hL
    obtain ⟨nR, zR⟩ := hon _ hR
    have hx0' : x0 ≠ a.1 := by
      rintro rfl
      exact hoff hL
    have hlt : x0 < a.1 := lt_of_le_of_ne hx0 hx0'
    -- the value is linear along the row and zero between two nonnegative values
    have hmix : leftOf u v a * (x1 - x0) = leftOf u v (x0, a.2) * (x1 - a.1) + leftOf u v (x1, a.2) * (a.1 - x0) := by
      unfold leftOf; simp only; ring
    rw [hz, zero_mul] at hmix
    have q1 := mul_nonneg nL (sub_pos.mpr hx1).le
    have q2 := mul_nonneg nR (sub_pos.mpr hlt).le
    have z1 : leftOf u v (x0, a.2) * (x1 - a.1) = 0 := by linarith
    have z2 : leftOf u v (x1, a.2) * (a.1 - x0) = 0 := by linarith
    have s1 := zL ((mul_eq_zero.mp z1).resolve_right (by linarith))
    have s2 := zR ((mul_eq_zero.mp z2).resolve_right (by linarith))
    obtain ⟨l, r, e⟩ := he
    refine ⟨l, u, v, r, e, ?_⟩
    obtain ⟨t, t0, t1, et⟩ := s1
    obtain ⟨t', t0', t1', et'⟩ := s2
    have d : 0 < x1 - x0 := by linarith
    set k := (a.1 - x0) / (x1 - x0) with hk
    have k0 : 0 ≤ k := div_nonneg (by linarith) d.le
    have k1 : k ≤ 1 := by rw [hk, div_le_one d]; linarith
    have ka : a.1 = (1 - k) * x0 + k * x1 := by rw [hk]; have := d.ne'; field_simp; ring
    refine ⟨(1 - k) * t + k * t', ?_, ?_, ?_⟩
    · exact add_nonneg (mul_nonneg (by linarith) t0) (mul_nonneg k0 t0')
    · nlinarith [mul_nonneg (sub_nonneg.mpr k1) (sub_nonneg.mpr t1), mul_nonneg k0 (sub_nonneg.mpr t1')]
    · have f1 := congrArg Prod.fst et
      have f2 := congrArg Prod.snd et
      have g1 := congrArg Prod.fst et'
      have g2 := congrArg Prod.snd et'
      simp only at f1 f2 g1 g2
      apply Prod.ext
      · simp only
        rw [ka]
        linear_combination (1 - k) * f1 + k * g1
      · simp only
        linear_combination (1 - k) * f2 + k * g2
  · intro h
    obtain ⟨b, hb, hbi⟩ := exists_inside hc
    rw [inside_region pts (interior pts) (interior_convex pts).isPreconnected (fun q hq => interior_off hq) (a := a) (b := b) h hb]
    exact hbi

end

/-! ### The hypotheses are met -/

/-- A diamond-shaped footprint. -/
theorem diamond_convex : ConvexCCW [((1 : ℝ), (0 : ℝ)), (0, 1), (-1, 0), (0, -1)] := by
  have edges : ∀ u v : Pt ℝ, Edge (close [((1 : ℝ), (0 : ℝ)), (0, 1), (-1, 0), (0, -1)]) u v →
      (u, v) ∈ [((((1 : ℝ), (0 : ℝ)) : Pt ℝ), ((0, 1) : Pt ℝ)), ((0, 1), (-1, 0)), ((-1, 0), (0, -1)), ((0, -1), (1, 0))] := by
    rintro u v ⟨l, r, e⟩
    simp only [close, List.cons_append, List.nil_append] at e
    match l, e with
    | [], e => simp at e; simp [← e.1, ← e.2.1]
    | [_], e => simp at e; simp [← e.2.1, ← e.2.2.1]
    | [_, _], e => simp at e; simp [← e.2.2.1, ← e.2.2.2.1]
    | [_, _, _], e => simp at e; simp [← e.2.2.2.1, ← e.2.2.2.2.1]
    | _ :: _ :: _ :: _ :: l, e =>
      exfalso
      have := congrArg List.length e
      simp at this
      omega
  refine ⟨by simp, by norm_num, ?_⟩
  intro u v he w hw h1 h2
  have := edges u v he
  simp only [List.mem_cons, Prod.mk.injEq, List.not_mem_nil, or_false] at this hw
  rcases this with ⟨rfl, rfl⟩ | ⟨rfl, rfl⟩ | ⟨rfl, rfl⟩ | ⟨rfl, rfl⟩ <;> rcases hw with rfl | rfl | rfl | rfl <;>
    first
    | exact absurd rfl h1
    | exact absurd rfl h2
    | (unfold leftOf; norm_num)

/-- The centre of the diamond is inside, also by the theorem. -/
example : inside (close [((1 : ℝ), (0 : ℝ)), (0, 1), (-1, 0), (0, -1)]) (0, 0) = true := by
  obtain ⟨b, hb, hbi⟩ := exists_inside diamond_convex
  rw [inside_region _ (interior _) (interior_convex _).isPreconnected (fun q hq => interior_off hq) (b := b) _ hb]
  · exact hbi
  · rintro u v ⟨l, r, e⟩
    simp only [close, List.cons_append, List.nil_append] at e
    match l, e with
    | [], e => simp at e; rw [← e.1, ← e.2.1]; unfold leftOf; norm_num
    | [_], e => simp at e; rw [← e.2.1, ← e.2.2.1]; unfold leftOf; norm_num
    | [_, _], e => simp at e; rw [← e.2.2.1, ← e.2.2.2.1]; unfold leftOf; norm_num
    | [_, _, _], e => simp at e; rw [← e.2.2.2.1, ← e.2.2.2.2.1]; unfold leftOf; norm_num
    | _ :: _ :: _ :: _ :: l, e =>
      exfalso
      have := congrArg List.length e
      simp at this
      omega

end Verif.Polygon
