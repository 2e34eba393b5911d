import Verif.CSpace.Props
import Verif.Polygon.Region
/-! # Inflation is conservative for compact footprints

The neighbour shortcut can miss obstacles for elongated footprints (`shortcut_misses_wall`).  Here: it is conservative
whenever the template is full on the whole rectangle between the robot's cell and a covered cell, in particular whenever
the expansion exceeds the difference between the footprint's circumscribed and inscribed radius. -/
namespace Verif.CSpace
open Verif.Polygon Verif.CSpace.Spec Verif.Polygon.Spec

section
variable {K : Type} [Field K] [LinearOrder K] [IsStrictOrderedRing K] [FloorRing K]

/-- A larger template gives larger costs. -/
theorem generate_mono (R : Int) (t t' : Int → Int → Int) (htt : ∀ x y, t' x y ≤ t x y) (g : Grid K) (m : Info K)
    (c : Int → Int → Int) (x y : Int) : generateSpecified false R t' g m c x y ≤ generateSpecified false R t g m c x y := by
  have h' : IsMax _ _ (generateSpecified false R t' g m c x y) := fold_max R t' g m x y g.items c
  have h : IsMax _ _ (generateSpecified false R t g m c x y) := fold_max R t g m x y g.items c
  rcases h'.2.2 with e | ⟨iv, hiv, hmap, hd⟩
  · rw [e]; exact h.1
  · rcases hd with hd | ⟨h1, h2, h3, h4, h5, h6⟩
    · exact h.2.1 _ ⟨iv, hiv, hmap, Or.inl hd⟩
    · obtain ⟨s1, s2⟩ := scaled_mono (htt (x - cellX g m iv.1) (y - cellY g m iv.1)) (le_refl iv.2) h1 (tdiv_pos_iff h5 h6).2
      refine le_trans (le_of_eq_of_le h5 s1) (h.2.1 _ ⟨iv, hiv, hmap, Or.inr ⟨h1, h2, h3, h4, rfl, ?_⟩⟩)
      rw [← h5] at s1
      omega

/-- The integer `u` lies between 0 and `v`. -/
def Between0 (u v : Int) : Prop := (0 ≤ u ∧ u ≤ v) ∨ (v ≤ u ∧ u ≤ 0)

open Classical in
/-- At equal resolutions: if the template is full on every cell of the rectangle spanned by the displacement to an
occupied cell, the cell gets cost 100 in spite of the shortcut. -/
theorem masked_rect (R : Int) (t : Int → Int → Int) (ht0 : ∀ x y, 0 ≤ t x y) (g : Grid K) (m : Info K) (hwf : WF g)
    (hres : g.res = m.res) (h0 : m.res ≠ 0) (c : Int → Int → Int) (x y gx gy : Int) (hin : inMap m x y = true)
    (hw : InWindow g m x y) (hocc : ValueAt g m gx gy 100) (hx : |x - gx| ≤ R) (hy : |y - gy| ≤ R)
    (ht : ∀ u v, Between0 u (x - gx) → Between0 v (y - gy) → 100 ≤ t u v) :
    100 ≤ generateSpecified false R t g m c x y := by
  let t' : Int → Int → Int := fun u v => if Between0 u (x - gx) ∧ Between0 v (y - gy) then 100 else 0
  have hle : ∀ u v, t' u v ≤ t u v := by
    intro u v
    by_cases h : Between0 u (x - gx) ∧ Between0 v (y - gy)
    · simp only [t', if_pos h]; exact ht u v h.1 h.2
    · simp only [t', if_neg h]; exact ht0 u v
  have hsh : Shrinking t' := by
    intro u v
    have key : ∀ u v u' v', (Between0 u (x - gx) ∧ Between0 v (y - gy) → Between0 u' (x - gx) ∧ Between0 v' (y - gy)) →
        t' u v ≤ t' u' v' := by
      intro u v u' v' h
      by_cases h1 : Between0 u (x - gx) ∧ Between0 v (y - gy)
      · simp only [t', if_pos h1, if_pos (h h1)]; exact le_refl _
      · simp only [t', if_neg h1]; split <;> omega
    refine ⟨fun hu => key _ _ _ _ ?_, fun hu => key _ _ _ _ ?_, fun hv => key _ _ _ _ ?_, fun hv => key _ _ _ _ ?_⟩ <;>
      (unfold Between0; omega)
  have hR : 0 ≤ R := le_trans (abs_nonneg _) hx
  refine le_trans ?_ (generate_mono R t t' hle g m c x y)
  refine (inflate_masked_partial R t' g m c hR hwf hres h0 hsh x y hin hw).2.1 100
    (Or.inr ⟨gx, gy, 100, hocc, by norm_num, hx, hy, ?_, by norm_num⟩)
  have : Between0 (x - gx) (x - gx) ∧ Between0 (y - gy) (y - gy) := by unfold Between0; omega
  simp only [t', if_pos this]
  norm_num

end

/-- The robot-frame coordinates of a point. -/
theorem exists_frame (X Y θ : ℝ) : ∃ b : Pt ℝ, place X Y θ b = (0, 0) ∧ hypot b.1 b.2 = hypot X Y := by
  have hcs := Real.sin_sq_add_cos_sq θ
  refine ⟨(-(Real.cos θ * X) - Real.sin θ * Y, Real.sin θ * X - Real.cos θ * Y), ?_, ?_⟩
  · simp only [place, Prod.mk.injEq]
    constructor
    · linear_combination (-X) * hcs
    · linear_combination (-Y) * hcs
  · unfold hypot
    congr 1
    simp only
    linear_combination (X ^ 2 + Y ^ 2) * hcs

/-- Between a point outside and a point of the footprint lies a point of the outline. -/
theorem outline_between (pts : List (Pt ℝ)) (b w : Pt ℝ) (hb : inside (close pts) b = false)
    (hw : inside (close pts) w = true ∨ OnOutline (close pts) w) :
    ∃ t : ℝ, 0 ≤ t ∧ t ≤ 1 ∧ OnOutline (close pts) (b.1 + t * (w.1 - b.1), b.2 + t * (w.2 - b.2)) := by
  by_contra hn
  push_neg at hn
  rcases hw with hw | hw
  · have hseg : segment ℝ b w ⊆ {q | ¬ OnOutline (close pts) q} := by
      rintro q ⟨α, β, ha, hb', hab, rfl⟩ hq
      refine hn β hb' (by linarith) ?_
      convert hq using 2
      · simp only [Prod.fst_add, Prod.smul_fst, smul_eq_mul]
        rw [show α = 1 - β by linarith]; ring
      · simp only [Prod.snd_add, Prod.smul_snd, smul_eq_mul]
        rw [show α = 1 - β by linarith]; ring
    have := inside_region pts (segment ℝ b w) (convex_segment b w).isPreconnected (fun q hq => hseg hq)
      (left_mem_segment ℝ b w) (right_mem_segment ℝ b w)
    rw [hb, hw] at this
    exact absurd this (by decide)
  · refine hn 1 zero_le_one le_rfl ?_
    convert hw using 2 <;> ring

/-- An inscribed disc is not larger than the circumscribed one. -/
theorem core_le {pts : List (Pt ℝ)} {ρ : ℝ} (hρ : 0 ≤ ρ) (hc : Core pts ρ) : ρ ≤ radius (close pts) := by
  have e : hypot ρ 0 = ρ := by unfold hypot; rw [zero_pow two_ne_zero, add_zero, Real.sqrt_sq hρ]
  rcases hc (ρ, 0) e.le with h | h
  · have := inside_within_radius pts _ h
    simpa [e] using this
  · have := onOutline_radius pts _ h
    simpa [e] using this

/-- Every template cell closer to the centre than inscribed radius plus expansion costs 100, for every heading. -/
theorem template_core (big : ℝ) (f : Foot) (res angRes ρ : ℝ) (hres : 0 < res) (he : 0 < f.expand) (hs : 0 ≤ f.spread)
    (hρ : 0 ≤ ρ) (hc : Core f.pts ρ) (x y yaw : Int) (h : hypot (x * res) (y * res) < ρ + f.expand) :
    f.template big res angRes x y yaw = 100 := by
  obtain ⟨b, hb, hbn⟩ := exists_frame ((x : ℝ) * res) ((y : ℝ) * res) (yaw * angRes)
  suffices hh : FootCovers f res angRes x y yaw 0 0 ∨ FootNear f res angRes x y yaw 0 0 by
    have := (template_covers big f res angRes hres he.le hs x y yaw 0 0 hh).1
    simpa using this
  unfold FootCovers FootNear
  simp only [sub_zero]
  have near : ∀ q, OnOutline (close f.pts) q → Polygon.dist b q < f.expand →
      ∃ q, OnOutline (move (x * res) (y * res) (yaw * angRes) (close f.pts)) q ∧ Polygon.dist (0, 0) q < f.expand := by
    intro q hq hd
    refine ⟨_, onOutline_place _ _ _ _ _ hq, ?_⟩
    rw [← hb, dist_place]
    exact hd
  by_cases ho : OnOutline (close f.pts) b
  · refine Or.inr (near b ho ?_)
    unfold Polygon.dist hypot
    simpa using he
  · have hm := inside_move f.pts (x * res) (y * res) (yaw * angRes) b ho
    rw [hb] at hm
    by_cases hi : inside (close f.pts) b = true
    · left; rw [hm]; exact hi
    · right
      have hi' : inside (close f.pts) b = false := by simpa using hi
      have hlt : ρ < hypot b.1 b.2 := by
        by_contra hn
        rcases hc b (not_lt.mp hn) with h1 | h1
        · exact hi h1
        · exact ho h1
      have hpos : 0 < hypot b.1 b.2 := lt_of_le_of_lt hρ hlt
      set N := hypot b.1 b.2 with hN
      have hN2 : N ^ 2 = b.1 ^ 2 + b.2 ^ 2 := hypot_sq _ _
      obtain ⟨t, t0, t1, hq⟩ := outline_between f.pts b (ρ / N * b.1, ρ / N * b.2) hi' (hc _ (by
        rw [hypot_le_iff hρ]
        have : (ρ / N * b.1) ^ 2 + (ρ / N * b.2) ^ 2 = ρ ^ 2 / N ^ 2 * (b.1 ^ 2 + b.2 ^ 2) := by ring
        rw [this, ← hN2, div_mul_cancel₀ _ (by positivity)]))
      refine near _ hq ?_
      have hle : Polygon.dist b (b.1 + t * (ρ / N * b.1 - b.1), b.2 + t * (ρ / N * b.2 - b.2)) ≤ N - ρ := by
        unfold Polygon.dist
        rw [hypot_le_iff (by linarith)]
        have e : (b.1 - (b.1 + t * (ρ / N * b.1 - b.1))) ^ 2 + (b.2 - (b.2 + t * (ρ / N * b.2 - b.2))) ^ 2 =
            (t * (1 - ρ / N)) ^ 2 * N ^ 2 := by rw [hN2]; ring
        have e2 : (t * (1 - ρ / N)) ^ 2 * N ^ 2 = t ^ 2 * (N - ρ) ^ 2 := by
          have h3 : (1 - ρ / N) * N = N - ρ := by field_simp
          have h4 : (t * (1 - ρ / N)) ^ 2 * N ^ 2 = t ^ 2 * ((1 - ρ / N) * N) ^ 2 := by ring
          rw [h4, h3]
        change (b.1 - (b.1 + t * (ρ / N * b.1 - b.1))) ^ 2 + (b.2 - (b.2 + t * (ρ / N * b.2 - b.2))) ^ 2 ≤ _
        rw [e, e2]
        have : t ^ 2 ≤ 1 := by nlinarith
        nlinarith [sq_nonneg (N - ρ)]
      have : N < ρ + f.expand := by rw [hbn]; exact h
      linarith

/-- C25, equal resolutions: every cell of the grid's window closer to a fully occupied cell than inscribed radius plus
expansion gets cost at least 100, for every heading. -/
theorem conservative_disc (big : ℝ) (f : Foot) (angRes ρ : ℝ) (he : 0 < f.expand) (hs : 0 ≤ f.spread) (hρ : 0 ≤ ρ)
    (hm0 : 0 ≤ f.minCost) (hm1 : f.minCost ≤ 100) (hc : Core f.pts ρ) (g : Grid ℝ) (m : Info ℝ) (hm : 0 < m.res)
    (hres : g.res = m.res) (hwf : WF g) (c : Int → Int → Int) (x y yaw gx gy : Int)
    (hin : inMap m x y = true) (hw : InWindow g m x y) (hocc : ValueAt g m gx gy 100)
    (hd : hypot ((x - gx : Int) * m.res) ((y - gy : Int) * m.res) < ρ + f.expand) :
    100 ≤ generateSpecified false (f.rangeMax m.res) (fun x y => f.template big m.res angRes x y yaw) g m c x y := by
  have hle := core_le hρ hc
  have key : ∀ d : Int, |(d : ℝ) * m.res| ≤ radius (close f.pts) + f.expand → |d| ≤ f.rangeMax m.res := by
    intro d hd
    unfold Foot.rangeMax
    have h1 : (|d| : ℝ) ≤ (radius (close f.pts) + f.expand + f.spread) / m.res := by
      rw [le_div_iff₀ hm]
      rw [abs_mul, abs_of_pos hm] at hd
      linarith
    have h2 : ((|d| : Int) : ℝ) ≤ (radius (close f.pts) + f.expand + f.spread) / m.res := by push_cast; exact h1
    exact_mod_cast le_trans h2 (Int.le_ceil _)
  refine masked_rect _ _ (fun u v => (template_bounds big f m.res angRes hm0 hm1 u v yaw).1) g m hwf hres hm.ne' c x y gx gy
    hin hw hocc (key _ ?_) (key _ ?_) ?_
  · have := abs_fst_le_hypot ((x - gx : Int) * m.res) ((y - gy : Int) * m.res); linarith
  · have := abs_snd_le_hypot ((x - gx : Int) * m.res) ((y - gy : Int) * m.res); linarith
  · intro u v hu hv
    refine (template_core big f m.res angRes ρ hm he hs hρ hc u v yaw (lt_of_le_of_lt (hypot_mono ?_ ?_) hd)).ge
    · rw [abs_mul, abs_mul]
      apply mul_le_mul_of_nonneg_right _ (abs_nonneg _)
      have : |u| ≤ |x - gx| := by unfold Between0 at hu; rw [abs_le]; rcases abs_cases (x - gx) with h | h <;> omega
      exact_mod_cast this
    · rw [abs_mul, abs_mul]
      apply mul_le_mul_of_nonneg_right _ (abs_nonneg _)
      have : |v| ≤ |y - gy| := by unfold Between0 at hv; rw [abs_le]; rcases abs_cases (y - gy) with h | h <;> omega
      exact_mod_cast this

/-- C25, equal resolutions, the footprint: if the expansion exceeds the difference between circumscribed and inscribed
radius, every pose of the window at which the footprint covers a fully occupied cell gets cost at least 100. -/
theorem conservative_compact (big : ℝ) (f : Foot) (angRes ρ : ℝ) (he : 0 < f.expand) (hs : 0 ≤ f.spread) (hρ : 0 ≤ ρ)
    (hm0 : 0 ≤ f.minCost) (hm1 : f.minCost ≤ 100) (hc : Core f.pts ρ)
    (hcomp : radius (close f.pts) - ρ < f.expand) (g : Grid ℝ) (m : Info ℝ) (hm : 0 < m.res)
    (hres : g.res = m.res) (hwf : WF g) (c : Int → Int → Int) (x y yaw gx gy : Int)
    (hin : inMap m x y = true) (hw : InWindow g m x y) (hocc : ValueAt g m gx gy 100)
    (hcov : FootCovers f m.res angRes x y yaw gx gy) :
    100 ≤ generateSpecified false (f.rangeMax m.res) (fun x y => f.template big m.res angRes x y yaw) g m c x y := by
  have := covers_near _ _ _ _ hcov
  exact conservative_disc big f angRes ρ he hs hρ hm0 hm1 hc g m hm hres hwf c x y yaw gx gy hin hw hocc (by linarith)

end Verif.CSpace
