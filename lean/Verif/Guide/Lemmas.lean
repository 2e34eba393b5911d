import Verif.Guide.Spec
import Verif.DistMap.Props
import Mathlib.Combinatorics.SimpleGraph.Paths
import Mathlib.Analysis.Real.Pi.Bounds
import Mathlib.Analysis.SpecialFunctions.Trigonometric.Bounds
/-! # A move of the vehicle passes neighbouring free columns -/
set_option linter.unusedVariables false
namespace Verif.Guide
open Verif.Model3D Verif.Model3D.Spec
open Verif.GridMetric (Cell Pose)
open Verif.DistMap.Grid (Pos Cfg env)
open Verif.CSpace (lround lround_near)
open Real

/-! ### Successive samples of a motion are less than one cell apart -/

theorem step_sin (r r' a a' : ℝ) : |r' * sin a' - r * sin a| ≤ |r' - r| + |r| * |a' - a| := by
  have e : r' * sin a' - r * sin a = (r' - r) * sin a' + r * (sin a' - sin a) := by ring
  rw [e]
  refine le_trans (abs_add_le _ _) (add_le_add ?_ ?_)
  · rw [abs_mul]
    exact mul_le_of_le_one_right (abs_nonneg _) (abs_sin_le_one _)
  · rw [abs_mul]
    exact mul_le_mul_of_nonneg_left (abs_sin_sub_sin_le _ _) (abs_nonneg _)

theorem step_cos (r r' a a' : ℝ) : |r * cos a - r' * cos a'| ≤ |r' - r| + |r| * |a' - a| := by
  have e : r * cos a - r' * cos a' = -((r' - r) * cos a' + r * (cos a' - cos a)) := by ring
  rw [e, abs_neg]
  refine le_trans (abs_add_le _ _) (add_le_add ?_ ?_)
  · rw [abs_mul]
    exact mul_le_of_le_one_right (abs_nonneg _) (abs_cos_le_one _)
  · rw [abs_mul]
    exact mul_le_mul_of_nonneg_left (abs_cos_sub_cos_le _ _) (abs_nonneg _)

/-- On a quarter turn the arc is at most `π / 2` times its sine. -/
theorem arc_le (φ : ℝ) (h : |φ| ≤ π / 2) : |φ| ≤ π / 2 * |sin φ| := by
  have hp := Real.pi_pos
  have key : ∀ x : ℝ, 0 ≤ x → x ≤ π / 2 → x ≤ π / 2 * |sin x| := by
    intro x h0 h1
    have h2 := mul_le_sin h0 h1
    have h3 : 0 ≤ sin x := sin_nonneg_of_nonneg_of_le_pi h0 (by linarith)
    rw [abs_of_nonneg h3]
    have : π / 2 * (2 / π * x) ≤ π / 2 * sin x := mul_le_mul_of_nonneg_left h2 (by positivity)
    have e : π / 2 * (2 / π * x) = x := by field_simp
    linarith
  rcases abs_cases φ with ⟨e, h0⟩ | ⟨e, h0⟩
  · rw [e]; exact key φ h0 (by linarith)
  · rw [e]
    have := key (-φ) (by linarith) (by linarith)
    rwa [sin_neg, abs_neg] at this

theorem steps_lower (g : Geo) (hs : Sane g) (d : Cell) : len d / g.ger - 1 / 2 ≤ (totalStep g d : ℝ) := by
  have h := lround_near (len d / g.ger)
  rw [abs_le] at h
  have h1 : (lround (len d / g.ger) : ℝ) ≤ ((lround (len d / g.ger)).toNat : ℝ) := by
    exact_mod_cast Int.self_le_toNat _
  unfold totalStep
  linarith [h.1, h.2]

theorem len_ge (d : Cell) : |(d.x : ℝ)| ≤ len d ∧ |(d.y : ℝ)| ≤ len d ∧ 0 ≤ len d := by
  unfold len sqlen
  refine ⟨?_, ?_, Real.sqrt_nonneg _⟩
  · apply Real.abs_le_sqrt
    push_cast
    nlinarith [mul_self_nonneg (d.y : ℝ)]
  · apply Real.abs_le_sqrt
    push_cast
    nlinarith [mul_self_nonneg (d.x : ℝ)]

theorem len_one (d : Cell) (hne : ¬ (d.x = 0 ∧ d.y = 0)) : 1 ≤ len d := by
  have h1 : 1 ≤ d.x * d.x + d.y * d.y := by
    by_contra hc
    have a := mul_self_nonneg d.x
    have b := mul_self_nonneg d.y
    exact hne ⟨by nlinarith, by nlinarith⟩
  unfold len sqlen
  rw [Real.one_le_sqrt]
  exact_mod_cast h1

theorem len_three (d : Cell) (h : 9 ≤ d.x * d.x + d.y * d.y) : 3 ≤ len d := by
  unfold len sqlen
  apply Real.le_sqrt_of_sq_le
  have : ((9 : Int) : ℝ) ≤ ((d.x * d.x + d.y * d.y : Int) : ℝ) := by exact_mod_cast h
  push_cast at this ⊢
  linarith

/-- The component ahead is not longer than the displacement. -/
theorem ahead_le (g : Geo) (hs : Sane g) (i : Int) (d : Cell) : |ahead g i d| ≤ g.res * len d := by
  have hr := hs.res_pos
  unfold ahead
  rw [abs_mul, abs_of_pos hr]
  apply mul_le_mul_of_nonneg_left _ hr.le
  unfold len sqlen
  apply Real.abs_le_sqrt
  have := sin_sq_add_cos_sq ((i : ℝ) * g.ares)
  push_cast
  nlinarith [sq_nonneg (sin ((i : ℝ) * g.ares) * d.x - cos ((i : ℝ) * g.ares) * d.y)]

theorem straight_step (g : Geo) (hs : Sane g) (i : Int) (d : Cell) (hne : ¬ (d.x = 0 ∧ d.y = 0)) (h : IsStraight g i d) (ρ : ℝ) :
    |(sampleAt g i d (ρ + 1 / totalStep g d)).x - (sampleAt g i d ρ).x| < 1 ∧
    |(sampleAt g i d (ρ + 1 / totalStep g d)).y - (sampleAt g i d ρ).y| < 1 := by
  have hl := len_one d hne
  have hg := hs.ger_pos
  have hN := steps_lower g hs d
  have h2 : 2 * len d ≤ len d / g.ger := by
    rw [le_div_iff₀ hg]
    nlinarith [hs.ger_le]
  have hlt : len d < (totalStep g d : ℝ) := by linarith
  have hpos : (0 : ℝ) < (totalStep g d : ℝ) := by linarith
  obtain ⟨lx, ly, -⟩ := len_ge d
  unfold sampleAt
  rw [if_pos h, if_pos h, straightAt_eq g hs, straightAt_eq g hs]
  dsimp only
  constructor
  · rw [show (d.x : ℝ) * (ρ + 1 / totalStep g d) - d.x * ρ = d.x / totalStep g d by ring, abs_div, abs_of_pos hpos, div_lt_one hpos]
    linarith
  · rw [show (d.y : ℝ) * (ρ + 1 / totalStep g d) - d.y * ρ = d.y / totalStep g d by ring, abs_div, abs_of_pos hpos, div_lt_one hpos]
    linarith

/-- The numbers of a curved motion. -/
theorem curve_number (L N r1 r2 φ res ahead ρ : ℝ) (hres : 0 < res) (hL : 3 ≤ L) (hN : 4 * L - 1 / 2 ≤ N) (hφ : |φ| ≤ π / 2)
    (hx : ahead = r2 * sin φ) (ha : |ahead| ≤ res * L) (hr : |r1 - r2| ≤ res * 1.5) (hρ : 0 ≤ ρ) (hρ1 : ρ ≤ 1) :
    (|(r1 * (1 - (ρ + 1 / N)) + r2 * (ρ + 1 / N)) - (r1 * (1 - ρ) + r2 * ρ)| +
      |r1 * (1 - ρ) + r2 * ρ| * |(ρ + 1 / N) * φ - ρ * φ|) < res := by
  have hNp : 0 < N := by linarith
  have e1 : (r1 * (1 - (ρ + 1 / N)) + r2 * (ρ + 1 / N)) - (r1 * (1 - ρ) + r2 * ρ) = -(r1 - r2) / N := by
    field_simp; ring
  have e2 : (ρ + 1 / N) * φ - ρ * φ = φ / N := by field_simp; ring
  rw [e1, e2, abs_div, abs_div, abs_neg, abs_of_pos hNp]
  have h1 : |r2| * |φ| ≤ π / 2 * (res * L) := by
    have h := arc_le φ hφ
    calc |r2| * |φ| ≤ |r2| * (π / 2 * |sin φ|) := mul_le_mul_of_nonneg_left h (abs_nonneg _)
      _ = π / 2 * |ahead| := by rw [hx, abs_mul]; ring
      _ ≤ π / 2 * (res * L) := mul_le_mul_of_nonneg_left ha (by positivity)
  have h2 : |r1 * (1 - ρ) + r2 * ρ| ≤ |r2| + res * 1.5 := by
    have e : r1 * (1 - ρ) + r2 * ρ = r2 + (r1 - r2) * (1 - ρ) := by ring
    rw [e]
    refine le_trans (abs_add_le _ _) (add_le_add (le_refl _) ?_)
    rw [abs_mul, abs_of_nonneg (by linarith : (0 : ℝ) ≤ 1 - ρ)]
    exact le_trans (mul_le_of_le_one_right (abs_nonneg _) (by linarith)) hr
  have h3 : |r1 * (1 - ρ) + r2 * ρ| * |φ| ≤ π / 2 * (res * L) + res * 1.5 * (π / 2) := by
    calc |r1 * (1 - ρ) + r2 * ρ| * |φ| ≤ (|r2| + res * 1.5) * |φ| := mul_le_mul_of_nonneg_right h2 (abs_nonneg _)
      _ = |r2| * |φ| + res * 1.5 * |φ| := by ring
      _ ≤ _ := add_le_add h1 (mul_le_mul_of_nonneg_left hφ (by positivity))
  have h4 : |r1 - r2| / N + |r1 * (1 - ρ) + r2 * ρ| * (|φ| / N) = (|r1 - r2| + |r1 * (1 - ρ) + r2 * ρ| * |φ|) / N := by ring
  rw [h4, div_lt_iff₀ hNp]
  have hp : π < 3.15 := Real.pi_lt_d2
  have h5 : π / 2 * (res * L) ≤ 1.575 * (res * L) := by nlinarith [mul_pos hres (by linarith : (0 : ℝ) < L)]
  have h6 : res * 1.5 * (π / 2) ≤ res * 1.5 * 1.575 := by nlinarith
  have h7 : res * (4 * L - 1 / 2) ≤ res * N := mul_le_mul_of_nonneg_left hN hres.le
  nlinarith [mul_le_mul_of_nonneg_left hL hres.le]

theorem curve_step (g : Geo) (hs : Sane g) (hger : g.ger ≤ 1 / 4) (i : Int) (d : Cell) (h : ¬ IsStraight g i d)
    (h9 : 9 ≤ d.x * d.x + d.y * d.y) (hφ : |(mcMotion g i d).yaw| ≤ π / 2)
    (hr : ∀ r₁ r₂, IsCurve (mcMotion g i d).x (mcMotion g i d).y (mcMotion g i d).yaw r₁ r₂ → |r₁ - r₂| ≤ g.res * 1.5)
    (ρ : ℝ) (hρ : 0 ≤ ρ) (hρ1 : ρ ≤ 1) :
    |(sampleAt g i d (ρ + 1 / totalStep g d)).x - (sampleAt g i d ρ).x| < 1 ∧
    |(sampleAt g i d (ρ + 1 / totalStep g d)).y - (sampleAt g i d ρ).y| < 1 := by
  have hres := hs.res_pos
  have hsin : sin (mcMotion g i d).yaw ≠ 0 := by
    intro h0; apply h; unfold IsStraight; rw [h0]; norm_num
  have hl := len_three d h9
  have hN := steps_lower g hs d
  have h4 : 4 * len d ≤ len d / g.ger := by
    rw [le_div_iff₀ hs.ger_pos]
    nlinarith
  have hr1 := radii_curve (mcMotion g i d) hsin
  unfold radii at hr1
  simp only [r2_eq _ _ hsin] at hr1
  have hb := hr _ _ hr1
  have key := curve_number (len d) (totalStep g d) _ _ (mcMotion g i d).yaw g.res (mcMotion g i d).x ρ hres hl (by linarith) hφ
    hr1.1 (by rw [(mcMotion_parts g i d).1]; exact ahead_le g hs i d) hb hρ hρ1
  have hdiv : ∀ x : ℝ, |x| < g.res → |x / g.res| < 1 := by
    intro x hx
    rw [abs_div, abs_of_pos hres, div_lt_one hres]
    exact hx
  unfold sampleAt
  rw [if_neg h, if_neg h, curveAt_eq g hs i d _ hsin, curveAt_eq g hs i d _ hsin]
  dsimp only
  constructor
  · rw [← sub_div]
    apply hdiv
    rw [sub_sub_sub_cancel_right]
    refine lt_of_le_of_lt (step_sin _ _ _ _) ?_
    rw [add_sub_add_left_eq_sub]
    exact key
  · rw [← sub_div]
    apply hdiv
    rw [sub_sub_sub_cancel_left]
    refine lt_of_le_of_lt (step_cos _ _ _ _) ?_
    rw [add_sub_add_left_eq_sub]
    exact key

/-! ### From moves to neighbouring columns -/

theorem turn_unique (g : Geo) (hs : Sane g) (n m : Int) (k : Int) (hk : n = m + k * g.angle) (φ ψ : ℝ) (h1 : IsTurn g n φ)
    (h2 : IsTurn g m ψ) (hψ : |ψ| < π / 2) : φ = ψ := by
  have hp := Real.pi_pos
  have hA := angle_ares g hs
  obtain ⟨a1, a2, j, hj⟩ := h1
  obtain ⟨b1, b2, l, hl⟩ := h2
  have e : φ - ψ = ((k + j - l : Int) : ℝ) * (2 * π) := by
    rw [hj, hl, hk]
    push_cast
    linear_combination (k : ℝ) * hA
  rw [abs_lt] at hψ
  have c0 : k + j - l = 0 := by
    have u1 : ((k + j - l : Int) : ℝ) < ((1 : Int) : ℝ) := by
      push_cast
      by_contra hc
      have hc := not_lt.mp hc
      have := mul_le_mul_of_nonneg_right hc (by positivity : (0 : ℝ) ≤ 2 * π)
      push_cast at e
      linarith [hψ.1, hψ.2]
    have u2 : ((-1 : Int) : ℝ) < ((k + j - l : Int) : ℝ) := by
      push_cast
      by_contra hc
      have hc := not_lt.mp hc
      have := mul_le_mul_of_nonneg_right hc (by positivity : (0 : ℝ) ≤ 2 * π)
      push_cast at e
      linarith [hψ.1, hψ.2]
    have u1 := Int.cast_lt.1 u1
    have u2 := Int.cast_lt.1 u2
    omega
  rw [c0] at e
  simp only [Int.cast_zero, zero_mul] at e
  linarith

theorem curve_unique (x y φ r1 r2 s1 s2 : ℝ) (h : sin φ ≠ 0) (h1 : IsCurve x y φ r1 r2) (h2 : IsCurve x y φ s1 s2) :
    r1 = s1 ∧ r2 = s2 := by
  have e : r2 = s2 := mul_right_cancel₀ h (h1.1.symm.trans h2.1)
  exact ⟨by have a := h1.2; have b := h2.2; rw [e] at a; linarith, e⟩

/-- Successive samples of a move the search looks at are less than one cell apart. -/
theorem move_step (g : Geo) (hs : Sane g) (hger : g.ger ≤ 1 / 4) (c : Wt) (lr : Int) (ss : List Cell) (a p b : Cell) (ha : InMap g a)
    (hp : p ∈ searchGrids g c lr ss a) (hr : Reaches g a p b) (hne : ¬ (b.x = a.x ∧ b.y = a.y)) (ρ : ℝ) (hρ : 0 ≤ ρ) (hρ1 : ρ ≤ 1) :
    let d : Cell := ⟨b.x - a.x, b.y - a.y, b.yaw⟩
    |(sampleAt g a.yaw d (ρ + 1 / totalStep g d)).x - (sampleAt g a.yaw d ρ).x| < 1 ∧
    |(sampleAt g a.yaw d (ρ + 1 / totalStep g d)).y - (sampleAt g a.yaw d ρ).y| < 1 := by
  intro d
  have hA := hs.angle_pos
  have hR : 0 ≤ g.range := by have := hs.range_pos; omega
  obtain ⟨-, -, -, -, y0, y1⟩ := ha
  obtain ⟨r1, r2, ⟨k, hk⟩, r4, r5⟩ := hr
  have hdne : ¬ (d.x = 0 ∧ d.y = 0) := fun h => hne ⟨by have := h.1; simp only [d] at this; omega, by have := h.2; simp only [d] at this; omega⟩
  by_cases hst : IsStraight g a.yaw d
  · exact straight_step g hs a.yaw d hdne hst ρ
  have hyaw : p.yaw ≠ 0 := by
    intro h0
    apply hst
    have hk0 : k = 0 := mul_small hA (by rw [h0] at hk; omega) (by rw [h0] at hk; omega)
    have hb : b.yaw = a.yaw := by rw [hk, h0, hk0]; ring
    unfold IsStraight
    rw [(mcMotion_parts g a.yaw d).2.2]
    simp only [d, hb]
    rw [show (a.yaw : ℝ) * g.ares + -(a.yaw : ℝ) * g.ares = 0 by ring]
    unfold normAngle
    have := Real.pi_pos
    rw [if_neg (by linarith), if_neg (by linarith), sin_zero]
    norm_num
  have hprim : p ∈ primitives g c a.yaw := by
    rcases mem_searchGrids g c lr ss a p hp with h | h
    · exact h
    · exact absurd ((mem_rough g hR p).1 h).2 hyaw
  have hfe := (primitive_iff g hs c a.yaw p ⟨y0, y1⟩).1 hprim
  obtain ⟨-, w0, w1, h | ⟨-, h | ⟨-, h9, -, -, φ, s₁, s₂, ht, hq, hcv, -, hrr, -⟩⟩⟩ := hfe
  · exact absurd (show b.x = a.x ∧ b.y = a.y by omega) hne
  · exact absurd h.1 hyaw
  have hturn := mcMotion_turn g hs a.yaw d ⟨y0, y1⟩ ⟨r4, r5⟩
  have hφ : (mcMotion g a.yaw d).yaw = φ := by
    refine turn_unique g hs _ p.yaw k ?_ _ _ hturn ht (by norm_num at hq; linarith)
    simp only [d]
    omega
  have hah : ahead g a.yaw p = (mcMotion g a.yaw d).x := by
    rw [(mcMotion_parts g a.yaw d).1]
    unfold ahead
    simp only [d, r1, r2]
    push_cast
    ring
  have has : aside g a.yaw p = (mcMotion g a.yaw d).y := by
    rw [(mcMotion_parts g a.yaw d).2.1]
    unfold aside
    simp only [d, r1, r2]
    push_cast
    ring
  have hsin : sin (mcMotion g a.yaw d).yaw ≠ 0 := by
    intro h0; apply hst; unfold IsStraight; rw [h0]; norm_num
  refine curve_step g hs hger a.yaw d hst ?_ ?_ ?_ ρ hρ hρ1
  · simp only [d, r1, r2]
    have e1 : a.x + p.x - a.x = p.x := by ring
    have e2 : a.y + p.y - a.y = p.y := by ring
    rw [e1, e2]
    exact h9
  · rw [hφ]
    norm_num at hq
    linarith
  · intro q₁ q₂ hq'
    rw [hah, has, ← hφ] at hcv
    obtain ⟨e1, e2⟩ := curve_unique _ _ _ _ _ _ _ hsin hq' hcv
    rw [e1, e2]
    exact hrr.le

/-- Two cells near two poses less than one cell apart are the same or neighbours. -/
theorem near_cells (x y : ℝ) (a b : Int) (h1 : |x - a| ≤ 1 / 2) (h2 : |y - b| ≤ 1 / 2) (h : |y - x| < 1) : |a - b| ≤ 1 := by
  rw [abs_le] at h1 h2
  rw [abs_lt] at h
  have u1 : ((a - b : Int) : ℝ) < ((2 : Int) : ℝ) := by push_cast; linarith [h1.1, h1.2, h2.1, h2.2]
  have u2 : ((-2 : Int) : ℝ) < ((a - b : Int) : ℝ) := by push_cast; linarith [h1.1, h1.2, h2.1, h2.2]
  have u1 := Int.cast_lt.1 u1
  have u2 := Int.cast_lt.1 u2
  rw [abs_le]
  omega

theorem free_open {g : Geo} {cm : Cell → Option Int} {d : Cfg} (hf : Fits g cm d) (ho : OnlyInside g cm) {a : Cell} (h : Free cm a) :
    Verif.DistMap.Grid.inMap d (column a) = true ∧ d.cm (column a) ≤ 99 := by
  obtain ⟨v, hv, hle⟩ := h
  have hin := ho a v hv
  refine ⟨decide_eq_true ?_, le_trans (hf.below a v hin hv) hle⟩
  rw [hf.w, hf.h]
  exact ⟨hin.1, hin.2.1, hin.2.2.1, hin.2.2.2.1⟩

/-- A move of the vehicle passes over neighbouring columns that are not lethal. -/
theorem move_columns {g : Geo} (hs : Sane g) (hger : g.ger ≤ 1 / 4) {c : Wt} {u : Bool} {cm hy : Cell → Option Int} {lr : Int}
    {ss : List Cell} {d : Cfg} (hf : Fits g cm d) (ho : OnlyInside g cm) {a b : Cell} (h : Drive g c u cm hy lr ss a b) :
    Relation.ReflTransGen (Beside d) (column a) (column b) := by
  obtain ⟨ha, hb, ⟨p, hp, hr⟩, v, hv⟩ := h
  by_cases hne : b.x = a.x ∧ b.y = a.y
  · have : column b = column a := by unfold column; rw [hne.1, hne.2]
    rw [this]
  have ha2 := ha.2.2.2.2
  have hb2 := hb.2.2.2.2
  obtain ⟨hfa, hfb, hsafe⟩ := motion_safe g hs c u cm hy a b v ha2 hb2 hne hv
  set e : Cell := ⟨b.x - a.x, b.y - a.y, b.yaw⟩ with he
  have hene : ¬ (e.x = 0 ∧ e.y = 0) := fun h => hne ⟨by have := h.1; simp only [e] at this; omega, by have := h.2; simp only [e] at this; omega⟩
  have hN := totalStep_pos g hs e hene
  have hNp : (0 : ℝ) < (totalStep g e : ℝ) := by exact_mod_cast (by omega : 0 < totalStep g e)
  have hstep := fun ρ h0 h1 => move_step g hs hger c lr ss a p b ha hp hr hne ρ h0 h1
  simp only [← he] at hstep
  have hrat : ∀ k, ratioOf g e (k + 1) = ratioOf g e k + 1 / totalStep g e := by
    intro k; unfold ratioOf; push_cast; ring
  have hr01 : ∀ k < totalStep g e, 0 ≤ ratioOf g e k ∧ ratioOf g e k ≤ 1 := fun k hk =>
    ⟨(ratio_range g e k hk).1, (ratio_range g e k hk).2.le⟩
  -- every sample lies near a free cell that is connected with the start
  have key : ∀ k, k < totalStep g e → ∀ q : Cell, Free cm q →
      |(placed a (sampleAt g a.yaw e (ratioOf g e k))).x - q.x| ≤ 1 / 2 →
      |(placed a (sampleAt g a.yaw e (ratioOf g e k))).y - q.y| ≤ 1 / 2 →
      Relation.ReflTransGen (Beside d) (column a) (column q) := by
    intro k
    induction k with
    | zero =>
      intro hk q hq h1 h2
      have e0 : ratioOf g e 0 = 0 := by unfold ratioOf; simp
      rw [e0, sample_start g hs] at h1 h2
      unfold placed at h1 h2
      simp only [add_zero] at h1 h2
      refine .single ⟨free_open hf ho hfa, free_open hf ho hq, ?_, ?_⟩
      · exact near_cells a.x a.x a.x q.x (by simp) h1 (by simp)
      · exact near_cells a.y a.y a.y q.y (by simp) h2 (by simp)
    | succ k ih =>
      intro hk q hq h1 h2
      obtain ⟨q', hq', n1, n2, -⟩ := hsafe k (by omega)
      refine .tail (ih (by omega) q' hq' n1 n2) ⟨free_open hf ho hq', free_open hf ho hq, ?_, ?_⟩
      · refine near_cells _ _ _ _ n1 h1 ?_
        unfold placed
        simp only
        rw [add_sub_add_left_eq_sub, hrat]
        exact (hstep _ (hr01 k (by omega)).1 (hr01 k (by omega)).2).1
      · refine near_cells _ _ _ _ n2 h2 ?_
        unfold placed
        simp only
        rw [add_sub_add_left_eq_sub, hrat]
        exact (hstep _ (hr01 k (by omega)).1 (hr01 k (by omega)).2).2
  obtain ⟨q, hq, n1, n2, -⟩ := hsafe (totalStep g e - 1) (by omega)
  have hend : (sampleAt g a.yaw e 1).x = e.x ∧ (sampleAt g a.yaw e 1).y = e.y := by
    by_cases hst : IsStraight g a.yaw e
    · rw [straight_ends g hs _ _ hst]; exact ⟨rfl, rfl⟩
    · obtain ⟨k, hk⟩ := curve_ends g hs a.yaw e hst
      rw [hk]; exact ⟨rfl, rfl⟩
  have hlast := hstep (ratioOf g e (totalStep g e - 1)) (hr01 _ (by omega)).1 (hr01 _ (by omega)).2
  have e1 : ratioOf g e (totalStep g e - 1) + 1 / totalStep g e = 1 := by
    rw [← hrat, show totalStep g e - 1 + 1 = totalStep g e by omega]
    unfold ratioOf
    exact div_self (ne_of_gt hNp)
  rw [e1, hend.1, hend.2] at hlast
  refine .tail (key _ (by omega) q hq n1 n2) ⟨free_open hf ho hq, free_open hf ho hfb, ?_, ?_⟩
  · refine near_cells _ (b.x : ℝ) _ b.x n1 (by simp) ?_
    unfold placed
    simp only
    have : (b.x : ℝ) = a.x + e.x := by simp only [e]; push_cast; ring
    rw [this, add_sub_add_left_eq_sub]
    exact hlast.1
  · refine near_cells _ (b.y : ℝ) _ b.y n2 (by simp) ?_
    unfold placed
    simp only
    have : (b.y : ℝ) = a.y + e.y := by simp only [e]; push_cast; ring
    rw [this, add_sub_add_left_eq_sub]
    exact hlast.2

end Verif.Guide
