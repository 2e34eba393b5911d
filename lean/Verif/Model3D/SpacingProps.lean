import Verif.Model3D.SpacingSpec
import Verif.Model3D.CostProps
import Mathlib.Data.List.Range
import Mathlib.Analysis.Real.Pi.Bounds
import Mathlib.Analysis.SpecialFunctions.Trigonometric.Bounds
/-! # C134: poses of the interpolated path -/
namespace Verif.Model3D
open Verif.GridMetric Verif.Model3D.Spec
open Verif.CSpace (lround)
open Real

theorem stride_eq (g : Geo) : interpStep g = stride g := rfl

theorem stride_pos (g : Geo) : 0 < stride g := by
  unfold stride
  have := le_max_left (1 : Int) (lround (g.ires / g.ger))
  omega

theorem interpolated_sampled (g : Geo) (hs : Sane g) (a b : Cell) (rest : List Cell) (ha : 0 ≤ a.yaw ∧ a.yaw < g.angle) (hb : 0 ≤ b.yaw ∧ b.yaw < g.angle)
    (hne : ¬ (a.x = b.x ∧ a.y = b.y)) (hd : (b.x - a.x) * (b.x - a.x) + (b.y - a.y) * (b.y - a.y) ≤ g.range * g.range) :
    interpolatePath g (a :: b :: rest) =
      ((List.range (count g a b)).filter (fun k => k % stride g = 0)).map (fun k => placed a (sampled g a b k)) ++ interpolatePath g (b :: rest) := by
  rw [interpolatePath, if_neg hne]
  have hf : (find g a.yaw ⟨b.x - a.x, b.y - a.y, b.yaw⟩).isSome := (motion_found_iff g hs _ _).mpr ⟨by simp only; omega, hd, hb.1, hb.2⟩
  cases hp : find g a.yaw ⟨b.x - a.x, b.y - a.y, b.yaw⟩ with
  | none => rw [hp] at hf; cases hf
  | some p =>
    have hpg : p = page g a.yaw (moved a b) := by
      unfold find at hp
      split at hp
      · rw [headings_eq g hs, cycU_id _ _ hs.angle_pos ha] at hp
        exact (Option.some.inj hp).symm
      · cases hp
    simp only
    congr 1
    rw [hpg]
    unfold page
    simp only
    rw [List.map_map, stride_eq, totalStep_count]
    have hbeq : (fun k => k % stride g == 0) = fun k => decide (k % stride g = 0) := by
      funext k
      exact Bool.beq_eq_decide_eq _ _
    rw [hbeq]
    apply List.map_congr_left
    intro k _
    simp only [Function.comp_apply, placed, sampled, ratioOf, totalStep_count]

/-- **C134**: between two cells of the grid path, every so many samples of the motion are published, beginning with the start. -/
theorem interpolated_poses (g : Geo) (hs : Sane g) (a b : Cell) (rest : List Cell) (ha : 0 ≤ a.yaw ∧ a.yaw < g.angle) (hb : 0 ≤ b.yaw ∧ b.yaw < g.angle)
    (hne : ¬ (a.x = b.x ∧ a.y = b.y)) (hd : (b.x - a.x) * (b.x - a.x) + (b.y - a.y) * (b.y - a.y) ≤ g.range * g.range) :
    ∃ f, Samples g a b f ∧ interpolatePath g (a :: b :: rest) =
      ((List.range (count g a b)).filter (fun k => k % stride g = 0)).map (fun k => placed a (f k)) ++ interpolatePath g (b :: rest) :=
  ⟨sampled g a b, fun _ => sample_driven g hs a b ha hb _, interpolated_sampled g hs a b rest ha hb hne hd⟩

theorem apart_placed (a : Cell) (p q : Pose ℝ) : apart (placed a p) (placed a q) = apart p q := by
  unfold apart placed
  simp only
  congr 2 <;> ring

/-- A motion ends at the centre of its destination. -/
theorem sample_end (g : Geo) (hs : Sane g) (a b : Cell) :
    (sampleAt g a.yaw (moved a b) 1).x = (b.x : ℝ) - a.x ∧ (sampleAt g a.yaw (moved a b) 1).y = (b.y : ℝ) - a.y := by
  by_cases h : IsStraight g a.yaw (moved a b)
  · rw [straight_ends g hs _ _ h]; simp [moved]
  · obtain ⟨k, hk⟩ := curve_ends g hs _ _ h
    rw [hk]; simp [moved]

theorem one_le_dist (a b : Cell) (hne : ¬ (a.x = b.x ∧ a.y = b.y)) : 1 ≤ cellDist a b := by
  unfold cellDist
  rw [Real.one_le_sqrt]
  have hsq : 1 ≤ (b.x - a.x) ^ 2 + (b.y - a.y) ^ 2 := by
    by_contra hlt
    have h1 := sq_nonneg (b.x - a.x)
    have h2 := sq_nonneg (b.y - a.y)
    have e1 : (b.x - a.x) ^ 2 = 0 := by omega
    have e2 : (b.y - a.y) ^ 2 = 0 := by omega
    have e3 := pow_eq_zero_iff (two_ne_zero) |>.mp e1
    have e4 := pow_eq_zero_iff (two_ne_zero) |>.mp e2
    exact hne ⟨by omega, by omega⟩
  exact_mod_cast hsq

/-- One stride, in cells of the straight length. -/
theorem stride_len (g : Geo) (hs : Sane g) (a b : Cell) (hne : ¬ (a.x = b.x ∧ a.y = b.y)) :
    0 < count g a b ∧ (stride g : ℝ) / (count g a b : ℝ) * cellDist a b ≤ 4 / 3 * max g.ger (g.ires + g.ger / 2) := by
  have hg := hs.ger_pos
  have hg2 := hs.ger_le
  have h1 := one_le_dist a b hne
  have h2 : 2 ≤ cellDist a b / g.ger := by rw [le_div_iff₀ hg]; linarith
  have hl := abs_le.mp (Verif.CSpace.lround_near (cellDist a b / g.ger))
  have hc : 3 / 4 * (cellDist a b / g.ger) ≤ (count g a b : ℝ) := by
    have h3 : (lround (cellDist a b / g.ger) : ℝ) ≤ (count g a b : ℝ) := by
      have := Int.self_le_toNat (lround (cellDist a b / g.ger))
      unfold count
      exact_mod_cast this
    linarith [hl.1, hl.2]
  have hcp : 0 < (count g a b : ℝ) := by linarith
  refine ⟨by exact_mod_cast hcp, ?_⟩
  have hst : (stride g : ℝ) * g.ger ≤ max g.ger (g.ires + g.ger / 2) := by
    have e : (stride g : ℝ) = max 1 (lround (g.ires / g.ger) : ℝ) := by
      have h0 : (0 : Int) ≤ max 1 (lround (g.ires / g.ger)) := le_trans (by norm_num) (le_max_left _ _)
      have : ((stride g : Nat) : Int) = max 1 (lround (g.ires / g.ger)) := by unfold stride; exact Int.toNat_of_nonneg h0
      have h' : ((stride g : Int) : ℝ) = ((max 1 (lround (g.ires / g.ger)) : Int) : ℝ) := by rw [this]
      push_cast at h'
      exact h'
    rw [e]
    rcases le_total (1 : ℝ) (lround (g.ires / g.ger) : ℝ) with h | h
    · rw [max_eq_right h]
      apply le_trans _ (le_max_right _ _)
      have hl2 := (abs_le.mp (Verif.CSpace.lround_near (g.ires / g.ger)))
      have : (lround (g.ires / g.ger) : ℝ) ≤ g.ires / g.ger + 1 / 2 := by linarith [hl2.1, hl2.2]
      calc (lround (g.ires / g.ger) : ℝ) * g.ger ≤ (g.ires / g.ger + 1 / 2) * g.ger := mul_le_mul_of_nonneg_right this hg.le
        _ = g.ires + g.ger / 2 := by field_simp
    · rw [max_eq_left h, one_mul]
      exact le_max_left _ _
  have hdle : cellDist a b ≤ 4 / 3 * g.ger * (count g a b : ℝ) := by
    have : 3 / 4 * (cellDist a b / g.ger) * g.ger ≤ (count g a b : ℝ) * g.ger := mul_le_mul_of_nonneg_right hc hg.le
    have e : 3 / 4 * (cellDist a b / g.ger) * g.ger = 3 / 4 * cellDist a b := by field_simp
    rw [e] at this
    linarith
  rw [div_mul_eq_mul_div, div_le_iff₀ hcp]
  have h0 : (0 : ℝ) ≤ (stride g : ℝ) := Nat.cast_nonneg _
  calc (stride g : ℝ) * cellDist a b ≤ (stride g : ℝ) * (4 / 3 * g.ger * (count g a b : ℝ)) := mul_le_mul_of_nonneg_left hdle h0
    _ = 4 / 3 * ((stride g : ℝ) * g.ger) * (count g a b : ℝ) := by ring
    _ ≤ 4 / 3 * max g.ger (g.ires + g.ger / 2) * (count g a b : ℝ) := by
      apply mul_le_mul_of_nonneg_right _ hcp.le
      linarith

/-- The chord of a circular arc is not longer than the arc. -/
theorem chord_le (r α β : ℝ) : √((r * (sin α - sin β)) ^ 2 + (r * (cos β - cos α)) ^ 2) ≤ |r| * |α - β| := by
  rw [← abs_mul]
  apply Real.sqrt_le_iff.mpr
  refine ⟨abs_nonneg _, ?_⟩
  rw [sq_abs]
  have h1 := sin_sq_add_cos_sq α
  have h2 := sin_sq_add_cos_sq β
  have h3 := cos_sub α β
  have h4 := Real.one_sub_sq_div_two_le_cos (x := α - β)
  have e : (r * (sin α - sin β)) ^ 2 + (r * (cos β - cos α)) ^ 2 = r ^ 2 * (2 - 2 * cos (α - β)) := by
    rw [h3]; linear_combination r ^ 2 * (h1 + h2)
  rw [e, mul_pow]
  apply mul_le_mul_of_nonneg_left _ (sq_nonneg r)
  linarith

/-- The radii of a curve of at most a quarter turn. -/
theorem curve_bounds (x y φ r₁ r₂ : ℝ) (hc : IsCurve x y φ r₁ r₂) (hφ : |φ| ≤ π / 2) (h0 : φ ≠ 0) :
    |r₁ - r₂| ≤ |x| + |y| ∧ |r₁| * |φ| ≤ π / 2 * (|x| + |y|) ∧ |r₂| * |φ| ≤ π / 2 * (|x| + |y|) := by
  obtain ⟨hx, hy⟩ := hc
  have hpos : 0 < |φ| := abs_pos.mpr h0
  have hp := Real.pi_pos
  have hsin : |sin φ| = sin |φ| := by
    rcases abs_cases φ with ⟨e, h⟩ | ⟨e, h⟩
    · rw [e, abs_of_nonneg (sin_nonneg_of_nonneg_of_le_pi h (by linarith))]
    · rw [e, sin_neg, abs_of_nonpos (sin_nonpos_of_nonpos_of_neg_pi_le h.le (by linarith))]
  have hj := Real.mul_le_sin (abs_nonneg φ) hφ
  have hcos0 : 0 ≤ cos φ := by rw [← cos_abs]; exact cos_nonneg_of_neg_pi_div_two_le_of_le (by linarith) hφ
  have hcos1 := cos_le_one φ
  have hs1 := abs_sin_le_one φ
  have hs0 := abs_nonneg (sin φ)
  have hone : 1 - cos φ ≤ |sin φ| := by
    have hsc := sin_sq_add_cos_sq φ
    rw [← sq_abs (sin φ)] at hsc
    nlinarith
  have hxa : |x| = |r₂| * |sin φ| := by rw [hx, abs_mul]
  have hr2 : |r₂| * |φ| ≤ π / 2 * |x| := by
    rw [hxa, hsin]
    have h : |φ| ≤ π / 2 * sin |φ| := by
      have : π / 2 * (2 / π * |φ|) ≤ π / 2 * sin |φ| := mul_le_mul_of_nonneg_left hj (by linarith)
      have e : π / 2 * (2 / π * |φ|) = |φ| := by field_simp
      linarith
    nlinarith [abs_nonneg r₂]
  have hr1 : |r₁| ≤ |y| + |r₂| := by
    have e : r₁ = y + r₂ * cos φ := by linarith
    rw [e]
    refine le_trans (abs_add_le _ _) ?_
    rw [abs_mul, abs_of_nonneg hcos0]
    nlinarith [abs_nonneg r₂]
  refine ⟨?_, ?_, ?_⟩
  · have e : r₁ - r₂ = y + -(r₂ * (1 - cos φ)) := by rw [hy]; ring
    rw [e]
    refine le_trans (abs_add_le _ _) ?_
    rw [abs_neg, abs_mul, abs_of_nonneg (by linarith : 0 ≤ 1 - cos φ), hxa]
    nlinarith [abs_nonneg r₂]
  · have : |r₁| * |φ| ≤ (|y| + |r₂|) * |φ| := mul_le_mul_of_nonneg_right hr1 hpos.le
    have h2 : |y| * |φ| ≤ |y| * (π / 2) := mul_le_mul_of_nonneg_left hφ (abs_nonneg y)
    nlinarith
  · nlinarith [abs_nonneg y]

/-- The motion of `sample_driven`, all its poses with one turn and one pair of radii. -/
theorem sampled_shape (g : Geo) (hs : Sane g) (a b : Cell) (ha : 0 ≤ a.yaw ∧ a.yaw < g.angle) (hb : 0 ≤ b.yaw ∧ b.yaw < g.angle) :
    ∃ φ, IsTurn g (b.yaw - a.yaw) φ ∧
      ((∀ ρ, sampleAt g a.yaw (moved a b) ρ = ⟨ρ * (b.x - a.x), ρ * (b.y - a.y), a.yaw⟩) ∨
       (0.1 ≤ |sin φ| ∧ ∃ r₁ r₂, IsCurve (ahead g a.yaw (moved a b)) (aside g a.yaw (moved a b)) φ r₁ r₂ ∧
        ∀ ρ, (sampleAt g a.yaw (moved a b) ρ).x * g.res = (r₁ * (1 - ρ) + r₂ * ρ) * sin (a.yaw * g.ares + ρ * φ) - r₁ * sin (a.yaw * g.ares) ∧
          (sampleAt g a.yaw (moved a b) ρ).y * g.res = r₁ * cos (a.yaw * g.ares) - (r₁ * (1 - ρ) + r₂ * ρ) * cos (a.yaw * g.ares + ρ * φ))) := by
  obtain ⟨mx, my, -⟩ := mcMotion_parts g a.yaw (moved a b)
  refine ⟨_, mcMotion_turn g hs a.yaw (moved a b) ha hb, ?_⟩
  by_cases h : IsStraight g a.yaw (moved a b)
  · left
    intro ρ
    unfold sampleAt
    rw [if_pos h, straightAt_eq g hs]
    simp only [moved, Pose.mk.injEq]
    exact ⟨by push_cast; ring, by push_cast; ring, trivial⟩
  · right
    have h' : 0.1 ≤ |sin (mcMotion g a.yaw (moved a b)).yaw| := not_lt.mp h
    have hsin : sin (mcMotion g a.yaw (moved a b)).yaw ≠ 0 := by
      intro h0; rw [h0] at h'; norm_num at h'
    have hr := hs.res_pos.ne'
    have hcv := radii_curve _ hsin
    rw [mx, my] at hcv
    refine ⟨h', _, _, hcv, fun ρ => ?_⟩
    unfold sampleAt
    rw [if_neg h, curveAt_eq g hs _ _ _ hsin]
    unfold radii
    simp only
    rw [r2_eq _ _ hsin]
    exact ⟨by rw [div_mul_cancel₀ _ hr], by rw [div_mul_cancel₀ _ hr]⟩

/-- Poses of a moderate motion are not further apart than four times their share of its straight length. -/
theorem sampled_apart (g : Geo) (hs : Sane g) (a b : Cell) (ha : 0 ≤ a.yaw ∧ a.yaw < g.angle) (hb : 0 ≤ b.yaw ∧ b.yaw < g.angle)
    (hm : ∀ φ, IsTurn g (b.yaw - a.yaw) φ → |φ| ≤ π / 2 ∨ |sin φ| < 0.1) (ρ ρ' : ℝ) (h0 : 0 ≤ ρ') (h1 : ρ' ≤ 1) :
    apart (sampleAt g a.yaw (moved a b) ρ') (sampleAt g a.yaw (moved a b) ρ) ≤ 4 * (|ρ - ρ'| * cellDist a b) := by
  have hdn : 0 ≤ cellDist a b := Real.sqrt_nonneg _
  obtain ⟨φ, hφ, hst | ⟨hsin, r₁, r₂, hcv, hp⟩⟩ := sampled_shape g hs a b ha hb
  · rw [hst, hst]
    unfold apart
    simp only
    have e : (ρ * ((b.x : ℝ) - a.x) - ρ' * (b.x - a.x)) ^ 2 + (ρ * ((b.y : ℝ) - a.y) - ρ' * (b.y - a.y)) ^ 2 =
        (ρ - ρ') ^ 2 * ((((b.x - a.x) ^ 2 + (b.y - a.y) ^ 2 : Int)) : ℝ) := by push_cast; ring
    rw [e, Real.sqrt_mul (sq_nonneg _), Real.sqrt_sq_eq_abs]
    change |ρ - ρ'| * cellDist a b ≤ _
    have := mul_nonneg (abs_nonneg (ρ - ρ')) hdn
    linarith
  · have hq : |φ| ≤ π / 2 := by
      rcases hm φ hφ with h | h
      · exact h
      · linarith
    have hφ0 : φ ≠ 0 := by rintro rfl; rw [sin_zero] at hsin; norm_num at hsin
    obtain ⟨c1, c2, c3⟩ := curve_bounds _ _ _ _ _ hcv hq hφ0
    obtain ⟨x1, y1⟩ := hp ρ
    obtain ⟨x2, y2⟩ := hp ρ'
    set p := sampleAt g a.yaw (moved a b) ρ
    set p' := sampleAt g a.yaw (moved a b) ρ'
    set θ := (a.yaw : ℝ) * g.ares
    set X := ahead g a.yaw (moved a b)
    set Y := aside g a.yaw (moved a b)
    have hXY : |X| + |Y| ≤ 3 / 2 * (g.res * cellDist a b) := by
      have e := ahead_aside g hs a b
      have hx2 : (|X| + |Y|) ^ 2 ≤ 2 * (X * X + Y * Y) := by
        nlinarith [sq_nonneg (|X| - |Y|), sq_abs X, sq_abs Y]
      rw [← e]
      have hnn : 0 ≤ X * X + Y * Y := by nlinarith [mul_self_nonneg X, mul_self_nonneg Y]
      have hsq := Real.sq_sqrt hnn
      apply abs_le_of_sq_le_sq' _ (by positivity) |>.2
      rw [mul_pow, hsq]
      linarith
    set B := |X| + |Y| with hB
    have hB0 : 0 ≤ B := by positivity
    -- the pose difference, in metres
    have hdx : (p.x - p'.x) * g.res = (r₁ - r₂) * (ρ' - ρ) * sin (θ + ρ * φ) + (r₁ * (1 - ρ') + r₂ * ρ') * (sin (θ + ρ * φ) - sin (θ + ρ' * φ)) := by
      rw [sub_mul, x1, x2]; ring
    have hdy : (p.y - p'.y) * g.res = -((r₁ - r₂) * (ρ' - ρ) * cos (θ + ρ * φ)) + (r₁ * (1 - ρ') + r₂ * ρ') * (cos (θ + ρ' * φ) - cos (θ + ρ * φ)) := by
      rw [sub_mul, y1, y2]; ring
    have hmain : apart p' p * g.res ≤ |(r₁ - r₂) * (ρ' - ρ)| + |r₁ * (1 - ρ') + r₂ * ρ'| * |(θ + ρ * φ) - (θ + ρ' * φ)| := by
      have e : apart p' p * g.res = √(((p.x - p'.x) * g.res) ^ 2 + ((p.y - p'.y) * g.res) ^ 2) := by
        unfold apart
        rw [mul_pow, mul_pow, ← add_mul, Real.sqrt_mul (by positivity), Real.sqrt_sq hs.res_pos.le]
      rw [e, hdx, hdy]
      refine le_trans (sqrt_triangle _ _ _ _) (add_le_add ?_ (chord_le _ _ _))
      apply le_of_eq
      rw [← Real.sqrt_sq_eq_abs]
      congr 1
      have := sin_sq_add_cos_sq (θ + ρ * φ)
      linear_combination ((r₁ - r₂) * (ρ' - ρ)) ^ 2 * this
    have hr : |r₁ * (1 - ρ') + r₂ * ρ'| * |φ| ≤ π / 2 * B := by
      have h2 : |r₁ * (1 - ρ') + r₂ * ρ'| ≤ |r₁| * (1 - ρ') + |r₂| * ρ' := by
        refine le_trans (abs_add_le _ _) ?_
        rw [abs_mul, abs_mul, abs_of_nonneg h0, abs_of_nonneg (by linarith : 0 ≤ 1 - ρ')]
      have h3 := mul_le_mul_of_nonneg_right h2 (abs_nonneg φ)
      have h4 := mul_le_mul_of_nonneg_right c2 (by linarith : 0 ≤ 1 - ρ')
      have h5 := mul_le_mul_of_nonneg_right c3 h0
      nlinarith
    have hfin : apart p' p * g.res ≤ |ρ - ρ'| * ((1 + π / 2) * B) := by
      refine le_trans hmain ?_
      have e1 : |(r₁ - r₂) * (ρ' - ρ)| = |ρ - ρ'| * |r₁ - r₂| := by rw [abs_mul, abs_sub_comm ρ' ρ, mul_comm]
      have e2 : |(θ + ρ * φ) - (θ + ρ' * φ)| = |ρ - ρ'| * |φ| := by rw [← abs_mul]; congr 1; ring
      rw [e1, e2]
      have h6 := mul_le_mul_of_nonneg_left c1 (abs_nonneg (ρ - ρ'))
      have h7 := mul_le_mul_of_nonneg_left hr (abs_nonneg (ρ - ρ'))
      nlinarith
    have hpi : 1 + π / 2 ≤ 8 / 3 := by have := Real.pi_lt_d2; norm_num at this ⊢; linarith
    have h8 : (1 + π / 2) * B ≤ 4 * (g.res * cellDist a b) := by
      have : (1 + π / 2) * B ≤ 8 / 3 * B := mul_le_mul_of_nonneg_right hpi hB0
      linarith
    have h9 : apart p' p * g.res ≤ 4 * (|ρ - ρ'| * cellDist a b) * g.res := by
      refine le_trans hfin ?_
      have := mul_le_mul_of_nonneg_left h8 (abs_nonneg (ρ - ρ'))
      linarith
    exact le_of_mul_le_mul_right h9 hs.res_pos

theorem strided (k : Nat) (hk : 0 < k) : ∀ T : Nat, (List.range T).filter (fun i => decide (i % k = 0)) = (List.range ((T + k - 1) / k)).map (· * k) := by
  intro T
  induction T with
  | zero =>
    have : (0 + k - 1) / k = 0 := Nat.div_eq_of_lt (by omega)
    rw [this]; rfl
  | succ T ih =>
    rw [List.range_succ, List.filter_append, ih]
    have hdm := Nat.div_add_mod T k
    have hlt := Nat.mod_lt T hk
    by_cases h : T % k = 0
    · have e1 : (T + k - 1) / k = T / k := by
        rw [Nat.div_eq_iff hk]
        constructor
        · have : T / k * k = k * (T / k) := Nat.mul_comm _ _
          omega
        · have : T / k * k = k * (T / k) := Nat.mul_comm _ _
          omega
      have e2 : (T + 1 + k - 1) / k = T / k + 1 := by
        rw [show T + 1 + k - 1 = T + k by omega, Nat.add_div_right _ hk]
      rw [e1, e2, List.range_succ, List.map_append]
      simp only [List.filter_cons, h, decide_true, if_true, List.filter_nil, List.map_cons, List.map_nil]
      congr 2
      have : T / k * k = k * (T / k) := Nat.mul_comm _ _
      omega
    · have e : (T + 1 + k - 1) / k = (T + k - 1) / k := by
        have hc : T / k * k = k * (T / k) := Nat.mul_comm _ _
        have a1 : (T + 1 + k - 1) / k = T / k + 1 := by
          rw [show T + 1 + k - 1 = T + k by omega, Nat.add_div_right _ hk]
        have a2 : (T + k - 1) / k = T / k + 1 := by
          rw [show T + k - 1 = (T - 1) + k by omega, Nat.add_div_right _ hk]
          congr 1
          rw [Nat.div_eq_iff hk]
          omega
        rw [a1, a2]
      rw [e]
      simp [h]

/-- **C134**: two neighbouring poses of the interpolated path are close to each other. -/
theorem interpolated_spacing (g : Geo) (hs : Sane g) : ∀ path : List Cell, (∀ p ∈ path, 0 ≤ p.yaw ∧ p.yaw < g.angle) → path.IsChain (Moderate g) →
    (interpolatePath g path).IsChain (fun p q => apart p q ≤ 16 / 3 * max g.ger (g.ires + g.ger / 2)) := by
  have hg := hs.ger_pos
  have hB : 0 ≤ 16 / 3 * max g.ger (g.ires + g.ger / 2) := by
    have := le_max_left g.ger (g.ires + g.ger / 2)
    linarith
  intro path
  induction path with
  | nil => intro _ _; rw [interpolatePath]; exact List.IsChain.nil
  | cons a l ih =>
    intro hy hch
    cases l with
    | nil => rw [interpolatePath]; exact List.IsChain.singleton _
    | cons b rest =>
      obtain ⟨hab, hch'⟩ := List.isChain_cons_cons.mp hch
      have hI := ih (fun p hp => hy p (List.mem_cons_of_mem _ hp)) hch'
      have hhead : ∃ t, interpolatePath g (b :: rest) = poseOf b :: t := by
        cases rest with
        | nil => rw [interpolatePath]; exact ⟨[], rfl⟩
        | cons c r =>
          obtain ⟨mid, e, -⟩ := interpolate_cons g hs b c r (hy b (by simp))
          exact ⟨_, e⟩
      obtain ⟨t, ht⟩ := hhead
      by_cases hsame : a.x = b.x ∧ a.y = b.y
      · rw [interpolatePath, if_pos hsame]
        rw [ht] at hI ⊢
        rw [List.singleton_append]
        refine List.IsChain.cons_cons ?_ hI
        unfold apart poseOf
        simp only [hsame.1, hsame.2, sub_self]
        rw [zero_pow two_ne_zero, add_zero, Real.sqrt_zero]
        exact hB
      · have hy1 := hy a (by simp)
        have hy2 := hy b (by simp)
        obtain ⟨hd, hm⟩ : _ ∧ _ := by
          rcases hab with h | h
          · exact absurd h hsame
          · exact h
        obtain ⟨hcp, hlen⟩ := stride_len g hs a b hsame
        have hcr : (0 : ℝ) < (count g a b : ℝ) := by exact_mod_cast hcp
        have hk := stride_pos g
        have hstep : ∀ i : Nat, i < count g a b → ∀ ρ : ℝ, |ρ - (i : ℝ) / (count g a b : ℝ)| ≤ (stride g : ℝ) / (count g a b : ℝ) →
            apart (sampled g a b i) (sampleAt g a.yaw (moved a b) ρ) ≤ 16 / 3 * max g.ger (g.ires + g.ger / 2) := by
          intro i hi ρ hρ
          have hi' : (i : ℝ) ≤ (count g a b : ℝ) := by exact_mod_cast hi.le
          have h1 := sampled_apart g hs a b hy1 hy2 hm ρ ((i : ℝ) / (count g a b : ℝ)) (by positivity) (by rw [div_le_one hcr]; exact hi')
          have h2 := mul_le_mul_of_nonneg_right hρ (Real.sqrt_nonneg _ : 0 ≤ cellDist a b)
          refine le_trans h1 ?_
          have h3 := le_trans h2 hlen
          have h4 := mul_le_mul_of_nonneg_left h3 (by norm_num : (0 : ℝ) ≤ 4)
          refine le_trans h4 (le_of_eq ?_)
          ring
        rw [interpolated_sampled g hs a b rest hy1 hy2 hsame hd, strided _ hk, List.map_map, List.isChain_append]
        set N := (count g a b + stride g - 1) / stride g with hN
        have hN1 : N * stride g < count g a b + stride g ∧ count g a b ≤ N * stride g := by
          have e := Nat.div_add_mod (count g a b + stride g - 1) (stride g)
          have l := Nat.mod_lt (count g a b + stride g - 1) hk
          rw [← hN, Nat.mul_comm] at e
          omega
        refine ⟨?_, hI, ?_⟩
        · rw [List.isChain_map, List.isChain_range]
          intro m hmn
          simp only [Function.comp_apply]
          rw [apart_placed]
          have hlt : m * stride g < count g a b := by
            have : (m + 2) * stride g ≤ N * stride g := Nat.mul_le_mul_right _ (by omega)
            have e : (m + 2) * stride g = m * stride g + 2 * stride g := by ring
            omega
          apply hstep _ hlt
          rw [← sub_div, abs_div, abs_of_pos hcr]
          apply le_of_eq
          congr 1
          rw [Nat.succ_mul]
          push_cast
          rw [add_sub_cancel_left, abs_of_nonneg (Nat.cast_nonneg _)]
        · intro x hx y hy'
          rw [ht] at hy'
          simp only [List.head?_cons, Option.mem_def, Option.some.injEq] at hy'
          subst hy'
          have hNp : 0 < N := by
            rcases Nat.eq_zero_or_pos N with h0 | h0
            · rw [h0] at hN1; omega
            · exact h0
          obtain ⟨M, hM⟩ : ∃ M, N = M + 1 := ⟨N - 1, by omega⟩
          rw [hM, List.range_succ, List.map_append] at hx
          simp only [List.map_cons, List.map_nil, List.getLast?_append, List.getLast?_singleton, Option.some_or, Option.mem_def, Option.some.injEq, Function.comp_apply] at hx
          subst hx
          have hlt : M * stride g < count g a b ∧ count g a b ≤ M * stride g + stride g := by
            rw [hM, Nat.succ_mul] at hN1
            omega
          obtain ⟨ex, ey⟩ := sample_end g hs a b
          have e : apart (placed a (sampled g a b (M * stride g))) (poseOf b) = apart (sampled g a b (M * stride g)) (sampleAt g a.yaw (moved a b) 1) := by
            unfold apart placed poseOf
            simp only [ex, ey]
            congr 2 <;> ring
          rw [e]
          apply hstep _ hlt.1
          rw [one_sub_div hcr.ne', abs_div, abs_of_pos hcr]
          apply div_le_div_of_nonneg_right _ hcr.le
          have h1 : ((M * stride g : Nat) : ℝ) ≤ (count g a b : ℝ) := by exact_mod_cast hlt.1.le
          have h2 : (count g a b : ℝ) ≤ ((M * stride g : Nat) : ℝ) + (stride g : ℝ) := by exact_mod_cast hlt.2
          rw [abs_of_nonneg (by linarith)]
          linarith

/-- Every move the search offers is of this kind. -/
theorem offered_moderate (g : Geo) (hs : Sane g) (c : Wt) (lr : Int) (starts : List Cell) (a p b : Cell) (ha : 0 ≤ a.yaw ∧ a.yaw < g.angle)
    (hp : p ∈ searchGrids g c lr starts a) (hr : Reaches g a p b) : Moderate g a b := by
  have hpi := Real.pi_pos
  obtain ⟨h1, h2, ⟨k, hk⟩, -, -⟩ := hr
  have hdisc := grid_disc g hs c lr starts a p hp
  have e1 : b.x - a.x = p.x := by omega
  have e2 : b.y - a.y = p.y := by omega
  by_cases hsame : a.x = b.x ∧ a.y = b.y
  · exact .inl hsame
  refine .inr ⟨by rw [e1, e2]; exact hdisc, ?_⟩
  have hne : ¬ (p.x = 0 ∧ p.y = 0) := by omega
  have hfull : (g.angle : ℝ) * g.ares = 2 * π := by
    have h := hs.angle_pos
    have : (g.angle : ℝ) ≠ 0 := by exact_mod_cast h.ne'
    rw [hs.ares]; field_simp
  have hturn : ((b.yaw - a.yaw : Int) : ℝ) * g.ares = (p.yaw : ℝ) * g.ares + k * (2 * π) := by
    rw [← hfull, hk]; push_cast; ring
  have key : ∀ ψ, |ψ| < π / 2 → (∃ j : Int, ψ = (p.yaw : ℝ) * g.ares + j * (2 * π)) → ∀ φ, IsTurn g (b.yaw - a.yaw) φ → |φ| ≤ π / 2 ∨ |sin φ| < 0.1 := by
    intro ψ h ⟨j, hj⟩ φ hφ
    left
    rw [turn_unique g _ φ ψ hφ (by linarith) ⟨j - k, by rw [hj, hturn]; push_cast; ring⟩]
    exact h.le
  rcases mem_searchGrids g c lr starts a p hp with hp | hp
  · rw [primitive_iff g hs c a.yaw p ha] at hp
    obtain ⟨-, -, -, hf | ⟨-, hf | ⟨-, -, -, -, φ, r₁, r₂, hφ, hlt, -⟩⟩⟩ := hp
    · exact absurd ⟨hf.1, hf.2.1⟩ hne
    · exact key 0 (by rw [abs_zero]; linarith) ⟨0, by rw [hf.1]; simp⟩
    · obtain ⟨-, -, j, hj⟩ := hφ
      exact key φ (by linarith) ⟨j, hj⟩
  · rw [mem_rough g (by have := hs.range_pos; omega)] at hp
    exact key 0 (by rw [abs_zero]; linarith) ⟨0, by rw [hp.2]; simp⟩

/-- The moves of the example above. -/
example : (interpolatePath g0 [⟨10, 10, 0⟩, ⟨14, 12, 1⟩, ⟨14, 12, 2⟩]).IsChain (fun p q => apart p q ≤ 16 / 3 * max g0.ger (g0.ires + g0.ger / 2)) := by
  apply interpolated_spacing g0 g0_sane
  · intro p hp
    simp only [List.mem_cons, List.not_mem_nil, or_false] at hp
    rcases hp with rfl | rfl | rfl <;> norm_num [g0]
  · refine List.IsChain.cons_cons (.inr ⟨by norm_num [g0], ?_⟩) (List.IsChain.cons_cons (.inl ⟨rfl, rfl⟩) (List.IsChain.singleton _))
    intro φ hφ
    left
    have hp := Real.pi_pos
    rw [turn_unique g0 _ φ (π / 4) hφ (by rw [abs_of_pos (by linarith)]; linarith) ⟨0, by simp [g0]⟩, abs_of_pos (by linarith)]
    linarith

end Verif.Model3D
