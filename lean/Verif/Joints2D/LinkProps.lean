import Mathlib.Analysis.Normed.Affine.AddTorsor
import Mathlib.Analysis.SpecialFunctions.Trigonometric.Bounds
import Mathlib.Analysis.Real.Pi.Bounds
import Verif.Joints2D.LinkSpec
import Verif.Joints2D.PropsMap
/-! # Obligations of the collision test of the two links -/
set_option linter.unusedVariables false
namespace Verif.Joints2D
open Verif.CSpace (lround)
open Verif.Model3D (cycU)

theorem dist_complex (a b : Vec3) : a.dist b = dist (⟨a.x, a.y⟩ : ℂ) ⟨b.x, b.y⟩ := by
  rw [Complex.dist_eq_re_im]
  unfold Vec3.dist
  congr 1
  dsimp only
  ring

theorem tip_complex (l : Link) (th : ℝ) : (⟨(l.tip th).x, (l.tip th).y⟩ : ℂ) = (l.endDisc th).centre := by
  unfold Link.tip Link.endDisc Link.base
  dsimp only
  rw [Complex.exp_mul_I, ← Complex.ofReal_cos, ← Complex.ofReal_sin, mul_comm th]
  generalize Real.cos _ = c
  generalize Real.sin _ = s
  apply Complex.ext
  · simp; ring
  · simp; ring

/-- The test reports a collision exactly if the end discs overlap each other or an end disc overlaps the other link's joint disc. -/
theorem collide_iff (a b : Link) (s t : ℝ) : a.isCollide b s t = true ↔
    Overlap (a.endDisc s) (b.endDisc t) ∨ Overlap (a.endDisc s) b.jointDisc ∨ Overlap a.jointDisc (b.endDisc t) := by
  have e1 : (a.tip s).dist (b.tip t) < a.rEnd + b.rEnd ↔ Overlap (a.endDisc s) (b.endDisc t) := by
    rw [dist_complex, tip_complex, tip_complex]; rfl
  have e2 : (a.tip s).dist b.origin < a.rEnd + b.rJoint ↔ Overlap (a.endDisc s) b.jointDisc := by
    rw [dist_complex, tip_complex]; rfl
  have e3 : (b.tip t).dist a.origin < b.rEnd + a.rJoint ↔ Overlap a.jointDisc (b.endDisc t) := by
    rw [dist_complex, tip_complex, dist_comm, add_comm]; rfl
  unfold Link.isCollide
  dsimp only
  split
  · rename_i h; simp [e1.mp h]
  · rename_i h1
    split
    · rename_i h; simp [e2.mp h]
    · rename_i h2
      split
      · rename_i h; simp [e3.mp h]
      · rename_i h3
        rw [e1] at h1; rw [e2] at h2; rw [e3] at h3
        simp [h1, h2, h3]

/-- Which link is asked makes no difference. -/
theorem collide_symm (a b : Link) (s t : ℝ) : a.isCollide b s t = b.isCollide a t s := by
  have sym : ∀ x y : Disc, Overlap x y ↔ Overlap y x := fun x y => by unfold Overlap; rw [dist_comm, add_comm]
  rw [Bool.eq_iff_iff, collide_iff, collide_iff, sym (b.endDisc t) (a.endDisc s), sym (b.endDisc t) a.jointDisc, sym b.jointDisc]
  tauto

theorem overlap_meet (x y : Disc) (hx : 0 ≤ x.radius) (hy : 0 ≤ y.radius) (h : Overlap x y) :
    ∃ z, dist z x.centre ≤ x.radius ∧ dist z y.centre ≤ y.radius := by
  unfold Overlap at h
  have hs : 0 < x.radius + y.radius := lt_of_le_of_lt dist_nonneg h
  set k := x.radius / (x.radius + y.radius) with hk
  have hk0 : 0 ≤ k := div_nonneg hx hs.le
  have hk1 : k ≤ 1 := (div_le_one hs).mpr (by linarith)
  have e1 : k * (x.radius + y.radius) = x.radius := by rw [hk]; field_simp
  refine ⟨AffineMap.lineMap x.centre y.centre k, ?_, ?_⟩
  · rw [dist_lineMap_left, Real.norm_of_nonneg hk0]
    calc k * dist x.centre y.centre ≤ k * (x.radius + y.radius) := mul_le_mul_of_nonneg_left h.le hk0
      _ = _ := e1
  · rw [dist_lineMap_right, Real.norm_of_nonneg (by linarith)]
    calc (1 - k) * dist x.centre y.centre ≤ (1 - k) * (x.radius + y.radius) := mul_le_mul_of_nonneg_left h.le (by linarith)
      _ = _ := by rw [sub_mul, e1]; ring

theorem joint_in_body (l : Link) (th : ℝ) (z : ℂ) (h : dist z l.jointDisc.centre ≤ l.jointDisc.radius) : z ∈ l.body th :=
  ⟨0, le_rfl, zero_le_one, by simpa using (show dist z l.base ≤ l.rJoint from h)⟩

theorem end_in_body (l : Link) (th : ℝ) (z : ℂ) (h : dist z (l.endDisc th).centre ≤ (l.endDisc th).radius) : z ∈ l.body th :=
  ⟨1, zero_le_one, le_rfl, by simpa using (show dist z (l.endDisc th).centre ≤ l.rEnd from h)⟩

/-- A reported collision is a real one: the bodies have a point in common. -/
theorem collide_sound (a b : Link) (ha : 0 ≤ a.rJoint ∧ 0 ≤ a.rEnd) (hb : 0 ≤ b.rJoint ∧ 0 ≤ b.rEnd) (s t : ℝ)
    (h : a.isCollide b s t = true) : (a.body s ∩ b.body t).Nonempty := by
  rw [collide_iff] at h
  rcases h with h | h | h
  · obtain ⟨z, h1, h2⟩ := overlap_meet _ _ ha.2 hb.2 h
    exact ⟨z, end_in_body a s z h1, end_in_body b t z h2⟩
  · obtain ⟨z, h1, h2⟩ := overlap_meet _ _ ha.2 hb.1 h
    exact ⟨z, end_in_body a s z h1, joint_in_body b t z h2⟩
  · obtain ⟨z, h1, h2⟩ := overlap_meet _ _ ha.1 hb.2 h
    exact ⟨z, joint_in_body a s z h1, end_in_body b t z h2⟩

/-- The links of the default parameters (413–430). -/
noncomputable def arm0 : Link := ⟨7 / 100, 7 / 100, 135 / 1000, ⟨22 / 100, 0, 0⟩, -1⟩
noncomputable def arm1 : Link := ⟨7 / 100, 7 / 100, 27 / 100, ⟨-22 / 100, 0, 0⟩, 1⟩

/-- The default links collide when the first points back and the second forward, and do not collide when both point forward. -/
theorem arms : arm0.isCollide arm1 Real.pi 0 = true ∧ arm0.isCollide arm1 0 0 = false := by
  constructor
  · rw [collide_iff]
    refine .inl ?_
    unfold Overlap Link.endDisc Link.base arm0 arm1
    rw [Complex.dist_eq_re_im]
    dsimp only
    rw [Complex.exp_mul_I, Complex.exp_mul_I, ← Complex.ofReal_cos, ← Complex.ofReal_sin, ← Complex.ofReal_cos, ← Complex.ofReal_sin]
    rw [Real.sqrt_lt' (by norm_num)]
    simp
    norm_num
  · rw [← Bool.not_eq_true, collide_iff]
    unfold Overlap Link.endDisc Link.base Link.jointDisc Link.base arm0 arm1
    simp only [Complex.dist_eq_re_im]
    rw [Real.sqrt_lt' (by norm_num), Real.sqrt_lt' (by norm_num), Real.sqrt_lt' (by norm_num)]
    simp
    norm_num

example : (arm0.body Real.pi ∩ arm1.body 0).Nonempty :=
  collide_sound arm0 arm1 (by norm_num [arm0]) (by norm_num [arm1]) _ _ arms.1

/-- With integral gains the test does not depend on full turns of the joints. -/
theorem collide_periodic (a b : Link) (ha : ∃ n : Int, a.gain = n) (hb : ∃ n : Int, b.gain = n) : Periodic Real.pi (a.isCollide b) := by
  have key : ∀ (l : Link), (∃ n : Int, l.gain = n) → ∀ (x : ℝ) (k : Int), l.endDisc (x + k * (2 * Real.pi)) = l.endDisc x := by
    rintro l ⟨n, hn⟩ x k
    unfold Link.endDisc
    rw [hn]
    congr 3
    rw [show ((l.origin.th + (n : ℝ) * (x + k * (2 * Real.pi)) : ℝ) : ℂ) * Complex.I =
      ((l.origin.th + (n : ℝ) * x : ℝ) : ℂ) * Complex.I + ((n * k : ℤ) : ℂ) * (2 * Real.pi * Complex.I) by push_cast; ring]
    exact Complex.exp_periodic.int_mul (n * k) _
  intro x y k l
  rw [Bool.eq_iff_iff, collide_iff, collide_iff, key a ha, key b hb]

example : arm0.isCollide arm1 (3 * Real.pi) (-2 * Real.pi) = true := by
  have h := collide_periodic arm0 arm1 ⟨-1, by norm_num [arm0]⟩ ⟨1, by norm_num [arm1]⟩ Real.pi 0 1 (-1)
  rw [arms.1] at h
  rw [← h]
  congr 1 <;> push_cast <;> ring

/-- The sides are not tested: two crossed links are not reported. -/
theorem misses_crossing : ∃ a b : Link, 0 < a.rJoint ∧ 0 < a.rEnd ∧ 0 < b.rJoint ∧ 0 < b.rEnd ∧
    (a.body 0 ∩ b.body 0).Nonempty ∧ a.isCollide b 0 0 = false := by
  refine ⟨⟨1 / 10, 1 / 10, 2, ⟨0, 0, 0⟩, 1⟩, ⟨1 / 10, 1 / 10, 2, ⟨1, -1, Real.pi / 2⟩, 1⟩, by norm_num, by norm_num, by norm_num, by norm_num, ?_, ?_⟩
  · refine ⟨1, ⟨1 / 2, by norm_num, by norm_num, ?_⟩, ⟨1 / 2, by norm_num, by norm_num, ?_⟩⟩
    · unfold Link.endDisc Link.base
      rw [Complex.dist_eq_re_im]
      dsimp only
      rw [Complex.exp_mul_I, ← Complex.ofReal_cos, ← Complex.ofReal_sin]
      rw [Real.sqrt_le_left (by norm_num)]
      simp
      norm_num
    · unfold Link.endDisc Link.base
      rw [Complex.dist_eq_re_im]
      dsimp only
      rw [Complex.exp_mul_I, ← Complex.ofReal_cos, ← Complex.ofReal_sin]
      rw [Real.sqrt_le_left (by norm_num)]
      simp
      norm_num
  · rw [← Bool.not_eq_true, collide_iff]
    unfold Overlap Link.endDisc Link.base Link.jointDisc Link.base
    simp only [Complex.dist_eq_re_im]
    rw [Complex.exp_mul_I, Complex.exp_mul_I, ← Complex.ofReal_cos, ← Complex.ofReal_sin, ← Complex.ofReal_cos, ← Complex.ofReal_sin]
    rw [Real.sqrt_lt' (by norm_num), Real.sqrt_lt' (by norm_num), Real.sqrt_lt' (by norm_num)]
    simp
    norm_num

/-! ## The bodies over the angle map -/

theorem end_moves (l : Link) (hl : 0 ≤ l.length) (s t : ℝ) :
    dist (l.endDisc s).centre (l.endDisc t).centre ≤ l.length * |l.gain| * |s - t| := by
  unfold Link.endDisc
  dsimp only
  rw [dist_add_left, dist_eq_norm, ← mul_sub, norm_mul, Complex.norm_real, Real.norm_of_nonneg hl, mul_assoc]
  refine mul_le_mul_of_nonneg_left ?_ hl
  have e : Complex.exp ((l.origin.th + l.gain * s : ℝ) * Complex.I) - Complex.exp ((l.origin.th + l.gain * t : ℝ) * Complex.I) =
      Complex.exp ((l.origin.th + l.gain * t : ℝ) * Complex.I) * (Complex.exp (Complex.I * (l.gain * (s - t) : ℝ)) - 1) := by
    rw [mul_sub, ← Complex.exp_add, mul_one]
    congr 2
    push_cast; ring
  rw [e, norm_mul, Complex.norm_exp_ofReal_mul_I, one_mul]
  refine (Real.norm_exp_I_mul_ofReal_sub_one_le).trans ?_
  rw [Real.norm_eq_abs, abs_mul]

/-- At all angles of a cell whose centre is not reported, the discs are apart, up to the way the ends move within the cell. -/
theorem cell_clearance (p : Par ℝ) (hpi : p.pi = Real.pi) (hres : 0 < p.res) (a b : Link) (ha : 0 ≤ a.length) (hb : 0 ≤ b.length) (q : Int × Int)
    (h : a.isCollide b (toMetric p q).1 (toMetric p q).2 = false) (x : ℝ × ℝ) (hx : Near p x q) :
    -slack p a b ≤ gap (a.endDisc x.1) (b.endDisc x.2) ∧ -slack p a b ≤ gap (a.endDisc x.1) b.jointDisc ∧
      -slack p a b ≤ gap a.jointDisc (b.endDisc x.2) := by
  obtain ⟨hx1, hx2⟩ := hx
  rw [hpi] at hx1 hx2
  rw [← Bool.not_eq_true, collide_iff] at h
  simp only [not_or] at h
  obtain ⟨h1, h2, h3⟩ := h
  unfold Overlap at h1 h2 h3
  rw [not_lt] at h1 h2 h3
  have ma := end_moves a ha x.1 (toMetric p q).1
  have mb := end_moves b hb x.2 (toMetric p q).2
  have ma' : a.length * |a.gain| * |x.1 - (toMetric p q).1| ≤ a.length * |a.gain| * (Real.pi / p.res) :=
    mul_le_mul_of_nonneg_left hx1 (by positivity)
  have mb' : b.length * |b.gain| * |x.2 - (toMetric p q).2| ≤ b.length * |b.gain| * (Real.pi / p.res) :=
    mul_le_mul_of_nonneg_left hx2 (by positivity)
  have hr' : (0 : ℝ) < (p.res : ℝ) := by exact_mod_cast hres
  have pa : 0 ≤ a.length * |a.gain| * (Real.pi / p.res) := by have := Real.pi_pos; positivity
  have pb : 0 ≤ b.length * |b.gain| * (Real.pi / p.res) := by have := Real.pi_pos; positivity
  unfold gap slack
  rw [add_mul]
  have ra : ∀ t, (a.endDisc t).radius = a.rEnd := fun _ => rfl
  have rb : ∀ t, (b.endDisc t).radius = b.rEnd := fun _ => rfl
  simp only [ra, rb] at *
  refine ⟨?_, ?_, ?_⟩
  · have t1 := dist_triangle4 (a.endDisc (toMetric p q).1).centre (a.endDisc x.1).centre (b.endDisc x.2).centre (b.endDisc (toMetric p q).2).centre
    rw [dist_comm (a.endDisc (toMetric p q).1).centre (a.endDisc x.1).centre] at t1
    linarith
  · have t1 := dist_triangle (a.endDisc (toMetric p q).1).centre (a.endDisc x.1).centre b.jointDisc.centre
    rw [dist_comm (a.endDisc (toMetric p q).1).centre (a.endDisc x.1).centre] at t1
    linarith
  · have t1 := dist_triangle a.jointDisc.centre (b.endDisc x.2).centre (b.endDisc (toMetric p q).2).centre
    linarith

/-- The costmap built for two links is lethal exactly at the cells where the end discs overlap each other or the other link's joint
disc. -/
theorem links_costmap (p : Par ℝ) (a b : Link) (hr : 0 < reach p) : ∃ m, buildMap p (a.isCollide b) = some m ∧
    ∀ q, inMap p q = true → (m q = 100 ↔ Overlap (a.endDisc (toMetric p q).1) (b.endDisc (toMetric p q).2) ∨
      Overlap (a.endDisc (toMetric p q).1) b.jointDisc ∨ Overlap a.jointDisc (b.endDisc (toMetric p q).2)) := by
  obtain ⟨m, h1, h2⟩ := costmap_built p (a.isCollide b) hr
  exact ⟨m, h1, fun q hq => (h2.lethal q hq).trans (collide_iff a b _ _)⟩

/-- On a move that the planner accepts over the map built for two links (integral gains), the discs keep apart, up to the way the
ends move within a cell, at all angles in the cells that the move samples. -/
theorem move_clearance (p : Par ℝ) (hp : Sane p) (hpi : p.pi = Real.pi) (a b : Link) (ha : 0 ≤ a.length) (hb : 0 ≤ b.length)
    (ga : ∃ n : Int, a.gain = n) (gb : ∃ n : Int, b.gain = n) (hr : 0 < reach p) (m : Int × Int → Int)
    (hm : buildMap p (a.isCollide b) = some m) (c d : Int × Int) (hc : Clear p m c d) (i : Nat) (hi : i < samples d) (x : ℝ × ℝ)
    (hx : Near p x (lround ((c.1 : ℝ) + (i : ℝ) * ((d.1 : ℝ) / (samples d : ℝ))), lround ((c.2 : ℝ) + (i : ℝ) * ((d.2 : ℝ) / (samples d : ℝ))))) :
    -slack p a b ≤ gap (a.endDisc x.1) (b.endDisc x.2) ∧ -slack p a b ≤ gap (a.endDisc x.1) b.jointDisc ∧
      -slack p a b ≤ gap a.jointDisc (b.endDisc x.2) := by
  obtain ⟨m', h1, h2⟩ := costmap_built p (a.isCollide b) hr
  rw [hm] at h1
  cases h1
  exact cell_clearance p hpi hp.res a b ha hb _ (clear_no_collision p hp _ (hpi ▸ collide_periodic a b ga gb) m h2 c d hc i hi) x hx

/-- The default parameters. -/
noncomputable def parPi : Par ℝ := ⟨128, 8, 1 / 10, 4, (1, 3 / 2), (1 / 2, 1 / 2), .prev, (0, 1), Real.pi⟩

theorem parPi_sane : Sane parPi :=
  ⟨by decide, ⟨by decide, by decide⟩, Real.pi_pos, ⟨by norm_num [parPi], by norm_num [parPi]⟩, ⟨by norm_num [parPi], by norm_num [parPi]⟩,
    by norm_num [parPi]⟩

theorem parPi_reach : reach parPi = 2 := by
  have h1 := Real.pi_gt_three
  have h2 := Real.pi_lt_four
  unfold reach lround
  have hp := Real.pi_pos
  show (if (0 : ℝ) ≤ 1 / 10 * ((128 : Int) : ℝ) / (2 * Real.pi) then _ else _) = _
  rw [if_pos (by positivity), Int.floor_eq_iff]
  show ((2 : Int) : ℝ) ≤ 1 / 10 * ((128 : Int) : ℝ) / (2 * Real.pi) + 1 / 2 ∧ 1 / 10 * ((128 : Int) : ℝ) / (2 * Real.pi) + 1 / 2 < ((2 : Int) : ℝ) + 1
  push_cast
  constructor
  · have : (3 : ℝ) / 2 ≤ 1 / 10 * 128 / (2 * Real.pi) := by rw [le_div_iff₀ (by positivity)]; linarith
    linarith
  · have : 1 / 10 * 128 / (2 * Real.pi) < (5 : ℝ) / 2 := by rw [div_lt_iff₀ (by positivity)]; linarith
    linarith

/-- The default links around the angles (0, 0): at most the slack of a cell is lost. -/
example (x : ℝ × ℝ) (h1 : |x.1| ≤ Real.pi / 128) (h2 : |x.2| ≤ Real.pi / 128) :
    -slack parPi arm0 arm1 ≤ gap (arm0.endDisc x.1) (arm1.endDisc x.2) := by
  refine (cell_clearance parPi rfl (by decide) arm0 arm1 (by norm_num [arm0]) (by norm_num [arm1]) (128, 128) ?_ x ?_).1
  · have : toMetric parPi (128, 128) = (0, 0) := by norm_num [toMetric, parPi]
    rw [this]; exact arms.2
  · have : toMetric parPi (128, 128) = (0, 0) := by norm_num [toMetric, parPi]
    unfold Near
    rw [this]
    simpa [parPi] using And.intro h1 h2

/-- The default links on the move from (0, 0) by one cell of the first joint. -/
example : ∃ m, buildMap parPi (arm0.isCollide arm1) = some m ∧ Clear parPi m (128, 128) (1, 0) ∧ samples (1, 0) = 1 ∧
    -slack parPi arm0 arm1 ≤ gap (arm0.endDisc 0) (arm1.endDisc 0) := by
  obtain ⟨m, h1, h2⟩ := costmap_built parPi (arm0.isCollide arm1) (by rw [parPi_reach]; decide)
  have hs : samples (1, 0) = 1 := by decide +kernel
  have hl : lround (128 : ℝ) = 128 := by
    unfold lround
    rw [if_pos (by norm_num), Int.floor_eq_iff]
    norm_num
  have hc : cycU 128 parPi.res = 0 := by decide +kernel
  have hz : Near parPi (0, 0) (128, 128) := by
    have : toMetric parPi (128, 128) = (0, 0) := by norm_num [toMetric, parPi]
    unfold Near
    rw [this]
    have := Real.pi_pos
    simp [parPi]
    positivity
  have hcl : Clear parPi m (128, 128) (1, 0) := by
    intro i hi
    rw [hs, Nat.lt_one_iff] at hi
    subst hi
    simp only [Nat.cast_zero, zero_mul, add_zero, Int.cast_ofNat, hl, hc]
    have hin : inMap parPi (0, 0) = true := by decide
    have hne : ¬ m (0, 0) = 100 := by
      rw [h2.lethal _ hin, Bool.not_eq_true]
      have hp := collide_periodic arm0 arm1 ⟨-1, by norm_num [arm0]⟩ ⟨1, by norm_num [arm1]⟩ 0 0 (-1) (-1)
      rw [arms.2] at hp
      rw [← hp]
      congr 1 <;> norm_num [toMetric, parPi] <;> ring
    have := (h2.range _ hin).2
    omega
  refine ⟨m, h1, hcl, hs, ?_⟩
  refine (move_clearance parPi parPi_sane rfl arm0 arm1 (by norm_num [arm0]) (by norm_num [arm1]) ⟨-1, by norm_num [arm0]⟩
    ⟨1, by norm_num [arm1]⟩ (by rw [parPi_reach]; decide) m h1 (128, 128) (1, 0) hcl 0 (by rw [hs]; decide) (0, 0) ?_).1
  simp only [Nat.cast_zero, zero_mul, add_zero, Int.cast_ofNat, hl]
  exact hz

end Verif.Joints2D
