import Verif.Frames.Spec
import Mathlib.Tactic.Linarith
import Mathlib.Tactic.FieldSimp
import Mathlib.Tactic.FinCases
import Mathlib.Tactic.NormNum
import Mathlib.LinearAlgebra.Matrix.NonsingularInverse
/-! # Frames: property theorems (C113, C114) -/
set_option linter.unusedVariables false
set_option linter.unusedSimpArgs false
namespace Verif.Frames

/-! ### Lemmas -/

theorem heading_rotZ {r : Rot} (h : Slanted (fun i => r i 0)) (o : Vec) :
    HeadingOf (fun i => r i 0) (axisX ⟨rotZ (yaw r), o⟩) := by
  have hz : (⟨r 0 0, r 1 0⟩ : ℂ) ≠ 0 := by
    intro he
    have h0 := congrArg Complex.re he
    have h1 := congrArg Complex.im he
    simp at h0 h1
    rcases h with h | h <;> contradiction
  have hn : 0 < ‖(⟨r 0 0, r 1 0⟩ : ℂ)‖ := norm_pos_iff.2 hz
  refine ⟨?_, ?_, ‖(⟨r 0 0, r 1 0⟩ : ℂ)‖, hn, ?_, ?_⟩
  · simp [axisX, rotZ]
  · simp [axisX, rotZ]
  · have := Complex.norm_mul_cos_arg (⟨r 0 0, r 1 0⟩ : ℂ)
    simp only [axisX, rotZ, yaw]
    simpa using this.symm
  · have := Complex.norm_mul_sin_arg (⟨r 0 0, r 1 0⟩ : ℂ)
    simp only [axisX, rotZ, yaw]
    simpa using this.symm

theorem rotZ_orthogonal (t : ℝ) : Orthogonal (rotZ t) := by
  have h := Real.sin_sq_add_cos_sq t
  unfold Orthogonal rotZ
  ext i j
  fin_cases i <;> fin_cases j <;> simp [Matrix.mul_apply, Fin.sum_univ_three] <;> nlinarith

theorem orthogonal_sq {r : Rot} (h : Orthogonal r) (v : Vec) : sq (r.mulVec v) = sq v := by
  have h' : ∀ i j, (r.transpose * r) i j = (1 : Rot) i j := fun i j => by rw [h]
  have h00 := h' 0 0
  have h11 := h' 1 1
  have h22 := h' 2 2
  have h01 := h' 0 1
  have h02 := h' 0 2
  have h12 := h' 1 2
  simp [Matrix.mul_apply, Fin.sum_univ_three] at h00 h11 h22 h01 h02 h12
  simp only [sq, Matrix.mulVec, dotProduct, Fin.sum_univ_three]
  linear_combination v 0 ^ 2 * h00 + v 1 ^ 2 * h11 + v 2 ^ 2 * h22 + 2 * v 0 * v 1 * h01 + 2 * v 0 * v 2 * h02
    + 2 * v 1 * v 2 * h12

theorem orthogonal_transpose {r : Rot} (h : Orthogonal r) : Orthogonal r.transpose := by
  unfold Orthogonal at *
  rw [Matrix.transpose_transpose]
  exact mul_eq_one_comm.1 h

/-- What is sent, written out. -/
theorem process_some {c : Opts} {s : Stamped} {f : ℝ → Option Tf} {out : Sent}
    (h : process c (some s) f = some out) :
    ∃ g, f s.stamp = some g ∧ out.stamp = (if s.stamp = 0 then s.stamp else s.stamp + c.tolerance) ∧
      (out.static = true ↔ out.stamp = 0) ∧
      out.tf = (if c.flat then ⟨rotZ (yaw (projectTranslation (project c s.tf) g).r),
        (projectTranslation (project c s.tf) g).o⟩ else projectTranslation (project c s.tf) g) := by
  unfold process at h
  dsimp only at h
  cases hg : f s.stamp with
  | none => rw [hg] at h; cases h
  | some g =>
    rw [hg] at h
    dsimp only at h
    cases h
    exact ⟨g, rfl, rfl, by simp, rfl⟩

theorem place {c : Opts} {s : Stamped} {f : ℝ → Option Tf} {out : Sent} {g : Tf}
    (h : process c (some s) f = some out) (hg : f s.stamp = some g) :
    out.tf.o = g.app ![(project c s.tf).o 0, (project c s.tf).o 1, 0] := by
  obtain ⟨g', hg', -, -, ht⟩ := process_some h
  rw [hg] at hg'
  cases hg'
  rw [ht]
  split <;> rfl

/-! ### The projection node (C113) -/

/-- **C113.** Nothing is sent unless both poses are known, the second one at the time of the first; something is sent if they are. -/
theorem sent_iff (c : Opts) (source : Option Stamped) (f : ℝ → Option Tf) :
    (process c source f).isSome ↔ ∃ s, source = some s ∧ (f s.stamp).isSome := by
  cases source with
  | none => simp [process]
  | some s => cases hg : f s.stamp <;> simp [process, hg]

/-- **C113.** The time of what is sent: that of the source, later by the tolerance; a source without a time gives a static transform
without a time, and with a time and a tolerance that is not negative the transform is not static. -/
theorem sent_stamp {c : Opts} {s : Stamped} {f : ℝ → Option Tf} {out : Sent}
    (h : process c (some s) f = some out) :
    (s.stamp = 0 → out.stamp = 0 ∧ out.static = true) ∧
    (s.stamp ≠ 0 → out.stamp = s.stamp + c.tolerance) ∧
    (0 < s.stamp → 0 ≤ c.tolerance → out.static = false) := by
  obtain ⟨g, hg, h1, h2, -⟩ := process_some h
  refine ⟨fun hs => ?_, fun hs => ?_, fun hs ht => ?_⟩
  · rw [if_pos hs, hs] at h1
    exact ⟨h1, h2.2 h1⟩
  · rw [if_neg hs] at h1
    exact h1
  · rw [if_neg hs.ne'] at h1
    cases he : out.static with
    | false => rfl
    | true =>
      have := h2.1 he
      linarith

/-- **C113.** Where the projected frame is, unless postures are aligned: at the foot of the source frame on the surface – the point of the
surface with the same two coordinates. -/
theorem sent_place {c : Opts} {s : Stamped} {f : ℝ → Option Tf} {out : Sent} {g : Tf}
    (h : process c (some s) f = some out) (hg : f s.stamp = some g) (ha : (c.posture && c.align) = false) :
    out.tf.o = g.app ![s.tf.o 0, s.tf.o 1, 0] := by
  rw [place h hg]
  have : (project c s.tf).o = s.tf.o := by
    unfold project
    cases hp : c.posture <;> cases hq : c.align <;> simp_all
  rw [this]

/-- **C113.** The foot is the nearest point of the surface to the source frame. -/
theorem sent_nearest {c : Opts} {s : Stamped} {f : ℝ → Option Tf} {out : Sent} {g : Tf}
    (h : process c (some s) f = some out) (hg : f s.stamp = some g) (ha : (c.posture && c.align) = false)
    (hr : Orthogonal g.r) (x y : ℝ) :
    sq (g.app s.tf.o - out.tf.o) ≤ sq (g.app s.tf.o - g.app ![x, y, 0]) := by
  rw [sent_place h hg ha]
  have key : ∀ a b : Vec, sq (g.app a - g.app b) = sq (a - b) := by
    intro a b
    rw [← orthogonal_sq hr (a - b), Matrix.mulVec_sub]
    congr 1
    unfold Tf.app
    abel
  rw [key, key]
  simp [sq]
  nlinarith [sq_nonneg (s.tf.o 0 - x), sq_nonneg (s.tf.o 1 - y)]

/-- **C113.** Without options the posture is kept: the axes of what is sent are those of the source. -/
theorem sent_posture_kept {c : Opts} {s : Stamped} {f : ℝ → Option Tf} {out : Sent} {g : Tf}
    (h : process c (some s) f = some out) (hg : f s.stamp = some g) (hp : c.posture = false)
    (hf : c.flat = false) : out.tf.r = g.r * s.tf.r := by
  obtain ⟨g', hg', -, -, ht⟩ := process_some h
  rw [hg] at hg'
  cases hg'
  rw [ht]
  simp [hf, projectTranslation, Tf.mul, project, hp]

/-- **C113.** With a projected posture the frame sent stands on the surface: its vertical axis is the surface's normal, and its forward axis
lies in the surface, in the direction in which the source heads. -/
theorem sent_posture_projected {c : Opts} {s : Stamped} {f : ℝ → Option Tf} {out : Sent} {g : Tf}
    (h : process c (some s) f = some out) (hg : f s.stamp = some g) (hp : c.posture = true)
    (hf : c.flat = false) (ho : Orthogonal s.tf.r) (hs : Slanted (axisX s.tf)) :
    axisZ out.tf = axisZ g ∧ ∃ d, HeadingOf (axisX s.tf) d ∧ axisX out.tf = g.r.mulVec d := by
  obtain ⟨g', hg', -, -, ht⟩ := process_some h
  rw [hg] at hg'
  cases hg'
  have hpr : (project c s.tf).r = rotZ (yaw s.tf.r) := by
    unfold project
    rw [if_pos hp]
    split
    · simp only [Tf.mul]
      rw [Matrix.mul_assoc]
      unfold Orthogonal at ho
      rw [ho, Matrix.mul_one]
    · rfl
  have hr : out.tf.r = g.r * rotZ (yaw s.tf.r) := by
    rw [ht]
    simp [hf, projectTranslation, Tf.mul, hpr]
  refine ⟨?_, axisX ⟨rotZ (yaw s.tf.r), s.tf.o⟩, heading_rotZ hs _, ?_⟩
  · funext i
    simp [axisZ, hr, Matrix.mul_apply, Fin.sum_univ_three, rotZ]
  · funext i
    simp [axisX, hr, Matrix.mul_apply, Matrix.mulVec, dotProduct, Fin.sum_univ_three, rotZ]

/-- **C113.** With a flat frame, whatever the other options: the frame is level in the parent frame, and heads where it would head without
the option. -/
theorem sent_flat {c : Opts} {s : Stamped} {f : ℝ → Option Tf} {out out' : Sent}
    (h : process c (some s) f = some out) (hf : c.flat = true)
    (h' : process { c with flat := false } (some s) f = some out') (hs : Slanted (axisX out'.tf)) :
    axisZ out.tf = up ∧ HeadingOf (axisX out'.tf) (axisX out.tf) ∧ out.tf.o = out'.tf.o ∧ Orthogonal out.tf.r := by
  obtain ⟨g, hg, -, -, ht⟩ := process_some h
  obtain ⟨g', hg', -, -, ht'⟩ := process_some h'
  rw [hg] at hg'
  cases hg'
  rw [if_pos hf] at ht
  rw [if_neg (by simp)] at ht'
  have hc : project { c with flat := false } s.tf = project c s.tf := rfl
  rw [hc] at ht'
  rw [ht'] at hs ⊢
  rw [ht]
  refine ⟨?_, heading_rotZ hs _, rfl, rotZ_orthogonal _⟩
  funext i
  fin_cases i <;> simp [axisZ, rotZ, up]

/-- **C113.** With aligned postures the origin is turned as well, about the origin of the surface: the distance of the frame sent from
there is at most that of the source. -/
theorem sent_aligned {c : Opts} {s : Stamped} {f : ℝ → Option Tf} {out : Sent} {g : Tf}
    (h : process c (some s) f = some out) (hg : f s.stamp = some g) (hp : c.posture = true)
    (ha : c.align = true) (ho : Orthogonal s.tf.r) :
    ∃ v : Vec, sq v = sq s.tf.o ∧ out.tf.o = g.app ![v 0, v 1, 0] := by
  refine ⟨(rotZ (yaw s.tf.r)).mulVec (s.tf.r.transpose.mulVec s.tf.o), ?_, ?_⟩
  · rw [orthogonal_sq (rotZ_orthogonal _), orthogonal_sq (orthogonal_transpose ho)]
  · rw [place h hg]
    have : (project c s.tf).o = (rotZ (yaw s.tf.r)).mulVec (s.tf.r.transpose.mulVec s.tf.o) := by
      unfold project
      rw [if_pos hp, if_pos ha]
      simp [Tf.mul, Matrix.mulVec_mulVec]
    rw [this]

/-- A source pitched by the angle of the 3-4-5 triangle, five metres ahead. -/
noncomputable def pitched : Tf := ⟨!![4/5, 0, 3/5; 0, 1, 0; -3/5, 0, 4/5], ![5, 0, 0]⟩

/-- The surface is the parent frame. -/
noncomputable def level : Tf := ⟨1, 0⟩

theorem pitched_orthogonal : Orthogonal pitched.r := by
  unfold Orthogonal pitched
  ext i j
  fin_cases i <;> fin_cases j <;> simp [Matrix.mul_apply, Fin.sum_univ_three] <;> norm_num

theorem pitched_slanted : Slanted (axisX pitched) := by
  left
  norm_num [axisX, pitched]

theorem pitched_yaw : yaw pitched.r = 0 := by
  unfold yaw
  rw [Complex.arg_eq_zero_iff]
  norm_num [pitched]

/-- **C113 (finding).** With aligned postures the frame sent is in general not at the foot of the source: a source pitched on the spot five
metres ahead is put four metres ahead. -/
theorem aligned_moves :
    ∃ out, process ⟨true, true, false, 0⟩ (some ⟨pitched, 1⟩) (fun _ => some level) = some out ∧
      out.tf.o = ![4, 0, 0] ∧ out.tf.o ≠ level.app ![pitched.o 0, pitched.o 1, 0] := by
  have ho : ∀ out, process ⟨true, true, false, 0⟩ (some ⟨pitched, 1⟩) (fun _ => some level) = some out →
      out.tf.o = ![4, 0, 0] := by
    intro out h
    rw [place h rfl]
    have hz : rotZ 0 = 1 := by
      ext i j
      fin_cases i <;> fin_cases j <;> simp [rotZ]
    have hv : (pitched.r.transpose).mulVec pitched.o = ![4, 0, 3] := by
      funext i
      fin_cases i <;> simp [pitched, Matrix.mulVec, dotProduct, Fin.sum_univ_three] <;> norm_num
    simp only [project, if_true, Tf.mul, pitched_yaw, hz, Matrix.one_mul, hv]
    funext i
    fin_cases i <;> simp [Tf.app, level]
  refine ⟨_, rfl, ho _ rfl, ?_⟩
  rw [ho _ rfl]
  intro he
  have := congrFun he 0
  norm_num [Tf.app, level, pitched] at this

/-- The hypotheses are met: the pitched source, with each choice of options. -/
example (c : Opts) : (process c (some ⟨pitched, 1⟩) (fun _ => some level)).isSome ∧ Orthogonal pitched.r ∧
    Slanted (axisX pitched) ∧ Orthogonal level.r :=
  ⟨(sent_iff _ _ _).2 ⟨_, rfl, rfl⟩, pitched_orthogonal, pitched_slanted, by simp [Orthogonal, level]⟩

example : ∃ out', process ⟨false, false, false, 0⟩ (some ⟨pitched, 1⟩) (fun _ => some level) = some out' ∧
    Slanted (axisX out'.tf) := by
  refine ⟨_, rfl, ?_⟩
  have := sent_posture_kept (c := ⟨false, false, false, 0⟩) (s := ⟨pitched, 1⟩) (f := fun _ => some level) (out := _)
    rfl rfl rfl rfl
  left
  unfold axisX
  rw [this]
  norm_num [level, pitched]

/-! ### The pose transformer (C114) -/

/-- **C114 (finding).** The program publishes nothing, whatever it is sent and whichever frame it is asked to transform to: its `main`
declares a function where it means to construct the node. -/
theorem never_published (dest : Nat) (h : List (PoseMsg × (Nat → Option Stamped))) :
    published (main dest) h = [] := rfl

/-- **C114 (partial).** The callback, were it ever connected: each pose whose transform is known is published as the same pose in the
frame asked for, with the time of the transform and the covariance of the message; the others are dropped. -/
theorem transformed_partial (dest : Nat) (look : Nat → Option Stamped) (m : PoseMsg) :
    (∀ t, look m.frame = some t → ∃ out, cbPose dest look m = some out ∧ SamePose t.tf m.pose out.pose ∧
      out.frame = dest ∧ out.stamp = t.stamp ∧ out.cov = m.cov) ∧
    (look m.frame = none → cbPose dest look m = none) := by
  refine ⟨fun t ht => ⟨⟨t.tf.mul m.pose, m.cov, dest, t.stamp⟩, by rw [cbPose, ht]; rfl, fun v => ?_, rfl, rfl, rfl⟩, fun h => by rw [cbPose, h]; rfl⟩
  simp only [Tf.app, Tf.mul, Matrix.mulVec_add, Matrix.mulVec_mulVec]
  abel

/-- A node would have published the pose that the program drops. -/
example : (published (.node 7) [(⟨pitched, [1], 3, 5⟩, fun _ => some ⟨level, 2⟩)]).length = 1 ∧
    published (main 7) [(⟨pitched, [1], 3, 5⟩, fun _ => some ⟨level, 2⟩)] = [] := ⟨rfl, rfl⟩

end Verif.Frames
