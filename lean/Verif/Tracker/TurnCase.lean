import Verif.Tracker.Turn
import Verif.Tracker.Sparse
/-! # A turn on the spot with the default parameters -/
namespace Verif.Tracker
open Verif.Path2D Verif.Num Spec

/-- The default parameters and fifty steps per second suit turns on the spot. -/
theorem defaults_turn : Turns defaults 50 := by
  constructor
  all_goals first
    | rfl
    | norm_num [defaults]; done
    | (simp only [defaults]; linarith [Real.pi_gt_three])

/-- For example a robot which looks along the `x` axis and is asked to look to the left of its back: it turns left, by at most 3.05 radians, and stops
there. -/
example (t : ℂ) : ∃ (st : Nat → State) (tf : Nat → Tf) (out : Nat → Out) (N : Nat),
    step (start defaults) (.path false (toMsg false (spot 0 0 3)) true) = some (st 0, none) ∧ tf 0 = { pos := t, yaw := 0 } ∧ Ride 50 st tf out ∧
    (∀ k, (tf k).pos = t ∧ 0 ≤ (out k).cmdW ∧ (out k).cmdW ≤ 1 ∧ (tf k).yaw < 3 + 1 / 20) ∧
    (∀ k, N ≤ k → |(tf k).yaw - 3| < 1 / 20 ∧ (out k).cmdW = 0 ∧ (out k).status = .goal) := by
  have hp := Real.pi_gt_three
  have h0 : (0 : ℝ) ∈ Set.Ioc (-Real.pi) Real.pi := ⟨by linarith, by linarith⟩
  have h1 : (3 : ℝ) ∈ Set.Ioc (-Real.pi) Real.pi := ⟨by linarith, by linarith⟩
  obtain ⟨st, tf, out, e1, e2, e3⟩ := turn_exists defaults_turn (p := 0) h0 h1 { pos := t, yaw := 0 }
  obtain ⟨a1, d, s, ⟨⟨j, hj⟩, a2, a3⟩, a4, a5, a6, N, -, a7⟩ := turn_ends defaults_turn h0 h1 e1 e3
  have ey : (tf 0).yaw = 0 := by rw [e2]
  have ep : (tf 0).pos = t := by rw [e2]
  have hj0 : j = 0 := by
    rw [hj, ey] at a2 a3
    have b1 : (j : ℝ) * (2 * Real.pi) < 1 * (2 * Real.pi) := by linarith
    have b2 : (-1 : ℝ) * (2 * Real.pi) < (j : ℝ) * (2 * Real.pi) := by linarith
    have b3 := lt_of_mul_lt_mul_right b1 (by linarith)
    have b4 := lt_of_mul_lt_mul_right b2 (by linarith)
    have b5 : j < 1 := by exact_mod_cast b3
    have b6 : -1 < j := by exact_mod_cast b4
    omega
  have hd : d = 3 := by rw [hj, ey, hj0]; norm_num
  have hs : s = 1 := by
    rcases a4 with h | h
    · exact h
    · rw [hd, h, abs_of_pos (by norm_num : (0 : ℝ) < 3)] at a5; norm_num at a5
  subst hs
  rw [hd, abs_of_pos (by norm_num : (0 : ℝ) < 3)] at a6
  simp only [one_mul, ey, sub_zero] at a6
  have hc : defaults.stopAng = 1 / 20 := rfl
  have hm : defaults.maxAngVel = 1 := rfl
  rw [hc, hm] at a6
  rw [hc] at a7
  have hback : ∀ k, 0 ≤ (tf k).yaw := by
    intro k
    induction k with
    | zero => exact ey.ge
    | succ k ih =>
      rw [e3.robot k]
      change 0 ≤ (tf k).yaw + (out k).cmdW * (1 / 50)
      linarith [(a6 k).1]
  refine ⟨st, tf, out, N, e1, e2, e3, fun k => ⟨(a1 k).1.trans ep, a6 k⟩, fun k hk => ⟨?_, (a7 k hk).2.2⟩⟩
  obtain ⟨i, hi⟩ := (a7 k hk).2.1
  have hi' := abs_lt.1 hi
  have hi0 : i = 0 := by
    have c1 := hback k
    have c2 := (a6 k).2.2
    have b1 : (i : ℝ) * (2 * Real.pi) < 1 * (2 * Real.pi) := by linarith
    have b2 : (-1 : ℝ) * (2 * Real.pi) < (i : ℝ) * (2 * Real.pi) := by linarith
    have b3 := lt_of_mul_lt_mul_right b1 (by linarith)
    have b4 := lt_of_mul_lt_mul_right b2 (by linarith)
    have b5 : i < 1 := by exact_mod_cast b3
    have b6 : -1 < i := by exact_mod_cast b4
    omega
  rw [hi0] at hi
  simpa using hi

end Verif.Tracker
