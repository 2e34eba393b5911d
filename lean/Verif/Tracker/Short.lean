import Verif.Tracker.LineTurn
import Verif.Tracker.TurnCase
/-! # The robot may stop well before the end of the path when the path ends with a turn -/
namespace Verif.Tracker
open Verif.Path2D Verif.Num Spec
open Verif.Control.Spec (nearest)

variable {cfg : Config} {hz : ℝ} {x : Nat → ℝ} {m : Nat} {lo hi : ℝ} {p : ℂ} {φ φ1 : ℝ}

/-- While the point ahead is further than the stop tolerance, the robot accelerates up to the speed limit. -/
theorem next_fast {g : Gains} (h : g.Fit) (hf : g.V ^ 2 ≤ 2 * g.tol * g.A) {v r : ℝ} (hv : v ≤ g.V) (he : g.tol ≤ r - g.L * v) :
    g.next v r = min (v + g.T * g.a) g.V := by
  have htol := h.tol_pos
  have hA := h.A_pos
  have hV := h.V_pos
  have hTa := h.Ta_pos
  have hn : ¬ |r - g.L * v| < g.tol := by rw [abs_of_nonneg (by linarith)]; exact not_lt.2 he
  unfold Gains.next
  rw [if_neg hn]
  set e := r - g.L * v with hee
  have he0 : 0 < e := by linarith
  have htoc : Control.timeOptimalControl (-e) g.A = Real.sqrt (2 * e * g.A) := by
    unfold Control.timeOptimalControl
    rw [if_pos (by linarith), neg_neg, one_mul]
    congr 1
    rw [show 2 * -e * g.A = -(2 * e * g.A) by ring, abs_neg, abs_of_nonneg (by positivity)]
  have hs : g.V ≤ Real.sqrt (2 * e * g.A) := by
    apply Real.le_sqrt_of_sq_le
    have : 2 * g.tol * g.A ≤ 2 * e * g.A := by
      apply mul_le_mul_of_nonneg_right _ hA.le
      linarith
    linarith
  rw [htoc]
  unfold nearest
  rw [min_eq_left hs, max_eq_right (show -g.V ≤ g.V by linarith)]
  exact max_eq_right (le_min (by linarith) (by linarith))

/-- Along the straight part: the robot is at its top speed, or has only covered the way needed to speed up. -/
theorem approach_fast {g : Gains} (h : g.Fit) (hf : g.V ^ 2 ≤ 2 * g.tol * g.A) (hstep : g.V * g.T + g.L * g.a * g.T ≤ g.tol) (hL : 0 ≤ g.L) (ha : 0 < g.a)
    {r0 : ℝ} (hr : g.tol + g.V ^ 2 / (2 * g.a) + g.V * g.T / 2 + g.L * g.V ≤ r0) {j : Nat}
    (hj : ∀ i < j, ¬ |(approach g r0 i).2 - g.L * (approach g r0 i).1| < g.tol) :
    ∀ i ≤ j, 0 ≤ (approach g r0 i).1 ∧ (approach g r0 i).1 ≤ g.V ∧
      g.tol - (g.V * g.T + g.L * g.a * g.T) ≤ (approach g r0 i).2 - g.L * (approach g r0 i).1 ∧
      ((approach g r0 i).1 = g.V ∨
        r0 - (approach g r0 i).2 = (approach g r0 i).1 ^ 2 / (2 * g.a) + (approach g r0 i).1 * g.T / 2) := by
  have htol := h.tol_pos
  have hV := h.V_pos
  have hT := h.T_pos
  have hTa := h.Ta_pos
  intro i
  induction i with
  | zero =>
    intro _
    have e1 : 0 ≤ g.V ^ 2 / (2 * g.a) := by positivity
    have e2 : 0 ≤ g.V * g.T / 2 := by positivity
    have e3 : 0 ≤ g.L * g.V := mul_nonneg hL hV.le
    have e4 : 0 ≤ g.L * g.a * g.T := by positivity
    have e5 : 0 ≤ g.V * g.T := by positivity
    refine ⟨le_rfl, hV.le, ?_, .inr ?_⟩
    · change _ ≤ r0 - g.L * 0
      linarith
    · change r0 - r0 = 0 ^ 2 / (2 * g.a) + 0 * g.T / 2
      simp
  | succ i ih =>
    intro hi
    obtain ⟨i1, i2, i3, i4⟩ := ih (by omega)
    set v := (approach g r0 i).1 with hv
    set r := (approach g r0 i).2 with hrr
    have he : g.tol ≤ r - g.L * v := by
      by_contra hcon
      push Not at hcon
      exact hj i (by omega) (abs_lt.2 ⟨by linarith, hcon⟩)
    have hn : (approach g r0 (i + 1)).1 = min (v + g.T * g.a) g.V := next_fast h hf i2 he
    have hn2 : (approach g r0 (i + 1)).2 = r - min (v + g.T * g.a) g.V * g.T := by
      rw [← hn]
      rfl
    rw [hn, hn2]
    have hu0 : 0 ≤ min (v + g.T * g.a) g.V := le_min (by linarith) hV.le
    refine ⟨hu0, min_le_right _ _, ?_, ?_⟩
    · have e1 : g.L * min (v + g.T * g.a) g.V ≤ g.L * (v + g.T * g.a) := mul_le_mul_of_nonneg_left (min_le_left _ _) hL
      have e2 : min (v + g.T * g.a) g.V * g.T ≤ g.V * g.T := mul_le_mul_of_nonneg_right (min_le_right _ _) hT.le
      linarith
    · rcases le_total (v + g.T * g.a) g.V with hc | hc
      · rw [min_eq_left hc]
        right
        rcases i4 with h4 | h4
        · linarith
        · have : r0 - (r - (v + g.T * g.a) * g.T) = (r0 - r) + (v + g.T * g.a) * g.T := by ring
          rw [this, h4]
          field_simp
          ring
      · left
        exact min_eq_right hc

/-- **The robot may stop short.**  When the robot has room to speed up to its speed limit before the turn, it comes to rest, reporting the goal, about the
look-forward distance before the end of the path. -/
theorem stops_short (h : Suits cfg hz x m lo hi) (ht : Turns cfg hz) (hφ : φ ∈ Set.Ioc (-Real.pi) Real.pi) (hφ1 : φ1 ∈ Set.Ioc (-Real.pi) Real.pi)
    (hf : cfg.maxVel ^ 2 ≤ 2 * cfg.stopDist * (cfg.acc * cfg.accTocFactor))
    (hstep : cfg.maxVel * (1 / hz) + cfg.lookForward * cfg.acc * (1 / hz) ≤ cfg.stopDist)
    {X0 : ℝ} (h1 : cfg.stopDist + cfg.maxVel ^ 2 / (2 * cfg.acc) + cfg.maxVel * (1 / hz) / 2 + cfg.lookForward * cfg.maxVel ≤ x m - X0)
    {st : Nat → State} {tf : Nat → Tf} {out : Nat → Out}
    (hst : step (start cfg) (.path false (toMsg false (lineTurn p φ x m φ1)) true) = some (st 0, none)) (htf : tf 0 = on p φ X0) (hr : Ride hz st tf out) :
    ∃ N : Nat, ∀ k, N ≤ k → (out k).cmdV = 0 ∧ (out k).cmdW = 0 ∧ (out k).status = .goal ∧
      cfg.stopDist + cfg.lookForward * cfg.maxVel - 2 * cfg.maxVel * (1 / hz) - cfg.lookForward * cfg.acc * (1 / hz) - cfg.maxVel ^ 2 / (2 * cfg.acc) ≤
        ‖(tf k).pos - (p + x m * dir φ)‖ := by
  have hg := suits_fit h
  have htol : 0 < cfg.stopDist := hg.tol_pos
  have hT : 0 < 1 / hz := one_div_pos.2 h.rate
  have hV := h.vel
  have hacc := h.acc
  have e1 : 0 ≤ cfg.maxVel ^ 2 / (2 * cfg.acc) := by positivity
  have e2 : 0 ≤ cfg.maxVel * (1 / hz) / 2 := by positivity
  have e3 : 0 ≤ cfg.lookForward * cfg.maxVel := mul_nonneg h.look hV.le
  obtain ⟨S, hride, f2, f3, f4, f5⟩ := begins h ht hφ hφ1 (by linarith) hst htf hr
  rcases f5 with ⟨c1, -⟩ | ⟨-, c2⟩
  · have := (abs_lt.1 c1).2
    linarith
  obtain ⟨K, -, hc, -, j, X, n1, n2, n3, n4, n5⟩ := comes h (by linarith) hride f2 f3 c2 htf
  obtain ⟨q1, q2, q3, q4⟩ := approach_fast hg hf hstep h.look hacc h1 n3 j le_rfl
  change _ ≤ cfg.maxVel at q2
  change cfg.stopDist - (cfg.maxVel * (1 / hz) + cfg.lookForward * cfg.acc * (1 / hz)) ≤ _ - cfg.lookForward * _ at q3
  set v := (approach (gains cfg hz) (x m - X0) j).1
  set r := (approach (gains cfg hz) (x m - X0) j).2
  have hvV : v = cfg.maxVel := by
    rcases q4 with q4 | q4
    · exact q4
    · exfalso
      change x m - X0 - r = v ^ 2 / (2 * cfg.acc) + v * (1 / hz) / 2 at q4
      have g1 : v ^ 2 / (2 * cfg.acc) ≤ cfg.maxVel ^ 2 / (2 * cfg.acc) := by
        apply div_le_div_of_nonneg_right _ (by linarith)
        exact pow_le_pow_left₀ q1 q2 2
      have g2 : v * (1 / hz) ≤ cfg.maxVel * (1 / hz) := mul_le_mul_of_nonneg_right q2 hT.le
      have g3 : cfg.lookForward * v ≤ cfg.lookForward * cfg.maxVel := mul_le_mul_of_nonneg_left q2 h.look
      have := (abs_lt.1 n2).2
      linarith
  rw [hvV] at q3 n4 n5
  have hshift : Ride hz (fun k => S (K + k)) (fun k => tf (K + k)) (fun k => out (K + k)) :=
    ⟨fun k => hride.node (K + k), fun k => hride.robot (K + k)⟩
  obtain ⟨a1, d, s, -, -, -, -, N, -, a7⟩ := after_ends (q := { pos := p + x m * dir φ, yaw := φ1, vel := .nan }) ht h.acc
    (line_last p φ x m) rfl rfl (st := fun k => S (K + k)) (tf := fun k => tf (K + k))
    (out := fun k => out (K + k)) hc.node hc.w hshift
  simp only [Nat.add_zero] at a1 a7
  refine ⟨K + N, fun k hk => ?_⟩
  obtain ⟨i, rfl⟩ := Nat.exists_eq_add_of_le (show K ≤ k by omega)
  obtain ⟨-, -, b3, b4, b5⟩ := a7 i (by omega)
  refine ⟨b3, b4, b5, ?_⟩
  have := ((a1 i).2.2.2 (p + x m * dir φ)).2
  rw [n1, on_end] at this
  have g4 : (S K).v ^ 2 / (2 * cfg.acc) ≤ cfg.maxVel ^ 2 / (2 * cfg.acc) := by
    apply div_le_div_of_nonneg_right _ (by linarith)
    exact pow_le_pow_left₀ hc.node.nonneg n5 2
  have g5 := le_abs_self (x m - X)
  linarith

end Verif.Tracker
