import Verif.Tracker.Cases
import Verif.Tracker.CommandProps
/-! # A concrete cycle that meets the hypotheses of C135 -/
namespace Verif.Tracker
open Verif.Num Verif.Path2D

theorem straight_inv : Inv 1 (atStraight false) :=
  ⟨cfg0_valid, rfl, fun _ => by simp [atStraight, straight3], fun h => by cases h⟩

/-- A robot before a straight path: the status is FOLLOWING and the command is one of the three. -/
example : ∃ st' o, control (atStraight false) none (some (robotAt (-100))) 0 0 0 0 (1 / 10) = some (st', o) ∧
    o.status = .following ∧ ∃ tv, TurnsOnSpot cfg0 0 0 (1 / 10) tv o ∨ Halts cfg0 o ∨
      ∃ u κ e, Follows cfg0 0 0 (1 / 10) tv u κ e o := by
  obtain ⟨r', hr', k1, k2, k3, k4, k5, k6⟩ := straight_result false 0 0 0
  have hctl : control (atStraight false) none (some (robotAt (-100))) 0 0 0 0 (1 / 10) =
      some (command (atStraight false) r' (1 / 10)) := by
    unfold control
    have : firstLook (atStraight false) none 0 0 0 0 = some (atStraight false) := by
      unfold firstLook; rw [if_neg (by simp [atStraight])]
    rw [this, Option.bind_some, hr', Option.map_some]
  have hst : (command (atStraight false) r' (1 / 10)).2.status = .following := by
    unfold command
    rw [if_neg (by rw [k1]; simp)]
    exact k1
  obtain ⟨tf, n, g, a, b, l, L, htf, c1, c2, c3, c4, c5, c6, c7, c8, c9, c10⟩ := command_spec straight_inv (by norm_num [atStraight, start, cfg0])
    (by norm_num [atStraight, start, cfg0]) (by norm_num [atStraight, start, cfg0]) (by norm_num [atStraight, start, cfg0]) (by norm_num) hctl
    (.inl hst)
  have hb : limitAt (atStraight false).maxVel b = .fin (1 / 2) := by
    cases htf
    rw [straight_local] at c5
    unfold limitAt
    have hv : b.vel = .nan := by
      match n, c5 with
      | 0, h => simp at h; rw [← h]; rfl
      | 1, h => simp at h; rw [← h]; rfl
      | 2, h => simp at h; rw [← h]; rfl
      | k + 3, h => simp at h
    rw [if_pos hv]
    rfl
  obtain ⟨d1, d2⟩ := c10 (1 / 2) hb (by norm_num)
  refine ⟨(command (atStraight false) r' (1 / 10)).1, (command (atStraight false) r' (1 / 10)).2, hctl, hst, 1 / 2, ?_⟩
  · by_cases hrot : AtEnd (atStraight false).cfg (localPath (atStraight false).cfg.pathStep (atStraight false).path tf) a b L ∨
        Askew (atStraight false).cfg a b
    · rcases d1 hrot with e | e
      · exact .inl e
      · exact .inr (.inl e)
    · push Not at hrot
      rcases d2 hrot.1 hrot.2 with e | e
      · exact .inr (.inr ⟨_, _, _, e⟩)
      · exact .inr (.inl e)

/-- A pose behind the robot with the robot's own heading is reached backwards, if that is allowed. -/
example : Reverse true { pos := 0, yaw := 0, vel := .nan } { pos := -1, yaw := 0, vel := .nan } ∧
    ¬ Reverse false { pos := 0, yaw := 0, vel := .nan } { pos := -1, yaw := 0, vel := .nan } ∧
    ¬ Reverse true { pos := 0, yaw := 0, vel := .nan } { pos := 1, yaw := 0, vel := .nan } := by
  simp [Reverse, forward]

end Verif.Tracker
