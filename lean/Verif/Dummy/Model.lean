import Mathlib.Analysis.SpecialFunctions.Trigonometric.Basic
/-! # The simulated robot

`planner_cspace/src/dummy_robot.cpp`.  `float` and `double` are the real numbers with exact arithmetic.  Poses are given by position
and yaw; the transform of a received initial pose into the odometry frame is an input (`none` when it fails).  The broadcast
transform carries the same pose as the odometry message and is left out. -/
namespace Verif.Dummy

/-- `x_`, `y_`, `yaw_`, `v_`, `w_`, 47–51. -/
structure St where
  x : ℝ
  y : ℝ
  yaw : ℝ
  v : ℝ
  w : ℝ

/-- What happens to the node. -/
inductive Event where
  /-- A message on `cmd_vel`. -/
  | twist (v w : ℝ)
  /-- A message on `initialpose`, transformed into the odometry frame. -/
  | init (pose : Option (ℝ × ℝ × ℝ))
  /-- One round of the loop 113–138. -/
  | tick

/-- The published odometry, 129–138. -/
structure Odom where
  x : ℝ
  y : ℝ
  yaw : ℝ
  v : ℝ
  w : ℝ

/-- The constructor, 96–100. -/
def start (x y yaw : ℝ) : St := ⟨x, y, yaw, 0, 0⟩

/-- `dt`, 108. -/
noncomputable def dt : ℝ := 1 / 100

/-- 117–119.  (The heading is updated first.) -/
noncomputable def advance (s : St) : St :=
  let yaw := s.yaw + s.w * dt
  { s with
    yaw := yaw
    x := s.x + Real.cos yaw * s.v * dt
    y := s.y + Real.sin yaw * s.v * dt }

/-- One event: `cbTwist` 60–64, `cbInit` 65–87, `spin` 113–138. -/
noncomputable def step (s : St) : Event → St × Option Odom
  | .twist v w => ({ s with v := v, w := w }, none)
  | .init none => (s, none)
  | .init (some (x, y, yaw)) => (⟨x, y, yaw, 0, 0⟩, none)
  | .tick => let s := advance s; (s, some ⟨s.x, s.y, s.yaw, s.v, s.w⟩)

/-- The state after a history. -/
noncomputable def run (s : St) (h : List Event) : St := h.foldl (fun s e => (step s e).1) s

/-- The messages published during a history. -/
noncomputable def odoms : St → List Event → List Odom
  | _, [] => []
  | s, e :: h => (step s e).2.toList ++ odoms (step s e).1 h

end Verif.Dummy
