import Verif.Tracker.Spec
/-! # Driving along a straight path: vocabulary -/
namespace Verif.Tracker.Spec
open Verif.Path2D Verif.Num

/-- The unit vector of a heading. -/
noncomputable def dir (φ : ℝ) : ℂ := ⟨Real.cos φ, Real.sin φ⟩

/-- A straight path of `n` poses: pose `i` lies `x i` metres from `p` in the direction `φ`, and looks that way. -/
noncomputable def line (p : ℂ) (φ : ℝ) (x : Nat → ℝ) (n : Nat) : List Pose :=
  (List.range n).map fun i => { pos := p + x i * dir φ, yaw := φ, vel := .nan }

/-- The robot on this line, looking along it. -/
noncomputable def on (p : ℂ) (φ : ℝ) (X : ℝ) : Tf := { pos := p + X * dir φ, yaw := φ }

/-- Neighbouring poses are more than `lo` and at most `hi` apart. -/
def Spaced (x : Nat → ℝ) (m : Nat) (lo hi : ℝ) : Prop := ∀ i, i < m → lo < x (i + 1) - x i ∧ x (i + 1) - x i ≤ hi

/-- A robot which executes a command for the time `T`. -/
noncomputable def moved (t : Tf) (o : Out) (T : ℝ) : Tf :=
  { pos := t.pos + rotatePos ((o.cmdV * T : ℝ) : ℂ) t.yaw, yaw := t.yaw + o.cmdW * T }

/-- The node controls a robot which does what it is told, `hz` times per second, without odometry: `st k` and `tf k` are the state of the node and
the pose of the robot before step `k`, `out k` is what is published in this step. -/
structure Ride (hz : ℝ) (st : Nat → State) (tf : Nat → Tf) (out : Nat → Out) : Prop where
  node : ∀ k, step (st k) (.timer true hz (some (tf k)) (some (tf k))) = some (st (k + 1), some (out k))
  robot : ∀ k, tf (k + 1) = moved (tf k) (out k) (1 / hz)

/-- The parameters of the node suit a straight path with poses at `x 0 < … < x m`. -/
structure Suits (cfg : Config) (hz : ℝ) (x : Nat → ℝ) (m : Nat) (lo hi : ℝ) : Prop where
  rate : 0 < hz
  each : cfg.pathStep = 1
  vel : 0 < cfg.maxVel
  acc : 0 < cfg.acc
  toc : 0 < cfg.accTocFactor
  toc_le : cfg.accTocFactor ≤ 1
  look : 0 ≤ cfg.lookForward
  dLim : 0 ≤ cfg.dLim
  angVel : 0 ≤ cfg.maxAngVel
  angAcc : 0 ≤ cfg.angAcc
  stopAng : 0 < cfg.stopAng
  goalAng : 0 < cfg.goalAng
  goalLinVel : 0 ≤ cfg.goalLinVel
  goalAngVel : 0 ≤ cfg.goalAngVel
  /-- the goal tolerance contains the stop tolerance -/
  goal : cfg.stopDist ≤ cfg.goalDist
  /-- the stop tolerance allows for the motion in one period -/
  room : cfg.maxVel * (1 / hz) / 2 + cfg.acc * cfg.accTocFactor * (1 / hz) ^ 2 / 8 + cfg.lookForward * cfg.acc * (1 / hz) < cfg.stopDist
  eps : 0 ≤ cfg.epsilon
  eps_le : cfg.epsilon ≤ lo
  apart : 1 / 1000 ≤ lo
  two : 0 < m
  spaced : Spaced x m lo hi
  /-- the next pose is within the metre in which the node looks for it -/
  dense : 2 * hi + cfg.maxVel * (1 / hz) + cfg.lookForward * cfg.acc * (1 / hz) ≤ 1
  /-- the point ahead of the robot may lie this far beyond or before the last pose -/
  far : hi + cfg.epsilon + cfg.lookForward * cfg.maxVel + cfg.stopDist ≤ cfg.dStop
  long1 : cfg.minTrackPath ≤ x m - x 0
  long2 : cfg.noPosCntlDist ≤ x m - x 0
  long3 : cfg.stopDist ≤ x m - x 0

/-- A turn on the spot, from the heading `φ0` to the heading `φ1`. -/
noncomputable def spot (p : ℂ) (φ0 φ1 : ℝ) : List Pose := [{ pos := p, yaw := φ0, vel := .nan }, { pos := p, yaw := φ1, vel := .nan }]

/-- A straight path which ends with a turn on the spot, to the heading `φ1`. -/
noncomputable def lineTurn (p : ℂ) (φ : ℝ) (x : Nat → ℝ) (m : Nat) (φ1 : ℝ) : List Pose :=
  line p φ x (m + 1) ++ [{ pos := p + x m * dir φ, yaw := φ1, vel := .nan }]

/-- The parameters of the node suit turns on the spot. -/
structure Turns (cfg : Config) (hz : ℝ) : Prop where
  rate : 0 < hz
  each : cfg.pathStep = 1
  toc : cfg.useToc = true
  vel : 0 ≤ cfg.maxVel
  acc : 0 ≤ cfg.acc
  angVel : 0 < cfg.maxAngVel
  angAcc : 0 < cfg.angAcc
  factor : 0 < cfg.angAccTocFactor
  factor_le : cfg.angAccTocFactor ≤ 1
  gain : 0 ≤ cfg.tocFutureGain
  eps : 0 < cfg.epsilon
  stopDist : 0 < cfg.stopDist
  goalDist : 0 < cfg.goalDist
  goalLinVel : 0 ≤ cfg.goalLinVel
  goalAngVel : 0 ≤ cfg.goalAngVel
  stopAng : cfg.stopAng < Real.pi
  /-- the goal tolerance contains the stop tolerance -/
  goal : cfg.stopAng ≤ cfg.goalAng
  /-- the stop tolerance allows for the motion in one period -/
  room : cfg.maxAngVel * (1 / hz) / 2 + cfg.angAcc * cfg.angAccTocFactor * (1 / hz) ^ 2 / 8 < cfg.stopAng
  wide : 4 * (1 / hz * cfg.tocFutureGain) * cfg.angAcc * (1 / hz) ≤ cfg.stopAng

end Verif.Tracker.Spec
