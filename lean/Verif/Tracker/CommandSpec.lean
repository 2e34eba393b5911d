import Verif.Tracker.Spec
import Verif.Control.Spec
/-! # What the tracker is meant to command: direction, speed and turn -/
namespace Verif.Tracker
open Verif.Num Verif.Path2D

/-- The way from pose `a` to pose `b` is to be driven backwards: that is allowed, and the heading of `b` points against the way. -/
def Reverse (allow : Bool) (a b : Pose) : Prop := allow = true ∧ forward a b < 0

open Classical in
/-- Angle by which the robot (at the origin, heading along the x axis) is turned away from the way from `a` to `b`, or from the opposite
direction where the way is to be driven backwards; up to full turns. -/
noncomputable def bearing (allow : Bool) (a b : Pose) : ℝ :=
  -Complex.arg (b.pos - a.pos) + if Reverse allow a b then Real.pi else 0

/-- The value nearest to `t` that is within `lim` in size, or if that cannot be reached within `dt`, the value nearest to it that can. -/
noncomputable def approachTo (acc dt lim p t : ℝ) : ℝ :=
  Control.Spec.nearest (p - dt * acc) (p + dt * acc) (Control.Spec.nearest (-lim) lim t)

/-- Speed from which one can just stop after the distance `d` with the deceleration `acc`, in the direction of `d`. -/
noncomputable def brakingSpeed (acc d : ℝ) : ℝ := if 0 < d then Real.sqrt (2 * |d| * |acc|) else -Real.sqrt (2 * |d| * |acc|)

open Classical in
/-- Speed limit at a pose: its own one, or where it names none the general one. -/
noncomputable def limitAt (general : Ext ℝ) (b : Pose) : Ext ℝ := if b.vel = .nan then general else b.vel

/-- A distance that counts as zero when the path is shorter than the length from which positions are controlled. -/
noncomputable def counted (cfg : Config) (lp : List Pose) (d : ℝ) : ℝ := if length lp < cfg.noPosCntlDist then 0 else d

/-- The end of the stretch has been reached for the present: the robot is to turn to its heading. -/
def AtEnd (cfg : Config) (lp : List Pose) (a b : Pose) (L : ℝ) : Prop :=
  length lp < cfg.minTrackPath ∨ |counted cfg lp L| < cfg.stopDist ∨ a.pos = b.pos

/-- The robot is turned too far away from the way to drive. -/
def Askew (cfg : Config) (a b : Pose) : Prop :=
  |cfg.rotateAng| < Real.pi ∧ Real.cos (bearing cfg.allowBackward a b) < Real.cos cfg.rotateAng

/-- Gain on the angle error at the speed limit `tv`: scaled with it, unless no reference speed is given. -/
noncomputable def angleGain (cfg : Config) (tv : ℝ) : ℝ := if cfg.gainAtVel = 0 then cfg.kAng else cfg.kAng * tv / cfg.gainAtVel

/-- The robot stops at once, within all the stop tolerances. -/
def Halts (cfg : Config) (o : Out) : Prop := o.cmdV = 0 ∧ o.cmdW = 0 ∧ |o.distance| < cfg.stopDist ∧ |o.angle| < cfg.stopAng

open Classical in
/-- Command for turning on the spot: brake, and turn with the speed from which the turn can just be stopped at the wanted angle, or with
proportional and damping gains. -/
def TurnsOnSpot (cfg : Config) (v w dt tv : ℝ) (o : Out) : Prop :=
  o.cmdV = approachTo cfg.acc dt tv v 0 ∧
  o.cmdW = approachTo cfg.angAcc dt cfg.maxAngVel w (if cfg.useToc = true
    then -brakingSpeed (cfg.angAcc * cfg.angAccTocFactor) (o.angle + w * dt * cfg.tocFutureGain)
    else w + (-o.angle * cfg.kAngRotation - w * cfg.kAvelRotation) * dt)

open Classical in
/-- Command for following the way with the wanted speed `u`, curvature `κ` and lateral error `e`: the turn rate is led to that of the
curve, and against the lateral error and the angle error.  If the limit on the turn rate is to limit the speed and the curve would need more,
the speed is reduced to the one for which the limit suffices. -/
def Follows (cfg : Config) (v w dt tv u κ e : ℝ) (o : Out) : Prop :=
  let v1 := approachTo cfg.acc dt tv v u
  let over := cfg.limitVelByAvel = true ∧ cfg.maxAngVel < |v1 * κ|
  let rate := if over then (if κ < 0 then -1 else 1) * cfg.maxAngVel else |v1| * κ
  o.cmdV = (if over then approachTo cfg.acc dt tv v1 ((if v1 < 0 then -1 else 1) * |cfg.maxAngVel / κ|) else v1) ∧
  o.cmdW = approachTo cfg.angAcc dt cfg.maxAngVel w
    (w + dt * (-e * cfg.kDist - o.angle * angleGain cfg tv - (w - rate) * cfg.kAvel))

end Verif.Tracker
