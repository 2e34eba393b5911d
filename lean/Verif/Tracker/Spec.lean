import Verif.Tracker.Model
import Verif.Path2D.Spec
/-!
# Specification of the path tracking node
-/
namespace Verif.Tracker
open Verif.Num Verif.Path2D

/-- Parameter values the node's parameter definitions allow (cfg/TrajectoryTracker.cfg), as far as needed. -/
structure Config.Valid (c : Config) : Prop where
  step : 1 ≤ c.pathStep
  eps : 0 ≤ c.epsilon

/-- No new path arrives. -/
def Event.NotPath : Event → Prop
  | .path _ _ _ => False
  | _ => True

/-- Parameters are changed only to valid ones which keep the path step `k`. -/
def Event.KeepsStep (k : Nat) : Event → Prop
  | .reconfigure c => c.Valid ∧ c.pathStep = k
  | _ => True

/-- The outputs of a history (those callbacks which publish a command), undefined behaviour ending it. -/
noncomputable def outputs : State → List Event → List Out
  | _, [] => []
  | st, e :: es =>
    match step st e with
    | none => []
    | some (st', none) => outputs st' es
    | some (st', some o) => o :: outputs st' es

/-- The command is a stop. -/
def Out.Zero (o : Out) : Prop := o.cmdV = 0 ∧ o.cmdW = 0

/-- A change of a value from `x` to `y` allowed by an acceleration limit over `dt`. -/
def Within (acc dt x y : ℝ) : Prop := |y - x| ≤ acc * dt

/-- A configuration with sensible limits, of which the angular velocity limit is at most `W`. -/
structure Config.Limits (W : ℝ) (c : Config) : Prop where
  ang : 0 ≤ c.maxAngVel
  le : c.maxAngVel ≤ W
  acc : 0 ≤ c.acc
  angAcc : 0 ≤ c.angAcc

/-- A speed given as not-a-number (unspecified) or as a number up to `V`. -/
def UpTo (V : ℝ) (v : Ext ℝ) : Prop := v = .nan ∨ ∃ x : ℝ, v = .fin x ∧ x ≤ V

/-- Speeds in messages and parameters do not exceed `V` and `W`; periods and maximum time steps are not negative. -/
def Event.Bounded (V W : ℝ) : Event → Prop
  | .path withVel poses _ => withVel = true → ∀ m ∈ poses, UpTo V m.vel
  | .speed v => ∃ x : ℝ, v = .fin x ∧ 0 ≤ x ∧ x ≤ V
  | .reconfigure c => c.Valid ∧ c.Limits W ∧ 0 ≤ c.maxVel ∧ c.maxVel ≤ V
  | .odometry _ maxDt _ _ _ _ _ _ => 0 ≤ maxDt
  | .timer _ hz _ _ => 0 < hz
  | .odomTimeout => True

/-- The time stamps of the odometry messages do not go back, starting from `last`. -/
def InOrder : Option ℝ → List Event → Prop
  | _, [] => True
  | last, .odometry _ _ stamp _ _ _ _ _ :: es => (∀ t, last = some t → t ≤ stamp) ∧ InOrder (some stamp) es
  | last, _ :: es => InOrder last es

end Verif.Tracker
