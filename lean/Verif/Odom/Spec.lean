import Verif.Odom.Model
/-! # Specification vocabulary for the odometry correction

Everything about the node is defined over its input history (newest event first), not over its state. -/
namespace Verif.Odom.Spec
open Verif.Num Verif.Odom

variable {K : Type} [Field K] [LinearOrder K] [IsStrictOrderedRing K]

/-! ## Kalman filter -/

/-- Kalman filter inputs. -/
inductive In (K : Type) where
  | predict (x s : K)
  /-- `none` is an infinitely uncertain measurement -/
  | measure (z : K) (s : Option K)

def sig : Option K → Ext K
  | some s => .fin s
  | none => .pinf

def feed (f : KF K) : In K → KF K
  | .predict x s => f.predict (.fin x) (.fin s)
  | .measure z s => f.measure (.fin z) (sig s)

/-- Sensible inputs: prediction adds uncertainty, measurements are not exact. -/
def Sensible : In K → Prop
  | .predict _ s => 0 ≤ s
  | .measure _ none => True
  | .measure _ (some s) => 0 < s

/-- Inputs that do not move the estimate out of `[lo, hi]`. -/
def Inside (lo hi : K) : In K → Prop
  | .predict x _ => x = 0
  | .measure z _ => lo ≤ z ∧ z ≤ hi

/-! ## Node -/

/-- Number of odometry messages received. -/
def odoms : List (Event K Q) → Nat
  | [] => 0
  | .odom _ :: h => odoms h + 1
  | _ :: h => odoms h

/-- The base frame is known: by parameter, or from the second odometry message on. -/
def baseKnown (c : Cfg K) (h : List (Event K Q)) : Prop := c.baseGiven = true ∨ 2 ≤ odoms h

instance (c : Cfg K) (h : List (Event K Q)) : Decidable (baseKnown c h) := by
  unfold baseKnown; infer_instance

/-- The IMU reading in force: the last one received after the base frame became known, if its transform
succeeded. -/
def imuOf (c : Cfg K) : List (Event K Q) → Option (K × Q)
  | [] => none
  | .imu r :: h => if baseKnown c h then r else imuOf c h
  | _ :: h => imuOf c h

/-- The last odometry message taken into account: the very first one, or one received with a valid IMU reading. -/
def lastUsed (c : Cfg K) : List (Event K Q) → Option (Raw K Q)
  | [] => none
  | .odom m :: h => if odoms h = 0 ∨ (imuOf c h).isSome then some m else lastUsed c h
  | _ :: h => lastUsed c h

/-- One published increment. -/
structure Inc (K Q : Type) where
  /-- raw displacement since the last message taken into account -/
  d : Pos K
  /-- time since then -/
  dt : K
  /-- orientation by IMU and by raw odometry -/
  q : Q
  raw : Q
  wImu : K
  wOdom : K

/-- The increments of a history, newest first. -/
def incs (c : Cfg K) : List (Event K Q) → List (Inc K Q)
  | [] => []
  | .odom m :: h =>
    match lastUsed c h, imuOf c h with
    | some p, some (w, q) => ⟨Pos.sub m.pos p.pos, m.stamp - p.stamp, q, m.ori, w, m.wz⟩ :: incs c h
    | _, _ => incs c h
  | _ :: h => incs c h

/-- The slip estimate after the given increments. -/
def slipAfter (c : Cfg K) : List (Inc K Q) → KF K
  | [] => ⟨.fin 0, .fin (1 / 10)⟩
  | i :: is => slipUpdate c (slipAfter c is) i.dt i.wImu i.wOdom

/-- The factor by which the newest increment is scaled (0 stands for a non-finite factor, which never occurs). -/
def gain (c : Cfg K) (is : List (Inc K Q)) : K :=
  match is with
  | [] => 1
  | i :: _ => match factor c (slipAfter c is) i.wImu i.wOdom with
    | .fin k => k
    | _ => 0

/-- Start position plus all rotated and scaled increments. -/
def total (R : Rot K Q) (c : Cfg K) (p0 : Pos K) : List (Inc K Q) → Pos K
  | [] => p0
  | i :: is => Pos.add (total R c p0 is) (Pos.smul (gain c (i :: is)) (R.rot i.q i.raw i.d))

/-- Sum of the raw displacements. -/
def rawTotal (p0 : Pos K) : List (Inc K Q) → Pos K
  | [] => p0
  | i :: is => Pos.add (rawTotal p0 is) i.d

/-- The raw position of the first odometry message of a history. -/
def firstPos : List (Event K Q) → Option (Pos K)
  | [] => none
  | .odom m :: h => (firstPos h).or (some m.pos)
  | _ :: h => firstPos h

def NoReset (h : List (Event K Q)) : Prop := ∀ e ∈ h, ∀ z, e ≠ .resetZ z

end Verif.Odom.Spec
