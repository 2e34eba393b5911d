import Verif.Num.Ext
import Mathlib.Algebra.Group.Action.Defs
import Mathlib.Algebra.GroupWithZero.Action.Defs
/-!
# Model of `track_odometry`

* `kalman_filter1.h`: the one-dimensional filter, with infinities and NaN explicit.
* `track_odometry.cpp`: `cbImu`, `cbOdom`, `cbResetZ`.  Positions are triples over an ordered field; orientations
  are an abstract group `Q` acting additively on positions (`toEigen(q) * v`).
-/
namespace Verif.Odom
open Verif.Num Verif.Num.Ext

variable {K : Type} [Field K] [LinearOrder K] [IsStrictOrderedRing K]

/-- `KalmanFilter1`, kalman_filter1.h:37-41. -/
structure KF (K : Type) where
  x : Ext K
  sigma : Ext K
deriving DecidableEq

/-- `predict`, kalman_filter1.h:54-58. -/
def KF.predict (f : KF K) (xPlus sigmaPlus : Ext K) : KF K := ⟨add f.x xPlus, add f.sigma sigmaPlus⟩

/-- `measure`, kalman_filter1.h:59-75. -/
def KF.measure (f : KF K) (xIn sigmaIn : Ext K) : KF K :=
  if isInf sigmaIn then f
  else if isInf f.sigma then ⟨if isInf xIn then fin 0 else xIn, sigmaIn⟩
  else
    let kt := div (mul f.sigma f.sigma) (add (mul f.sigma f.sigma) (mul sigmaIn sigmaIn))
    ⟨add f.x (mul kt (sub xIn f.x)), mul (sub (fin 1) kt) f.sigma⟩

/-- Node parameters, track_odometry.cpp:345-382. -/
structure Cfg (K : Type) where
  sigmaOdom : K
  sigmaPredict : K
  predictFilterTc : K
  zFilterTimeconst : K
  useKf : Bool
  negativeSlip : Bool
  /-- `base_link_id` is given as a parameter (`base_link_id_overwrite_` or `without_odom`) -/
  baseGiven : Bool

/-- Position with explicit height. -/
structure Pos (K : Type) where
  x : K
  y : K
  z : K
deriving DecidableEq

def Pos.add (a b : Pos K) : Pos K := ⟨a.x + b.x, a.y + b.y, a.z + b.z⟩
def Pos.sub (a b : Pos K) : Pos K := ⟨a.x - b.x, a.y - b.y, a.z - b.z⟩
def Pos.smul (k : K) (a : Pos K) : Pos K := ⟨k * a.x, k * a.y, k * a.z⟩
def Pos.zero : Pos K := ⟨0, 0, 0⟩

/-- A raw odometry message (the fields the node reads). -/
structure Raw (K Q : Type) where
  stamp : K
  pos : Pos K
  ori : Q
  wz : K

/-- Orientation algebra: `toEigen(q) * v` and `toEigen(a) * toEigen(b).inverse()`. -/
structure Rot (K Q : Type) where
  /-- `rot imu raw v` is `imu * raw⁻¹ * v`, track_odometry.cpp:265-266 -/
  rot : Q → Q → Pos K → Pos K

/-- Node state, track_odometry.cpp:105-129. -/
structure St (K Q : Type) where
  hasOdom : Bool
  hasImu : Bool
  base : Bool
  imuW : K
  imuQ : Option Q
  rawPrev : Option (Raw K Q)
  odomPrev : Pos K
  slip : KF K

/-- Constructor, track_odometry.cpp:370-388. -/
def init (c : Cfg K) : St K Q := ⟨false, false, c.baseGiven, 0, none, none, Pos.zero, ⟨fin 0, fin (1 / 10)⟩⟩

inductive Event (K Q : Type) where
  /-- an IMU message; `none` when the transform lookup fails, otherwise the transformed rate and orientation -/
  | imu (r : Option (K × Q))
  | odom (m : Raw K Q)
  | resetZ (z : K)

/-- `cbImu`, track_odometry.cpp:145-206. -/
def cbImu (s : St K Q) (r : Option (K × Q)) : St K Q :=
  if s.base = false then s
  else match r with
    | some (w, q) => { s with imuW := w, imuQ := some q, hasImu := true }
    | none => { s with hasImu := false }

/-- The slip estimate after one message, track_odometry.cpp:229-249. -/
def slipUpdate (c : Cfg K) (slip : KF K) (dt wImu wOdom : K) : KF K :=
  let wImu := if wImu * wOdom < 0 ∧ c.negativeSlip = false then wOdom else wImu
  let slip := slip.predict (mul (mul (neg slip.x) (fin dt)) (fin c.predictFilterTc)) (fin (dt * c.sigmaPredict))
  let per := div (fin (wOdom - wImu)) (fin (wOdom * |wOdom|))
  let perSigma := mul (fin c.sigmaOdom) (Ext.abs (div (fin (2 * wOdom * c.sigmaOdom))
      (fin ((wOdom * wOdom - c.sigmaOdom * c.sigmaOdom) ^ 2))))
  let perSigma := if |wOdom| < c.sigmaOdom then pinf else perSigma
  slip.measure per perSigma

/-- The factor applied to the displacement, track_odometry.cpp:224-240 and 268-271. -/
def factor (c : Cfg K) (slip' : KF K) (wImu wOdom : K) : Ext K :=
  let wImu := if wImu * wOdom < 0 ∧ c.negativeSlip = false then wOdom else wImu
  if c.useKf then sub (fin 1) slip'.x
  else if |wOdom| > c.sigmaOdom * 3 then div (fin wImu) (fin wOdom) else fin 1

/-- `cbOdom`, track_odometry.cpp:207-292.  The result is the new state and the published pose; `none` when
a non-finite pose would be published. -/
def cbOdom (R : Rot K Q) (c : Cfg K) (s : St K Q) (m : Raw K Q) : Option (St K Q × Option (Pos K × Q)) :=
  match s.hasOdom, s.rawPrev with
  | true, some prev =>
    let s := { s with base := true }
    match s.hasImu, s.imuQ with
    | true, some q =>
      let dt := m.stamp - prev.stamp
      let slip := slipUpdate c s.slip dt s.imuW m.wz
      match factor c slip s.imuW m.wz with
      | .fin k =>
        let v := Pos.smul k (R.rot q m.ori (Pos.sub m.pos prev.pos))
        let p := Pos.add s.odomPrev v
        let p := if c.zFilterTimeconst > 0 then { p with z := p.z * (1 - dt / c.zFilterTimeconst) } else p
        some ({ s with slip := slip, rawPrev := some m, odomPrev := p }, some (p, q))
      | _ => none
    | _, _ => some (s, none)
  | _, _ => some ({ s with rawPrev := some m, odomPrev := m.pos, hasOdom := true }, none)

/-- One event. -/
def step (R : Rot K Q) (c : Cfg K) (s : St K Q) : Event K Q → Option (St K Q × Option (Pos K × Q))
  | .imu r => some (cbImu s r, none)
  | .odom m => cbOdom R c s m
  | .resetZ z => some ({ s with odomPrev := { s.odomPrev with z := z } }, none)

/-- State after a history, newest event first. -/
def run (R : Rot K Q) (c : Cfg K) : List (Event K Q) → Option (St K Q)
  | [] => some (init c)
  | e :: h => (run R c h).bind fun s => (step R c s e).map Prod.fst

/-- What the newest event of a history publishes. -/
def output (R : Rot K Q) (c : Cfg K) (h : List (Event K Q)) (e : Event K Q) : Option (Option (Pos K × Q)) :=
  (run R c h).bind fun s => (step R c s e).map Prod.snd

/-- `projectTranslation`, tf_projection.cpp:35-44, on the translation: `trans` expressed in the projection surface's
frame loses its height, then is moved by the surface's own transform (`target`: rotation `r`, origin `o`). -/
def projectTranslation (r : Pos K → Pos K) (o trans : Pos K) : Pos K :=
  Pos.add (r { trans with z := 0 }) o

end Verif.Odom
