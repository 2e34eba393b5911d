import Verif.Polygon.Model
import Mathlib.Algebra.Order.Archimedean.Real.Basic
/-! # The safety limiter

`safety_limiter/src/safety_limiter.cpp`.  `float`/`double` and `ros::Time` are real numbers (exact arithmetic, no
NaN or infinity in messages).  Callbacks run one at a time (`ros::spin`, line 267).  Log messages, the `collision`
topic (display of the points hit) and the key/value part of the diagnostics are not modelled. -/
namespace Verif.Safety
open Verif.Polygon hiding dist

/-- `pcl::PointXYZ`. -/
structure P3 where
  x : ℝ
  y : ℝ
  z : ℝ

/-- `geometry_msgs/Twist`: linear `x y z`, angular `x y z`. -/
@[ext] structure Twist where
  lx : ℝ
  ly : ℝ
  lz : ℝ
  ax : ℝ
  ay : ℝ
  az : ℝ

/-- A default constructed message (281, 296, 722). -/
def Twist.zero : Twist := ⟨0, 0, 0, 0, 0, 0⟩

/-- The values stored by `cbParameter`, 323–341 (`SafetyLimiterConfig`). -/
structure Cfg where
  hz : ℝ
  timeout : ℝ
  disableTimeout : ℝ
  linVel : ℝ
  linAcc : ℝ
  angVel : ℝ
  angAcc : ℝ
  maxLin : ℝ
  maxAng : ℝ
  zMin : ℝ
  zMax : ℝ
  dt : ℝ
  dMargin : ℝ
  dEscape : ℝ
  yawMargin : ℝ
  yawEscape : ℝ
  grid : ℝ
  hold : ℝ
  allowEmpty : Bool

/-- `hold_`, 340. -/
noncomputable def Cfg.holdTime (c : Cfg) : ℝ := max c.hold (1 / c.hz)

/-- `tmax_`, 343–351.  Simplification: a zero `lin_vel`, `lin_acc`, `ang_vel` or `ang_acc` makes the double infinite
or NaN; the theorems that use the horizon need them positive only through `tmax` itself. -/
noncomputable def Cfg.tmax (c : Cfg) : ℝ :=
  let t0 := if (0 : ℝ) < c.linVel / c.linAcc then c.linVel / c.linAcc else 0
  let t1 := if t0 < c.angVel / c.angAcc then c.angVel / c.angAcc else t0
  t1 * 1.5 + max (c.dMargin / c.linVel) (c.yawMargin / c.angVel)

/-- The footprint parameter (226–250) and `pcl::VoxelGrid` (396–400): an arbitrary function of the leaf size and the
cloud. -/
structure Env where
  footprint : List (Pt ℝ)
  downsample : ℝ → List P3 → List P3

/-! ### One prediction -/

/-- `motion`, 427–429: shift by the displacement of one time step, then turn back. -/
noncomputable def motion (c : Cfg) (t : Twist) (p : Pt ℝ) : Pt ℝ :=
  let x := p.1 - t.lx * c.dt
  let y := p.2 - t.ly * c.dt
  (Real.cos (-t.az * c.dt) * x - Real.sin (-t.az * c.dt) * y, Real.sin (-t.az * c.dt) * x + Real.cos (-t.az * c.dt) * y)

/-- `motion_inv`, 430–432. -/
noncomputable def motionInv (c : Cfg) (t : Twist) (p : Pt ℝ) : Pt ℝ :=
  (Real.cos (t.az * c.dt) * p.1 - Real.sin (t.az * c.dt) * p.2 + t.lx * c.dt,
   Real.sin (t.az * c.dt) * p.1 + Real.cos (t.az * c.dt) * p.2 + t.ly * c.dt)

/-- `move`/`move_inv` after `k` time steps (433–434, 455–456): products of `k` equal factors. -/
noncomputable def moveN (c : Cfg) (t : Twist) (k : Nat) (p : Pt ℝ) : Pt ℝ := (motion c t)^[k] p
noncomputable def moveInvN (c : Cfg) (t : Twist) (k : Nat) (p : Pt ℝ) : Pt ℝ := (motionInv c t)^[k] p

open Classical in
/-- 459–483: the points within the footprint radius of the moved robot centre are tested against the footprint.
`radiusSearch` is modelled as the exact closed disc. -/
noncomputable def colliding (e : Env) (c : Cfg) (t : Twist) (pc : List (Pt ℝ)) (k : Nat) : Bool :=
  let center := moveInvN c t k (0, 0)
  let near := pc.filter fun p => decide (hypot (p.1 - center.1) (p.2 - center.2) ≤ radius (close e.footprint))
  near.any fun p => inside (close e.footprint) (moveN c t k p)

/-- `linear_vel`, 445. -/
noncomputable def speed (t : Twist) : ℝ := hypot t.lx t.ly

/-- Loop variables, 439–444. -/
structure Acc where
  d : ℝ
  yaw : ℝ
  dEsc : ℝ
  yawEsc : ℝ
  atNow : Bool
  hasCol : Bool

/-- 439–444. -/
def Acc.init : Acc := ⟨0, 0, 0, 0, false, false⟩

open Classical in
/-- 447–508: the loop over the time steps `k, k + 1, …` (`n` steps left); `col k` tells whether the footprint hits a
point at step `k`.  `t != 0` is `k ≠ 0`. -/
noncomputable def loop (c : Cfg) (v w : ℝ) (col : Nat → Bool) : Nat → Nat → Acc → Acc
  | _, 0, a => a
  | k, n + 1, a =>
    let a := if k ≠ 0 then
        { a with d := a.d + v * c.dt, dEsc := a.dEsc - v * c.dt, yaw := a.yaw + w * c.dt,
                 yawEsc := a.yawEsc - |w| * c.dt }
      else a
    if col k then
      let a := { a with d := a.d - v * c.dt, yaw := a.yaw - w * c.dt }
      let a := if k = 0 then { a with dEsc := c.dEscape, yawEsc := c.yawEscape, atNow := true } else a
      if a.dEsc ≤ 0 ∨ a.yawEsc ≤ 0 then
        if a.atNow then { a with d := 0, yaw := 0, hasCol := true } else { a with hasCol := true }
      else loop c v w col (k + 1) n a
    else loop c v w col (k + 1) n a

/-- Number of iterations of `for (t = 0; t < tmax_; t += dt_)` for a positive `dt` (447). -/
noncomputable def Cfg.steps (c : Cfg) : Nat := ⌈c.tmax / c.dt⌉₊

/-- `delay`, 529. -/
noncomputable def Cfg.delay (c : Cfg) : ℝ := 1 * (1 / c.hz) + c.dt

/-- Delay compensation, 530–543, for one direction. -/
noncomputable def compensate (acc margin delay d : ℝ) : ℝ :=
  let a := acc * delay ^ 2
  max 0 (|d| - margin + a - Real.sqrt (a ^ 2 + 2 * a * |d|))

/-- 545–552 for one direction: a zero velocity gives a non-finite quotient, replaced by 1. -/
noncomputable def quotient (acc dc v : ℝ) : ℝ := if v = 0 then 1 else Real.sqrt |2 * acc * dc| / v

/-- 522–554. -/
noncomputable def ratio (c : Cfg) (v w : ℝ) (a : Acc) : ℝ :=
  if a.hasCol then
    min (quotient c.linAcc (compensate c.linAcc c.dMargin c.delay a.d) v)
      (quotient c.angAcc (compensate c.angAcc c.yawMargin c.delay a.yaw) |w|)
  else 1

/-- 402–410: the height filter; the kept points are projected to the plane. -/
noncomputable def heightFilter (c : Cfg) (pc : List P3) : List (Pt ℝ) :=
  open Classical in
  (pc.filter fun p => !(decide (p.z < c.zMin) || decide (c.zMax < p.z))).map fun p => (p.x, p.y)

/-- What `predict` does: the returned ratio, the new content of the stored cloud, and, when the loop was reached, the
points used and whether the robot is in collision now. -/
structure Predicted where
  ratio : ℝ
  cloud : List P3
  tested : Option (List (Pt ℝ) × Bool)

/-- `predict`, 354–555.  `tf` is the transform from the fixed frame to the base frame, `none` when the lookup throws
(372–382); it is an arbitrary function of points. -/
noncomputable def predict (e : Env) (c : Cfg) (t : Twist) (cloud : List P3) (tf : Option (P3 → P3)) : Predicted :=
  if cloud.isEmpty then ⟨if c.allowEmpty then 1 else 0, cloud, none⟩
  else match tf with
    | none => ⟨0, cloud, none⟩
    | some f =>
      let cloud := cloud.map f
      let pc := heightFilter c (e.downsample c.grid cloud)
      if pc.isEmpty then ⟨if c.allowEmpty then 1 else 0, cloud, none⟩
      else
        let a := loop c (speed t) t.az (colliding e c t pc) 0 c.steps .init
        ⟨ratio c (speed t) t.az a, cloud, some (pc, a.atNow)⟩

/-! ### The node -/

/-- The member variables, 119–152. -/
structure St where
  cfg : Cfg
  twist : Twist
  lastStamp : ℝ
  cloud : List P3
  cloudClear : Bool
  rLim : ℝ
  lastDisable : ℝ
  holdOff : ℝ
  watchdogStop : Bool
  hasCloud : Bool
  hasTwist : Bool
  atNow : Bool
  stuckSince : ℝ

/-- Constructor, 160–172; `setCallback` (208) calls `cbParameter` with the initial configuration. -/
def St.init (c : Cfg) : St :=
  ⟨c, .zero, 0, [], false, 1, 0, 0, false, false, true, false, 0⟩

/-- Callback invocations, with the time at which they run where it is read. -/
inductive Ev where
  /-- `cbTwist` -/
  | twist (now : ℝ) (t : Twist)
  /-- `cbCloud`: header stamp, points, transform to the fixed frame (`none`: lookup fails) -/
  | cloud (stamp : ℝ) (pts : List P3) (tf : Option (P3 → P3))
  /-- `cbPredictTimer`: transform from the fixed frame to the base frame -/
  | predict (now : ℝ) (tf : Option (P3 → P3))
  /-- `cbWatchdogTimer` -/
  | watchdog
  /-- `cbWatchdogReset` -/
  | watchdogReset
  /-- `cbDisable` -/
  | disable (now : ℝ) (b : Bool)
  /-- `cbParameter` -/
  | param (c : Cfg)

/-- The summaries of `diagnoseCollision`, 785–806. -/
inductive Summary where
  /-- "Stopped due to data timeout." -/
  | dataTimeout
  /-- "OK" -/
  | ok
  /-- "Cannot escape from collision." -/
  | cannotEscape
  /-- "Trying to avoid collision, but cannot move anymore." -/
  | cannotMove
  /-- "Escaping from collision." -/
  | escaping
  /-- "Reducing velocity to avoid collision." -/
  | reducing

/-- `safety_limiter_msgs/SafetyLimiterStatus`, and the diagnostic summary published with it. -/
structure Status where
  summary : Summary
  limitRatio : ℝ
  cloudAvailable : Bool
  watchdogTimedOut : Bool
  stuckSince : ℝ

/-- Messages published. -/
inductive Out where
  | cmd (t : Twist)
  | status (s : Status)

open Classical in
/-- `diagnoseCollision`, 781–817. -/
noncomputable def St.status (s : St) : Status :=
  ⟨if !s.hasCloud || s.watchdogStop then .dataTimeout
   else if s.rLim = 1 then .ok
   else if s.rLim < 1e-6 then (if s.atNow then .cannotEscape else .cannotMove)
   else if s.atNow then .escaping else .reducing,
   s.rLim, s.hasCloud, s.watchdogStop, s.stuckSince⟩

open Classical in
/-- `limit`, 557–577; `EPSILON` is 1e-6. -/
noncomputable def limit (r : ℝ) (t : Twist) : Twist :=
  if r < 1 - 1e-6 then { t with lx := t.lx * r, ly := t.ly * r, az := t.az * r } else t

open Classical in
/-- `limitMaxVelocities`, 579–603. -/
noncomputable def limitMax (c : Cfg) (t : Twist) : Twist :=
  let t := if c.maxLin ≤ 0 then { t with lx := 0, ly := 0 }
    else if hypot t.lx t.ly > c.maxLin then
      { t with lx := t.lx * (c.maxLin / hypot t.lx t.ly), ly := t.ly * (c.maxLin / hypot t.lx t.ly) }
    else t
  { t with az := if t.az > 0 then min t.az c.maxAng else max t.az (-c.maxAng) }

open Classical in
/-- `cbTwist`, 710–734. -/
noncomputable def cbTwist (s : St) (now : ℝ) (t : Twist) : St × List Out :=
  let s := { s with twist := t, hasTwist := true }
  if now - s.lastDisable < s.cfg.disableTimeout then (s, [.cmd (limitMax s.cfg t)])
  else if !s.hasCloud || s.watchdogStop then (s, [.cmd .zero])
  else (if now > s.holdOff then { s with rLim := 1 } else s, [.cmd (limitMax s.cfg (limit s.rLim t))])

/-- `cbCloud`, 736–772.  The transform is only looked up when there are points. -/
def cbCloud (s : St) (stamp : ℝ) (pts : List P3) (tf : Option (P3 → P3)) : St :=
  let accept (new : List P3) : St :=
    let old := if s.cloudClear then [] else s.cloud
    { s with cloudClear := false, cloud := old ++ new, lastStamp := stamp, hasCloud := true }
  if pts.isEmpty then accept []
  else match tf with
    | none => s
    | some f => accept (pts.map f)

/-- The end of `predict`, 511–520 (only reached when the loop was reached). -/
noncomputable def noteStuck (s : St) (now : ℝ) (atNow : Bool) : St :=
  open Classical in
  { s with atNow := atNow,
           stuckSince := if atNow then (if s.stuckSince = 0 then now else s.stuckSince) else 0 }

open Classical in
/-- `cbPredictTimer`, 286–319.  `ros::Time::now()` in `predict` (514) is taken to be `now` as well. -/
noncomputable def cbPredict (e : Env) (s : St) (now : ℝ) (tf : Option (P3 → P3)) : St × List Out :=
  if !s.hasTwist then (s, [])
  else if !s.hasCloud then (s, [])
  else if now - s.lastStamp > s.cfg.timeout then
    let s := { s with cloud := [], hasCloud := false, rLim := 0 }
    (s, [.cmd .zero, .status s.status])
  else
    let p := predict e s.cfg s.twist s.cloud tf
    let s := match p.tested with
      | none => s
      | some (_, a) => noteStuck s now a
    let s := { s with cloud := p.cloud, rLim := if p.ratio < s.rLim then p.ratio else s.rLim,
                      holdOff := if p.ratio < 1 then now + s.cfg.holdTime else s.holdOff, cloudClear := true }
    (s, [.status s.status])

/-- One callback: `cbWatchdogTimer` 276–285, `cbWatchdogReset` 271–275, `cbDisable` 773–779, `cbParameter` 320–353,
and the callbacks above. -/
noncomputable def step (e : Env) (s : St) : Ev → St × List Out
  | .twist now t => cbTwist s now t
  | .cloud stamp pts tf => (cbCloud s stamp pts tf, [])
  | .predict now tf => cbPredict e s now tf
  | .watchdog =>
    let s := { s with watchdogStop := true, rLim := 0 }
    (s, [.cmd .zero, .status s.status])
  | .watchdogReset => ({ s with watchdogStop := false }, [])
  | .disable now b => (if b then { s with lastDisable := now } else s, [])
  | .param c => ({ s with cfg := c, rLim := 1 }, [])

/-- The state after a history of callbacks. -/
noncomputable def run (e : Env) (c : Cfg) (h : List Ev) : St := h.foldl (fun s ev => (step e s ev).1) (.init c)

/-- What a callback publishes after the history `h`. -/
noncomputable def outputs (e : Env) (c : Cfg) (h : List Ev) (ev : Ev) : List Out := (step e (run e c h) ev).2

end Verif.Safety
