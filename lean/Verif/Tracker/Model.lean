import Verif.Path2D.Model
import Verif.Control.Model
import Mathlib.Algebra.Order.Round
/-!
# Model of the path tracking node, `trajectory_tracker/src/trajectory_tracker.cpp`

Numbers are exact reals (plus infinities and NaN for speeds that come from messages).  Poses are planar.  Undefined behaviour
(reading outside the path) gives `none`.  Publishing of debug output (`tracking`), log output and the time
stamps of messages are not modelled.
-/
namespace Verif.Tracker
open Verif.Num Verif.Path2D

/-- Parameters, trajectory_tracker.cpp:235-270 (`check_old_path` only logs). -/
structure Config where
  lookForward : ℝ
  curvForward : ℝ
  kDist : ℝ
  kAng : ℝ
  kAvel : ℝ
  gainAtVel : ℝ
  dLim : ℝ
  dStop : ℝ
  rotateAng : ℝ
  maxVel : ℝ
  maxAngVel : ℝ
  acc : ℝ
  angAcc : ℝ
  accTocFactor : ℝ
  angAccTocFactor : ℝ
  pathStep : Nat
  goalDist : ℝ
  goalAng : ℝ
  stopDist : ℝ
  stopAng : ℝ
  noPosCntlDist : ℝ
  minTrackPath : ℝ
  allowBackward : Bool
  limitVelByAvel : Bool
  epsilon : ℝ
  useToc : Bool
  tocFutureGain : ℝ
  kAngRotation : ℝ
  kAvelRotation : ℝ
  goalLinVel : ℝ
  goalAngVel : ℝ

/-- State of the node, trajectory_tracker.cpp:84-145.  `v` and `w` are the values of the two limiters, which are always
finite (`Verif.Control.calls_finite`). -/
structure State where
  cfg : Config
  /-- `vel_[0]` -/
  maxVel : Ext ℝ
  path : List Pose
  /-- the path message names a frame -/
  frame : Bool
  updated : Bool
  done : Nat
  v : ℝ
  w : ℝ
  /-- `prev_odom_stamp_`, `none` while it is zero -/
  prevStamp : Option ℝ

/-- `TrajectoryTrackerStatus::status` -/
inductive Status
  | noPath | farFromPath | following | goal
deriving DecidableEq

/-- `TrackingResult`, trajectory_tracker.cpp:147-180. -/
structure Result where
  status : Status
  distance : ℝ
  angle : ℝ
  distanceRaw : ℝ
  angleRaw : ℝ
  turning : Bool
  signedLocal : ℝ
  distanceFromTarget : ℝ
  targetVel : Ext ℝ
  curv : ℝ
  done : Nat

/-- Constructor of `TrackingResult`, trajectory_tracker.cpp:149-164. -/
def Result.init (s : Status) : Result :=
  { status := s, distance := 0, angle := 0, distanceRaw := 0, angleRaw := 0, turning := false, signedLocal := 0,
    distanceFromTarget := 0, targetVel := .fin 0, curv := 0, done := 0 }

/-- `angleNormalized`, basic_control.h:53-60, for exact numbers; `Verif.Tracker.angNorm_loops` shows that the loops of
the program compute this. -/
noncomputable def angNorm (a : ℝ) : ℝ :=
  if a < -Real.pi then a + 2 * Real.pi * ⌈(-Real.pi - a) / (2 * Real.pi)⌉
  else if a > Real.pi then a - 2 * Real.pi * ⌈(a - Real.pi) / (2 * Real.pi)⌉
  else a

/-- Every `k`-th pose of the path, the loop of trajectory_tracker.cpp:546 (a step of zero would not end; the
parameter's minimum is one). -/
def every (k : Nat) (P : List Pose) : List Pose := (List.range P.length).filterMap fun i => P[i * k]?

/-- A planar position and heading. -/
structure Tf where
  pos : ℂ
  yaw : ℝ

/-- The path relative to the robot, trajectory_tracker.cpp:539-549. -/
noncomputable def localPath (k : Nat) (P : List Pose) (robot : Tf) : List Pose :=
  (every k P).map fun p =>
    { pos := rotatePos (p.pos - robot.pos) (-robot.yaw), yaw := -robot.yaw + p.yaw, vel := p.vel }

/-- `clip` on finite values, basic_control.h:43-51. -/
noncomputable def clipReal (v m : ℝ) : ℝ := if v > m then m else if v < -m then -m else v

/-- What `getTrackingResult` reads from the local path. -/
structure Geo where
  nearest : Nat
  localGoal : Nat
  prevPose : Pose
  nearPose : Pose
  goalYaw : ℝ
  remainLocal : ℝ
  remain : ℝ
  remainRaw : ℝ
  curv : ℝ

/-- Threshold of `findLocalGoal`, path2d.h:139 (default argument), and of `getCurvature`, path2d.h:278. -/
noncomputable def microEps : ℝ := 1 / 1000000

/-- Reading part of `getTrackingResult`, trajectory_tracker.cpp:557-617: `some none` when the search ran off the end
(`NO_PATH`), `none` on undefined behaviour.  Forming the start iterator is undefined beyond the last pose.  The yaw of the
pose before the local goal is read here although the program reads it only where it needs it; its index is in range. -/
noncomputable def geometry (cfg : Config) (done : Nat) (lp : List Pose) (origin originRaw : ℂ) : Option (Option Geo) :=
  if done ≥ lp.length then none
  else do
    let g ← findLocalGoal lp done lp.length cfg.allowBackward true microEps
    let (n, _) ← findNearest lp done g origin (if done > 0 then 1 else 0) cfg.epsilon
    if n = lp.length then some none
    else do
      let p ← lp[n - 1]?
      let q ← lp[n]?
      let l ← lp[g - 1]?
      let onLine := projection p.pos q.pos origin
      let onLineRaw := projection p.pos q.pos originRaw
      let remainLocal ← remainedDistance lp 0 n g onLine
      let remain ← remainedDistance lp 0 n lp.length onLine
      let remainRaw ← remainedDistance lp 0 n lp.length onLineRaw
      let curv := getCurvature microEps ((lp.drop n).take (g - n)) onLine cfg.curvForward
      some (some { nearest := n, localGoal := g, prevPose := p, nearPose := q, goalYaw := l.yaw,
                   remainLocal := remainLocal, remain := remain, remainRaw := remainRaw, curv := curv })

/-- `path_length < no_pos_cntl_dist_` sets the remaining distances to zero, trajectory_tracker.cpp:597-598. -/
noncomputable def unlessShort (cfg : Config) (len x : ℝ) : ℝ := if len < cfg.noPosCntlDist then 0 else x

/-- `linear_vel`, trajectory_tracker.cpp:589-590. -/
noncomputable def linearVel (maxVel : Ext ℝ) (geo : Geo) : Ext ℝ :=
  open Classical in if geo.nearPose.vel = .nan then maxVel else geo.nearPose.vel

/-- Direction of the nearest part of the path, trajectory_tracker.cpp:605. -/
noncomputable def vec (geo : Geo) : ℂ := geo.nearPose.pos - geo.prevPose.pos

/-- The robot has to drive backward, trajectory_tracker.cpp:606-609. -/
def Backward (cfg : Config) (geo : Geo) : Prop :=
  let angle := -Complex.arg (vec geo)
  let anglePose := if cfg.allowBackward then geo.nearPose.yaw else -angle
  Real.cos (-angle) * Real.cos anglePose + Real.sin (-angle) * Real.sin anglePose < 0

/-- `sign_vel`, trajectory_tracker.cpp:608-613. -/
noncomputable def signVel (cfg : Config) (geo : Geo) : ℝ := open Classical in if Backward cfg geo then -1 else 1

/-- `angle_remains` towards the path, trajectory_tracker.cpp:606-614. -/
noncomputable def pathAngle (cfg : Config) (geo : Geo) : ℝ :=
  open Classical in
  angNorm (if Backward cfg geo then -Complex.arg (vec geo) + Real.pi else -Complex.arg (vec geo))

/-- `in_place_turning`, trajectory_tracker.cpp:624. -/
def InPlace (geo : Geo) : Prop := (vec geo).im = 0 ∧ (vec geo).re = 0

/-- `large_angle_error`, trajectory_tracker.cpp:629. -/
def LargeAngle (cfg : Config) (geo : Geo) : Prop :=
  |cfg.rotateAng| < Real.pi ∧ Real.cos cfg.rotateAng > Real.cos (pathAngle cfg geo)

/-- Condition of trajectory_tracker.cpp:640-642: turn to the heading of the local goal. -/
def ToGoal (cfg : Config) (geo : Geo) (len : ℝ) : Prop :=
  len < cfg.minTrackPath ∨ |unlessShort cfg len geo.remainLocal| < cfg.stopDist ∨ InPlace geo

/-- Condition of the stop-and-rotate branch, trajectory_tracker.cpp:630-633. -/
def Rotate (cfg : Config) (geo : Geo) (len : ℝ) : Prop :=
  LargeAngle cfg geo ∨ |unlessShort cfg len geo.remainLocal| < cfg.stopDist ∨ len < cfg.minTrackPath ∨ InPlace geo

/-- Result of the stop-and-rotate branch, trajectory_tracker.cpp:634-656, with `path_step_done` of lines 700-703. -/
noncomputable def rotateResult (cfg : Config) (maxVel : Ext ℝ) (done : Nat) (geo : Geo) (len : ℝ) (size : Nat) : Result :=
  open Classical in
  { Result.init .following with
    turning := true
    targetVel := linearVel maxVel geo
    distance := if len < cfg.stopDist ∨ InPlace geo then 0 else unlessShort cfg len geo.remain
    distanceRaw := if len < cfg.stopDist ∨ InPlace geo then 0 else unlessShort cfg len geo.remainRaw
    angle := if ToGoal cfg geo len then angNorm (-geo.goalYaw) else pathAngle cfg geo
    done := if ToGoal cfg geo len ∧ geo.localGoal ≠ size then geo.localGoal else max done (geo.nearest - 1) }

/-- `dist_err`, trajectory_tracker.cpp:601-602. -/
noncomputable def distErr (geo : Geo) (origin : ℂ) : ℝ := lineDistance geo.prevPose.pos geo.nearPose.pos origin

/-- `dist_from_path`, trajectory_tracker.cpp:660-664. -/
noncomputable def distFromPath (geo : Geo) (fullSize : Nat) (origin : ℂ) : ℝ :=
  if geo.nearest = 0 then -‖geo.nearPose.pos - origin‖
  else if geo.nearest + 1 ≥ fullSize then -‖geo.nearPose.pos - origin‖
  else distErr geo origin

/-- Result when too far from the path, trajectory_tracker.cpp:665-673. -/
noncomputable def farResult (cfg : Config) (geo : Geo) (len yawRaw : ℝ) : Result :=
  { Result.init .farFromPath with
    distance := unlessShort cfg len geo.remain
    distanceRaw := unlessShort cfg len geo.remainRaw
    angle := pathAngle cfg geo
    angleRaw := pathAngle cfg geo + yawRaw }

/-- Result of path following, trajectory_tracker.cpp:675-687, with `path_step_done` of line 703. -/
noncomputable def followResult (cfg : Config) (maxVel : Ext ℝ) (done : Nat) (geo : Geo) (len : ℝ) (origin : ℂ)
    (yawRaw : ℝ) : Result :=
  { Result.init .following with
    turning := false
    targetVel := linearVel maxVel geo
    distance := unlessShort cfg len geo.remain
    distanceRaw := unlessShort cfg len geo.remainRaw
    angle := pathAngle cfg geo
    angleRaw := pathAngle cfg geo + yawRaw
    distanceFromTarget := clipReal (distErr geo origin) cfg.dLim
    signedLocal := -(unlessShort cfg len geo.remainLocal) * signVel cfg geo
    curv := geo.curv
    done := max done (geo.nearest - 1) }

/-- Condition of trajectory_tracker.cpp:689-698 for reporting the goal. -/
def AtGoal (cfg : Config) (r : Result) (geo : Geo) (size : Nat) (odomV odomW : ℝ) : Prop :=
  |r.distance| < cfg.goalDist ∧ |r.angle| < cfg.goalAng ∧ |r.distanceRaw| < cfg.goalDist ∧ |r.angleRaw| < cfg.goalAng ∧
  (cfg.goalLinVel = 0 ∨ |odomV| < cfg.goalLinVel) ∧ (cfg.goalAngVel = 0 ∨ |odomW| < cfg.goalAngVel) ∧
  geo.localGoal = size

/-- Lines 689-698: the status of a result becomes `GOAL` at the goal. -/
noncomputable def goalCheck (cfg : Config) (r : Result) (geo : Geo) (size : Nat) (odomV odomW : ℝ) : Result :=
  open Classical in if AtGoal cfg r geo size odomV odomW then { r with status := .goal } else r

/-- Deciding part of `getTrackingResult`, trajectory_tracker.cpp:584-706.  `len` is the length of the local path, `size` its
number of poses, `fullSize` that of the full path. -/
noncomputable def decideResult (cfg : Config) (maxVel : Ext ℝ) (done : Nat) (geo : Geo) (len : ℝ) (size fullSize : Nat)
    (origin : ℂ) (yawRaw odomV odomW : ℝ) : Result :=
  open Classical in
  if Rotate cfg geo len then goalCheck cfg (rotateResult cfg maxVel done geo len size) geo size odomV odomW
  else if |distFromPath geo fullSize origin| > cfg.dStop then farResult cfg geo len yawRaw
  else goalCheck cfg (followResult cfg maxVel done geo len origin yawRaw) geo size odomV odomW

/-- The point expected to be reached after the look-ahead time, trajectory_tracker.cpp:560-562. -/
noncomputable def lookahead (st : State) : ℂ :=
  ⟨Real.cos (st.w * st.cfg.lookForward / 2) * st.v * st.cfg.lookForward,
   Real.sin (st.w * st.cfg.lookForward / 2) * st.v * st.cfg.lookForward⟩

/-- `getTrackingResult`, trajectory_tracker.cpp:515-706.  `robot` is the pose of the robot in the frame of the path,
`none` when the transform is not available; `offset` and `yawRaw` are the prediction offset. -/
noncomputable def getTrackingResult (st : State) (robot : Option Tf) (offset : ℂ) (yawRaw odomV odomW : ℝ) :
    Option Result :=
  if !st.frame ∨ st.path = [] then some (Result.init .noPath)
  else
    match robot with
    | none => some (Result.init .noPath)
    | some tf =>
      let lp := localPath st.cfg.pathStep st.path tf
      match geometry st.cfg st.done lp (lookahead st) offset with
      | none => none
      | some none => some (Result.init .noPath)
      | some (some geo) =>
        some (decideResult st.cfg st.maxVel st.done geo (length lp) lp.length st.path.length (lookahead st) yawRaw odomV
          odomW)

/-- The value of a limiter after a call (always finite). -/
def value : Ext ℝ → ℝ
  | .fin x => x
  | _ => 0

/-- `VelAccLimitter::set`, basic_control.h:77-92, from a finite value. -/
noncomputable def limSet (prev : ℝ) (v vel : Ext ℝ) (acc dt : ℝ) : ℝ :=
  value (Control.vset (.fin prev) v vel (.fin acc) (.fin dt))

/-- `VelAccLimitter::increment`, basic_control.h:72-76. -/
noncomputable def limInc (prev : ℝ) (v vel : Ext ℝ) (acc dt : ℝ) : ℝ :=
  value (Control.vincrement (.fin prev) v vel (.fin acc) (.fin dt))

/-- `copysign(1.0, x)`; zero counts as positive. -/
noncomputable def sign1 (x : ℝ) : ℝ := if x < 0 then -1 else 1

/-- New limiter values of the `default` case of `control`, trajectory_tracker.cpp:443-493. -/
noncomputable def drive (cfg : Config) (v w : ℝ) (r : Result) (dt : ℝ) : ℝ × ℝ :=
  open Classical in
  if r.turning then
    let v' := limSet v (.fin 0) r.targetVel cfg.acc dt
    let w' :=
      if cfg.useToc then
        limSet w (.fin (Control.timeOptimalControl (r.angle + w * dt * cfg.tocFutureGain)
          (cfg.angAcc * cfg.angAccTocFactor))) (.fin cfg.maxAngVel) cfg.angAcc dt
      else limInc w (.fin ((-r.angle * cfg.kAngRotation - w * cfg.kAvelRotation) * dt)) (.fin cfg.maxAngVel) cfg.angAcc dt
    (v', w')
  else
    let v1 := limSet v (.fin (Control.timeOptimalControl r.signedLocal (cfg.acc * cfg.accTocFactor))) r.targetVel cfg.acc dt
    let wref1 := |v1| * r.curv
    let over := cfg.limitVelByAvel = true ∧ |wref1| > cfg.maxAngVel
    let v2 := if over then limSet v1 (.fin (sign1 v1 * |cfg.maxAngVel / r.curv|)) r.targetVel cfg.acc dt else v1
    let wref := if over then sign1 wref1 * cfg.maxAngVel else wref1
    let kAng : Ext ℝ :=
      if cfg.gainAtVel = 0 then .fin cfg.kAng
      else Ext.div (Ext.mul (.fin cfg.kAng) r.targetVel) (.fin cfg.gainAtVel)
    let e := Ext.sub (Ext.sub (.fin (-r.distanceFromTarget * cfg.kDist)) (Ext.mul (.fin r.angle) kAng))
      (.fin ((w - wref) * cfg.kAvel))
    (v2, limInc w (Ext.mul (.fin dt) e) (.fin cfg.maxAngVel) cfg.angAcc dt)

/-- What is published: a velocity command and a status, trajectory_tracker.cpp:500-513, 381-398. -/
structure Out where
  cmdV : ℝ
  cmdW : ℝ
  status : Status
  distance : ℝ
  angle : ℝ

/-- The end of the robot's motion is within the stop tolerances, trajectory_tracker.cpp:493-496. -/
def Stopping (cfg : Config) (r : Result) : Prop :=
  |r.distance| < cfg.stopDist ∧ |r.angle| < cfg.stopAng ∧ |r.distanceRaw| < cfg.stopDist ∧ |r.angleRaw| < cfg.stopAng

/-- Evaluation of a new path, trajectory_tracker.cpp:420-427. -/
noncomputable def firstLook (st : State) (robot : Option Tf) (offset : ℂ) (yawRaw odomV odomW : ℝ) : Option State :=
  if st.updated then
    (getTrackingResult st robot offset yawRaw odomV odomW).map fun r => { st with done := r.done, updated := false }
  else some st

/-- The command given for a result, trajectory_tracker.cpp:430-513. -/
noncomputable def command (st : State) (r : Result) (dt : ℝ) : State × Out :=
  open Classical in
  if r.status = .noPath ∨ r.status = .farFromPath then
    ({ st with v := 0, w := 0 },
      { cmdV := 0, cmdW := 0, status := r.status, distance := r.distance, angle := r.angle })
  else
    let vw := if Stopping st.cfg r then (0, 0) else drive st.cfg st.v st.w r dt
    ({ st with v := vw.1, w := vw.2, done := r.done },
      { cmdV := vw.1, cmdW := vw.2, status := r.status, distance := r.distance, angle := r.angle })

/-- `control`, trajectory_tracker.cpp:410-513.  Each call of `getTrackingResult` looks the transform up itself: `robot1` for
the first one after a new path, `robot2` for the other. -/
noncomputable def control (st : State) (robot1 robot2 : Option Tf) (offset : ℂ) (yawRaw odomV odomW dt : ℝ) :
    Option (State × Out) :=
  (firstLook st robot1 offset yawRaw odomV odomW).bind fun st =>
    (getTrackingResult st robot2 offset yawRaw odomV odomW).map fun r => command st r dt

/-- Robot pose with the motion since the odometry was measured, trajectory_tracker.cpp:333-347. -/
noncomputable def predict (d : ℝ) (odomV odomW : ℝ) (robot : Tf) : Tf :=
  { pos := robot.pos + rotatePos ((odomV * d : ℝ) : ℂ) robot.yaw, yaw := robot.yaw + odomW * d }

/-- Callbacks of the node. -/
inductive Event
  /-- a path message: poses with or without velocities, and whether its header names a frame -/
  | path (withVel : Bool) (poses : List PoseMsg) (frame : Bool)
  /-- `speed` message -/
  | speed (v : Ext ℝ)
  | reconfigure (cfg : Config)
  /-- odometry: stamp, time of arrival, velocities, robot poses in the path frame found by the lookups; `predictOdom` and
  `maxDt` are start-up parameters -/
  | odometry (predictOdom : Bool) (maxDt stamp now odomV odomW : ℝ) (robot1 robot2 : Option Tf)
  /-- control timer (without odometry); `found` says whether the robot pose in the odometry frame was found -/
  | timer (found : Bool) (hz : ℝ) (robot1 robot2 : Option Tf)
  | odomTimeout

/-- One callback: cbPath 286-301, cbSpeed 280-283, cbParameter 235-270, cbOdometry 303-356, cbTimer 358-379, cbOdomTimeout
381-398.  The frame names updated by cbOdometry only select transforms.  When the timer cannot look up the robot it
publishes a status without a command: no output here. -/
noncomputable def step (st : State) : Event → Option (State × Option Out)
  | .path withVel poses frame =>
    let p := fromMsg withVel st.cfg.epsilon poses
    let bad := ∃ q ∈ p, ∃ x : ℝ, q.vel = .fin x ∧ x < 0
    some ({ st with frame := frame, updated := true, done := 0, path := open Classical in if bad then [] else p }, none)
  | .speed v => some ({ st with maxVel := v }, none)
  | .reconfigure cfg => some ({ st with cfg := cfg, maxVel := .fin cfg.maxVel }, none)
  | .odometry predictOdom maxDt stamp now odomV odomW robot1 robot2 =>
    match st.prevStamp with
    | none => some ({ st with prevStamp := some stamp }, none)
    | some prev =>
      let dt := min maxDt (stamp - prev)
      let d := if predictOdom then max 0 (min maxDt (now - stamp)) else 0
      (control st (robot1.map (predict d odomV odomW)) (robot2.map (predict d odomV odomW))
        ((odomV * d : ℝ) : ℂ) (odomW * d) odomV odomW dt).map
        fun r => ({ r.1 with prevStamp := some stamp }, some r.2)
  | .timer found hz robot1 robot2 =>
    if found then
      (control st robot1 robot2 0 0 0 0 (1 / hz)).map fun r => (r.1, some r.2)
    else some (st, none)
  | .odomTimeout =>
    some ({ st with v := 0, w := 0 }, some { cmdV := 0, cmdW := 0, status := .noPath, distance := 0, angle := 0 })

/-- Start of the node: no path, limiters at rest. -/
def start (cfg : Config) : State :=
  { cfg := cfg, maxVel := .fin cfg.maxVel, path := [], frame := false, updated := false, done := 0, v := 0, w := 0,
    prevStamp := none }

/-- A history of callbacks. -/
noncomputable def run : State → List Event → Option State
  | st, [] => some st
  | st, e :: es => (step st e).bind fun r => run r.1 es

end Verif.Tracker
