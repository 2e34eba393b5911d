import Verif.Num.Ext
import Mathlib.Analysis.SpecialFunctions.Complex.Arg
/-!
# Model of `trajectory_tracker/include/trajectory_tracker/path2d.h`, `eigen_line.h` and `average.h`

Positions are complex numbers `x + i y` (so that the norm, the rotation and `atan2` are those of `ℂ`), numbers are exact
reals: `float`/`double` rounding is not modelled.  Iterators into a path are indices, `end()` being the size.  A read
outside the path is undefined behaviour and gives `none`.
-/
namespace Verif.Path2D
open Verif.Num

/-- `Pose2D`, path2d.h:52-70.  The velocity may be infinite or NaN. -/
structure Pose where
  pos : ℂ
  yaw : ℝ
  vel : Ext ℝ

/-- A pose of a path message: position and a rotation about the vertical axis as the `z` and `w` components of a unit
quaternion (tilted orientations are not modelled), with the `linear_velocity.x` of the message type that has one. -/
structure PoseMsg where
  pos : ℂ
  qz : ℝ
  qw : ℝ
  vel : Ext ℝ

/-- Constructors of `Pose2D` from a message, path2d.h:77-88, with `tf2::getYaw`, which for a rotation about the vertical
axis is `atan2(2wz, w² - z²)`.  A `nav_msgs::Path` carries no velocity: it becomes NaN. -/
noncomputable def readPose (withVel : Bool) (m : PoseMsg) : Pose :=
  { pos := m.pos
    yaw := Complex.arg ⟨m.qw ^ 2 - m.qz ^ 2, 2 * m.qw * m.qz⟩
    vel := if withVel then m.vel else .nan }

/-- `Pose2D::toMsg`, path2d.h:104-117, with `tf2::Quaternion(axis, angle)`. -/
noncomputable def writePose (withVel : Bool) (p : Pose) : PoseMsg :=
  { pos := p.pos, qz := Real.sin (p.yaw / 2), qw := Real.cos (p.yaw / 2),
    vel := if withVel then p.vel else .nan }

/-- Scalar product of two vectors (Eigen's `dot`). -/
def dot (a b : ℂ) : ℝ := a.re * b.re + a.im * b.im

/-- `cross2`, eigen_line.h:53-56. -/
def cross2 (a b : ℂ) : ℝ := a.re * b.im - a.im * b.re

/-- `curv3p`, eigen_line.h:40-51. -/
noncomputable def curv3p (a b c : ℂ) : ℝ :=
  2 * (a.re * b.im + b.re * c.im + c.re * a.im - a.re * c.im - b.re * a.im - c.re * b.im) /
    Real.sqrt (Complex.normSq (b - a) * Complex.normSq (b - c) * Complex.normSq (c - a))

/-- `lineDistance`, eigen_line.h:58-64. -/
noncomputable def lineDistance (a b c : ℂ) : ℝ := cross2 (b - a) (c - a) / ‖b - a‖

/-- `lineStripDistanceSigned`, eigen_line.h:66-79. -/
noncomputable def stripDistance (a b c : ℂ) : ℝ :=
  if dot (b - a) (c - a) ≤ 0 then -‖c - a‖
  else if dot (a - b) (c - b) ≤ 0 then ‖c - b‖
  else |lineDistance a b c|

/-- `projection2d`, eigen_line.h:89-96. -/
noncomputable def projection (a b c : ℂ) : ℂ :=
  let r : ℝ := dot (b - a) (c - a) / Complex.normSq (b - a)
  b * r + a * ((1 - r : ℝ) : ℂ)

/-- `Path2D::length`, path2d.h:127-133. -/
noncomputable def length : List Pose → ℝ
  | [] => 0
  | [_] => 0
  | p :: q :: ps => ‖p.pos - q.pos‖ + length (q :: ps)

/-- Body of the loop of `fromMsg`, path2d.h:311-334.  The state is the path built so far, newest pose first, and
`in_place_turn_end` when `in_place_turning` is set. -/
noncomputable def addPose (eps : ℝ) (st : List Pose × Option Pose) (next : Pose) : List Pose × Option Pose :=
  match st.1 with
  | [] => ([next], st.2)
  | back :: rest =>
    if Complex.normSq (back.pos - next.pos) ≥ eps ^ 2 then
      match st.2 with
      | some turnEnd => (next :: turnEnd :: back :: rest, none)
      | none => (next :: back :: rest, none)
    else (back :: rest, some { pos := back.pos, yaw := next.yaw, vel := next.vel })

/-- `fromMsg`, path2d.h:306-339, on the poses read from the message. -/
noncomputable def fromPoses (eps : ℝ) (ps : List Pose) : List Pose :=
  let st := ps.foldl (addPose eps) ([], none)
  match st.2 with
  | some turnEnd => (turnEnd :: st.1).reverse
  | none => st.1.reverse

/-- `fromMsg`, path2d.h:306-339. -/
noncomputable def fromMsg (withVel : Bool) (eps : ℝ) (ms : List PoseMsg) : List Pose :=
  fromPoses eps (ms.map (readPose withVel))

/-- `toMsg`, path2d.h:342-351. -/
noncomputable def toMsg (withVel : Bool) (ps : List Pose) : List PoseMsg := ps.map (writePose withVel)

/-- `sign_vel_req` of `findLocalGoal`, path2d.h:156-159, `angle` being `atan2` of the increment. -/
noncomputable def signReq (prev cur : Pose) : ℝ :=
  let angle := Complex.arg (cur.pos - prev.pos)
  Real.cos angle * Real.cos cur.yaw + Real.sin angle * Real.sin cur.yaw

/-- Loop of `findLocalGoal`, path2d.h:141-169, entered with `it`, `it_prev` and `sign_vel_prev`. -/
noncomputable def localGoalLoop (P : List Pose) (e : Nat) (switchBack turn : Bool) (eps : ℝ)
    (it prev : Nat) (sign : ℝ) : Option Nat :=
  if it < e then
    match P[prev]?, P[it]? with
    | some a, some b =>
      if Complex.normSq (b.pos - a.pos) < eps then
        if turn then some it
        else localGoalLoop P e switchBack turn eps (it + 1) it 0
      else if switchBack then
        if sign * signReq a b < 0 then some it
        else localGoalLoop P e switchBack turn eps (it + 1) it (signReq a b)
      else localGoalLoop P e switchBack turn eps (it + 1) it sign
    | _, _ => none
  else some e
termination_by e - it

/-- `findLocalGoal`, path2d.h:134-170. -/
noncomputable def findLocalGoal (P : List Pose) (b e : Nat) (switchBack turn : Bool) (eps : ℝ) : Option Nat :=
  localGoalLoop P e switchBack turn eps (b + 1) b 0

/-- Loop of `enumerateLocalGoals`, path2d.h:360-371, as a big-step relation (the loop has no counter of its own):
searching from `b` yields the goals `gs`. -/
inductive Goals (P : List Pose) (e : Nat) (switchBack turn : Bool) (eps : ℝ) : Nat → List Nat → Prop
  | stop {b} (h : findLocalGoal P b e switchBack turn eps = some e) : Goals P e switchBack turn eps b []
  | go {b g gs} (h : findLocalGoal P b e switchBack turn eps = some g) (hg : g ≠ e)
      (rest : Goals P e switchBack turn eps g gs) : Goals P e switchBack turn eps b (g :: gs)

/-- Loop of `findNearestWithDistance`, path2d.h:195-223, entered with `it`, `it_prev`, `distance_path_search`,
`it_nearest` and `min_dist`. -/
noncomputable def nearestLoop (P : List Pose) (e : Nat) (target : ℂ) (range eps : ℝ)
    (it prev : Nat) (searched : ℝ) (best : Nat) (minDist : ℝ) : Option (Nat × ℝ) :=
  if it < e then
    match P[prev]?, P[it]? with
    | some a, some b =>
      let searched' := searched + ‖b.pos - a.pos‖
      if range > 0 ∧ searched' > range then some (best, minDist)
      else
        let d := stripDistance a.pos b.pos target
        let dCompare := if d > 0 then d else -d - eps
        if dCompare ≤ minDist ∨ (it + 1 = e ∧ |d| ≤ minDist + eps) then
          nearestLoop P e target range eps (it + 1) it searched' it |d|
        else nearestLoop P e target range eps (it + 1) it searched' best minDist
    | _, _ => none
  else some (best, minDist)
termination_by e - it

/-- `findNearestWithDistance`, path2d.h:180-225.  The outer `none` is undefined behaviour; the inner one stands for the
distance `numeric_limits<double>::max()`. -/
noncomputable def findNearest (P : List Pose) (b e : Nat) (target : ℂ) (range eps : ℝ) : Option (Nat × Option ℝ) :=
  if b = e then
    if e = P.length then some (e, none)
    else (P[e]?).map fun p => (e, some ‖p.pos - target‖)
  else
    match P[b]? with
    | some p => (nearestLoop P e target range eps (b + 1) b 0 b (‖p.pos - target‖ + eps)).map fun r => (r.1, some r.2)
    | none => none

/-- Loop of `remainedDistance`, path2d.h:253-257. -/
noncomputable def remainLoop (P : List Pose) (e it prev : Nat) (remain : ℝ) : Option ℝ :=
  if it < e then
    match P[prev]?, P[it]? with
    | some a, some b => remainLoop P e (it + 1) it (remain + ‖a.pos - b.pos‖)
    | _, _ => none
  else some remain
termination_by e - it

/-- `remainedDistance`, path2d.h:226-259.  Iterators before the beginning of the path are compared as integers. -/
noncomputable def remainedDistance (P : List Pose) (b nearest e : Nat) (target : ℂ) : Option ℝ :=
  match P[nearest]? with
  | none => none
  | some n =>
    let remain := ‖n.pos - target‖
    if nearest + 1 ≥ e then
      if e < b + 2 then some 0
      else
        match P[e - 1]?, P[e - 2]? with
        | some last, some pre =>
          if dot (last.pos - pre.pos) (last.pos - target) ≥ 0 then some remain else some (-remain)
        | _, _ => none
    else remainLoop P e (nearest + 1) nearest remain

/-- `copysign(v, s)` for a magnitude `v`; a zero `s` counts as positive. -/
noncomputable def copysign (v s : ℝ) : ℝ := if s < 0 then -|v| else |v|

/-- `Pose2D::rotate`, path2d.h:89-103, without the loops which shift the heading by full turns: only its sine and cosine
are used by the caller. -/
noncomputable def rotatePos (p : ℂ) (ang : ℝ) : ℂ :=
  ⟨Real.cos ang * p.re - Real.sin ang * p.im, Real.sin ang * p.re + Real.cos ang * p.im⟩

/-- Two-pose case of `getCurvature`, path2d.h:269-290; `EPS` is a parameter. -/
noncomputable def curvature2 (eps : ℝ) (a b : Pose) : ℝ :=
  let rel := rotatePos (b.pos - a.pos) (-a.yaw)
  let yaw := b.yaw - a.yaw
  let s := Real.sin yaw
  if |s| < eps then 0
  else
    let c := Real.cos yaw
    let r1 := rel.im + rel.re * c / s
    let r2 := copysign (Real.sqrt (rel.re ^ 2 + (rel.re * c / s) ^ 2)) (rel.re * s)
    1 / ((r1 + r2) / 2)

/-- Loop of `getCurvature`, path2d.h:291-302: `it_prev2`, `it_prev1` and the poses from `it` on, with the sum and the
count of `Average` (average.h). -/
noncomputable def curvLoop (target : ℂ) (rangeSq : ℝ) : Pose → Pose → List Pose → ℝ → Nat → ℝ × Nat
  | _, _, [], sum, num => (sum, num)
  | p2, p1, p :: ps, sum, num =>
    let sum' := sum + curv3p p2.pos p1.pos p.pos
    if Complex.normSq (p.pos - target) > rangeSq then (sum', num + 1)
    else curvLoop target rangeSq p1 p ps sum' (num + 1)

/-- `getCurvature`, path2d.h:260-303, on the poses of `[begin, end)`. -/
noncomputable def getCurvature (eps : ℝ) (ps : List Pose) (target : ℂ) (range : ℝ) : ℝ :=
  match ps with
  | [] => 0
  | [_] => 0
  | [a, b] => curvature2 eps a b
  | a :: b :: rest =>
    let r := curvLoop target (range * range) a b rest 0 0
    if r.2 = 0 then 0 else r.1 / r.2

/-- Time for one step of `getEstimatedTimeOfArrivals`, path2d.h:390-403. -/
noncomputable def stepTime (linear angular : ℝ) (a b : Pose) : ℝ :=
  let dist := ‖a.pos - b.pos‖
  if dist > 1 / 1000000 then dist / linear
  else
    let d := |a.yaw - b.yaw|
    (if d > Real.pi then 2 * Real.pi - d else d) / angular

/-- Loop of `getEstimatedTimeOfArrivals`, path2d.h:385-407. -/
noncomputable def etaLoop (linear angular : ℝ) : Pose → List Pose → ℝ → List ℝ
  | _, [], _ => []
  | a, b :: ps, elapsed =>
    let t := elapsed + stepTime linear angular a b
    t :: etaLoop linear angular b ps t

/-- `getEstimatedTimeOfArrivals`, path2d.h:374-408, on the poses of `[begin, end)`. -/
noncomputable def etas (linear angular initial : ℝ) : List Pose → List ℝ
  | [] => []
  | p :: ps => initial :: etaLoop linear angular p ps initial

end Verif.Path2D
