import Mathlib.LinearAlgebra.Matrix.Notation
import Mathlib.Data.Matrix.Mul
import Mathlib.Analysis.SpecialFunctions.Complex.Arg
/-! # Frames: the projection node and the pose transformer

`track_odometry/src/tf_projection_node.cpp`, `track_odometry/src/tf_projection.cpp`, `map_organizer/src/pose_transform.cpp`.

Exact real arithmetic; a rotation is its matrix (`tf2::Matrix3x3`), a time is a real number of seconds.  The transform buffer is an arbitrary
partial function.  `tf2::getYaw` is the direction of the horizontal part of the rotated x axis; the different formula of the
library within 0.26 degrees of a vertical x axis is not modelled. -/
set_option linter.unusedVariables false
namespace Verif.Frames

abbrev Vec := Fin 3 → ℝ
abbrev Rot := Matrix (Fin 3) (Fin 3) ℝ

/-- `tf2::Transform`: basis and origin. -/
structure Tf where
  r : Rot
  o : Vec

/-- `tf2::Transform::operator*` (library). -/
def Tf.mul (a b : Tf) : Tf := ⟨a.r * b.r, a.r.mulVec b.o + a.o⟩

/-- A transform applied to a point (library). -/
def Tf.app (a : Tf) (v : Vec) : Vec := a.r.mulVec v + a.o

/-- `tf2::Quaternion(tf2::Vector3(0, 0, 1), yaw)` as a matrix (library). -/
noncomputable def rotZ (t : ℝ) : Rot := !![Real.cos t, -Real.sin t, 0; Real.sin t, Real.cos t, 0; 0, 0, 1]

/-- `tf2::getYaw` (library, simplified as said above). -/
noncomputable def yaw (r : Rot) : ℝ := Complex.arg ⟨r 0 0, r 1 0⟩

/-! ### The projection node -/

/-- `project_posture`, `align_all_posture_to_source`, `flat`, `tf_tolerance`. -/
structure Opts where
  posture : Bool
  align : Bool
  flat : Bool
  tolerance : ℝ

/-- A transform with its time. -/
structure Stamped where
  tf : Tf
  stamp : ℝ

/-- The transform sent, and whether it is sent as a static one. -/
structure Sent where
  tf : Tf
  stamp : ℝ
  static : Bool

/-- `projectTranslation`, tf_projection.cpp 35–44. -/
def projectTranslation (trans target : Tf) : Tf := target.mul ⟨trans.r, ![trans.o 0, trans.o 1, 0]⟩

/-- tf_projection_node.cpp 120–134: the posture (the `float` of line 131 is taken as exact). -/
noncomputable def project (c : Opts) (t : Tf) : Tf :=
  if c.posture then
    if c.align then Tf.mul ⟨rotZ (yaw t.r) * t.r.transpose, 0⟩ t
    else ⟨rotZ (yaw t.r), t.o⟩
  else t

open Classical in
/-- `process`, tf_projection_node.cpp 98–157: `source` is the pose of the source frame in the projection surface (looked up at the latest
time), `surface t` that of the surface in the parent frame at the time `t`; `none` is a failed lookup.  Nothing is sent then. -/
noncomputable def process (c : Opts) (source : Option Stamped) (surface : ℝ → Option Tf) : Option Sent :=
  match source with
  | none => none
  | some s =>
    match surface s.stamp with
    | none => none
    | some target =>
      let stamp := if s.stamp = 0 then s.stamp else s.stamp + c.tolerance
      let result := projectTranslation (project c s.tf) target
      some ⟨if c.flat then ⟨rotZ (yaw result.r), result.o⟩ else result, stamp, decide (stamp = 0)⟩

/-! ### The pose transformer -/

/-- `geometry_msgs::PoseWithCovarianceStamped`: pose, covariance (in row order), frame and time. -/
structure PoseMsg where
  pose : Tf
  cov : List ℝ
  frame : Nat
  stamp : ℝ

/-- `cbPose`, pose_transform.cpp 53–75: `look f` is the latest transform from frame `f` to the frame `dest`, with its time (`doTransform`
copies the header of the transform). -/
def cbPose (dest : Nat) (look : Nat → Option Stamped) (m : PoseMsg) : Option PoseMsg :=
  (look m.frame).map fun t => { m with pose := t.tf.mul m.pose, frame := dest, stamp := t.stamp }

/-- What the process consists of after a line of `main`: nothing, or a node. -/
inductive Process where
  | empty
  | node (dest : Nat)

/-- `main`, pose_transform.cpp 93–101.  Line 97, `PoseTransformNode ptn();`, declares a function without arguments: no object is
constructed, so there is no subscriber when `ros::spin()` is called. -/
def main (dest : Nat) : Process := .empty

/-- What a process publishes for a history of messages with the transforms at hand. -/
def published : Process → List (PoseMsg × (Nat → Option Stamped)) → List PoseMsg
  | .empty, _ => []
  | .node dest, h => h.filterMap fun e => cbPose dest e.2 e.1

end Verif.Frames
