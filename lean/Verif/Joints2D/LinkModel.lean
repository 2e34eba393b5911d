import Mathlib.Analysis.SpecialFunctions.Trigonometric.Basic
import Verif.Joints2D.Model
/-! # The bodies of the two links

`LinkBody`, `planner_cspace/src/planner_2dof_serial_joints.cpp` 95–156.  `float` is the real numbers with exact arithmetic; the
maximum speed, the name and the current angle of a link play no part here. -/
namespace Verif.Joints2D

/-- `Vec3dof`, 98–109. -/
structure Vec3 where
  x : ℝ
  y : ℝ
  th : ℝ

/-- `LinkBody`, 112–118: the radii at the joint and at the end, the length, the origin, and the gain of the angle (the gains of the
coordinates are never read). -/
structure Link where
  rJoint : ℝ
  rEnd : ℝ
  length : ℝ
  origin : Vec3
  gain : ℝ

/-- `Vec3dof::dist`, 105–108. -/
noncomputable def Vec3.dist (a b : Vec3) : ℝ := Real.sqrt ((b.x - a.x) * (b.x - a.x) + (b.y - a.y) * (b.y - a.y))

/-- `LinkBody::end`, 126–133. -/
noncomputable def Link.tip (l : Link) (th : ℝ) : Vec3 :=
  { x := l.origin.x + Real.cos (l.origin.th + th * l.gain) * l.length
    y := l.origin.y + Real.sin (l.origin.th + th * l.gain) * l.length
    th := l.origin.th + th }

open Classical in
/-- `LinkBody::isCollide`, 134–155. -/
noncomputable def Link.isCollide (a b : Link) (th0 th1 : ℝ) : Bool :=
  let end0 := a.tip th0
  let end1 := b.tip th1
  if end0.dist end1 < a.rEnd + b.rEnd then true
  else if end0.dist b.origin < a.rEnd + b.rJoint then true
  else if end1.dist a.origin < b.rEnd + a.rJoint then true
  else false

end Verif.Joints2D
