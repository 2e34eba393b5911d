import Verif.Frames.Model
/-! # Frames: what the user relies on -/
namespace Verif.Frames

/-- `r` is orthogonal: its columns are perpendicular unit vectors. -/
def Orthogonal (r : Rot) : Prop := r.transpose * r = 1

/-- The axes of a pose, in the frame the pose is given in. -/
def axisX (t : Tf) : Vec := fun i => t.r i 0
def axisZ (t : Tf) : Vec := fun i => t.r i 2

/-- Upwards. -/
def up : Vec := ![0, 0, 1]

/-- The length of a vector, squared. -/
def sq (v : Vec) : ℝ := v 0 ^ 2 + v 1 ^ 2 + v 2 ^ 2

/-- `d` is the horizontal direction of `v`: a level unit vector, `v` being a positive multiple of it up to height. -/
def HeadingOf (v d : Vec) : Prop :=
  d 0 ^ 2 + d 1 ^ 2 = 1 ∧ d 2 = 0 ∧ ∃ k, 0 < k ∧ v 0 = k * d 0 ∧ v 1 = k * d 1

/-- `v` is not vertical. -/
def Slanted (v : Vec) : Prop := v 0 ≠ 0 ∨ v 1 ≠ 0

/-- `q` is the same pose as `p`, `q` being given in the frame in which the frame of `p` has the pose `t`: every point has the same
place, whichever way it is computed. -/
def SamePose (t p q : Tf) : Prop := ∀ v, q.app v = t.app (p.app v)

end Verif.Frames
