import Mathlib.Analysis.SpecialFunctions.Complex.Circle
import Mathlib.Analysis.Calculus.Deriv.Basic
import Verif.Dummy.Model
/-! # Vocabulary for the simulated robot -/
namespace Verif.Dummy

/-- A position as a complex number. -/
def Odom.at (o : Odom) : ℂ := ⟨o.x, o.y⟩

/-- The position of a state. -/
def St.at (s : St) : ℂ := ⟨s.x, s.y⟩

/-- `n` rounds without messages. -/
def rounds (n : Nat) : List Event := List.replicate n .tick

/-- The unit vector of a heading. -/
noncomputable def dir (yaw : ℝ) : ℂ := Complex.exp ((yaw : ℂ) * Complex.I)

/-- The velocities in force after a history: those of the last command, zero before the first one and after an accepted initial
pose. -/
def inForce (h : List Event) : ℝ × ℝ :=
  h.foldl (fun c e => match e with
    | .twist v w => (v, w)
    | .init (some _) => (0, 0)
    | _ => c) (0, 0)

/-- The pose from which the robot has been moving (the last accepted initial pose, `p` if there is none) and what happened since. -/
def leg (p : ℝ × ℝ × ℝ) (h : List Event) : (ℝ × ℝ × ℝ) × List Event :=
  h.foldl (fun c e => match e with
    | .init (some q) => (q, [])
    | e => (c.1, c.2 ++ [e])) (p, [])

/-- The velocity commands at the rounds of a history without accepted initial poses that starts with the command `c`. -/
def commands (c : ℝ × ℝ) : List Event → List (ℝ × ℝ)
  | [] => []
  | .twist v w :: h => commands (v, w) h
  | .init _ :: h => commands c h
  | .tick :: h => c :: commands c h

/-- The heading after rounds with the given commands, `d` seconds each. -/
noncomputable def heading (d yaw : ℝ) (cs : List (ℝ × ℝ)) : ℝ := yaw + d * (cs.map Prod.snd).sum

/-- The position after rounds with the given commands, `d` seconds each: in every round the robot moves by its speed in the direction
of the heading at the end of the round. -/
noncomputable def place (d : ℝ) (z : ℂ) (yaw : ℝ) (cs : List (ℝ × ℝ)) : ℂ :=
  z + ∑ k : Fin cs.length, (d * (cs[k]).1 : ℝ) * dir (heading d yaw (cs.take (k + 1)))

/-- A smooth motion at constant speeds `v` (forward) and `w` (turning) from `z` and heading `yaw`. -/
structure Motion (v w : ℝ) (z : ℂ) (yaw : ℝ) (f : ℝ → ℂ) : Prop where
  start : f 0 = z
  speed : ∀ t, HasDerivAt f (v * dir (yaw + w * t)) t

end Verif.Dummy
