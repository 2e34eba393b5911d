import Verif.Jump.Model
/-! # Specification vocabulary for the jump detector -/
namespace Verif.Jump.Spec
open Verif.Jump

variable {G K : Type} [Group G] [AddGroup K] [LinearOrder K]

/-- Motion of the base from pose `p` to pose `q`, seen from the base. -/
def motion (p q : G) : G := p⁻¹ * q

/-- How the two measured motions disagree: the map-frame motion undone, then the odometry motion. -/
def disagreement (base base' map map' : G) : G := (motion map map')⁻¹ * motion base base'

/-- The latest successfully sampled pair of poses of a history (newest first). -/
def lastSample : List (Option (G × G)) → Option (G × G)
  | [] => none
  | some p :: _ => some p
  | none :: h => lastSample h

/-- Beyond a threshold. -/
def Exceeds (c : Cfg G K) (d : G) : Prop := c.len d > c.posJump ∨ |c.yaw d| > c.yawJump

/-- Localisation never moved relative to odometry: map pose is odometry pose moved by a fixed transform. -/
def Steady (T : G) (h : List (Option (G × G))) : Prop := ∀ b m, some (b, m) ∈ h → m = T * b

/-- The same history expressed in other map and odometry frames. -/
def reframe (S T : G) (l : Option (G × G)) : Option (G × G) := l.map fun p => (S * p.1, T * p.2)

end Verif.Jump.Spec
