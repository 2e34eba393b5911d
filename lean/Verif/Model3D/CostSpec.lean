import Verif.Model3D.Spec
/-! # Specification: what a move costs -/
namespace Verif.Model3D.Spec
open Verif.Model3D Verif.GridMetric
open Verif.CSpace (lround)
open Real

/-- The displacement of a move, with the heading at its end. -/
def moved (cur next : Cell) : Cell := ⟨next.x - cur.x, next.y - cur.y, next.yaw⟩

/-- The number of poses at which the motion is looked at: its straight length over the sampling resolution, rounded. -/
noncomputable def count (g : Geo) (cur next : Cell) : Nat := (lround (cellDist cur next / g.ger)).toNat

/-- The motion from `cur` to `next`: the pose, relative to `cur` and in cells and headings, after the fraction `ρ` of it.  With nearly parallel headings it is a
straight line, keeping the heading; else a curve around a fixed centre, on which the radius changes in proportion to the turn. -/
def Driven (g : Geo) (cur next : Cell) (ρ : ℝ) (q : Pose ℝ) : Prop :=
  ∃ φ, IsTurn g (next.yaw - cur.yaw) φ ∧
    ((|sin φ| < 0.1 ∧ q.x = ρ * (next.x - cur.x) ∧ q.y = ρ * (next.y - cur.y) ∧ q.yaw = cur.yaw) ∨
     (0.1 ≤ |sin φ| ∧ q.yaw * g.ares = cur.yaw * g.ares + ρ * φ ∧
      ∃ r₁ r₂, IsCurve (ahead g cur.yaw (moved cur next)) (aside g cur.yaw (moved cur next)) φ r₁ r₂ ∧
        q.x * g.res = (r₁ * (1 - ρ) + r₂ * ρ) * sin (q.yaw * g.ares) - r₁ * sin (cur.yaw * g.ares) ∧
        q.y * g.res = r₁ * cos (cur.yaw * g.ares) - (r₁ * (1 - ρ) + r₂ * ρ) * cos (q.yaw * g.ares)))

/-- The poses at which the motion is looked at. -/
def Samples (g : Geo) (cur next : Cell) (f : Nat → Pose ℝ) : Prop :=
  ∀ k : Nat, Driven g cur next ((k : ℝ) / (count g cur next : ℝ)) (f k)

/-- The cells the motion goes through, its destination excepted, each once. -/
structure Swept (g : Geo) (cur next : Cell) (f : Nat → Pose ℝ) (cells : List Cell) : Prop where
  once : cells.Nodup
  mem : ∀ q, q ∈ cells ↔ q ≠ next ∧ ∃ k < count g cur next, q.x = cur.x + lround (f k).x ∧
    q.y = cur.y + lround (f k).y ∧ q.yaw = lround (f k).yaw % g.angle

/-- The length of a line through points. -/
noncomputable def polyline : List (Pose ℝ) → ℝ
  | a :: b :: l => √((b.x - a.x) ^ 2 + (b.y - a.y) ^ 2) + polyline (b :: l)
  | _ => 0

/-- The length of a motion, in cells: of the line through the sampled poses and the destination. -/
noncomputable def motionLength (g : Geo) (cur next : Cell) (f : Nat → Pose ℝ) : ℝ :=
  polyline ((List.range (count g cur next)).map f ++ [⟨next.x - cur.x, next.y - cur.y, next.yaw⟩])

/-- The value of a cell. -/
def value (cm : Cell → Option Int) (q : Cell) : Int := (cm q).getD 0

/-- The value of a cell, if it reaches the threshold. -/
def valueFrom (thr : Int) (cm : Cell → Option Int) (q : Cell) : Int := if thr ≤ value cm q then value cm q else 0

/-- The mean of the values of cells. -/
noncomputable def mean (cells : List Cell) (f : Cell → Int) : ℝ := (((cells.map f).sum : Int) : ℝ) / (cells.length : ℝ)

/-- Length and turn with their weights. -/
noncomputable def basic (g : Geo) (c : Wt) (cur next : Cell) : ℝ :=
  c.ec0 * cellDist cur next + c.ec2 * ((turn g.angle next.yaw cur.yaw : Int) : ℝ)

/-- The addition for a curve that is too narrow to be driven at full speed within the limit of the angular velocity: the length in metres times the
allowed fraction of the speed, with its weight. -/
def Curved (g : Geo) (c : Wt) (cur next : Cell) (x : ℝ) : Prop :=
  ∃ φ, IsTurn g (next.yaw - cur.yaw) φ ∧
    ((sin φ = 0 ∧ x = 0) ∨
     ∃ r₁ r₂, sin φ ≠ 0 ∧ IsCurve (ahead g cur.yaw (moved cur next)) (aside g cur.yaw (moved cur next)) φ r₁ r₂ ∧
      ((|c.maxVel| ≤ c.maxAngVel * |r₁| ∧ x = 0) ∨
       (c.maxAngVel * |r₁| < |c.maxVel| ∧
        x = g.res * cellDist cur next * |(|(r₁ + r₂) / 2| * c.maxAngVel) / c.maxVel| * c.decel)))

end Verif.Model3D.Spec
