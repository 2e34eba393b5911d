import Verif.Model3D.Model
/-! # Specification: geometry and safe poses -/
namespace Verif.Model3D.Spec
open Verif.Model3D Verif.GridMetric
open Real

/-- The setting in which the planner runs: the angular resolution divides the full turn into `angle` headings, the
resolutions are positive, and motions are sampled at least twice per cell (the default is ten times). -/
structure Sane (g : Geo) : Prop where
  angle_pos : 0 < g.angle
  ares : g.ares = 2 * π / (g.angle : ℝ)
  res_pos : 0 < g.res
  range_pos : 1 ≤ g.range
  ger_pos : 0 < g.ger
  ger_le : g.ger ≤ 1 / 2

/-- The cell belongs to the map. -/
def InMap (g : Geo) (p : Cell) : Prop :=
  0 ≤ p.x ∧ p.x < g.width ∧ 0 ≤ p.y ∧ p.y < g.height ∧ 0 ≤ p.yaw ∧ p.yaw < g.angle

/-- The costmap can be read everywhere in the map. -/
def Covers (g : Geo) (cm : Cell → Option Int) : Prop := ∀ p, InMap g p → ∃ c, cm p = some c

/-- The cell's costmap value is below lethal. -/
def Free (cm : Cell → Option Int) (p : Cell) : Prop := ∃ c, cm p = some c ∧ c ≤ 99

/-- The pose (grid coordinates, integers at cell centres) lies in the closed square of a free cell, and its heading is
within half a heading step of that cell's. -/
def Safe (g : Geo) (cm : Cell → Option Int) (q : Pose ℝ) : Prop :=
  ∃ p : Cell, Free cm p ∧ |q.x - (p.x : ℝ)| ≤ 1 / 2 ∧ |q.y - (p.y : ℝ)| ≤ 1 / 2 ∧
    ∃ k : Int, |q.yaw - ((p.yaw + k * g.angle : Int) : ℝ)| ≤ 1 / 2

/-- The cell reached from `cur` by displacement `p`, with the heading brought into `0 … angle − 1`. -/
def Reaches (g : Geo) (cur p next : Cell) : Prop :=
  next.x = cur.x + p.x ∧ next.y = cur.y + p.y ∧ (∃ k : Int, next.yaw = cur.yaw + p.yaw + k * g.angle) ∧
  0 ≤ next.yaw ∧ next.yaw < g.angle

/-- Weights without negative entries. -/
structure Nonneg (c : Wt) : Prop where
  ec0 : 0 < c.ec0
  ec2 : 0 ≤ c.ec2
  decel : 0 ≤ c.decel
  backward : 0 ≤ c.backward
  costmap : 0 ≤ c.costmap
  costmapTurn : 0 ≤ c.costmapTurn
  turnHeuristics : 0 ≤ c.turnHeuristics
  hysteresis : 0 ≤ c.hysteresis
  inPlaceTurn : 0 ≤ c.inPlaceTurn

/-- The length of a displacement in cells. -/
noncomputable def cellDist (a b : Cell) : ℝ := √((((b.x - a.x) ^ 2 + (b.y - a.y) ^ 2 : Int)) : ℝ)

/-- Number of heading steps between two headings, the short way round. -/
def turn (angle a b : Int) : Int := min ((a - b) % angle) ((b - a) % angle)

/-- Forward and sideways components, in metres, of a displacement seen from heading `i`. -/
noncomputable def ahead (g : Geo) (i : Int) (p : Cell) : ℝ := g.res * (cos ((i : ℝ) * g.ares) * p.x + sin ((i : ℝ) * g.ares) * p.y)
noncomputable def aside (g : Geo) (i : Int) (p : Cell) : ℝ := g.res * (cos ((i : ℝ) * g.ares) * p.y - sin ((i : ℝ) * g.ares) * p.x)

/-- `φ` is the turn by `n` headings, the short way round. -/
def IsTurn (g : Geo) (n : Int) (φ : ℝ) : Prop := -π ≤ φ ∧ φ ≤ π ∧ ∃ k : Int, φ = (n : ℝ) * g.ares + k * (2 * π)

/-- `r₁`, `r₂` are signed start and end radii of a curve around a fixed centre to the left, at distance `r₁`, that leads
from the origin straight ahead to the point `(x, y)` and turns by `φ`. -/
def IsCurve (x y φ r₁ r₂ : ℝ) : Prop := x = r₂ * sin φ ∧ y = r₁ - r₂ * cos φ

/-- The moves the vehicle is allowed to make from heading `i`. -/
def Feasible (g : Geo) (c : Wt) (i : Int) (p : Cell) : Prop :=
  p.x * p.x + p.y * p.y ≤ g.range * g.range ∧ 0 ≤ p.yaw ∧ p.yaw < g.angle ∧
  -- rotation in place
  ((p.x = 0 ∧ p.y = 0 ∧ p.yaw ≠ 0) ∨
   (¬ (p.x = 0 ∧ p.y = 0) ∧
    -- straight, or a lane-change like motion that is steep enough
    ((p.yaw = 0 ∧ g.res / 2 ≤ |ahead g i p| ∧ (aside g i p ≠ 0 → c.aspect ≤ |ahead g i p / aside g i p|)) ∨
    -- a curve towards the side of the turn, of less than a quarter turn and of at least the minimum radius
     (p.yaw ≠ 0 ∧ 9 ≤ p.x * p.x + p.y * p.y ∧ g.res / 2 ≤ |aside g i p| ∧
      (g.res / 2 ≤ |ahead g i p|) ∧
      ∃ φ r₁ r₂ : ℝ, IsTurn g p.yaw φ ∧ |φ| < π / 2 - 1e-6 ∧ IsCurve (ahead g i p) (aside g i p) φ r₁ r₂ ∧
        0 ≤ ahead g i p * aside g i p * φ ∧ |r₁ - r₂| < g.res * 1.5 ∧ c.minCurveRadius ≤ |(r₁ + r₂) / 2|))))

/-- A pose relative to the cell `cur`. -/
noncomputable def placed (cur : Cell) (q : Pose ℝ) : Pose ℝ := ⟨(cur.x : ℝ) + q.x, (cur.y : ℝ) + q.y, q.yaw⟩

/-- The pose of a cell. -/
noncomputable def poseOf (a : Cell) : Pose ℝ := ⟨a.x, a.y, a.yaw⟩

end Verif.Model3D.Spec
