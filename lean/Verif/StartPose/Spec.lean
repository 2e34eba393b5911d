import Verif.StartPose.Model
import Verif.GridMetric.Spec
import Verif.Path2D.Spec
import Verif.SearchPos.Spec
import Mathlib.Analysis.SpecialFunctions.Trigonometric.Angle
/-! # What the start of the next plan must be -/
namespace Verif.StartPose
open Verif.GridMetric (Cell Info)
open Verif.GridMetric.Spec (InSquare NearestHeading SameDirection)

/-- Cell `c` is the cell of the pose: the pose lies in its square, and the heading of the cell is, up to full turns, a nearest one. -/
def InCell (g : Info ℝ) (c : Cell) (p : Path2D.Pose) : Prop :=
  InSquare g c.x c.y p.pos.re p.pos.im ∧ 0 ≤ c.yaw ∧ c.yaw < g.angle ∧
    ∃ w, NearestHeading g w p.yaw ∧ SameDirection g.angle c.yaw w

/-- The pose is on the centre of a cell with a grid heading, up to a thousandth of a cell and of a heading step. -/
def OnCentre (g : Info ℝ) (p : Path2D.Pose) : Prop :=
  ∃ i j w : Int, |p.pos.re - (((i : ℝ) + 1 / 2) * g.res + g.ox)| < g.res / 1000 ∧
    |p.pos.im - (((j : ℝ) + 1 / 2) * g.res + g.oy)| < g.res / 1000 ∧ |p.yaw - (w : ℝ) * g.ares| < g.ares / 1000

/-- The (smaller) angle between two headings. -/
noncomputable def turn (a b : ℝ) : ℝ := |((a - b : ℝ) : Real.Angle).toReal|

/-- Time from one pose of the path to the next one: the distance at the linear speed, or the turn in place at the angular speed. -/
noncomputable def leg (c : Config) (a b : Path2D.Pose) : ℝ :=
  if 1 / 1000000 < ‖a.pos - b.pos‖ then ‖a.pos - b.pos‖ / c.lin else turn a.yaw b.yaw / c.ang

/-- Time along a list of poses. -/
noncomputable def along (c : Config) : List Path2D.Pose → ℝ
  | a :: b :: ps => leg c a b + along c (b :: ps)
  | _ => 0

/-- Expected time at which the robot arrives at pose `i` of the path: it first moves and turns to the beginning of the path. -/
noncomputable def arrival (c : Config) (robot : Path2D.Pose) (Q : List Path2D.Pose) (i : Nat) : ℝ :=
  match Q with
  | [] => 0
  | p :: _ => max (turn p.yaw robot.yaw / c.ang) (‖p.pos - robot.pos‖ / c.lin) + along c (Q.take (i + 1))

/-- Pose `k` is a centre at which the robot arrives after the prediction time. -/
def Late (c : Config) (g : Info ℝ) (robot : Path2D.Pose) (Q : List Path2D.Pose) (k : Nat) : Prop :=
  ∃ p, Q[k]? = some p ∧ OnCentre g p ∧ c.predict < arrival c robot Q k

/-- … and before the prediction time for switch backs. -/
def Soon (c : Config) (g : Info ℝ) (robot : Path2D.Pose) (Q : List Path2D.Pose) (k : Nat) : Prop :=
  Late c g robot Q k ∧ arrival c robot Q k < c.switchPredict

/-- Pose `k` of the remaining path `Q` is the one from which the next plan starts.  `gs` are the poses that follow a switch back
(characterised by property C43).  The first switch back that will be reached soon; if there is none, the first centre reached after
the prediction time; if there is none, the end of the path. -/
def Selected (c : Config) (g : Info ℝ) (robot : Path2D.Pose) (Q : List Path2D.Pose) (gs : List Nat) (k : Nat) : Prop :=
  (∃ l₁ l₂, gs = l₁ ++ (k + 1) :: l₂ ∧ Soon c g robot Q k ∧ ∀ s ∈ l₁, ¬ Soon c g robot Q (s - 1)) ∨
  ((∀ s ∈ gs, ¬ Soon c g robot Q (s - 1)) ∧ k + 1 < Q.length ∧ Late c g robot Q k ∧ ∀ j < k, ¬ Late c g robot Q j) ∨
  ((∀ s ∈ gs, ¬ Soon c g robot Q (s - 1)) ∧ k + 1 = Q.length ∧ ∀ j < k, ¬ Late c g robot Q j)

/-- The robot is at distance `d` from the path `P`: from its only pose (plus a micrometre), or from the part that ends at pose `n`,
where `d` is the least distance up to a micrometre per pose. -/
def AtDistance (P : List Path2D.Pose) (robot : ℂ) (n : Nat) (d : ℝ) : Prop :=
  (∃ p, P = [p] ∧ n = 0 ∧ d = ‖p.pos - robot‖ + 1 / 1000000) ∨
  (2 ≤ P.length ∧ 0 < n ∧ n < P.length ∧ d = Path2D.segDist P robot n ∧
    ∀ i, 0 < i → i < P.length → d ≤ Path2D.segDist P robot i + (P.length : ℝ) / 1000000)

/-- What remains of `P` when the robot is near the part that ends at pose `n`: the poses from `n` on, or all when the robot is still
behind the beginning of the path (its nearest point is the first pose). -/
def Remains (P : List Path2D.Pose) (robot : ℂ) (n : Nat) (d : ℝ) (a : Nat) : Prop :=
  (a = n ∧ ¬ (n = 1 ∧ ∃ p, P[0]? = some p ∧ |‖robot - p.pos‖ - d| < 1 / 1000000)) ∨
  (a = 0 ∧ n = 1 ∧ ∃ p, P[0]? = some p ∧ |‖robot - p.pos‖ - d| < 1 / 1000000)

/-- Pose `k` of the part from `a` on is where the next plan starts; the robot is not too far from the path. -/
def Continues (c : Config) (g : Info ℝ) (robot : Path2D.Pose) (gs : List Nat) (P : List Path2D.Pose) (a k : Nat) : Prop :=
  ∃ n d, AtDistance P robot.pos n d ∧ d ≤ c.distStop ∧ Remains P robot.pos n d a ∧ a + k < P.length ∧
    Selected c g robot (P.drop a) gs k

/-- The robot is farther from the path than allowed. -/
def TooFar (c : Config) (robot : Path2D.Pose) (P : List Path2D.Pose) : Prop :=
  ∃ n d, AtDistance P robot.pos n d ∧ c.distStop < d

/-! ### Start poses -/

/-- Exact position of the robot, in cells. -/
noncomputable def gx (g : Info ℝ) (p : Path2D.Pose) : ℝ := (p.pos.re - g.ox) / g.res
noncomputable def gy (g : Info ℝ) (p : Path2D.Pose) : ℝ := (p.pos.im - g.oy) / g.res

/-- Square of the distance, in cells, from the robot to the centre of a cell. -/
noncomputable def sqDist (g : Info ℝ) (p : Path2D.Pose) (c : Cell) : ℝ :=
  (gx g p - ((c.x : ℝ) + 1 / 2)) ^ 2 + (gy g p - ((c.y : ℝ) + 1 / 2)) ^ 2

/-- The cell is on the map with the margin. -/
def OnMap (m : SearchPos.Map) (c : Cell) : Prop :=
  (m.range ≤ c.x ∧ c.x < m.width - m.range) ∧ (m.range ≤ c.y ∧ c.y < m.height - m.range) ∧ 0 ≤ c.yaw ∧ c.yaw < m.angle

/-- The cell is within the tolerances of the goal: in position, and in heading counted modulo full turns. -/
def WithinTolerance (pl : Plan) (s e : Cell) : Prop :=
  (s.x - e.x) ^ 2 + (s.y - e.y) ^ 2 ≤ pl.finLin ^ 2 ∧ ∃ k : Int, |s.yaw - e.yaw + k * pl.map.angle| ≤ pl.finAng

/-! ### Switch backs -/

/-- The robot moves (by more than a millimetre) from pose `i - 1` to pose `i`. -/
def Moves (P : List Path2D.Pose) (i : Nat) : Prop :=
  0 < i ∧ ∃ a b, P[i - 1]? = some a ∧ P[i]? = some b ∧ 1 / 1000 < ‖b.pos - a.pos‖

/-- The move from pose `i - 1` to pose `i` is a backward one. -/
def Backward (P : List Path2D.Pose) (i : Nat) : Prop :=
  ∃ a b, P[i - 1]? = some a ∧ P[i]? = some b ∧ Path2D.forward a b < 0

/-- Well-formed parameters: positive resolutions and number of headings, the same number in both places, and a relocation cost that is
not above lethal. -/
structure Plan.Sane (pl : Plan) : Prop where
  res : 0 < pl.info.res
  ares : 0 < pl.info.ares
  angle : 0 < pl.map.angle
  same : pl.info.angle = pl.map.angle
  acc : pl.map.acceptable ≤ 100
  ec0 : 0 ≤ pl.ec0

/-- A cell found by relocation. -/
def Relocated (pl : Plan) (cm : Cell → Int) (own c : Cell) : Prop :=
  SearchPos.Nearest pl.map cm pl.dist own pl.tolRange pl.tolAngle 0 pl.map.acceptable c ∨
    (¬ SearchPos.Exists pl.map cm own pl.tolRange pl.tolAngle 0 pl.map.acceptable ∧
      SearchPos.Nearest pl.map cm pl.dist own pl.tolRange pl.tolAngle 0 100 c)

/-- No cell is left for relocation. -/
def NoRelocation (pl : Plan) (cm : Cell → Int) (own : Cell) : Prop :=
  ¬ SearchPos.Exists pl.map cm own pl.tolRange pl.tolAngle 0 pl.map.acceptable ∧
    (pl.map.acceptable ≠ 100 → ¬ SearchPos.Exists pl.map cm own pl.tolRange pl.tolAngle 0 100)

end Verif.StartPose
