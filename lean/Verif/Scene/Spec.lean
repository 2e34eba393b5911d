import Verif.Scene.Model
import Verif.Guide.Spec
import Verif.DistMap.Props
import Verif.StartPose.Spec
/-! # What a user expects of a path, in the map frame -/
namespace Verif.Scene
open Verif.Model3D Verif.Model3D.Spec
open Verif.GridMetric (Cell Pose grid2Metric)
open Verif.DistMap (DM)
open Verif.DistMap.Grid (Pos env)
open Verif.Guide (column Drive InRange)

/-- The parameters are consistent and usual: positive resolutions, an even number of headings, non-negative weights and costs; the distance map is computed on the map without
headings, and its costs are far from the largest `float`. -/
structure Good (sc : Scene) (B : Rat) : Prop where
  pl : sc.pl.Sane
  g : Sane sc.g
  even : Even sc.g.angle
  ger : sc.g.ger ≤ 1 / 4
  size : 0 < sc.g.width ∧ 0 < sc.g.height
  same : Guide.SameMap sc.pl sc.g sc.cm (known sc)
  wt : Nonneg sc.c
  weight : 0 ≤ sc.pl.weight
  cm : ∀ a, 0 ≤ sc.cm a
  hy : Covers sc.g sc.hy ∧ ∀ a v, sc.hy a = some v → 0 ≤ v
  fits : Guide.Fits sc.g (known sc) sc.d
  cfg : DistMap.GoodCfg sc.d
  tasks : 0 < sc.d.tasks
  moderate : Guide.Moderate sc.d B

/-- The pose lies in the closed square of a cell of the map, and its heading is within half a heading step of the cell's (up to full turns); the robot
does not collide there: the costmap value of the cell is below lethal. -/
def Clear (sc : Scene) (q : P) : Prop :=
  ∃ a : Cell, InMap sc.g a ∧ sc.cm a ≤ 99 ∧
    |q.x - (grid2Metric sc.pl.info a).x| ≤ sc.pl.info.res / 2 ∧ |q.y - (grid2Metric sc.pl.info a).y| ≤ sc.pl.info.res / 2 ∧
    ∃ k : Int, |q.yaw - ((a.yaw + k * sc.g.angle : Int) : ℝ) * sc.pl.info.ares| ≤ sc.pl.info.ares / 2

/-- The centre of the cell is at most one cell away from the robot, and its heading is the robot's. -/
def AtRobot (sc : Scene) (a : Cell) : Prop := StartPose.sqDist sc.pl.info sc.robot a ≤ 1 ∧ a.yaw = (own sc).yaw

/-- The path begins at the centre of a cell at the robot. -/
def Begins (sc : Scene) (ps : List P) : Prop := ∃ a : Cell, ps.head? = some (grid2Metric sc.pl.info a) ∧ AtRobot sc a

/-- A value of the distance map that is smaller than the robot's by more than the cost of a straight way as long as the local range and the search range together. -/
def Nearer (sc : Scene) (m : DM Pos Rat) (v : ℝ) : Prop := v + ((sc.lr : ℝ) + (sc.g.range : ℝ)) * sc.c.ec0 < ((m.g (column (own sc)) : Rat) : ℝ)

/-- The path ends at the centre of the goal's cell; or, when the goal is far away, of a cell that is nearer to the goal than the robot by the local range, according
to the distance map; or of a cell at the robot, whose rounded estimate is that much nearer. -/
def Ends (sc : Scene) (m : DM Pos Rat) (p : P) (ps : List P) : Prop :=
  ∃ a : Cell, ps.getLast? = some (grid2Metric sc.pl.info a) ∧
    (a = cell sc p ∨ Nearer sc m ((m.g (column a) : Rat) : ℝ) ∨
      (AtRobot sc a ∧ ∀ k, Guide.startEstim sc.g sc.c m (cell sc p) a = some k → Nearer sc m ((k : Int) : ℝ)))

/-- The robot can drive to the goal pose `p`, within the part of the distance map that has been computed: the map was made for `p` and last extended for the cell `eye`, and from the
robot's own cell there is a way of moves with finite cost, over cells from which a route to the goal costs no more than the estimate of `eye` plus the overshoot. -/
structure Drivable (sc : Scene) (m : DM Pos Rat) (cells : List Pos) (eye : Cell) (p : P) : Prop where
  onMap : StartPose.OnMap sc.pl.map (cell sc p)
  free : sc.cm (cell sc p) ≤ 99
  map : DistMap.Spec.Hist (env sc.d) cells (column (cell sc p)) (column eye) m
  apart : column eye ≠ column (cell sc p)
  here : InRange sc.d m (column (cell sc p)) (column eye) (column (own sc))
  way : Relation.ReflTransGen (fun x y => Drive sc.g sc.c sc.u (known sc) sc.hy sc.lr ((starts sc p).2.map Prod.fst) x y ∧
    InRange sc.d m (column (cell sc p)) (column eye) (column y)) (own sc) (cell sc p)

end Verif.Scene
