import Verif.Guide.Model
import Verif.DistMap.Grid
import Verif.DistMap.Spec
import Verif.StartPose.Spec
import Mathlib.Logic.Relation
/-! # Where the robot can drive, and the estimate that guides the search: vocabulary -/
namespace Verif.Guide
open Verif.Model3D Verif.Model3D.Spec
open Verif.GridMetric (Cell)
open Verif.DistMap.Grid (Pos Cfg env)
open Verif.DistMap (DM)
open Verif.Astar (CostType)

/-- The column of a cell. -/
def column (a : Cell) : Pos := (a.x, a.y)

/-- One move of the vehicle: it leads from a cell of the map to a cell of the map, it is among the moves the search looks at, and it has a
finite cost. -/
def Drive (g : Geo) (c : Wt) (u : Bool) (cm hy : Cell → Option Int) (lr : Int) (ss : List Cell) (a b : Cell) : Prop :=
  InMap g a ∧ InMap g b ∧ (∃ p ∈ searchGrids g c lr ss a, Reaches g a p b) ∧ ∃ v, cost g c u cm hy a b = .val v

/-- The vehicle can drive from `a` to `b`. -/
def Drives (g : Geo) (c : Wt) (u : Bool) (cm hy : Cell → Option Int) (lr : Int) (ss : List Cell) : Cell → Cell → Prop :=
  Relation.ReflTransGen (Drive g c u cm hy lr ss)

/-- The distance map is computed on the map of the planner without headings: the size is the same, and no cell is above the value of the map
with headings. -/
structure Fits (g : Geo) (cm : Cell → Option Int) (d : Cfg) : Prop where
  w : d.w = g.width
  h : d.h = g.height
  below : ∀ a v, InMap g a → cm a = some v → d.cm (column a) ≤ v

/-- Neighbouring columns of the map, both not lethal. -/
def Beside (d : Cfg) (p q : Pos) : Prop :=
  (Verif.DistMap.Grid.inMap d p = true ∧ d.cm p ≤ 99) ∧ (Verif.DistMap.Grid.inMap d q = true ∧ d.cm q ≤ 99) ∧
  |p.1 - q.1| ≤ 1 ∧ |p.2 - q.2| ≤ 1

/-- The costmap has values inside the map only. -/
def OnlyInside (g : Geo) (cm : Cell → Option Int) : Prop := ∀ a v, cm a = some v → InMap g a

/-- The distance map has a value for the column of the cell. -/
def Known (m : DM Pos Rat) (a : Cell) : Prop := m.g (column a) < CostType.top

/-- The costs are far from the largest `float`: no step costs more than `B`, and a way over all the cells of the map has a smaller cost. -/
structure Moderate (d : Cfg) (B : Rat) : Prop where
  nonneg : 0 ≤ B
  step : ∀ p x w, Verif.DistMap.Spec.Step (env d) p x w → w ≤ B
  sum : B * ((d.w.toNat * d.h.toNat : Nat) : Rat) < CostType.top

/-- Some route from the cell to the goal costs at most the estimate of the robot plus the overshoot. -/
def InRange (d : Cfg) (m : DM Pos Rat) (goal robot : Pos) (v : Pos) : Prop :=
  ∃ c, Verif.DistMap.Spec.Route (env d) goal v c ∧ c ≤ m.g robot + d.over

/-- `n` steps to neighbouring columns. -/
inductive Steps (d : Cfg) : Nat → Pos → Pos → Prop
  | zero (p) : Steps d 0 p p
  | succ {n p q r} : Steps d n p q → Beside d q r → Steps d (n + 1) p r

/-- The parameters of the start poses and of the search describe the same map. -/
structure SameMap (pl : StartPose.Plan) (g : Geo) (cmI : Cell → Int) (cm : Cell → Option Int) : Prop where
  width : pl.map.width = g.width
  height : pl.map.height = g.height
  angle : pl.map.angle = g.angle
  range : 0 ≤ pl.map.range
  cm : ∀ a, InMap g a → cm a = some (cmI a)

end Verif.Guide
