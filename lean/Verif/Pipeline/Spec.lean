import Verif.Layers.Spec
import Verif.PlannerMap.Spec
import Verif.GridMetric.Model
import Verif.Polygon.Spec
import Verif.Model3D.Plan
/-! # From the map to the path: vocabulary

The costmap node publishes a configuration-space map, the planner node receives it, plans on it and publishes a path. -/
namespace Verif.Pipeline
open Verif.CSpace Verif.Layers

/-- The root layer of the costmap node (costmap_3d.cpp 216–224): a footprint layer with the template of the configured
footprint; `keep_unknown` is not set for it. `big` is the largest `float`. -/
noncomputable def rootKind (big : ℝ) (f : Foot) (mode : Mode) : Kind ℝ :=
  .foot (fun m => f.rangeMax m.res) (fun m x y a => f.template big m.res (2 * Real.pi / (m.ang : ℝ)) x y a) mode false

/-- The published map as the planner receives it (`costmap_cspace_msgs/CSpace3D`): the fields of
`Verif.PlannerMap.BaseMap`, cells in the order of the buffer. -/
def message {K : Type} (m : Info K) (stamp : Nat) (c : Cells) : PlannerMap.BaseMap := ⟨stamp, m.w, m.h, m.ang, flat m c⟩

/-- The metadata of the map as used by `grid_metric_converter`. -/
noncomputable def metric (m : Info ℝ) : GridMetric.Info ℝ := ⟨m.res, 2 * Real.pi / (m.ang : ℝ), m.ox, m.oy, m.ang⟩

/-- The map marks the cell in column `gx`, row `gy` as occupied. -/
def Occupied (b : Msg ℝ) (gx gy : Nat) : Prop :=
  gx < b.grid.w ∧ gy < b.grid.h ∧ b.grid.data.getD (gy * b.grid.w + gx) 0 = 100

/-- The point lies in the closed square of the cell in column `gx`, row `gy`. -/
def InCell (b : Msg ℝ) (gx gy : Nat) (z : Polygon.Pt ℝ) : Prop :=
  (b.grid.ox + gx * b.grid.res ≤ z.1 ∧ z.1 ≤ b.grid.ox + (gx + 1) * b.grid.res) ∧
  (b.grid.oy + gy * b.grid.res ≤ z.2 ∧ z.2 ≤ b.grid.oy + (gy + 1) * b.grid.res)

/-- The map knows something about the cell. -/
def Known (b : Msg ℝ) (gx gy : Nat) : Prop := 0 ≤ b.grid.data.getD (gy * b.grid.w + gx) 0

/-- The robot standing at the pose touches the point. -/
def Touches (f : Foot) (p : GridMetric.Pose ℝ) (z : Polygon.Pt ℝ) : Prop :=
  Polygon.inside (Polygon.move p.x p.y p.yaw (Polygon.close f.pts)) z = true ∨
    Polygon.Spec.OnOutline (Polygon.move p.x p.y p.yaw (Polygon.close f.pts)) z

/-- Some history of base maps and overlays makes the costmap node publish the whole map `msg`, and `b` is the last base map
it has received by then. -/
def Publishes (big : ℝ) (f : Foot) (mode : Mode) (ang : Nat) (ks : List (Kind ℝ)) (b : Msg ℝ) (msg : PlannerMap.BaseMap) : Prop :=
  ∃ (z : ℝ) (es : List (Event ℝ)) (e : Event ℝ) (s s' : Node ℝ) (o o' : List Out) (stamp : Nat) (c : Cells),
    Layers.run (Node.init ang z (rootKind big f mode) ks) es = some (s, o) ∧ Layers.step s e = some (s', o') ∧
    Out.map stamp c ∈ o' ∧ Layers.Spec.lastBase (es ++ [e]) = some b ∧ msg = message s'.info stamp c

/-- Some history of messages leaves the planner with the map `msg`, the last accepted update not in overwriting mode, and
the costmap `cm`. -/
def Receives (unknown : Int) (msg : PlannerMap.BaseMap) (cm : GridMetric.Cell → Int) : Prop :=
  ∃ (h : List PlannerMap.Event) (ps : PlannerMap.St), PlannerMap.AllSmall h ∧ PlannerMap.run unknown h = some ps ∧
    (PlannerMap.past h).base = some msg ∧ (∀ ov u, (PlannerMap.past h).last = some (ov, u) → ov = false) ∧ ps.cm = cm

/-- The search on the costmap `cm` (for some weights, hysteresis map, estimates, starts in the map, goal, stopping rule and
schedule of the threads) hands out a path of at least two cells (found, or the best known one if no path was found), and `q` is one of the poses it is interpolated to. -/
def Plans (g : Model3D.Geo) (cm : GridMetric.Cell → Option Int) (q : GridMetric.Pose ℝ) : Prop :=
  ∃ (w : Model3D.Wt) (useHyst : Bool) (hy : GridMetric.Cell → Option Int) (lr : Int) (ss : List GridMetric.Cell) (junk : WithTop ℝ)
    (estim startEstim : List Int → WithTop ℝ) (starts : List (List Int × WithTop ℝ)) (goal : List Int)
    (leave : WithTop ℝ → WithTop ℝ → Bool) (tasks limit : Nat) (rb found : Bool) (why : Astar.Vec.Why) (path : List (List Int)),
    Model3D.Spec.Covers g hy ∧ goal.length = 3 ∧
    (∀ s ∈ starts, 0 ≤ s.2 ∧ Astar.Vec.Spec.InMap [g.width, g.height, g.angle] s.1) ∧
    Astar.Vec.Search (Model3D.planProb g w useHyst cm hy lr ss junk estim startEstim starts goal leave tasks limit) rb why (found, path) ∧
    2 ≤ path.length ∧ q ∈ Model3D.interpolatePath g (path.map Model3D.ofVec)

/-- The pose in the map frame. -/
noncomputable def pose (ang : Nat) (b : Msg ℝ) (q : GridMetric.Pose ℝ) : GridMetric.Pose ℝ :=
  GridMetric.grid2MetricF (metric (infoOf ang b)) q

/-- The planner's geometry is that of the map. -/
def SameGeo (g : Model3D.Geo) (ang : Nat) (b : Msg ℝ) : Prop :=
  g.width = b.grid.w ∧ g.height = b.grid.h ∧ g.angle = ang ∧ g.res = b.grid.res

/-- The costmap searched can be read exactly on the map and is nowhere lower than the received one. -/
def Raised (g : Model3D.Geo) (cm : GridMetric.Cell → Int) (cm' : GridMetric.Cell → Option Int) : Prop :=
  Model3D.Spec.Covers g cm' ∧ ∀ p v, cm' p = some v → Model3D.Spec.InMap g p ∧ cm p ≤ v

/-- Wherever the point lies in the map, the map knows something. -/
def KnownAt (b : Msg ℝ) (z : Polygon.Pt ℝ) : Prop := ∀ x y, x < b.grid.w → y < b.grid.h → InCell b x y z → Known b x y

/-- A usable base map: as many values as cells, positive resolution. -/
def GoodMap (b : Msg ℝ) : Prop := 0 < b.grid.res ∧ b.grid.data.length = b.grid.w * b.grid.h

end Verif.Pipeline
