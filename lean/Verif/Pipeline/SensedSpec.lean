import Verif.Pipeline.Spec
/-! # From the sensors to the path: vocabulary

Sensed obstacles reach the costmap node as an overlay message; the node publishes an update, the planner applies it to its map and plans. -/
namespace Verif.Pipeline
open Verif.CSpace Verif.Layers

/-- A footprint layer with the template of the footprint `f`, without `keep_unknown`. -/
noncomputable def sensorKind (big : ℝ) (f : Foot) (mode : Mode) : Kind ℝ := rootKind big f mode

/-- The costmap node is configured with the layers `ks` and the output of updates after them.  After some history of usable messages, whose
last base map is `b`, it receives the overlay message `v` for the layer number `i` and publishes the update `u`. -/
def Senses (ang : Nat) (root : Kind ℝ) (ks : List (Kind ℝ)) (i : Nat) (b v : Msg ℝ) (u : Layers.Update) : Prop :=
  ∃ (z : ℝ) (es : List (Event ℝ)) (s s' : Node ℝ) (o o' : List Out),
    (∀ e ∈ es, Layers.Spec.GoodEvent ks.length e) ∧ Layers.run (Node.init ang z root (ks ++ [.updateOut])) es = some (s, o) ∧
    Layers.Spec.lastBase es = some b ∧ Layers.step s (.overlay i v) = some (s', o') ∧ Out.update u ∈ o'

/-- The update message as the planner receives it. -/
def received (u : Layers.Update) : PlannerMap.Update :=
  ⟨u.stamp, u.x.toNat, u.y.toNat, u.yaw.toNat, u.width.toNat, u.height.toNat, u.angle.toNat, u.data⟩

/-- Some history of messages leaves the planner with a map of the size of `b`, the update `u` as the last one accepted (in overwriting mode or
not), and the costmap `cm`. -/
def HasUpdate (unknown : Int) (ang : Nat) (b : Msg ℝ) (u : Layers.Update) (cm : GridMetric.Cell → Int) : Prop :=
  ∃ (h : List PlannerMap.Event) (ps : PlannerMap.St) (msg : PlannerMap.BaseMap) (ov : Bool), PlannerMap.AllSmall h ∧
    PlannerMap.run unknown h = some ps ∧ (PlannerMap.past h).base = some msg ∧ (PlannerMap.past h).last = some (ov, received u) ∧
    msg.width = b.grid.w ∧ msg.height = b.grid.h ∧ msg.angle = ang ∧ ps.cm = cm

/-- The point lies in the area of the grid, more than `δ` from its border. -/
def Within (δ : ℝ) (v : Msg ℝ) (p : Polygon.Pt ℝ) : Prop :=
  (v.grid.ox + δ < p.1 ∧ p.1 < v.grid.ox + v.grid.w * v.grid.res - δ) ∧
  (v.grid.oy + δ < p.2 ∧ p.2 < v.grid.oy + v.grid.h * v.grid.res - δ)

/-- The two coordinates differ by a multiple of the cell width, up to `δ`. -/
def OnLattice (δ r a b : ℝ) : Prop := ∃ k : Int, |a - b - k * r| ≤ δ

/-- An overlay that the layer treats cell by cell: frame and resolution of the map, as many values as cells, and the corner at most `δ` (in both
directions) away from a corner of a cell of the map (this holds for every message if `δ` is half a cell). -/
def Matches (δ : ℝ) (b v : Msg ℝ) : Prop :=
  v.frame = b.frame ∧ v.grid.res = b.grid.res ∧ v.grid.data.length = v.grid.w * v.grid.h ∧
  OnLattice δ b.grid.res v.grid.ox b.grid.ox ∧ OnLattice δ b.grid.res v.grid.oy b.grid.oy

end Verif.Pipeline
