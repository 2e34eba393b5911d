import Verif.CSpace.Model
import Verif.CyclicVec.Model
/-! # Grid and metric coordinates

`planner_cspace/include/planner_cspace/planner_3d/grid_metric_converter.h`, the two wrappers of
`planner_cspace/src/planner_3d.cpp` and `isGridCenter` of `planner_cspace/src/start_pose_predictor.cpp`.
`float` and `double` are an ordered field with a floor function (exact arithmetic), the orientation quaternion is its yaw.
`std::lround` is `Verif.CSpace.lround`. -/
namespace Verif.GridMetric
open Verif.CSpace (lround)

variable {K : Type} [Field K] [LinearOrder K] [FloorRing K]

/-- The fields of `costmap_cspace_msgs/MapMetaData3D` that are used. -/
structure Info (K : Type) where
  res : K
  ares : K
  ox : K
  oy : K
  angle : Int

/-- A position and a heading. -/
structure Pose (K : Type) where
  x : K
  y : K
  yaw : K
  deriving DecidableEq, Repr

/-- A cell. -/
structure Cell where
  x : Int
  y : Int
  yaw : Int
  deriving DecidableEq, Repr

/-- `grid2Metric`, grid_metric_converter.h 49–61, for `T = float`. -/
def grid2MetricF (m : Info K) (g : Pose K) : Pose K :=
  ⟨(g.x + 1 / 2) * m.res + m.ox, (g.y + 1 / 2) * m.res + m.oy, g.yaw * m.ares⟩

/-- `grid2Metric`, 49–61, for `T = int`. -/
def grid2Metric (m : Info K) (c : Cell) : Pose K := grid2MetricF m ⟨c.x, c.y, c.yaw⟩

/-- `metric2Grid` to `int`, 62–70. -/
def metric2Grid (m : Info K) (p : Pose K) : Cell :=
  ⟨⌊(p.x - m.ox) / m.res⌋, ⌊(p.y - m.oy) / m.res⌋, lround (p.yaw / m.ares)⟩

/-- `metric2Grid` to `float`, 71–79. -/
def metric2GridF (m : Info K) (p : Pose K) : Pose K :=
  ⟨(p.x - m.ox) / m.res, (p.y - m.oy) / m.res, p.yaw / m.ares⟩

/-- `appendGridPath2MetricPath`, 81–102. -/
def appendPath (m : Info K) (grid : List (Pose K)) (path : List (Pose K)) : List (Pose K) :=
  grid.foldl (fun path g => path ++ [grid2MetricF m g]) path

/-- `Planner3dNode::metric2Grid`, planner_3d.cpp 306–315: as above, with the heading brought into `0 … angle − 1`.
`none` is a remainder by zero. -/
def metric2GridC (m : Info K) (p : Pose K) : Option Cell :=
  let c := metric2Grid m p
  (CyclicVec.cycleUnsignedElement c.yaw m.angle).map fun w => { c with yaw := w }

/-- `isGridCenter`, start_pose_predictor.cpp 165–174; `std::round` is half away from zero like `lround`. -/
def isGridCenter (m : Info K) (p : Pose K) : Bool :=
  let g := metric2GridF m p
  decide (|g.x - 1 / 2 - (lround (g.x - 1 / 2) : K)| < 1 / 1000) &&
    decide (|g.y - 1 / 2 - (lround (g.y - 1 / 2) : K)| < 1 / 1000) &&
    decide (|g.yaw - (lround g.yaw : K)| < 1 / 1000)

end Verif.GridMetric
