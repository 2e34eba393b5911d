import Mathlib.Algebra.Order.Floor.Ring
import Mathlib.Algebra.Order.Field.Basic
/-! # Accumulated point clouds and local obstacle maps

`costmap_cspace/include/costmap_cspace/pointcloud_accumulator.h`, `costmap_cspace/src/pointcloud2_to_map.cpp` and
`costmap_cspace/src/laserscan_to_map.cpp`.  Times are integers (`ros::Time` counts nanoseconds); `float`/`double` are an
arbitrary ordered field with a floor function (exact arithmetic). -/
namespace Verif.LocalMap

/-! ### The accumulator -/

/-- `Points`, pointcloud_accumulator.h 43–53. -/
structure Stamped (α : Type) where
  stamp : Int
  val : α
  deriving DecidableEq, Repr

/-- The condition of line 79. -/
def expired {α : Type} (hold now : Int) (p : Stamped α) : Bool := decide (p.stamp + hold < now)

/-- The loop of lines 77–85 from an iterator position: `kept` are the elements in front of it (they stay), the argument
the elements from it on.  `erase` returns the iterator to the next element and `continue` runs the `++it` of the `for`
statement, so that element is passed over; incrementing the end iterator is undefined (`none`). -/
def sweep {α : Type} (hold now : Int) (kept : List (Stamped α)) : List (Stamped α) → Option (List (Stamped α))
  | [] => some kept
  | p :: ps =>
    if expired hold now p then
      match ps with
      | [] => none
      | q :: qs => sweep hold now (kept ++ [q]) qs
    else some (kept ++ p :: ps)

/-- `push`, 75–87. -/
def push {α : Type} (hold : Int) (l : List (Stamped α)) (p : Stamped α) : Option (List (Stamped α)) :=
  (sweep hold p.stamp [] l).map (· ++ [p])

/-! ### The map -/

section
variable {K : Type} [Field K] [LinearOrder K] [FloorRing K]

/-- A point in the global frame. -/
structure P3 (K : Type) where
  x : K
  y : K
  z : K
  deriving DecidableEq, Repr

/-- Conversion of a floating point number to `int`: toward zero. -/
def toInt (a : K) : Int := if 0 ≤ a then ⌊a⌋ else ⌈a⌉

/-- The parameters: pointcloud2_to_map.cpp 78–112, laserscan_to_map.cpp 78–106. -/
structure Params (K : Type) where
  zMin : K
  zMax : K
  width : Nat
  height : Nat
  res : K
  interval : Int
  holdTime : Int

/-- `nav_msgs/OccupancyGrid`: origin and the function of the data array; `map_.data[x + y * width]` is `cell x y`. -/
structure Grid (K : Type) where
  ox : K
  oy : K
  cell : Nat → Nat → Int

/-- pointcloud2_to_map.cpp 147–155 (laserscan_to_map.cpp 139–147) for one coordinate: the robot's position rounded
toward zero to a multiple of the resolution, minus half the size. -/
def originAt (res : K) (cells : Nat) (pos : K) : K := (toInt (pos / res) : K) * res - (cells : K) * res * (1 / 2)

/-- pointcloud2_to_map.cpp 177–182 (laserscan_to_map.cpp 167–172): the index of a coordinate, `none` when the point is
skipped.  The conversion of a negative `int` to `unsigned int` gives at least 2³¹, which is not below the width
(assumed at most 2³¹). -/
def index (origin res : K) (cells : Nat) (v : K) : Option Nat :=
  let i := toInt ((v - origin) / res)
  if 0 ≤ i ∧ i < cells then some i.toNat else none

/-- pointcloud2_to_map.cpp 177–183 (laserscan_to_map.cpp 167–173). -/
def mark (p : Params K) (g : Grid K) (pt : P3 K) : Grid K :=
  match index g.ox p.res p.width pt.x, index g.oy p.res p.height pt.y with
  | some i, some j => { g with cell := fun x y => if x = i ∧ y = j then 100 else g.cell x y }
  | _, _ => g

/-- pointcloud2_to_map.cpp 175 (laserscan_to_map.cpp 165): the point is skipped. -/
def zReject (p : Params K) (robotZ z : K) : Bool := decide (z - robotZ < p.zMin) || decide (p.zMax < z - robotZ)

/-- pointcloud2_to_map.cpp 170–184: one cloud. -/
def markCloud (p : Params K) (robotZ : K) (g : Grid K) (pts : List (P3 K)) : Grid K :=
  pts.foldl (fun g pt => if zReject p robotZ pt.z then g else mark p g pt) g

/-- laserscan_to_map.cpp 160–174: one cloud; the iterator over `z` is never advanced. -/
def markScan (p : Params K) (robotZ : K) (g : Grid K) (pts : List (P3 K)) : Grid K :=
  match pts with
  | [] => g
  | first :: _ => pts.foldl (fun g pt => if zReject p robotZ first.z then g else mark p g pt) g

/-- A cleared map around the robot: pointcloud2_to_map.cpp 147–164 (laserscan_to_map.cpp 139–156). -/
def blank (p : Params K) (robot : P3 K) : Grid K :=
  ⟨originAt p.res p.width robot.x, originAt p.res p.height robot.y, fun _ _ => 0⟩

/-! ### The nodes -/

/-- Member variables of `Pointcloud2ToMapNode`: two accumulators (continuous, single shot) and the time of the last map. -/
structure St (K : Type) where
  continuous : List (Stamped (List (P3 K)))
  single : List (Stamped (List (P3 K)))
  published : Int

/-- `published_` is a default constructed time. -/
def St.init : St K := ⟨[], [], 0⟩

/-- `cbCloud` of pointcloud2_to_map.cpp, 116–189.  `tf` is the cloud in the global frame (`none`: the lookup failed);
the single shot accumulator has hold time 0 (86); `robot` is the robot's position when the map is made (`none`: the
lookup failed).  Result: new state and published map; outer `none` is undefined behaviour. -/
def cbCloud (p : Params K) (s : St K) (stamp : Int) (tf : Option (List (P3 K))) (singleshot : Bool)
    (robot : Option (P3 K)) : Option (St K × Option (Grid K)) :=
  match tf with
  | none => some (s, none)
  | some pts =>
    let pushed : Option (St K) :=
      if singleshot then (push 0 s.single ⟨stamp, pts⟩).map fun l => { s with single := l }
      else (push p.holdTime s.continuous ⟨stamp, pts⟩).map fun l => { s with continuous := l }
    match pushed with
    | none => none
    | some s =>
      if s.published + p.interval > stamp then some (s, none)
      else
        let s := { s with published := stamp }
        match robot with
        | none => some (s, none)
        | some r =>
          some (s, some ((s.continuous ++ s.single).foldl (fun g c => markCloud p r.z g c.val) (blank p r)))

/-- `cbScan` of laserscan_to_map.cpp, 110–178.  A failed lookup pushes an empty cloud with stamp zero (113, 121–126). -/
def cbScan (p : Params K) (s : St K) (stamp : Int) (tf : Option (List (P3 K))) (robot : Option (P3 K)) :
    Option (St K × Option (Grid K)) :=
  let c : Stamped (List (P3 K)) := match tf with
    | none => ⟨0, []⟩
    | some pts => ⟨stamp, pts⟩
  match push p.holdTime s.continuous c with
  | none => none
  | some l =>
    let s := { s with continuous := l }
    if s.published + p.interval > stamp then some (s, none)
    else
      let s := { s with published := stamp }
      match robot with
      | none => some (s, none)
      | some r => some (s, some (s.continuous.foldl (fun g c => markScan p r.z g c.val) (blank p r)))

/-- A message to the point cloud node. -/
structure Msg (K : Type) where
  stamp : Int
  tf : Option (List (P3 K))
  singleshot : Bool
  robot : Option (P3 K)

/-- Messages handled in order; the maps published, with the stamps of the messages that triggered them. -/
def runClouds (p : Params K) : St K → List (Msg K) → Option (St K × List (Int × Grid K))
  | s, [] => some (s, [])
  | s, m :: ms =>
    match cbCloud p s m.stamp m.tf m.singleshot m.robot with
    | none => none
    | some (s, o) =>
      match runClouds p s ms with
      | none => none
      | some (s, os) => some (s, (o.map fun g => (m.stamp, g)).toList ++ os)

end
end Verif.LocalMap
