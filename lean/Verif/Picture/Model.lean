import Verif.Bbf.Model
import Verif.GridMetric.Model
/-!
# Model of the pictures of the planner's state

`planner_cspace/src/planner_3d.cpp` (`publishDebug`, `publishRememberedMap`) and `costmap_bbf.cpp` (`forEach`).  Numbers are elements of a linearly
ordered field; a distance of `none` is `numeric_limits<float>::max()`.  All maps have the size announced by the last map message
(`cbMap`, planner_3d.cpp:1011–1052).  The vectors `data` are lists; a write outside is `none`.  Headers and stamps are left out.
-/
namespace Verif.Picture
open Verif.GridMetric (Info Cell Pose grid2Metric)

variable {K : Type} [Field K] [LinearOrder K] [IsStrictOrderedRing K] [FloorRing K]

/-- The order of the loops planner_3d.cpp:674–676, 703–705, costmap_bbf.cpp:104–106: rows from the first to the last. -/
def cells (w h : Nat) : List (Nat × Nat) := (List.range h).flatMap fun y => (List.range w).map fun x => (x, y)

/-- `data[i] = v`. -/
def write {α : Type} (d : List α) (i : Nat) (v : α) : Option (List α) := if i < d.length then some (d.set i v) else none

/-- One point of the cloud: position, height and the value of the channel. -/
structure Point (K : Type) where
  x : K
  y : K
  z : K
  value : K
  deriving DecidableEq, Repr

/-- 678–686: the point of one cell, `none` is `continue`; `k` is `k_dist`, 673. -/
def point (m : Info K) (vel : K) (dist : Nat × Nat → Option K) (c : Nat × Nat) : Option (Point K) :=
  (dist c).map fun d =>
    let p := grid2Metric m ⟨c.1, c.2, 0⟩
    ⟨p.x, p.y, d / 500, d * (m.res * vel)⟩

/-- `publishDebug`, 664–690: the cloud `distance_map`. -/
def distanceCloud (m : Info K) (vel : K) (w h : Nat) (dist : Nat × Nat → Option K) : List (Point K) := (cells w h).filterMap (point m vel dist)

/-- 710–714: the least value over the headings, beginning with 100. -/
def leastHyst (angle : Nat) (hyst : Nat × Nat → Nat → Int) (c : Nat × Nat) : Int :=
  (List.range angle).foldl (fun cost a => min (hyst c a) cost) 100

/-- 707–715: one cell of the picture. -/
def hystStep (w angle : Nat) (dist : Nat × Nat → Option K) (hyst : Nat × Nat → Nat → Int) (d : List Int) (c : Nat × Nat) : Option (List Int) :=
  if dist c = none then some d else write d (c.1 + c.2 * w) (leastHyst angle hyst c)

/-- `publishDebug`, 692–718: the data of `hysteresis_map`. -/
def hystPicture (w h angle : Nat) (dist : Nat × Nat → Option K) (hyst : Nat × Nat → Nat → Int) : Option (List Int) :=
  (cells w h).foldlM (hystStep w angle dist hyst) (List.replicate (w * h) 100)

/-- 734–735, converted to `int8_t` (towards zero). -/
def percent (o : K) : Int :=
  let x := (Bbf.oddsToProbability o - Bbf.minP) * 100 / (Bbf.maxP - Bbf.minP)
  if 0 ≤ x then ⌊x⌋ else -⌊-x⌋

/-- `publishRememberedMap`, 720–740, with `forEach`, costmap_bbf.cpp:102–111: the data of `remembered_map`. -/
def memoryPicture (w h : Nat) (odds : Int × Int → K) : Option (List Int) :=
  (cells w h).foldlM (fun d c => write d (c.1 + c.2 * w) (percent (odds (c.1, c.2)))) (List.replicate (w * h) 0)

/-- costmap_3d.cpp:141–152: one turn of the loops of the costmap node's `publishDebug`; `i` counts the cells of a heading, `yaw` the headings; a read
outside the data is `none`. -/
def lethalStep (m : Info K) (w h : Nat) (data : List Int) (pc : List (K × K × K)) (k : Nat × Nat) : Option (List (K × K × K)) :=
  let yaw := k.1
  let i := k.2
  match data[i + yaw * w * h]? with
  | none => none
  | some v =>
    if v < 100 then some pc
    else some (pc ++ [(((i % w : Nat) : K) * m.res + m.ox, ((i / w : Nat) : K) * m.res + m.oy, (yaw : K) * (1 / 10))])

/-- `publishDebug` of the costmap node, costmap_3d.cpp:133–155: the cloud of the lethal cells of a costmap message. -/
def lethalCloud (m : Info K) (w h angle : Nat) (data : List Int) : Option (List (K × K × K)) :=
  ((List.range angle).flatMap fun yaw => (List.range (w * h)).map fun i => (yaw, i)).foldlM (lethalStep m w h data) []

end Verif.Picture
