import Verif.CSpace.Model
import Verif.Region.Model
/-! # Layer chain, update messages and buffering of the costmap node

`costmap_cspace/include/costmap_cspace/costmap_3d_layer/{base,footprint,plain,unknown_handle,stop_propagation,output}.h`
and `costmap_cspace/src/costmap_3d.cpp`.  Cells are a function of column, row and heading; block copies act on it as
`Verif.Region.bitblt_spec` proves they act on the flat buffers.  A layer's `map_` is the `map_overlay_` of its parent
(base.h 293–298), so it is passed as an argument. -/
namespace Verif.Layers
open Verif.CSpace Verif.Region

variable {K : Type} [Field K] [LinearOrder K] [FloorRing K]

/-- `nav_msgs::OccupancyGrid` with the header fields used. -/
structure Msg (K : Type) where
  grid : Grid K
  frame : Nat
  stamp : Nat

/-- The layer classes.  `foot` is `Costmap3dLayerFootprint`/`Costmap3dLayerPlain`, with its range and template as
functions of the map's metadata (`setMapMetaData`, see `Verif.CSpace.Foot`). -/
inductive Kind (K : Type)
  | foot (range : Info K → Int) (templ : Info K → Cells) (mode : Mode) (keep : Bool)
  | unknown (cost : Int)
  | stop
  | staticOut
  | updateOut

/-- base.h 257–269 and, for output layers, output.h 54 (`outPrev`, the `region_prev_` that hides the base class's).
`mapStamp` is `map_->header.stamp`. -/
structure Layer (K : Type) where
  kind : Kind K
  overlay : Cells
  region : Region
  regionPrev : Region
  updated : Option (Msg K)
  outPrev : Region
  mapStamp : Nat

/-- base.h 270–278: a layer before any map. -/
def Layer.fresh (k : Kind K) : Layer K := ⟨k, fun _ _ _ => 0, .zero, .zero, none, .zero, 0⟩

/-- `costmap_cspace_msgs::CSpace3DUpdate`. -/
structure Update where
  stamp : Nat
  x : Int
  y : Int
  yaw : Int
  width : Int
  height : Int
  angle : Int
  data : List Int
deriving Repr, DecidableEq

/-- What the node publishes: the whole map (`costmap`) or an update (`costmap_update`). -/
inductive Out
  | map (stamp : Nat) (cells : Cells)
  | update (u : Update)

/-- Cells visited by the loops of base.h 229–248 and unknown_handle.h 75–96 for a region. -/
def covered (m : Info K) (r : Region) (x y a : Int) : Bool :=
  decide (r.x ≤ x ∧ x < r.x + r.width ∧ r.y ≤ y ∧ y < r.y + r.height ∧ r.yaw ≤ a ∧ a < r.yaw + r.angle ∧
    0 ≤ x ∧ x < m.w ∧ 0 ≤ y ∧ y < m.h ∧ 0 ≤ a ∧ a < m.ang)

/-- base.h 216–249. -/
def blit (m : Info K) (r : Region) (dst src : Cells) : Cells :=
  let r := r.normalize m.w m.h
  fun x y a => if covered m r x y a then src x y a else dst x y a

/-- base.h 327–329, 346–347, stop_propagation.h 64–65: the whole map. -/
def fullRegion (m : Info K) (stamp : Nat) : Region := ⟨0, 0, 0, m.w, m.h, m.ang, stamp⟩

/-- All cells in the order of the map's buffer (base.h 54–57). -/
def flat (m : Info K) (c : Cells) : List Int :=
  (List.range (m.w * m.h * m.ang)).map fun (i : Nat) =>
    c ((i % m.w : Nat) : Int) ((i / m.w % m.h : Nat) : Int) ((i / m.w / m.h : Nat) : Int)

/-- output.h 153–160: row by row. -/
def rows (c : Cells) (x y yaw : Int) (w h a : Nat) : List Int :=
  (List.range a).flatMap fun (k : Nat) =>
    (List.range h).flatMap fun (j : Nat) => (List.range w).map fun (i : Nat) => c (x + i) (y + j) (yaw + k)

/-- output.h 111–162: the update message from the layer's region, the previously published region and the parent's
cells.  `none` is the failing assertion.  Also returns the new `region_prev_` and the new stamp of the map. -/
def updateMsg (m : Info K) (region prev : Region) (stamp : Nat) (src : Cells) : Option (Update × Region × Nat) :=
  let r := region.normalize m.w m.h
  let rm := (r.merge prev).normalize m.w m.h
  if (rm.x + rm.width) * (rm.y + rm.height) ≤ (m.w : Int) * m.h then
    let u : Update := ⟨stamp, rm.x, rm.y, rm.yaw, rm.width, rm.height, rm.angle, []⟩
    let u :=
      if r.width = 0 ∨ r.height = 0 then { u with width := 0, height := 0 }
      else if u.x = 0 ∧ u.y = 0 ∧ u.yaw = 0 ∧ u.width = m.w ∧ u.height = m.h ∧ u.angle = m.ang then
        { u with data := flat m src }
      else { u with data := rows src u.x u.y u.yaw u.width.toNat u.height.toNat u.angle.toNat }
    some (u, r, region.stamp)
  else none

/-- footprint.h 201–209, and the empty `updateCSpace` of the other layers. -/
def applyMsg (m : Info K) (k : Kind K) (msg : Msg K) (ov : Cells) : Cells :=
  match k with
  | .foot R t mode keep => generate mode false keep (R m) (t m) msg.grid m ov
  | _ => ov

/-- base.h 402–432: one layer of the propagation.  `src` is the parent's cells, `r` the region passed by the caller.
Returns the layer, what it publishes, and the output flag for the layers below. -/
def layerStep (m : Info K) (frame : Nat) (src : Cells) (r : Region) (output : Bool) (l : Layer K) :
    Option (Layer K × List Out × Bool) :=
  let region := (l.region.merge r).normalize m.w m.h
  let now := region.merge l.regionPrev
  let ov := blit m now l.overlay src
  let ov :=
    match l.updated with
    | some msg => if frame = msg.frame then applyMsg m l.kind msg ov else ov
    | none => ov
  let l := { l with region := region, regionPrev := region, overlay := ov }
  match l.kind with
  | .foot .. => some (l, [], output)
  | .unknown cost =>
    -- unknown_handle.h 73–97
    some ({ l with overlay := fun x y a => if covered m region x y a ∧ ov x y a < 0 then cost else ov x y a }, [], output)
  | .stop =>
    -- stop_propagation.h 62–69
    some ({ l with region := fullRegion m 0, overlay := fun _ _ _ => -1 }, [], output)
  | .staticOut =>
    -- output.h 87–92; the callback (costmap_3d.cpp 105–111) publishes and returns true
    some (l, if output then [.map l.mapStamp src] else [], false)
  | .updateOut =>
    -- output.h 103–109; the callback (costmap_3d.cpp 112–132) publishes and returns true
    match updateMsg m region l.outPrev l.mapStamp src with
    | none => none
    | some (u, prev, stamp) =>
      some ({ l with region := .zero, outPrev := prev, mapStamp := stamp }, if output then [.update u] else [], false)

/-- base.h 402–432: the propagation down the chain. -/
def entry (m : Info K) (frame : Nat) : Cells → Region → Bool → List (Layer K) → Option (List (Layer K) × List Out)
  | _, _, _, [] => some ([], [])
  | src, r, output, l :: ls =>
    match layerStep m frame src r output l with
    | none => none
    | some (l, o, output) => (entry m frame l.overlay l.region output ls).map fun (ls, o') => (l :: ls, o ++ o')

/-- base.h 353–367: the rectangle of map cells of an overlay message. -/
def window (m : Info K) (msg : Msg K) : Region :=
  ⟨offX msg.grid m, offY msg.grid m, 0, lround ((msg.grid.w : K) * msg.grid.res / m.res),
    lround ((msg.grid.h : K) * msg.grid.res / m.res), m.ang, msg.stamp⟩

/-- base.h 349–377: an overlay message to the `i`-th layer below. -/
def overlayAt (m : Info K) (frame : Nat) (msg : Msg K) : Cells → Nat → List (Layer K) → Option (List (Layer K) × List Out)
  | _, _, [] => some ([], [])
  | src, 0, l :: ls =>
    entry m frame src (window m msg) true ({ l with updated := some msg, region := window m msg } :: ls)
  | _, i + 1, l :: ls => (overlayAt m frame msg l.overlay i ls).map fun (ls, o) => (l :: ls, o)

/-- base.h 306–312: metadata of the configuration-space map of a base map. -/
def infoOf (ang : Nat) (msg : Msg K) : Info K :=
  ⟨msg.grid.w, msg.grid.h, ang, msg.grid.res, msg.grid.ox, msg.grid.oy⟩

/-- base.h 313–339: the root layer's map. -/
def rootCells (R : Info K → Int) (t : Info K → Cells) (mode : Mode) (keep : Bool) (m : Info K) (msg : Msg K) : Cells :=
  let c := generate mode true keep (R m) (t m) msg.grid m (fun _ _ _ => -1)
  fun x y a =>
    if 0 ≤ a ∧ a < m.ang ∧ 0 ≤ x ∧ x < m.w ∧ 0 ≤ y ∧ y < m.h ∧ msg.grid.data.getD (y.toNat * m.w + x.toNat) 0 < 0 then -1
    else c x y a

/-- costmap_3d.cpp 45–62: the node.  `root` is the root layer and its map, `layers` the rest of the chain. -/
structure Node (K : Type) where
  ang : Nat
  info : Info K
  frame : Nat
  rootMap : Cells
  root : Layer K
  layers : List (Layer K)
  buffer : List (Nat × Msg K)

/-- base.h 299–348 and 433–439.  `none` is the failing assertion on the number of values. -/
def setBaseMap (s : Node K) (msg : Msg K) : Option (Node K × List Out) :=
  if msg.grid.w * msg.grid.h ≤ msg.grid.data.length then
    let m := infoOf s.ang msg
    let c := match s.root.kind with
      | .foot R t mode keep => rootCells R t mode keep m msg
      | _ => fun _ _ _ => -1
    let reset := fun (l : Layer K) => { l with overlay := c, mapStamp := msg.stamp }
    match entry m msg.frame c (fullRegion m msg.stamp) true (reset s.root :: s.layers.map reset) with
    | some (root :: layers, o) =>
      some ({ s with info := m, frame := msg.frame, rootMap := c, root := root, layers := layers }, o)
    | _ => none
  else none

/-- costmap_3d.cpp 86–104 with base.h 349–377: layer `i` of the layers after the root. -/
def cbMapOverlay (s : Node K) (i : Nat) (msg : Msg K) : Option (Node K × List Out) :=
  if s.info.w < 1 ∨ s.info.h < 1 then some ({ s with buffer := s.buffer ++ [(i, msg)] }, [])
  else (overlayAt s.info s.frame msg s.root.overlay i s.layers).map fun (ls, o) => ({ s with layers := ls }, o)

/-- costmap_3d.cpp 80–81: the buffered messages, in order. -/
def replay : List (Nat × Msg K) → Node K → Option (Node K × List Out)
  | [], s => some (s, [])
  | (i, msg) :: b, s =>
    match cbMapOverlay s i msg with
    | none => none
    | some (s, o) => (replay b s).map fun (s, o') => (s, o ++ o')

/-- costmap_3d.cpp 64–85.  If the new map is still empty while messages are buffered, the loop appends to the vector it
iterates over: undefined (`none`). -/
def cbMap (s : Node K) (msg : Msg K) : Option (Node K × List Out) :=
  match setBaseMap s msg with
  | none => none
  | some (s, o) =>
    if s.buffer = [] then some (s, o)
    else if s.info.w < 1 ∨ s.info.h < 1 then none
    else (replay s.buffer s).map fun (s, o') => ({ s with buffer := [] }, o ++ o')

/-- Messages received by the node. -/
inductive Event (K : Type)
  | base (msg : Msg K)
  | overlay (i : Nat) (msg : Msg K)

def step (s : Node K) : Event K → Option (Node K × List Out)
  | .base msg => cbMap s msg
  | .overlay i msg => cbMapOverlay s i msg

/-- A history, oldest message first, with everything published. -/
def run (s : Node K) : List (Event K) → Option (Node K × List Out)
  | [] => some (s, [])
  | e :: es =>
    match step s e with
    | none => none
    | some (s, o) => (run s es).map fun (s, o') => (s, o ++ o')

/-- costmap_3d.cpp 180–388: the configured chain before any message. -/
def Node.init (ang : Nat) (z : K) (root : Kind K) (ks : List (Kind K)) : Node K :=
  ⟨ang, ⟨0, 0, 0, z, z, z⟩, 0, fun _ _ _ => 0, .fresh root, ks.map .fresh, []⟩

end Verif.Layers
