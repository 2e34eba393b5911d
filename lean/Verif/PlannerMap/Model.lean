import Verif.GridMetric.Model
/-! # The planner's costmap under base maps and updates

`planner_cspace/src/planner_3d.cpp`: `applyCostmapUpdate` (777–881), `cbMapUpdate` (965–987), `cbMap` (988–1108).

* The blocked grid maps `cm_`, `cm_base_`, `cm_rough_`, `cm_rough_base_`, `cm_updates_` are functions on cells (that is what they
  are for positions inside the map: `Verif.Gridmap`, property C02).  Accessing a cell outside the map is undefined: `none`.
* `uint32` fields are `Nat` below 2^32; sums wrap at 2^32 and `static_cast<int>` reinterprets two's complement.
* A `char`/`int8` cell is an `Int`.  The hysteresis map, the remembered costmap, the distance map and planning, which follow in the
  same functions, are not part of this model. -/
namespace Verif.PlannerMap
open Verif.GridMetric (Cell)

/-- `static_cast<int>(uint32)`. -/
def i32 (n : Nat) : Int := if n % 2 ^ 32 < 2 ^ 31 then ((n % 2 ^ 32 : Nat) : Int) else ((n % 2 ^ 32 : Nat) : Int) - 2 ^ 32

/-- `costmap_cspace_msgs/CSpace3DUpdate`: `header.stamp`, `x`, `y`, `yaw`, `width`, `height`, `angle`, `data`. -/
structure Update where
  stamp : Int
  x : Nat
  y : Nat
  yaw : Nat
  width : Nat
  height : Nat
  angle : Nat
  data : List Int

/-- `costmap_cspace_msgs/CSpace3D`: stamp, `info.width/height/angle`, `data`. -/
structure BaseMap where
  stamp : Int
  width : Nat
  height : Nat
  angle : Nat
  data : List Int

/-- Members of the node used here. `mapInfo` is `has_map_` with the sizes in `map_info_`. -/
structure St where
  hasMap : Bool
  width : Nat
  height : Nat
  angle : Nat
  cm : Cell → Int
  base : Cell → Int
  rough : Cell → Int
  roughBase : Cell → Int
  updates : Cell → Int
  /-- `prev_map_update_{x,y}_{min,max}_` -/
  pxMin : Int
  pxMax : Int
  pyMin : Int
  pyMax : Int
  /-- `map_update_retained_` -/
  retained : Option Update

/-- Constructor: no map yet. -/
def init : St :=
  { hasMap := false, width := 0, height := 0, angle := 0, cm := fun _ => 0, base := fun _ => 0, rough := fun _ => 0,
    roughBase := fun _ => 0, updates := fun _ => 0, pxMin := 0, pxMax := 0, pyMin := 0, pyMax := 0, retained := none }

/-- The integers `a … b`. -/
def span (a b : Int) : List Int := (List.range (b - a + 1).toNat).map fun (k : Nat) => a + (k : Int)

/-- Positions visited by `clear_partially`/`copy_partially` (blockmem_gridmap.h:139–171). -/
def box (x0 x1 y0 y1 a0 a1 : Int) : List Cell :=
  (span x0 x1).flatMap fun x => (span y0 y1).flatMap fun y => (span a0 a1).map fun a => ⟨x, y, a⟩

/-- The position is inside a map of the given size. -/
def InMap (w h a : Nat) (c : Cell) : Prop :=
  (0 ≤ c.x ∧ c.x < (w : Int)) ∧ (0 ≤ c.y ∧ c.y < (h : Int)) ∧ (0 ≤ c.yaw ∧ c.yaw < (a : Int))

instance (w h a : Nat) (c : Cell) : Decidable (InMap w h a c) := by unfold InMap; infer_instance

/-- `(*this)[p] = v` in a map of size `w × h × a`. -/
def write (w h a : Nat) (g : Cell → Int) (p : Cell) (v : Int) : Option (Cell → Int) :=
  if InMap w h a p then some (fun c => if c = p then v else g c) else none

/-- `copy_partially(base, min, max)`. -/
def copyPartially (w h a : Nat) (g src : Cell → Int) (ps : List Cell) : Option (Cell → Int) :=
  ps.foldlM (fun g p => write w h a g p (src p)) g

/-- `clear_partially(v, min, max)`. -/
def clearPartially (w h a : Nat) (g : Cell → Int) (v : Int) (ps : List Cell) : Option (Cell → Int) :=
  ps.foldlM (fun g p => write w h a g p v) g

/-- `msg->data[((p[2] * msg->height) + p[1]) * msg->width + p[0]]`, planner_3d.cpp:852–853 and 866–867, in `uint32`; reading past
the end is undefined. -/
def dataAt (u : Update) (px py pa : Nat) : Option Int := u.data[((pa * u.height + py) * u.width + px) % 2 ^ 32]?

/-- `for (p = 0; p < static_cast<int>(n); p++)`. -/
def upTo (n : Nat) : List Nat := List.range (i32 n).toNat

/-- The cell `gp + p`, planner_3d.cpp:842–844. -/
def target (u : Update) (px py pa : Nat) : Cell := ⟨i32 u.x + px, i32 u.y + py, i32 u.yaw + pa⟩

/-- The three maps changed by the loop. -/
structure Maps where
  cm : Cell → Int
  rough : Cell → Int
  updates : Cell → Int

/-- `cost_min`, planner_3d.cpp:849–858. -/
def costMin (u : Update) (px py : Nat) : Option Int :=
  (upTo u.angle).foldlM (fun m pa => (dataAt u px py pa).map fun c => if c < m then c else m) 100

/-- planner_3d.cpp:866–877 for one heading. -/
def cmStep (w h a : Nat) (overwrite : Bool) (u : Update) (px py : Nat) (cm : Cell → Int) (pa : Nat) : Option (Cell → Int) :=
  (dataAt u px py pa).bind fun c =>
    let p := target u px py pa
    if overwrite then (if c ≥ 0 then write w h a cm p c else some cm)
    else if InMap w h a p then (if cm p < c then write w h a cm p c else some cm) else none

/-- Body of the two outer loops, planner_3d.cpp:849–878. -/
def cellStep (w h a : Nat) (overwrite : Bool) (u : Update) (m : Maps) (p : Nat × Nat) : Option Maps :=
  (costMin u p.1 p.2).bind fun cMin =>
    let q : Cell := ⟨i32 u.x + p.1, i32 u.y + p.2, 0⟩
    (write w h 1 m.updates q cMin).bind fun updates' =>
      (if cMin > m.rough q then write w h 1 m.rough q cMin else some m.rough).bind fun rough' =>
        ((upTo u.angle).foldlM (cmStep w h a overwrite u p.1 p.2) m.cm).map fun cm' =>
          { cm := cm', rough := rough', updates := updates' }

/-- The two outer loops. -/
def cellsOf (u : Update) : List (Nat × Nat) := (upTo u.width).flatMap fun px => (upTo u.height).map fun py => (px, py)

/-- `map_update_x_max`, `map_update_y_max`, planner_3d.cpp:783 and 785. -/
def lastIndex (pos len : Nat) : Int := max (i32 (pos + len) - 1) 0

/-- The range check, planner_3d.cpp:787–797. -/
def outOfRange (s : St) (u : Update) : Prop :=
  lastIndex u.x u.width ≥ (s.width : Int) ∨ lastIndex u.y u.height ≥ (s.height : Int) ∨ u.angle > s.angle

instance (s : St) (u : Update) : Decidable (outOfRange s u) := by unfold outOfRange; infer_instance

/-- planner_3d.cpp:801–812: the previous update is removed. -/
def restore (s : St) : Option Maps :=
  let prev3 := box s.pxMin s.pxMax s.pyMin s.pyMax 0 ((s.angle : Int) - 1)
  let prev2 := box s.pxMin s.pxMax s.pyMin s.pyMax 0 0
  (copyPartially s.width s.height s.angle s.cm s.base prev3).bind fun cm =>
    (copyPartially s.width s.height 1 s.rough s.roughBase prev2).bind fun rough =>
      (clearPartially s.width s.height 1 s.updates (-1) prev2).map fun updates => { cm, rough, updates }

/-- `applyCostmapUpdate`, planner_3d.cpp:777–882. -/
def applyUpdate (overwrite : Bool) (s : St) (u : Update) : Option St :=
  if outOfRange s u then some { s with retained := some u }
  else
    (restore s).bind fun m0 =>
      ((cellsOf u).foldlM (cellStep s.width s.height s.angle overwrite u) m0).map fun m =>
        { s with cm := m.cm, rough := m.rough, updates := m.updates,
                 pxMin := i32 u.x, pxMax := lastIndex u.x u.width,
                 pyMin := i32 u.y, pyMax := lastIndex u.y u.height, retained := none }

/-- `cbMapUpdate`, planner_3d.cpp:966–987 (both branches apply the update). -/
def cbMapUpdate (overwrite : Bool) (s : St) (u : Update) : Option St :=
  if s.hasMap then applyUpdate overwrite s u else some s

/-- One cell of the received map, planner_3d.cpp:1062–1066. -/
def baseCell (unknown : Int) (m : BaseMap) (c : Cell) : Int :=
  let v := m.data.getD (((c.yaw * m.height) + c.y) * m.width + c.x).toNat 0
  if v < 0 then unknown else v

/-- `cm_rough_`, planner_3d.cpp:1059–1071. -/
def roughCell (unknown : Int) (m : BaseMap) (c : Cell) : Int :=
  (List.range m.angle).foldl
    (fun mn (k : Nat) => if baseCell unknown m ⟨c.x, c.y, k⟩ < mn then baseCell unknown m ⟨c.x, c.y, k⟩ else mn) 100

/-- planner_3d.cpp:1032–1098: the maps are reallocated and every cell is assigned once (a data array that is too short is read past
its end: undefined), the previous rectangle is made empty. -/
def loadMap (unknown : Int) (s : St) (m : BaseMap) : Option St :=
  if m.data.length < m.width * m.height * m.angle then none
  else some
    { s with hasMap := true, width := m.width, height := m.height, angle := m.angle,
             cm := baseCell unknown m, base := baseCell unknown m,
             rough := roughCell unknown m, roughBase := roughCell unknown m, updates := fun _ => 0,
             pxMin := m.width, pxMax := 0, pyMin := m.height, pyMax := 0 }

/-- `cbMap`, planner_3d.cpp:988–1108. -/
def cbMap (overwrite : Bool) (unknown : Int) (s : St) (m : BaseMap) : Option St :=
  (loadMap unknown s m).bind fun s1 =>
    match s1.retained with
    | some u =>
      if u.stamp ≥ m.stamp then (cbMapUpdate overwrite s1 u).map fun s2 => { s2 with retained := none }
      else some { s1 with retained := none }
    | none => some s1

/-- Messages; `overwrite_cost` can be reconfigured between messages, so each event carries its current value. -/
inductive Event where
  | map (overwrite : Bool) (m : BaseMap)
  | update (overwrite : Bool) (u : Update)

/-- One callback; `unknown` is `unknown_cost_`. -/
def step (unknown : Int) (s : St) : Event → Option St
  | .map o m => cbMap o unknown s m
  | .update o u => cbMapUpdate o s u

/-- A history of callbacks. -/
def run (unknown : Int) (h : List Event) : Option St := h.foldlM (step unknown) init

end Verif.PlannerMap
