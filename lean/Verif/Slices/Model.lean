import Mathlib.Algebra.Order.Field.Basic
import Mathlib.Algebra.Order.Floor.Ring
import Mathlib.Data.List.Dedup
import Mathlib.Data.Nat.Sqrt
/-!
# Model of `map_organizer/src/pointcloud_to_maps.cpp`: `cbPoints`

A point is the triple of integer cells `int(p.x / grid)`, `int(p.y / grid)`, `int(p.z / grid)`.  Grid data are functions of
the absolute cell; the stored array covers the rectangle `Rect` (`addr`).  Areas are cell counts: all areas of the code are
counts times `grid * grid`.  `z / grid` of a stored altitude `h * grid` is taken to be `h`.
-/
namespace Verif.Slices

variable {K : Type} [Field K] [LinearOrder K] [IsStrictOrderedRing K] [FloorRing K]

abbrev Cell := Int × Int

structure Pt where
  x : Int
  y : Int
  h : Int
deriving DecidableEq

def Pt.cell (p : Pt) : Cell := (p.x, p.y)

/-- Parameters, pointcloud_to_maps.cpp:77-98. -/
structure Cfg (K : Type) where
  floorHeight : Int
  floorTolerance : Int
  robotHeight : Int
  pointsThreshRate : K
  floorAreaThreshRate : K
  grid : K
  minFloorArea : K

/-- Extent of the map, lines 101-128: the maxima start at 0. -/
structure Rect where
  xMin : Int
  xMax : Int
  yMin : Int
  yMax : Int

def rectOf (pts : List Pt) : Option Rect :=
  match pts with
  | [] => none
  | p :: ps => some ⟨ps.foldl (fun m q => min m q.x) p.x, pts.foldl (fun m q => max m q.x) 0,
      ps.foldl (fun m q => min m q.y) p.y, pts.foldl (fun m q => max m q.y) 0⟩

/-- Heights of the slices, `min_height` to `max_height`, lines 103, 125-126. -/
def heights (pts : List Pt) : List Int :=
  match pts with
  | [] => []
  | p :: ps =>
    let lo := ps.foldl (fun m q => min m q.h) p.h
    let hi := pts.foldl (fun m q => max m q.h) 0
    (List.range (hi + 1 - lo).toNat).map (fun (i : Nat) => lo + (i : Int))

/-- Histogram of heights, lines 121-123. -/
def hist (pts : List Pt) (i : Int) : Nat := (pts.filter (fun p => p.h = i)).length

/-- `hist_max` (lines 143-146) and `min_points` (line 148). -/
def minPoints (c : Cfg K) (pts : List Pt) : Int :=
  ⌊(((pts.map (fun p => hist pts p.h)).foldr max 0 : Nat) : K) * c.pointsThreshRate⌋

/-- `hist[i] > min_points`. -/
def tall (c : Cfg K) (pts : List Pt) (i : Int) : Bool := decide ((hist pts i : Int) > minPoints c pts)

/-- Classification of one point for slice `i`, lines 157-175: `floor[i][v]` absent, 0 (`false`) or 1 (`true`). -/
def mark (c : Cfg K) (i : Int) (f : Cell → Option Bool) (p : Pt) : Cell → Option Bool :=
  if |i - p.h| ≤ c.floorHeight then
    if f p.cell = none then Function.update f p.cell (some false) else f
  else if i + c.floorHeight + c.floorTolerance < p.h ∧ p.h ≤ i + c.robotHeight then Function.update f p.cell (some true)
  else f

/-- `floor[i]`. -/
def floorOf (c : Cfg K) (pts : List Pt) (i : Int) : Cell → Option Bool := pts.foldl (mark c i) (fun _ => none)

/-- `floor_runnable_area[i]` in cells, lines 177-183 (0 for slices that are not tall). -/
def runnable (c : Cfg K) (pts : List Pt) (i : Int) : Nat :=
  if tall c pts i then ((pts.map Pt.cell).dedup.filter (fun v => floorOf c pts i v = some false)).length else 0

/-- A map: altitude, `floor_runnable_area` at that altitude, and data. -/
structure Map where
  h : Int
  area : Nat
  data : Cell → Int

/-- The map of a slice, lines 204-220. -/
def toMap (c : Cfg K) (pts : List Pt) (i : Int) : Map :=
  ⟨i, runnable c pts i, fun v => match floorOf c pts i v with
    | none => -1
    | some false => 0
    | some true => 100⟩

/-- Is slice `i` a floor candidate, lines 196-203? -/
def candidate (c : Cfg K) (pts : List Pt) (hs : List Int) (i : Int) : Bool :=
  tall c pts i &&
  (decide (hs.head? = some i) || decide (runnable c pts (i - 1) ≤ runnable c pts i)) &&
  (decide (hs.getLast? = some i) || decide (runnable c pts (i + 1) ≤ runnable c pts i)) &&
  decide ((runnable c pts i : K) > (((hs.map (runnable c pts)).foldr max 0 : Nat) : K) * c.floorAreaThreshRate)

/-- Lines 194-226. -/
def candidates (c : Cfg K) (pts : List Pt) : List Map :=
  ((heights pts).filter (candidate c pts (heights pts))).map (toMap c pts)

/-- Cells of the rectangle. -/
def cells (r : Rect) : List Cell :=
  (List.range (r.yMax + 1 - r.yMin).toNat).flatMap fun (y : Nat) =>
    (List.range (r.xMax + 1 - r.xMin).toNat).map fun (x : Nat) => (r.xMin + (x : Int), r.yMin + (y : Int))

/-- Index in the data array, line 213. -/
def addr (r : Rect) (v : Cell) : Int := (v.1 - r.xMin) + (v.2 - r.yMin) * (r.xMax - r.xMin + 1)

/-- Number of free cells, lines 248-256. -/
def freeCount (r : Rect) (d : Cell → Int) : Nat := ((cells r).filter (fun v => d v = 0)).length

/-- Merge of one cell of the lower (`it`) and upper (`it_prev`) slice, lines 237-246. -/
def mergeCell (lo hi : Int) : Int × Int :=
  if lo ≠ 0 ∧ hi = 0 then (0, -1) else if lo = 0 ∧ hi = 0 then (lo, -1) else (lo, hi)

/-- The merge loop, lines 228-260, on the candidates from the highest (`prev`) down. -/
def mergeDown (r : Rect) (prev : Map) : List Map → List Map
  | [] => [prev]
  | m :: ms =>
    if 2 * |prev.h - m.h| < 3 then
      let lo := fun v => (mergeCell (m.data v) (prev.data v)).1
      let hi := fun v => (mergeCell (m.data v) (prev.data v)).2
      ⟨prev.h, freeCount r hi, hi⟩ :: mergeDown r ⟨m.h, freeCount r lo, lo⟩ ms
    else prev :: mergeDown r m ms

/-- The merge of all candidates (given in ascending order). -/
def mergeAll (r : Rect) (ms : List Map) : List Map :=
  match ms.reverse with
  | [] => []
  | m :: rest => (mergeDown r m rest).reverse

/-- Squared distance. -/
def dist2 (a b : Cell) : Int := (a.1 - b.1) * (a.1 - b.1) + (a.2 - b.2) * (a.2 - b.2)

/-- `floor_width` of a free cell after the search for obstacles, lines 294-317: `width = 6`; each obstacle of the map within it
lowers the value to the truncated distance. -/
def floorWidth (r : Rect) (d : Cell → Int) (f : Cell) : Int :=
  (cells r).foldl (fun (w : Int) v =>
    if dist2 v f > 36 then w
    else if d v = 100 then if dist2 v f < w * w then (Nat.sqrt (dist2 v f).toNat : Int) else w
    else w) 6

/-- Widening of one free cell, lines 318-337: cells of the map within `floor_width - 1` become free unless occupied. -/
def widenCell (r : Rect) (cp : Cell → Int) (d : Cell → Int) (f : Cell) : Cell → Int :=
  if cp f = 0 then
    fun v => if v ∈ cells r ∧ 0 ≤ floorWidth r cp f - 1 ∧
        dist2 v f ≤ (floorWidth r cp f - 1) * (floorWidth r cp f - 1) ∧ cp v ≠ 100 then 0 else d v
  else d

/-- Lines 291-341. -/
def widen (r : Rect) (cp : Cell → Int) : Cell → Int := (cells r).foldl (widenCell r cp) cp

/-- Lines 278-352: floors with enough area are widened and published, in ascending order. -/
def publish (c : Cfg K) (r : Rect) (ms : List Map) : List Map :=
  (ms.filter (fun m => decide (¬ (m.area : K) * (c.grid * c.grid) < c.minFloorArea))).map
    (fun m => { m with data := widen r m.data })

/-- `cbPoints`.  For an empty cloud the message holds no map (the code then also computes an iterator before the
beginning of an empty vector, line 229, which is not dereferenced). -/
def cbPoints (c : Cfg K) (pts : List Pt) : List Map :=
  match rectOf pts with
  | none => []
  | some r => publish c r (mergeAll r (candidates c pts))

end Verif.Slices
