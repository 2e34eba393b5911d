import Verif.Polygon.Model
import Mathlib.Algebra.Order.Floor.Ring
/-! # The footprint layer: configuration-space template and obstacle inflation

`costmap_cspace/include/costmap_cspace/costmap_3d_layer/footprint.h` and `cspace3_cache.h`.  The cells of a
configuration-space map are a function of column, row and heading (`Verif.Region` treats the flat buffer); `float` and
`double` are an ordered field with floor `K`, the template itself uses the reals. -/
namespace Verif.CSpace
open Verif.Polygon

section
variable {K : Type} [Field K] [LinearOrder K] [FloorRing K]

/-- `nav_msgs::OccupancyGrid` (the fields used). -/
structure Grid (K : Type) where
  w : Nat
  h : Nat
  res : K
  ox : K
  oy : K
  data : List Int

/-- `costmap_cspace_msgs::MapMetaData3D` (the fields used). -/
structure Info (K : Type) where
  w : Nat
  h : Nat
  ang : Nat
  res : K
  ox : K
  oy : K

/-- Cells of a configuration-space map: column, row, heading. -/
abbrev Cells := Int → Int → Int → Int

/-- `std::lround`: to the nearest integer, halves away from zero. -/
def lround (x : K) : Int := if 0 ≤ x then ⌊x + 1 / 2⌋ else -⌊-x + 1 / 2⌋

/-- footprint.h 294–297 (also 232–237, base.h 353–358): the grid's offset in the map. -/
def offX (g : Grid K) (m : Info K) : Int := lround ((g.ox - m.ox) / m.res)
def offY (g : Grid K) (m : Info K) : Int := lround ((g.oy - m.oy) / m.res)

/-- footprint.h 298. -/
def scale (g : Grid K) (m : Info K) : K := g.res / m.res

/-- footprint.h 324–325 (also 304–305, 360–361): the map cell of the grid's `i`-th value. -/
def cellX (g : Grid K) (m : Info K) (i : Nat) : Int := lround (((i % g.w : Nat) : K) * scale g m) + offX g m
def cellY (g : Grid K) (m : Info K) (i : Nat) : Int := lround (((i / g.w : Nat) : K) * scale g m) + offY g m

/-- footprint.h 326–328: the comparison through `size_t` rejects negative and too large coordinates. -/
def inMap (m : Info K) (x y : Int) : Bool := decide (0 ≤ x ∧ x < m.w ∧ 0 ≤ y ∧ y < m.h)

/-- footprint.h 68–71. -/
structure Rect where
  xMin : Int
  xMax : Int
  yMin : Int
  yMax : Int
deriving Repr, DecidableEq

/-- footprint.h 316: the full template. -/
def fullRect (R : Int) : Rect := ⟨-R, R, -R, R⟩

/-- footprint.h 279–289: skip directions in which the neighbouring value is at least as large (or does not exist).
Reads only neighbours that exist in a grid with `w * h` values (`getD` is never used beyond the list then). -/
def maskedRect (R : Int) (g : Grid K) (i : Nat) : Rect :=
  let gx := i % g.w
  let gy := i / g.w
  let v := g.data.getD i 0
  { xMin := if gx = 0 ∨ g.data.getD (i - 1) 0 ≥ v then 0 else -R
    xMax := if gx = g.w - 1 ∨ g.data.getD (i + 1) 0 ≥ v then 0 else R
    yMin := if gy = 0 ∨ g.data.getD (i - g.w) 0 ≥ v then 0 else -R
    yMax := if gy = g.h - 1 ∨ g.data.getD (i + g.w) 0 ≥ v then 0 else R }

/-- footprint.h 290–292: with equal resolutions the masked range is used, otherwise the full one. -/
def rectOf (R : Int) (g : Grid K) (m : Info K) (i : Nat) : Rect :=
  if g.res = m.res then maskedRect R g i else fullRect R

/-- footprint.h 337–352: raise the cells covered by the template placed at `(gx, gy)`.  Each cell of the clipped
rectangle is visited once and updated independently, so the loops are written as one function of the cell. -/
def stamp (t : Int → Int → Int) (m : Info K) (rc : Rect) (gx gy val : Int) (c : Int → Int → Int) : Int → Int → Int :=
  fun x y =>
    if max (gx + rc.xMin) 0 ≤ x ∧ x ≤ min (gx + rc.xMax) (m.w - 1) ∧
        max (gy + rc.yMin) 0 ≤ y ∧ y ≤ min (gy + rc.yMax) (m.h - 1) then
      let v := (t (x - gx) (y - gy) * val).tdiv 100
      if v > 0 ∧ c x y < v then v else c x y
    else c x y

/-- footprint.h 317–353: one source value. -/
def putValue (R : Int) (t : Int → Int → Int) (g : Grid K) (m : Info K) (c : Int → Int → Int) (iv : Nat × Int) :
    Int → Int → Int :=
  let (i, val) := iv
  if val < 0 then c
  else
    let gx := cellX g m i
    let gy := cellY g m i
    if inMap m gx gy = false then c
    else if val = 0 then
      fun x y => if x = gx ∧ y = gy then (if c x y < 0 then 0 else c x y) else c x y
    else stamp t m (rectOf R g m i) gx gy val c

/-- The values with their indices, in storage order. -/
def Grid.items (g : Grid K) : List (Nat × Int) := (List.range g.data.length).map fun i => (i, g.data.getD i 0)

/-- footprint.h 299–315 and 354–367: cells unknown both in the parent map and in the grid are set back to unknown. -/
def restoreUnknown (g : Grid K) (m : Info K) (before : Int → Int → Int) (c : Int → Int → Int) (iv : Nat × Int) :
    Int → Int → Int :=
  let (i, val) := iv
  let gx := cellX g m i
  let gy := cellY g m i
  if inMap m gx gy = false then c
  else if val < 0 ∧ before gx gy < 0 then fun x y => if x = gx ∧ y = gy then -1 else c x y
  else c

/-- footprint.h 274–368: one heading. -/
def generateSpecified (keepUnknown : Bool) (R : Int) (t : Int → Int → Int) (g : Grid K) (m : Info K)
    (c : Int → Int → Int) : Int → Int → Int :=
  let c' := g.items.foldl (putValue R t g m) c
  if keepUnknown then g.items.foldl (restoreUnknown g m c) c' else c'

/-- footprint.h 242–271: clear the cells of one known value whose template fits into the grid.  `res_up` is
`ceil(resolution_scale)`. -/
def clearValue (R : Int) (g : Grid K) (m : Info K) (c : Int → Int → Int) (iv : Nat × Int) : Int → Int → Int :=
  let (i, val) := iv
  if val < 0 then c
  else
    let x := lround (((i % g.w : Nat) : K) * scale g m)
    let y := lround (((i / g.w : Nat) : K) * scale g m)
    if x < R ∨ (g.w : Int) - R ≤ x then c
    else if y < R ∨ (g.h : Int) - R ≤ y then c
    else
      let up := ⌈scale g m⌉
      fun x2 y2 =>
        if (x + offX g m ≤ x2 ∧ x2 < x + offX g m + up) ∧ (y + offY g m ≤ y2 ∧ y2 < y + offY g m + up) ∧
            inMap m x2 y2 then -1
        else c x2 y2

/-- base.h 96–100: `MapOverlayMode`. -/
inductive Mode
  | overwrite
  | max
deriving Repr, DecidableEq

/-- footprint.h 224–272. -/
def clearTravelable (mode : Mode) (root : Bool) (R : Int) (g : Grid K) (m : Info K) (c : Int → Int → Int) :
    Int → Int → Int :=
  if mode ≠ .overwrite ∨ root then c else g.items.foldl (clearValue R g m) c

/-- footprint.h 210–221: all headings. -/
def generate (mode : Mode) (root keepUnknown : Bool) (R : Int) (t : Cells) (g : Grid K) (m : Info K) (c : Cells) :
    Cells := fun x y a =>
  if 0 ≤ a ∧ a < m.ang then
    generateSpecified keepUnknown R (fun x y => t x y a) g m (clearTravelable mode root R g m (fun x y => c x y a)) x y
  else c x y a

end

/-! ### The template -/

/-- Footprint parameters (footprint.h 59–65). -/
structure Foot where
  pts : List (Pt ℝ)
  expand : ℝ
  spread : ℝ
  minCost : Int

/-- footprint.h 146–147. -/
noncomputable def Foot.rangeMax (f : Foot) (res : ℝ) : Int := ⌈(radius (close f.pts) + f.expand + f.spread) / res⌉

/-- Conversion of a `float` to `char` truncates toward zero. -/
noncomputable def trunc (x : ℝ) : Int := if 0 ≤ x then ⌊x⌋ else ⌈x⌉

/-- footprint.h 158–193: one template cell; `big` is the largest `float`. -/
noncomputable def Foot.template (big : ℝ) (f : Foot) (res angRes : ℝ) (x y yaw : Int) : Int :=
  if radius (close f.pts) = 0 ∧ x = 0 ∧ y = 0 then 100
  else
    let v := move (x * res) (y * res) (yaw * angRes) (close f.pts)
    if inside v (0, 0) then 100
    else
      let d := distFrom big (0, 0) v
      if d < f.expand then 100
      else if d < f.expand + f.spread then trunc (100 - (d - f.expand) * (100 - f.minCost) / f.spread)
      else if |f.expand + f.spread - d| < res / 100 then f.minCost
      else 0

/-! ### `CSpace3Cache` (cspace3_cache.h) -/

/-- cspace3_cache.h 57–71. -/
structure Cache where
  cx : Nat
  cy : Nat
  ang : Nat
deriving Repr, DecidableEq

/-- cspace3_cache.h 65. -/
def Cache.arraySize (c : Cache) : Nat := (2 * c.cx + 1) * (2 * c.cy + 1) * c.ang

/-- cspace3_cache.h 73–79: the address, `none` when the assertion fails (a negative sum wraps to a huge `size_t`). -/
def Cache.addr (c : Cache) (x y yaw : Int) : Option Nat :=
  let a := yaw * ((2 * c.cx + 1) * (2 * c.cy + 1) : Nat) + (y + c.cy) * (2 * c.cx + 1 : Nat) + (x + c.cx)
  if 0 ≤ a ∧ a < c.arraySize then some a.toNat else none

end Verif.CSpace
