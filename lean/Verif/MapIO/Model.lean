import Mathlib.Algebra.Order.Field.Basic
import Mathlib.Algebra.Order.Floor.Ring
import Mathlib.Data.Rat.Floor
import Mathlib.Algebra.Order.Field.Rat
import Verif.Filter.Model
/-!
# Model of saving maps (`map_organizer/src/save_maps.cpp`) and loading them (`map_organizer/src/tie_maps.cpp`)

Cell values are `Int` (`int8_t`), metadata are rationals.  The image loader `map_server::loadMapFromFile` is an external
dependency; `load` models its documented behaviour in trinary mode.  The grid orientation is represented by its yaw
(the code keeps only the yaw); extraction of the yaw from a quaternion is not modelled.
-/
namespace Verif.MapIO
open Verif.Filter (rne)

/-- Map metadata that is saved. -/
structure Info where
  width : Nat
  height : Nat
  resolution : ℚ
  x : ℚ
  y : ℚ
  z : ℚ
  yaw : ℚ
deriving DecidableEq

structure Grid where
  info : Info
  data : List Int
deriving DecidableEq

/-- Byte written for a cell, save_maps.cpp:100-111. -/
def pixel (v : Int) : Nat := if v = 0 then 254 else if v = 100 then 0 else 205

/-- Cell indices in the order in which they are written: image rows from the top, save_maps.cpp:95-99. -/
def order (w h : Nat) : List Nat := (List.range h).flatMap fun y => (List.range w).map fun x => x + (h - y - 1) * w

/-- `printf("%f")`: six decimals, nearest. -/
def fmt6 (q : ℚ) : ℚ := rne (q * 1000000) / 1000000

/-- The two files of a floor: image size and bytes; resolution, origin and height as printed. -/
structure Saved where
  w : Nat
  h : Nat
  bytes : List Nat
  resolution : ℚ
  x : ℚ
  y : ℚ
  yaw : ℚ
  z : ℚ
  negate : Int
  occ : ℚ
  free : ℚ

/-- `mapCallback`, save_maps.cpp:78-136; `none` models reading beyond the cell data. -/
def save (g : Grid) : Option Saved :=
  ((order g.info.width g.info.height).mapM fun i => (g.data[i]?).map pixel).map fun bytes =>
    ⟨g.info.width, g.info.height, bytes, fmt6 g.info.resolution, fmt6 g.info.x, fmt6 g.info.y, fmt6 g.info.yaw,
      fmt6 g.info.z, 0, 65 / 100, 196 / 1000⟩

/-- `mapsCallback`, save_maps.cpp:68-77: floor `i` is written to file pair `i`; `canOpen i` tells whether `fopen` succeeds.  The
flag `saved_map_` is set in any case. -/
def saveAll (canOpen : Nat → Bool) (gs : List Grid) : Option (List (Option Saved) × Bool) :=
  (gs.mapIdx (fun i g => (i, g))).mapM (fun ig => if canOpen ig.1 then (save ig.2).map some else some none)
    |>.map fun fs => (fs, true)

/-- Value of a pixel in trinary mode (map_server image_loader). -/
def value (negate : Int) (occ free : ℚ) (p : Nat) : Int :=
  let c := if negate ≠ 0 then 255 - (p : ℚ) else p
  let o := (255 - c) / 255
  if o > occ then 100 else if o < free then 0 else -1

/-- `loadMapFromFile` (rows are flipped again) and tie_maps.cpp:213-215.  `none`: not enough image data. -/
def load (s : Saved) : Option Grid :=
  ((List.range (s.w * s.h)).mapM fun k => (s.bytes[k % s.w + (s.h - 1 - k / s.w) * s.w]?).map (value s.negate s.occ s.free)).map
    fun d => ⟨⟨s.w, s.h, s.resolution, s.x, s.y, s.z, s.yaw⟩, d⟩

/-- The constructor of `TieMapNode` on readable files in the given order, tie_maps.cpp:83-229. -/
def tie (fs : List Saved) : Option (List Grid) := fs.mapM load

end Verif.MapIO
