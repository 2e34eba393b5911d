import Verif.CSpace.Model
import Mathlib.Analysis.Complex.Norm
/-! # Local maps cut out of a large map

`costmap_cspace/src/largemap_to_map.cpp`.  Exact real numbers instead of `float` and `double`; the conversions of coordinates to `int` do
not overflow. -/
namespace Verif.LargeMap
open Verif.CSpace (lround trunc)

/-- Parameters, largemap_to_map.cpp:79–82; `width_` is not negative. -/
structure Config where
  width : Nat
  round : Bool
  occlusion : Bool
  surrounded : Bool

/-- The received map: size, resolution, position of the origin and data. -/
structure Large where
  w : Nat
  h : Nat
  res : ℝ
  ox : ℝ
  oy : ℝ
  data : List Int

/-- One coordinate of the origin of the local map, largemap_to_map.cpp:146–149. -/
noncomputable def origin (c : Config) (res pos : ℝ) : ℝ := (trunc (pos / res) : ℝ) * res - (c.width : ℝ) * res * (1 / 2)

/-- `gx`, `gy`, largemap_to_map.cpp:154–157. -/
noncomputable def offset (c : Config) (res pos o : ℝ) : Int := lround ((origin c res pos - o) / res)

/-- One cell of the local map, largemap_to_map.cpp:164–188; `none` is a read outside of the data. -/
noncomputable def cell (c : Config) (L : Large) (gx gy lx ly : Int) : Option Int :=
  let half : ℝ := (c.width : ℝ) / 2
  let rSq := ((lx : ℝ) - half) ^ 2 + ((ly : ℝ) - half) ^ 2
  let x := lx + gx
  let y := ly + gy
  if c.surrounded ∧ rSq ≤ half ^ 2 ∧ (half - 2) ^ 2 ≤ rSq then some 100
  else if c.round ∧ rSq > half ^ 2 then some (-1)
  else if x < 0 ∨ y < 0 ∨ x ≥ L.w ∨ y ≥ L.h then some (-1)
  else L.data[(y * L.w + x).toNat]?

/-- The two loops over the local map, largemap_to_map.cpp:158–190, in the order of the addresses. -/
noncomputable def base (c : Config) (L : Large) (gx gy : Int) : Option (List Int) :=
  (List.range (c.width * c.width)).mapM fun a => cell c L gx gy ((a % c.width : Nat) : Int) ((a / c.width : Nat) : Int)

/-- The addresses passed on the way to the cell at address `a`, largemap_to_map.cpp:86–99.  The loop over `r = 1, 1.5, … < l - 1` has
`⌈2 (l - 2)⌉` rounds. -/
noncomputable def samples (w a : Nat) : List Int :=
  let x : ℝ := ((a % w : Nat) : ℝ) - (w : ℝ) / 2
  let y : ℝ := ((a / w : Nat) : ℝ) - (w : ℝ) / 2
  let l := Real.sqrt (x * x + y * y)
  (List.range ⌈2 * (l - 2)⌉₊).map fun k : Nat =>
    let r : ℝ := 1 + (k : ℝ) / 2
    trunc (y * r / l + (w : ℝ) / 2) * (w : Int) + trunc (x * r / l + (w : ℝ) / 2)

/-- `occlusion_table_[a]`, largemap_to_map.cpp:84–108.  The addresses are pushed in increasing order, so the sorted list without
duplicates is the sublist of the addresses that pass `a`; then `a` itself is removed. -/
noncomputable def behind (w a : Nat) : List Nat :=
  ((List.range (w * w)).filter fun b => decide ((a : Int) ∈ samples w b)).filter fun b => decide (b ≠ a)

/-- One round of the loop largemap_to_map.cpp:195–201. -/
def hide (E : Nat → List Nat) (m : List Int) (a : Nat) : List Int :=
  if m[a]? = some 100 then (E a).foldl (fun m b => m.set b (-1)) m else m

/-- largemap_to_map.cpp:191–203. -/
noncomputable def occlude (w : Nat) (m : List Int) : List Int := (List.range (w * w)).foldl (hide (behind w)) m

/-- The published data for the robot at `(px, py)`, `publishMap`, largemap_to_map.cpp:124–206. -/
noncomputable def publish (c : Config) (L : Large) (px py : ℝ) : Option (List Int) :=
  (base c L (offset c L.res px L.ox) (offset c L.res py L.oy)).map fun m => if c.occlusion then occlude c.width m else m

end Verif.LargeMap
