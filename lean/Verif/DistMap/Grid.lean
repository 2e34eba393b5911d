import Verif.DistMap.Extend
import Mathlib.Algebra.Order.Ring.Rat
import Mathlib.Tactic.Linarith
import Mathlib.Tactic.Positivity

/-!
# The distance map on the actual grid

`Env` of `Verif.DistMap.Model` instantiated with the neighbour table built by `DistanceMap::init`
(distance_map.cpp:212-246), the two-dimensional map and the step cost of distance_map.cpp:115-156.
Costs are exact rationals; `top` is `numeric_limits<float>::max()`.
-/
set_option linter.unusedVariables false
namespace Verif.DistMap.Grid
open Verif.DistMap
open Verif.Astar (CostType setF)

/-- `float` costs as exact rationals; `top` is `FLT_MAX`. -/
instance ratCost : CostType Rat where
  top := 340282346638528859811704183484516925440
  neg1 := -1
  neg1_lt_zero := by decide
  le_add := by intro c w h; linarith

abbrev Pos := Int × Int

/-- `std::lround` of `n / d` for positive `d` (halves away from zero), used by the conversion
cyclic_vec.h:60-63. -/
def lround (n d : Int) : Int :=
  if 0 ≤ n then (2 * n + d) / (2 * d) else -((2 * (-n) + d) / (2 * d))

/-- `const int dist = d.len()` (distance_map.cpp:227): the square root truncated; `d` has squared
length at most 16. -/
def distOf (d : Pos) : Int :=
  let q := d.1 * d.1 + d.2 * d.2
  if q ≥ 16 then 4 else if q ≥ 9 then 3 else if q ≥ 4 then 2 else 1

/-- The cells checked for one neighbour offset, relative to the departure cell, distance_map.cpp:227-240: the
points `i·d/dist`, `0 ≤ i < dist`, rounded; equal successive points are stored once.  The accumulated
`float` position is taken as exact: for `dist` 1, 2, 4 it is; for `dist = 3` no point is near a half. -/
def posOf (d : Pos) : List Pos :=
  ((List.range (distOf d).toNat).foldl
    (fun acc (i : Nat) =>
      let p : Pos := (lround ((i : Int) * d.1) (distOf d), lround ((i : Int) * d.2) (distOf d))
      if acc.head? = some p then acc else p :: acc) []).reverse

/-- `search_diffs_` offsets, distance_map.cpp:214-222: all offsets except zero within distance 4. -/
def diffs : List Pos :=
  ([-4, -3, -2, -1, 0, 1, 2, 3, 4] : List Int).flatMap fun x =>
    ([-4, -3, -2, -1, 0, 1, 2, 3, 4] : List Int).filterMap fun y =>
      if x = 0 ∧ y = 0 then none else if x * x + y * y > 16 then none else some (x, y)

/-- Inputs of the expansion. -/
structure Cfg where
  /-- `p_.size` -/
  w : Int
  h : Int
  /-- `cm_rough_` -/
  cm : Pos → Int
  /-- `bbf_costmap_->getCost` -/
  hist : Pos → Int
  /-- `ds.euclid_cost` (`euclidCostRough`) and `ds.grid_to_len` of an offset -/
  eu : Pos → Rat
  gl : Pos → Rat
  /-- `p_.euclid_cost[0]`, `p_.resolution`, weights, overshoot (distance_map.cpp:66-67) -/
  ec0 : Rat
  res : Rat
  wc : Rat
  wr : Rat
  over : Rat
  tasks : Nat

def inMap (c : Cfg) (p : Pos) : Bool :=
  decide (0 ≤ p.1 ∧ p.1 < c.w ∧ 0 ≤ p.2 ∧ p.2 < c.h)

def add (p d : Pos) : Pos := (p.1 + d.1, p.2 + d.2)

/-- Step cost, distance_map.cpp:115-154; `none` on collision.  Cells read: `readsOf`. -/
def stepCost (c : Cfg) (p d : Pos) : Option Rat :=
  if (posOf d).any (fun q => decide (c.cm (add p q) > 99)) then none
  else
    let sum : Int := ((posOf d).map (fun q => c.cm (add p q))).sum
    let sumHist : Int := ((posOf d).map (fun q => c.hist (add p q))).sum
    let k := c.eu d + (c.res / 100 * c.gl d) * ((sum : Rat) * c.wc + (sumHist : Rat) * c.wr)
    some (if k < 0 then 0 else k)

/-- The map cells read while the step `p → p + d` is examined, distance_map.cpp:128-139 (superset: the
loop stops at the first lethal cell). -/
def readsOf (p d : Pos) : List Pos := (posOf d).map (add p)

def env (c : Cfg) : Env Pos Rat where
  nexts p := (diffs.filter (fun d => inMap c (add p d))).map
    (fun d => ⟨add p d, c.eu d, stepCost c p d⟩)
  base := -(c.ec0) * (1 / 2)
  cut a s := decide (a - c.over > s)
  tasks := c.tasks
  inMap := inMap c
  neigh4 p := ([(-1, 0), (0, -1), (0, 1), (1, 0)].map (add p)).filter (fun q => inMap c q)

/-- Every checked cell of every offset lies between the departure cell and the destination. -/
theorem posOf_box : ∀ d ∈ diffs, ∀ q ∈ posOf d,
    (min 0 d.1 ≤ q.1 ∧ q.1 ≤ max 0 d.1) ∧ (min 0 d.2 ≤ q.2 ∧ q.2 ≤ max 0 d.2) := by decide +kernel

/-- The departure cell itself is always checked. -/
theorem posOf_zero : ∀ d ∈ diffs, ((0, 0) : Pos) ∈ posOf d := by decide +kernel

end Verif.DistMap.Grid
