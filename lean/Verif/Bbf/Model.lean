import Mathlib.Algebra.Order.Field.Basic
import Mathlib.Algebra.Order.Floor.Ring
import Mathlib.Data.Int.Interval
/-!
# Model of the remembered-obstacle map

`planner_cspace/include/planner_cspace/bbf.h`, `planner_3d/costmap_bbf.h`, `src/costmap_bbf.cpp`.
Odds are elements of a linearly ordered field; `rnd` is the rounding applied to the product when it is stored in a
`float` (an arbitrary function unless a theorem says otherwise).  Cells are pairs of integers; grid storage is a
function (`Verif.Gridmap`, C03).
-/
namespace Verif.Bbf

variable {K : Type} [Field K] [LinearOrder K] [IsStrictOrderedRing K]

/-- `MIN_PROBABILITY`, bbf.h:47. -/
def minP : K := 1 / 10
/-- `MAX_PROBABILITY`, bbf.h:48. -/
def maxP : K := 1 - minP
/-- `probabilityToOdds`, bbf.h:42-45. -/
def probabilityToOdds (p : K) : K := p / (1 - p)
/-- `oddsToProbability`, bbf.h:37-40. -/
def oddsToProbability (o : K) : K := o / (1 + o)
/-- `MIN_ODDS`, bbf.h:49. -/
def minOdds : K := probabilityToOdds minP
/-- `MAX_ODDS`, bbf.h:50. -/
def maxOdds : K := probabilityToOdds maxP

/-- `BinaryBayesFilter::update`, bbf.h:63-71. -/
def update (rnd : K → K) (o f : K) : K :=
  let o := rnd (o * f)
  if o < minOdds then minOdds else if o > maxOdds then maxOdds else o

/-- `getNormalizedProbability`, bbf.h:80-83. -/
def normalized (o : K) : K := (oddsToProbability o - minP) / (maxP - minP)

/-- `std::lround(p * 100.0)`, costmap_bbf.cpp:47 (half away from zero). -/
def published [FloorRing K] (o : K) : Int :=
  let x := normalized o * 100
  if 0 ≤ x then ⌊x + 1 / 2⌋ else -⌊-x + 1 / 2⌋

/-- `CostmapBBFImpl`, costmap_bbf.h:62-70. -/
structure Map (K : Type) where
  w : Int
  h : Int
  odds : Int × Int → K
  cost : Int × Int → Int
  minX : Int
  minY : Int
  maxX : Int
  maxY : Int

/-- `clear`, costmap_bbf.h:84-90. -/
def clear (m : Map K) : Map K :=
  { m with odds := fun _ => minOdds, cost := fun _ => 0, minX := 0, minY := 0, maxX := m.w - 1, maxY := m.h - 1 }

/-- `reset`, costmap_bbf.h:77-83 (`size` components are non-negative). -/
def reset (m : Map K) (w h : Int) : Map K := clear { m with w := w, h := h }

/-- Integers from `a` to `b` in order: the loops `for (p = a; p <= b; p++)`. -/
def range (a b : Int) : List Int := (List.range (b + 1 - a).toNat).map (fun (i : Nat) => a + (i : Int))

/-- Parameters of `remember`. -/
structure Scan (K : Type) where
  /-- `costmap` at heading 0 -/
  cm : Int × Int → Int
  cx : Int
  cy : Int
  hit : K
  miss : K
  rmin : Int
  rmax : Int

/-- Body of the loops of `remember` for offset `(px, py)`, costmap_bbf.cpp:74-98. -/
def rememberCell (rnd : K → K) (s : Scan K) (w h : Int) (odds : Int × Int → K) (p : Int × Int) : Int × Int → K :=
  let gp := (s.cx + p.1, s.cy + p.2)
  if gp.1 < 0 ∨ gp.1 ≥ w ∨ gp.2 < 0 ∨ gp.2 ≥ h then odds
  else if p.1 * p.1 + p.2 * p.2 > s.rmax * s.rmax then odds
  else
    let c := s.cm gp
    if c < 0 then odds
    else if c = 100 then
      if p.1 * p.1 + p.2 * p.2 ≥ s.rmin * s.rmin then Function.update odds gp (update rnd (odds gp) s.hit) else odds
    else Function.update odds gp (update rnd (odds gp) s.miss)

/-- `remember`, costmap_bbf.cpp:53-101. -/
def remember (rnd : K → K) (m : Map K) (s : Scan K) : Map K :=
  { m with
    minX := min m.minX (max 0 (s.cx - s.rmax))
    minY := min m.minY (max 0 (s.cy - s.rmax))
    maxX := max m.maxX (min (m.w - 1) (s.cx + s.rmax))
    maxY := max m.maxY (min (m.h - 1) (s.cy + s.rmax))
    odds := ((range (-s.rmax) s.rmax).flatMap (fun x => (range (-s.rmax) s.rmax).map (fun y => (x, y)))).foldl
      (rememberCell rnd s m.w m.h) m.odds }

/-- `updateCostmap`, costmap_bbf.cpp:41-52: every cell of the pending rectangle is recomputed and the rectangle
is emptied. (The order of the two loops is immaterial since cells are independent.) -/
def updateCostmap [FloorRing K] (m : Map K) : Map K :=
  { m with
    cost := fun p => if m.minX ≤ p.1 ∧ p.1 ≤ m.maxX ∧ m.minY ≤ p.2 ∧ p.2 ≤ m.maxY then published (m.odds p) else m.cost p
    minX := m.w, minY := m.h, maxX := -1, maxY := -1 }

inductive Op (K : Type) where
  | reset (w h : Int)
  | clear
  | remember (s : Scan K)
  | update

def apply [FloorRing K] (rnd : K → K) (m : Map K) : Op K → Map K
  | .reset w h => reset m w h
  | .clear => clear m
  | .remember s => remember rnd m s
  | .update => updateCostmap m

/-- Constructor, costmap_bbf.h:73-76 (grids are empty, the rectangle members start at zero). -/
def fresh : Map K := ⟨0, 0, fun _ => minOdds, fun _ => 0, 0, 0, 0, 0⟩

/-- After a history, newest operation first. -/
def run [FloorRing K] (rnd : K → K) : List (Op K) → Map K
  | [] => fresh
  | o :: h => apply rnd (run rnd h) o

end Verif.Bbf
