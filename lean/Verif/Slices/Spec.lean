import Verif.Slices.Model
import Mathlib.Data.Set.Card
/-! # Specification vocabulary for floor extraction -/
namespace Verif.Slices.Spec
open Verif.Slices

variable {K : Type} [Field K] [LinearOrder K] [IsStrictOrderedRing K] [FloorRing K]

/-- A point of the cloud in the floor band of height `i` over cell `v`. -/
def HasFloor (c : Cfg K) (pts : List Pt) (i : Int) (v : Cell) : Prop :=
  ∃ p ∈ pts, p.cell = v ∧ |i - p.h| ≤ c.floorHeight

/-- A point of the cloud over cell `v` that would hit a robot standing at height `i`. -/
def HasObstacle (c : Cfg K) (pts : List Pt) (i : Int) (v : Cell) : Prop :=
  ∃ p ∈ pts, p.cell = v ∧ c.floorHeight < |i - p.h| ∧
    i + c.floorHeight + c.floorTolerance < p.h ∧ p.h ≤ i + c.robotHeight

/-- The rectangle contains a cell. -/
def Rect.Has (r : Rect) (v : Cell) : Prop := r.xMin ≤ v.1 ∧ v.1 ≤ r.xMax ∧ r.yMin ≤ v.2 ∧ v.2 ≤ r.yMax

/-- Slices are adjacent in height. -/
def Adjacent (a b : Map) : Prop := |a.h - b.h| ≤ 1

/-- In a list from top to bottom, a slice directly above an adjacent one has no free cell left. -/
def Drained : List Map → Prop
  | u :: l :: ms => (Adjacent u l → ∀ v, u.data v ≠ 0) ∧ Drained (l :: ms)
  | _ => True

/-- No occupied cell of the map within six cells of `f` is closer than `k`. -/
def Clear (r : Rect) (d : Cell → Int) (f : Cell) (k : Int) : Prop :=
  ∀ o, Rect.Has r o → d o = 100 → dist2 o f ≤ 36 → k * k ≤ dist2 o f

/-- `v` is to be filled up: it is not occupied and lies within `k` of a free cell, `k` at most five cells and one less than the
clearance of that cell. -/
def Filled (r : Rect) (d : Cell → Int) (v : Cell) : Prop :=
  Rect.Has r v ∧ d v ≠ 100 ∧ ∃ f k, Rect.Has r f ∧ d f = 0 ∧ 0 ≤ k ∧ k ≤ 5 ∧ dist2 v f ≤ k * k ∧ Clear r d f (k + 1)

/-- Number of points of the cloud at a height. -/
def pointsAt (pts : List Pt) (i : Int) : Nat := pts.countP (fun p => p.h = i)

/-- The height holds more points than the given share of those of any height: the share is of the fullest height. -/
def Dense (c : Cfg K) (pts : List Pt) (i : Int) : Prop :=
  ∃ j, (∀ k, pointsAt pts k ≤ pointsAt pts j) ∧ (pointsAt pts j : K) * c.pointsThreshRate < (pointsAt pts i : K)

open Classical in
/-- Number of travelable cells of the slice at a height (none if the height is not dense). -/
noncomputable def travelable (c : Cfg K) (pts : List Pt) (i : Int) : Nat :=
  if Dense c pts i then Set.ncard {v : Cell | HasFloor c pts i v ∧ ¬ HasObstacle c pts i v} else 0

/-- A height from the lowest point of the cloud to its highest one (or to zero, whichever is higher). -/
def InSpan (pts : List Pt) (i : Int) : Prop := (∃ p ∈ pts, p.h ≤ i) ∧ (i ≤ 0 ∨ ∃ p ∈ pts, i ≤ p.h)

/-- The height is offered as a floor: it is dense, has at least as many travelable cells as the heights just below and above, and more than
the given share of the travelable cells of any height. -/
def Offered (c : Cfg K) (pts : List Pt) (i : Int) : Prop :=
  InSpan pts i ∧ Dense c pts i ∧
  (InSpan pts (i - 1) → travelable c pts (i - 1) ≤ travelable c pts i) ∧
  (InSpan pts (i + 1) → travelable c pts (i + 1) ≤ travelable c pts i) ∧
  ∃ j, InSpan pts j ∧ (∀ k, InSpan pts k → travelable c pts k ≤ travelable c pts j) ∧
    (travelable c pts j : K) * c.floorAreaThreshRate < (travelable c pts i : K)

end Verif.Slices.Spec
