import Verif.PlannerMap.Model
/-! # What the planner's costmap must be -/
namespace Verif.PlannerMap
open Verif.GridMetric (Cell)

/-- The update covers the cell. -/
def Covers (u : Update) (c : Cell) : Prop :=
  ((u.x : Int) ≤ c.x ∧ c.x < (u.x : Int) + u.width) ∧ ((u.y : Int) ≤ c.y ∧ c.y < (u.y : Int) + u.height) ∧
  ((u.yaw : Int) ≤ c.yaw ∧ c.yaw < (u.yaw : Int) + u.angle)

instance (u : Update) (c : Cell) : Decidable (Covers u c) := by unfold Covers; infer_instance

/-- The value the update gives to a covered cell (row-major, headings outermost). -/
def Update.at (u : Update) (c : Cell) : Int :=
  u.data.getD (((c.yaw - u.yaw) * u.height + (c.y - u.y)) * u.width + (c.x - u.x)).toNat 0

/-- The value of a map with one update on it: unchanged where the update says nothing; otherwise the larger of the two, or in
overwriting mode the update's value where it is known. -/
def overlay (base : Cell → Int) (overwrite : Bool) (u : Update) (c : Cell) : Int :=
  if Covers u c then
    (if overwrite then (if 0 ≤ u.at c then u.at c else base c) else max (base c) (u.at c))
  else base c

/-- The value of a cell of the received map; unknown cells get the configured cost. -/
def BaseMap.at (unknown : Int) (m : BaseMap) (c : Cell) : Int :=
  let v := m.data.getD ((c.yaw * m.height + c.y) * m.width + c.x).toNat 0
  if v < 0 then unknown else v

/-- The update lies inside the map. -/
def Fits (m : BaseMap) (u : Update) : Prop :=
  0 < m.width ∧ 0 < m.height ∧ u.x + u.width ≤ m.width ∧ u.y + u.height ≤ m.height ∧ u.angle ≤ m.angle

instance (m : BaseMap) (u : Update) : Decidable (Fits m u) := by unfold Fits; infer_instance

/-- The update's indices are within what `int` can count. -/
def Small (u : Update) : Prop := u.x + u.width < 2 ^ 31 ∧ u.y + u.height < 2 ^ 31 ∧ u.yaw + u.angle < 2 ^ 31 ∧
  u.width * u.height * u.angle < 2 ^ 32

/-- The history's update messages are `Small`. -/
def AllSmall (h : List Event) : Prop := ∀ o u, Event.update o u ∈ h → Small u

/-- What the history leaves behind: the current base map, the last accepted update since then, an update that came too early. -/
structure Past where
  base : Option BaseMap
  last : Option (Bool × Update)
  early : Option Update

/-- One message: a base map discards earlier updates, and takes an update that came too early for the previous map if it is
not older than the map; an update is accepted when it fits. -/
def past1 (p : Past) : Event → Past
  | .map o m =>
    match p.early with
    | some u => if m.stamp ≤ u.stamp ∧ Fits m u then ⟨some m, some (o, u), none⟩ else ⟨some m, none, none⟩
    | none => ⟨some m, none, none⟩
  | .update o u =>
    match p.base with
    | none => p
    | some m => if Fits m u then ⟨some m, some (o, u), none⟩ else ⟨p.base, p.last, some u⟩

/-- What a history leaves behind. -/
def past (h : List Event) : Past := h.foldl past1 ⟨none, none, none⟩

/-- The costmap expected from base map and last accepted update. -/
def expected (unknown : Int) (m : BaseMap) (last : Option (Bool × Update)) (c : Cell) : Int :=
  match last with
  | none => m.at unknown c
  | some (o, u) => overlay (m.at unknown) o u c

/-- The smallest of `f 0, …, f (n - 1)` and `top`. -/
def least (top : Int) (n : Nat) (f : Nat → Int) : Int := (List.range n).foldl (fun m k => min m (f k)) top

/-- The heading-independent costmap expected: per column the least cost over all headings (at most 100); an update can only
raise it. -/
def expectedRough (unknown : Int) (m : BaseMap) (last : Option (Bool × Update)) (x y : Int) : Int :=
  let b := least 100 m.angle fun k => m.at unknown ⟨x, y, k⟩
  match last with
  | none => b
  | some (_, u) =>
    if (u.x : Int) ≤ x ∧ x < (u.x : Int) + u.width ∧ (u.y : Int) ≤ y ∧ y < (u.y : Int) + u.height then
      max b (least 100 u.angle fun k => u.at ⟨x, y, (u.yaw : Int) + k⟩)
    else b

/-- The update covers the column. -/
def CoversColumn (u : Update) (x y : Int) : Prop :=
  ((u.x : Int) ≤ x ∧ x < (u.x : Int) + u.width) ∧ ((u.y : Int) ≤ y ∧ y < (u.y : Int) + u.height)

instance (u : Update) (x y : Int) : Decidable (CoversColumn u x y) := by unfold CoversColumn; infer_instance

/-- What the obstacle memory is told about a column: the least cost of the last accepted update (at most 100) where it covers the
column, otherwise 0 or -1. -/
def Told (last : Option (Bool × Update)) (x y v : Int) : Prop :=
  match last with
  | none => v = 0
  | some (_, u) =>
    if CoversColumn u x y then v = least 100 u.angle fun k => u.at ⟨x, y, (u.yaw : Int) + k⟩ else v = 0 ∨ v = -1

end Verif.PlannerMap
