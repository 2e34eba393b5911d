import Verif.FloorSel.Model
/-! # Specification vocabulary: observations of a history -/
namespace Verif.FloorSel.Spec
open Verif.FloorSel
variable [Zero Z]

/-- The most recent map array. -/
def lastMaps : List (Event M Z) → List (M × Z)
  | [] => []
  | .maps ms :: _ => ms
  | _ :: h => lastMaps h

/-- The floor requested last (0 before any request). -/
def wanted : List (Event M Z) → Int
  | [] => 0
  | .floor f :: _ => f
  | _ :: h => wanted h

/-- The map of floor `f`, if it exists. -/
def mapOf (ms : List (M × Z)) (f : Int) : Option (M × Z) := if 0 ≤ f then ms[f.toNat]? else none

/-- What a subscriber of the latched map topic holds. -/
def latched : List (Event M Z) → Option (M × Z)
  | [] => none
  | e :: h => match (output h e).map with
    | some m => some m
    | none => latched h

/-- The altitude broadcast last. -/
def broadcast : List (Event M Z) → Option Z
  | [] => none
  | e :: h => match (output h e).trans with
    | some z => some z
    | none => broadcast h

/-- The event is no map array. -/
def NoMaps : Event M Z → Prop
  | .maps _ => False
  | _ => True

end Verif.FloorSel.Spec
