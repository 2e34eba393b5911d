import Verif.Layers.Model
/-! # Specification vocabulary for the layer chain -/
namespace Verif.Layers.Spec
open Verif.Layers Verif.CSpace Verif.Region
variable {K : Type} [Field K] [LinearOrder K] [FloorRing K]

/-- The configuration-space map of the node: the cells the last layer (the update output) reads. -/
def finalMap (s : Node K) : Cells :=
  match (s.root :: s.layers).dropLast.getLast? with
  | some l => l.overlay
  | none => s.rootMap

/-- The cell lies in the rectangle of the update message. -/
def Reports (u : Update) (x y a : Int) : Prop :=
  (u.x ≤ x ∧ x < u.x + u.width) ∧ (u.y ≤ y ∧ y < u.y + u.height) ∧ (u.yaw ≤ a ∧ a < u.yaw + u.angle)

/-- The value the update message carries for a cell of its rectangle: heading by heading, row by row. -/
def value? (u : Update) (x y a : Int) : Option Int :=
  u.data[(((a - u.yaw) * u.height + (y - u.y)) * u.width + (x - u.x)).toNat]?

/-- The update message is empty, or its rectangle lies inside the map and it carries exactly the values of `c` there. -/
def Content (m : Info K) (c : Cells) (u : Update) : Prop :=
  (u.width = 0 ∧ u.height = 0 ∧ u.data = []) ∨
  (0 ≤ u.x ∧ 0 < u.width ∧ u.x + u.width ≤ m.w ∧ 0 ≤ u.y ∧ 0 < u.height ∧ u.y + u.height ≤ m.h ∧ u.yaw = 0 ∧ u.angle = m.ang ∧
    (u.data.length : Int) = u.width * u.height * u.angle ∧ ∀ x y a, Reports u x y a → value? u x y a = some (c x y a))

/-- A usable base map: not empty, with the announced number of values, positive resolution. -/
def GoodBase (b : Msg K) : Prop :=
  1 ≤ b.grid.w ∧ 1 ≤ b.grid.h ∧ b.grid.w * b.grid.h ≤ b.grid.data.length ∧ 0 < b.grid.res

/-- A usable message for a layer number below `n`: resolution not negative. -/
def GoodEvent (n : Nat) : Event K → Prop
  | .base b => GoodBase b
  | .overlay i msg => i < n ∧ 0 ≤ msg.grid.res

/-- A usable base map, or a usable message to the overlay layer number `p`. -/
def To (p : Nat) : Event K → Prop
  | .base b => GoodBase b
  | .overlay i msg => i = p ∧ 0 ≤ msg.grid.res

/-- The cell belongs to the map. -/
def In (m : Info K) (x y a : Int) : Prop := 0 ≤ x ∧ x < m.w ∧ 0 ≤ y ∧ y < m.h ∧ 0 ≤ a ∧ a < m.ang

/-- The rectangle of the overlay message meets the map. -/
def Meets (m : Info K) (msg : Msg K) : Prop :=
  ∃ x y : Int, 0 ≤ x ∧ x < m.w ∧ 0 ≤ y ∧ y < m.h ∧ (window m msg).x ≤ x ∧ x < (window m msg).x + (window m msg).width ∧
    (window m msg).y ≤ y ∧ y < (window m msg).y + (window m msg).height

/-- The layer changes no cell outside the rectangle of the message. -/
def Local (m : Info K) (k : Kind K) (msg : Msg K) : Prop :=
  ∀ c x y a, In m x y a →
    ¬ ((window m msg).x ≤ x ∧ x < (window m msg).x + (window m msg).width ∧
      (window m msg).y ≤ y ∧ y < (window m msg).y + (window m msg).height) →
    applyMsg m k msg c x y a = c x y a

/-- The layer sits before the update output. -/
def NotUpdate : Kind K → Prop
  | .updateOut => False
  | _ => True

/-- What a subscriber keeps: the last whole map with all later updates applied in order. -/
def apply (c : Cells) : Out → Cells
  | .map _ c' => c'
  | .update u => fun x y a =>
    if (u.x ≤ x ∧ x < u.x + u.width) ∧ (u.y ≤ y ∧ y < u.y + u.height) ∧ (u.yaw ≤ a ∧ a < u.yaw + u.angle) then
      (value? u x y a).getD (c x y a)
    else c x y a

/-- A layer that never lowers a cost: a footprint layer combining by maximum, or a layer giving a cost to unknown cells. -/
def Raises : Kind K → Prop
  | .foot _ _ mode _ => mode = .max
  | .unknown _ => True
  | _ => False

/-- A layer that outputs the whole map. -/
def IsStatic : Kind K → Prop
  | .staticOut => True
  | _ => False

/-- A chain (below the root) whose static part only raises costs, with one output of the whole map after it. -/
def StaticMax (ks : List (Kind K)) : Prop :=
  ∃ pre post, ks = pre ++ .staticOut :: post ∧ (∀ k ∈ pre, Raises k) ∧ ∀ k ∈ post, ¬ IsStatic k

/-- The last base map after one more message. -/
def nextBase (acc : Option (Msg K)) : Event K → Option (Msg K)
  | .base b => some b
  | .overlay .. => acc

/-- The last base map of a history. -/
def lastBase (es : List (Event K)) : Option (Msg K) := es.foldl nextBase none

end Verif.Layers.Spec
