import Verif.Astar.Vec
import Verif.Astar.Spec
import Verif.CyclicVec.Spec
/-! # Specification of paths on the grid (no reference to the search) -/
namespace Verif.Astar.Vec.Spec
open Verif.Astar Verif.Astar.Vec Verif.Astar.Spec Verif.CyclicVec.Spec

variable {C : Type} [CostType C]

/-- Well-formed call: a positive size in every dimension; all vectors have the map's dimension. -/
structure WellFormed (P : VProb C) : Prop where
  size_pos : ∀ s ∈ P.size, 0 < s
  nonc_le : P.nonc ≤ P.size.length
  goal_len : P.goal.length = P.size.length
  starts_len : ∀ s ∈ P.starts, s.1.length = P.size.length
  grids_len : ∀ p, ∀ d ∈ P.grids p, d.length = P.size.length

/-- All coordinates inside the map. -/
def InMap (size v : List Int) : Prop := List.Forall₂ (fun e s => 0 ≤ e ∧ e < s) v size

/-- `x` is the same cell as `y` with cyclic coordinates brought into range. -/
def IsNormalOf (P : VProb C) (x y : List Int) : Prop :=
  VecNormalised InUnsignedRange P.nonc P.size y x

/-- `p → x` is one admissible move: `x` is `p` plus one of the displacements the model offers at `p`
(heading wrapped), inside the map, with accepted estimate and accepted cost. -/
def Step (P : VProb C) (p x : List Int) : Prop :=
  (∃ d ∈ P.grids p, IsNormalOf P x (List.zipWith (· + ·) p d)) ∧ InMap P.size x ∧
  Accepted (P.estim x) ∧ Accepted (P.cost p x)

/-- Cells reachable from the starts by admissible moves. -/
inductive Reachable (P : VProb C) : List Int → Prop
  | start {s x} : s ∈ P.starts → IsNormalOf P x s.1 → Reachable P x
  | move {p x} : Reachable P p → Step P p x → Reachable P x

end Verif.Astar.Vec.Spec
