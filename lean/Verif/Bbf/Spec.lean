import Verif.Bbf.Model
/-! # Specification vocabulary for the remembered-obstacle map -/
namespace Verif.Bbf.Spec
open Verif.Bbf

variable {K : Type} [Field K] [LinearOrder K] [IsStrictOrderedRing K]

/-- What a scan says about a cell: the factor by which its odds are multiplied, or `none` when the cell is not
observed (outside the map, out of range, unknown, or occupied but closer than the minimum range). -/
def observed (s : Scan K) (w h : Int) (p : Int × Int) : Option K :=
  let dx := p.1 - s.cx
  let dy := p.2 - s.cy
  if 0 ≤ p.1 ∧ p.1 < w ∧ 0 ≤ p.2 ∧ p.2 < h ∧ 0 ≤ s.rmax ∧ dx * dx + dy * dy ≤ s.rmax * s.rmax then
    if s.cm p < 0 then none
    else if s.cm p = 100 then if s.rmin * s.rmin ≤ dx * dx + dy * dy then some s.hit else none
    else some s.miss
  else none

/-- Map size in force after a history. -/
def size : List (Op K) → Int × Int
  | [] => (0, 0)
  | .reset w h :: _ => (w, h)
  | _ :: hs => size hs

/-- The observations of a cell since the last clear, newest first. -/
def observations (p : Int × Int) : List (Op K) → List K
  | [] => []
  | .reset _ _ :: _ => []
  | .clear :: _ => []
  | .update :: hs => observations p hs
  | .remember s :: hs =>
    match observed s (size hs).1 (size hs).2 p with
    | some f => f :: observations p hs
    | none => observations p hs

/-- Saturating product of the observations, starting from the minimum odds. -/
def oddsOf (rnd : K → K) : List K → K
  | [] => 1 / 9
  | f :: fs => max (1 / 9) (min 9 (rnd (oddsOf rnd fs * f)))

/-- Plain product. -/
def prod : List K → K
  | [] => 1
  | f :: fs => f * prod fs

/-- No prefix of the observation sequence saturates. -/
def Unsaturated (fs : List K) : Prop := ∀ k ≤ fs.length, 1 / 9 ≤ 1 / 9 * prod (fs.drop k) ∧ 1 / 9 * prod (fs.drop k) ≤ 9

/-- Sizes given to `reset` are not negative. -/
def Sane : List (Op K) → Prop
  | [] => True
  | .reset w h :: hs => 0 ≤ w ∧ 0 ≤ h ∧ Sane hs
  | _ :: hs => Sane hs

end Verif.Bbf.Spec
