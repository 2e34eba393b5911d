import Verif.LocalMap.Model
/-! # Specification vocabulary for accumulated clouds and local maps -/
namespace Verif.LocalMap.Spec
variable {K : Type} [Field K] [LinearOrder K]

/-- What should remain after a cloud with stamp `now` was added: the stored clouds that are not older than the hold
time, in order, and the new one. -/
def remembered {α : Type} (hold : Int) (l : List (Stamped α)) (p : Stamped α) : List (Stamped α) :=
  l.filter (fun q => decide (p.stamp ≤ q.stamp + hold)) ++ [p]

/-- The second, fourth, sixth, … element. -/
def everySecond {α : Type} : List α → List α
  | _ :: q :: l => q :: everySecond l
  | _ => []

/-- Cell `i` of a row of cells of size `res` starting at `origin` contains the coordinate `v`. -/
def InCell (origin res : K) (i : Nat) (v : K) : Prop :=
  origin + (i : K) * res ≤ v ∧ v < origin + ((i : K) + 1) * res

/-- As `InCell`, but the first cell also takes what lies less than one cell in front of it. -/
def InCellFolded (origin res : K) (i : Nat) (v : K) : Prop :=
  (if i = 0 then origin - res < v else origin + (i : K) * res ≤ v) ∧ v < origin + ((i : K) + 1) * res

/-- The height relative to the robot is in the accepted range. -/
def HeightOk (p : Params K) (robotZ z : K) : Prop := p.zMin ≤ z - robotZ ∧ z - robotZ ≤ p.zMax

end Verif.LocalMap.Spec
