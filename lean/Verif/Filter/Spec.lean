import Verif.Filter.Model
/-! # Specification vocabulary for the filter -/
namespace Verif.Filter.Spec
open Verif.Filter

variable {K : Type} [Field K] [LinearOrder K] [IsStrictOrderedRing K]

/-- The filter after a sequence of inputs, oldest first. -/
def after (f : Obj K) (us : List K) : Obj K := us.foldl feed f

/-- All values lie in `[lo, hi]`. -/
def Within (lo hi : K) (us : List K) : Prop := ∀ u ∈ us, lo ≤ u ∧ u ≤ hi

end Verif.Filter.Spec
