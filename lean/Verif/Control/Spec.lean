import Verif.Control.Model
/-! # Specification vocabulary for the basic controls -/
namespace Verif.Control.Spec
open Verif.Num Verif.Control

variable {K : Type} [Field K] [LinearOrder K] [IsStrictOrderedRing K]

/-- The value of `[lo, hi]` nearest to `x`. -/
def nearest (lo hi x : K) : K := max lo (min hi x)

/-- The target of a `set` call as a number: infinite targets stand for the respective velocity limit. -/
def target (vel : K) : Ext K → Option K
  | .fin x => some x
  | .pinf => some vel
  | .ninf => some (-vel)
  | .nan => none

/-- `r` is the angle `a` up to full turns, within half a turn. -/
def IsNormal (pi a r : K) : Prop := (∃ k : Int, r = a + k * (2 * pi)) ∧ -pi ≤ r ∧ r ≤ pi

/-- A call whose limits are finite with non-negative acceleration and time step and velocity limit `vel`. -/
def Proper (vel : K) : Call K → Prop
  | .set _ w a d => w = .fin vel ∧ ∃ a' d' : K, a = .fin a' ∧ d = .fin d' ∧ 0 ≤ a' ∧ 0 ≤ d'
  | .increment _ w a d => w = .fin vel ∧ ∃ a' d' : K, a = .fin a' ∧ d = .fin d' ∧ 0 ≤ a' ∧ 0 ≤ d'
  | .clear => True

/-- The call does not pass NaN as target. -/
def NotNan : Call K → Prop
  | .set v _ _ _ => v ≠ .nan
  | .increment v _ _ _ => v ≠ .nan
  | .clear => True

/-- What a call allows as change of the value: acceleration times time (`clear` jumps to zero). -/
def allowance : Call K → Option K
  | .set _ _ (.fin a) (.fin d) => some (d * a)
  | .increment _ _ (.fin a) (.fin d) => some (d * a)
  | _ => none

end Verif.Control.Spec
