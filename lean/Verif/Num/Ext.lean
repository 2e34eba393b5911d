import Mathlib.Algebra.Order.Field.Basic
/-!
# Numbers with infinities and NaN

`float`/`double` values as used in the models that must distinguish non-finite values: exact field
elements plus the two infinities and NaN with the IEEE 754 rules for them.  Rounding, overflow and signed zeros are not
modelled.
-/
set_option linter.unusedSectionVars false
namespace Verif.Num

variable {K : Type} [Field K] [LinearOrder K] [IsStrictOrderedRing K]

inductive Ext (K : Type) where
  | fin (x : K)
  | pinf
  | ninf
  | nan
deriving DecidableEq

namespace Ext

def neg : Ext K → Ext K
  | fin x => fin (-x)
  | pinf => ninf
  | ninf => pinf
  | nan => nan

def add : Ext K → Ext K → Ext K
  | nan, _ => nan
  | _, nan => nan
  | fin x, fin y => fin (x + y)
  | pinf, ninf => nan
  | ninf, pinf => nan
  | pinf, _ => pinf
  | ninf, _ => ninf
  | _, pinf => pinf
  | _, ninf => ninf

def sub (a b : Ext K) : Ext K := add a (neg b)

/-- Sign as -1, 0, 1 for non-NaN values. -/
def sgn : Ext K → Int
  | fin x => if 0 < x then 1 else if x < 0 then -1 else 0
  | pinf => 1
  | ninf => -1
  | nan => 0

def ofSgn (s : Int) : Ext K := if 0 < s then pinf else if s < 0 then ninf else nan

def mul : Ext K → Ext K → Ext K
  | nan, _ => nan
  | _, nan => nan
  | fin x, fin y => fin (x * y)
  | a, b => ofSgn (sgn a * sgn b)

/-- Division; a zero divisor counts as positive zero. -/
def div : Ext K → Ext K → Ext K
  | nan, _ => nan
  | _, nan => nan
  | fin x, fin y => if y = 0 then ofSgn (sgn (fin x)) else fin (x / y)
  | fin _, _ => fin 0
  | a, fin y => if y < 0 then neg a else a
  | _, _ => nan

/-- `std::abs` -/
def abs : Ext K → Ext K
  | fin x => fin |x|
  | pinf => pinf
  | ninf => pinf
  | nan => nan

/-- `a < b`; false when either is NaN. -/
def lt : Ext K → Ext K → Bool
  | fin x, fin y => decide (x < y)
  | fin _, pinf => true
  | ninf, fin _ => true
  | ninf, pinf => true
  | _, _ => false

/-- `std::isfinite` -/
def isFin : Ext K → Bool
  | fin _ => true
  | _ => false

/-- `std::isinf` -/
def isInf : Ext K → Bool
  | pinf => true
  | ninf => true
  | _ => false

theorem neg_fin (x : K) : neg (fin x) = fin (-x) := rfl
theorem add_fin (x y : K) : add (fin x) (fin y) = fin (x + y) := rfl
theorem sub_fin (x y : K) : sub (fin x) (fin y) = fin (x - y) := by
  simp only [sub, neg_fin, add_fin, sub_eq_add_neg]
theorem mul_fin (x y : K) : mul (fin x) (fin y) = fin (x * y) := rfl
theorem lt_fin (x y : K) : lt (fin x) (fin y) = decide (x < y) := rfl
theorem abs_fin (x : K) : abs (fin x) = fin |x| := rfl
theorem div_fin {y : K} (h : y ≠ 0) (x : K) : div (fin x) (fin y) = fin (x / y) := if_neg h

end Ext
end Verif.Num
