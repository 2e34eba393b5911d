import Mathlib.Algebra.Order.Field.Basic
import Mathlib.Algebra.Order.Floor.Ring
/-!
# Model of the first-order filter (`trajectory_tracker/include/trajectory_tracker/filter.h`)

Numbers are elements of an arbitrary linearly ordered field (`float` rounding is not modelled; the
`assert(std::isfinite(..))` checks hold trivially).
-/
namespace Verif.Filter

variable {K : Type} [Field K] [LinearOrder K] [IsStrictOrderedRing K]

/-- `Filter::Type`, filter.h:41-45 -/
inductive Kind | lpf | hpf
deriving DecidableEq

/-- The object: coefficients `k_[0..3]`, `x_`, `out_`, filter.h:48-53. -/
structure Obj (K : Type) where
  k0 : K
  k1 : K
  k2 : K
  k3 : K
  x : K
  out : K
deriving DecidableEq

/-- The constructor, filter.h:56-79. -/
def mk (t : Kind) (tc out0 : K) : Obj K :=
  match t with
  | .lpf =>
    let k3 := -1 / (1 + 2 * tc)
    let k2 := -k3
    let k1 := (1 - 2 * tc) * k3
    let k0 := -k1 - 1
    ⟨k0, k1, k2, k3, (1 - k2) * out0 / k3, out0⟩
  | .hpf =>
    let k3 := -1 / (1 + 2 * tc)
    let k2 := -k3 * 2 * tc
    let k1 := (1 - 2 * tc) * k3
    let k0 := 2 * tc * (-k1 + 1)
    ⟨k0, k1, k2, k3, (1 - k2) * out0 / k3, out0⟩

/-- `set`, filter.h:80-84. -/
def setOut (f : Obj K) (out0 : K) : Obj K := { f with x := (1 - f.k2) * out0 / f.k3, out := out0 }

/-- `in` for `angle_ == false`, filter.h:85-99; the new output is `out`. -/
def feed (f : Obj K) (i : K) : Obj K :=
  let x := f.k0 * i + f.k1 * f.x
  { f with x := x, out := f.k2 * i + f.k3 * x }

/-- Round half to even, as in C's `remainder`. -/
def rne [FloorRing K] (q : K) : Int :=
  if q - ⌊q⌋ < 1 / 2 then ⌊q⌋
  else if q - ⌊q⌋ > 1 / 2 then ⌊q⌋ + 1
  else if ⌊q⌋ % 2 = 0 then ⌊q⌋ else ⌊q⌋ + 1

/-- C's `remainder(x, m)`. -/
def remainder [FloorRing K] (x m : K) : K := x - m * rne (x / m)

/-- `in` for `angle_ == true`, filter.h:90-95; `turn` is `M_PI * 2.0`. -/
def feedAngle [FloorRing K] (turn : K) (f : Obj K) (i : K) : Obj K :=
  feed f (f.out + remainder (i - f.out) turn)

/-- Smoothing of a loaded path, trajectory_server.cpp:248-262, one coordinate: the filter starts at the first
value and every value is replaced by the filter's output.  `none` models `path_.poses[0]` of an empty path. -/
def smooth (tc : K) : List K → Option (List K)
  | [] => none
  | a :: as => some ((((a :: as).foldl (fun s i => (feed s.1 i, (feed s.1 i).out :: s.2))
      (mk .lpf tc a, [])).2).reverse)

end Verif.Filter
