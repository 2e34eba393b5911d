import Verif.Num.Ext
import Mathlib.Analysis.SpecialFunctions.Sqrt
/-!
# Model of `trajectory_tracker/include/trajectory_tracker/basic_control.h` and of the float angle
normalisation of `planner_cspace/include/planner_cspace/cyclic_vec.h`

Finite values are exact field elements; infinities and NaN are explicit (`Verif.Num.Ext`).
-/
namespace Verif.Control
open Verif.Num Verif.Num.Ext

variable {K : Type} [Field K] [LinearOrder K] [IsStrictOrderedRing K]

/-- `clip`, basic_control.h:43-51. -/
def clip (v max : Ext K) : Ext K :=
  if lt max v then max else if lt v (neg max) then neg max else v

/-- `VelAccLimitter::set`, basic_control.h:77-92: `prev` is `val_prev_`; the result is both the new `val_prev_` and
the return value. -/
def vset (prev v vel acc dt : Ext K) : Ext K :=
  let v := clip v vel
  let v :=
    if lt (add prev (mul dt acc)) v then add prev (mul dt acc)
    else if lt v (sub prev (mul dt acc)) then sub prev (mul dt acc)
    else v
  if isFin v then v else fin 0

/-- `VelAccLimitter::increment`, basic_control.h:72-76. -/
def vincrement (prev v vel acc dt : Ext K) : Ext K := vset prev (add prev v) vel acc dt

/-- A call on the limiter. -/
inductive Call (K : Type) where
  | set (v vel acc dt : Ext K)
  | increment (v vel acc dt : Ext K)
  | clear

/-- One call, basic_control.h:72-101. -/
def call (prev : Ext K) : Call K → Ext K
  | .set v vel acc dt => vset prev v vel acc dt
  | .increment v vel acc dt => vincrement prev v vel acc dt
  | .clear => fin 0

/-- The value after a history of calls (oldest first) on a fresh object (basic_control.h:68-71). -/
def calls (cs : List (Call K)) : Ext K := cs.foldl call (fin 0)

/-- `timeOptimalControl`, basic_control.h:38-41 (`copysign(1.0, 0)` is `1`). -/
noncomputable def timeOptimalControl (angle acc : ℝ) : ℝ :=
  -(if angle < 0 then -1 else 1) * Real.sqrt |2 * angle * acc|

/-- First loop of `angleNormalized`, basic_control.h:55-56, as a big-step relation: `Up rnd pi a r` means
that the loop entered with `a` ends with `r`.  `rnd` is the rounding of the sum to `float`. -/
inductive Up (rnd : K → K) (pi : K) : K → K → Prop
  | stop {a} (h : ¬ a < -pi) : Up rnd pi a a
  | go {a r} (h : a < -pi) (hr : Up rnd pi (rnd (a + 2 * pi)) r) : Up rnd pi a r

/-- Second loop, basic_control.h:57-58. -/
inductive Down (rnd : K → K) (pi : K) : K → K → Prop
  | stop {a} (h : ¬ a > pi) : Down rnd pi a a
  | go {a r} (h : a > pi) (hr : Down rnd pi (rnd (a - 2 * pi)) r) : Down rnd pi a r

/-- `angleNormalized`, basic_control.h:53-60. -/
def Normalized (rnd : K → K) (pi a r : K) : Prop := ∃ m, Up rnd pi a m ∧ Down rnd pi m r

/-- `normalizeFloatAngle`, cyclic_vec.h:65-71 (exact arithmetic). -/
def normalizeFloatAngle (pi val : K) : K :=
  if val > pi then val - 2 * pi else if val < -pi then val + 2 * pi else val

/-- `M_PI` as the `double` it is. -/
def mPi : ℚ := 884279719003555 / 281474976710656

/-- Rounding to the nearest multiple of `u` (ties upward): what storing into a `float` does in a binade with
spacing `u`. -/
def toGrid (u x : ℚ) : ℚ := u * ⌊x / u + 1 / 2⌋

end Verif.Control
