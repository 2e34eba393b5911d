import Mathlib.Algebra.Group.Defs
import Mathlib.Algebra.Order.Group.Unbundled.Abs
/-!
# Model of the localisation jump detector (`planner_cspace/include/planner_cspace/jump_detector.h`)

Rigid transforms are elements of an arbitrary group `G` (`tf2::Transform` composition and inverse);
`len` is the length of the translation part and `yaw` the heading of the rotation part.  Rounding is not modelled.
-/
namespace Verif.Jump

variable {G K : Type} [Group G] [AddGroup K] [LinearOrder K]

/-- Members, jump_detector.h:50-59. -/
structure St (G : Type) where
  basePrev : G
  mapPrev : G
  init : Bool

/-- Constructor, jump_detector.h:62-68. -/
def start : St G := ⟨1, 1, false⟩

/-- Thresholds and measures. -/
structure Cfg (G K : Type) where
  len : G → K
  yaw : G → K
  posJump : K
  yawJump : K

/-- `detectJump`, jump_detector.h:82-120.  The argument is the result of the two lookups (base in the odometry
frame, base in the map frame), `none` when a lookup throws. -/
def detectJump (c : Cfg G K) (s : St G) : Option (G × G) → St G × Bool
  | none => (s, false)
  | some (base, map) =>
    let diff := map⁻¹ * s.mapPrev * (s.basePrev⁻¹ * base)
    let s' := ⟨base, map, true⟩
    if s.init = false then (s', false)
    else (s', decide (c.len diff > c.posJump) || decide (|c.yaw diff| > c.yawJump))

/-- State after a history of calls, newest first. -/
def run (c : Cfg G K) : List (Option (G × G)) → St G
  | [] => start
  | l :: h => (detectJump c (run c h) l).1

/-- Report of the newest call of a history. -/
def report (c : Cfg G K) (h : List (Option (G × G))) (l : Option (G × G)) : Bool :=
  (detectJump c (run c h) l).2

end Verif.Jump
