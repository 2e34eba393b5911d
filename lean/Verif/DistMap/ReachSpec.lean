import Verif.DistMap.Props
import Mathlib.Algebra.Order.Monoid.WithTop

/-! # Specification: what can be reached over the sides of free cells -/
namespace Verif.DistMap.Grid
open Verif.DistMap Verif.DistMap.Spec
open Verif.Astar (CostType)

/-- Exact rational costs with a largest value that is not a sum of costs, for `FLT_MAX`. -/
scoped instance topCost : CostType (WithTop Rat) :=
  { (inferInstance : LinearOrder (WithTop Rat)), (inferInstance : Add (WithTop Rat)), (inferInstance : Zero (WithTop Rat)) with
    top := ⊤
    neg1 := ((-1 : Rat) : WithTop Rat)
    neg1_lt_zero := by
      change ((-1 : Rat) : WithTop Rat) < ((0 : Rat) : WithTop Rat)
      rw [WithTop.coe_lt_coe]; norm_num
    le_add := fun c w h => by
      change c ≤ c + w
      exact le_add_of_nonneg_right h }

/-- The steps of `Grid.env` (distance_map.cpp:102-156, 212-246) with costs that have a largest value. -/
def envT (c : Cfg) : Env Pos (WithTop Rat) where
  nexts p := (diffs.filter (fun d => inMap c (add p d))).map
    (fun d => ⟨add p d, (c.eu d : WithTop Rat), (stepCost c p d).map (fun k : Rat => (k : WithTop Rat))⟩)
  base := ((-(c.ec0) * (1 / 2) : Rat) : WithTop Rat)
  cut a s := decide (a > s + (c.over : WithTop Rat))
  tasks := c.tasks
  inMap := inMap c
  neigh4 := (env c).neigh4

/-- The two cells have a side in common. -/
def SideBySide (p x : Pos) : Prop := (x.1 = p.1 ∧ |x.2 - p.2| = 1) ∨ (x.2 = p.2 ∧ |x.1 - p.1| = 1)

/-- `v` can be reached from `e` over cells of the map with common sides, all of them free except perhaps `v` itself. -/
inductive SidePath (c : Cfg) (e : Pos) : Pos → Prop
  | goal : SidePath c e e
  | step {p x} : SidePath c e p → SideBySide p x → inMap c x = true → c.cm p ≤ 99 → SidePath c e x

/-- All cells of a map of the given size, in the order of the loop distance_map.cpp:336-346. -/
def cellsOf (w h : Int) : List Pos :=
  (List.range h.toNat).flatMap fun (y : Nat) => (List.range w.toNat).map fun (x : Nat) => ((x : Int), (y : Int))

/-- The states of the distance map of a map with `w`×`h` cells, after a `create` and any number of calls of `update` with any goals and rectangles,
while the costs of the map (and of what is remembered) change arbitrarily in between; `c` is the last map, `s` the last start and `e` the last goal. -/
inductive MapUses (w h : Int) : Cfg → Pos → Pos → DM Pos (WithTop Rat) → Prop
  | create {c s e m m'} (hc : GoodCfg c) (hw : c.w = w ∧ c.h = h ∧ 0 < c.tasks) (hs : inMap c s = true) (he : inMap c e = true)
      (hcr : Create (envT c) s e m m') : MapUses w h c s e m'
  | update {c0 c s0 s e0 e rect m m'} (hh : MapUses w h c0 s0 e0 m) (hc : GoodCfg c) (hw : c.w = w ∧ c.h = h ∧ 0 < c.tasks)
      (hs : inMap c s = true ∨ e = e0) (he : inMap c e = true) (hu : Update (envT c) (cellsOf w h) s e rect m m') : MapUses w h c s e m'

end Verif.DistMap.Grid
