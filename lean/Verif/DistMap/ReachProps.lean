import Verif.DistMap.Reach
import Verif.DistMap.ReachSpec

set_option linter.unusedVariables false

/-! # An update does not lose what can be reached: the grid -/
namespace Verif.DistMap.Grid
open Verif.DistMap Verif.DistMap.Spec
open Verif.Astar (CostType setF)

theorem add_lt_topT {a : WithTop Rat} {q : Rat} (h : a < ⊤) : a + (q : WithTop Rat) < ⊤ :=
  WithTop.add_lt_top.2 ⟨h, WithTop.coe_lt_top q⟩

theorem mem_nextsT {c : Cfg} {p : Pos} {d : Edge Pos (WithTop Rat)} (h : d ∈ (envT c).nexts p) :
    ∃ o ∈ diffs, inMap c (add p o) = true ∧ d.next = add p o ∧ d.euclid = (c.eu o : WithTop Rat) ∧
      d.cost = (stepCost c p o).map (fun k : Rat => (k : WithTop Rat)) := by
  simp only [envT, List.mem_map, List.mem_filter] at h
  obtain ⟨o, ⟨h1, h2⟩, rfl⟩ := h
  exact ⟨o, h1, h2, rfl, rfl, rfl⟩

theorem gridT_laws {c : Cfg} (hc : GoodCfg c) (goal : Pos) : Laws2 (envT c) goal where
  nonneg := by
    intro p d w hd hw
    obtain ⟨o, h1, _, _, h4, h5⟩ := mem_nextsT hd
    rw [hw] at h5
    obtain ⟨k, hk, rfl⟩ := Option.map_eq_some_iff.1 h5.symm
    have h := stepCost_ge hc h1 hk
    refine ⟨?_, ?_⟩
    · exact WithTop.coe_le_coe.2 (le_trans (le_trans hc.ec0 (hc.eu o h1)) h)
    · rw [h4]; exact WithTop.coe_le_coe.2 h
  mono_left := fun a b w h => add_le_add_left h w
  mono_right := fun a b w h => add_le_add_right h w
  cut_mono := by
    intro a b s t h1 h2 h3
    simp only [envT, decide_eq_true_eq] at h3 ⊢
    exact lt_of_le_of_lt (add_le_add_left h2 _) (lt_of_lt_of_le h3 h1)
  base_le := by
    have := hc.ec0
    refine WithTop.coe_le_coe.2 ?_
    linarith
  back := by
    rintro p x w ⟨eu, hd⟩
    obtain ⟨o, h1, _, _, _, h5⟩ := mem_nextsT hd
    obtain ⟨k, hk, rfl⟩ := Option.map_eq_some_iff.1 h5.symm
    have h := stepCost_ge hc h1 hk
    have h2 := hc.eu o h1
    have h3 := hc.ec0
    change ((0 : Rat) : WithTop Rat) ≤ ((-(c.ec0) * (1 / 2) + k : Rat) : WithTop Rat)
    rw [WithTop.coe_le_coe]
    linarith
  top0 := WithTop.coe_lt_top 0
  inMap := by
    intro p d hd
    obtain ⟨o, _, h2, h3, _, _⟩ := mem_nextsT hd
    rw [h3]; exact h2
  cut_self := by
    intro a s h
    have : (0 : WithTop Rat) ≤ (c.over : WithTop Rat) := WithTop.coe_le_coe.2 hc.over
    simp only [envT, decide_eq_false_iff_not, not_lt, gt_iff_lt]
    exact le_trans h (le_add_of_nonneg_right this)

def sidesOf (w h : Int) (p : Pos) : List Pos :=
  ([(-1, 0), (0, -1), (0, 1), (1, 0)].map (add p)).filter (fun q => decide (0 ≤ q.1 ∧ q.1 < w ∧ 0 ≤ q.2 ∧ q.2 < h))

theorem mem_sidesOf {w h : Int} {p x : Pos} : x ∈ sidesOf w h p ↔ SideBySide p x ∧ 0 ≤ x.1 ∧ x.1 < w ∧ 0 ≤ x.2 ∧ x.2 < h := by
  obtain ⟨px, py⟩ := p
  obtain ⟨xx, xy⟩ := x
  simp only [sidesOf, List.map_cons, List.map_nil, List.mem_filter, List.mem_cons, List.not_mem_nil, or_false, decide_eq_true_eq, add, Prod.mk.injEq,
    SideBySide]
  refine and_congr ?_ Iff.rfl
  rw [abs_eq (by norm_num), abs_eq (by norm_num)]
  omega

theorem mem_cellsOf {w h : Int} {p : Pos} (hp : 0 ≤ p.1 ∧ p.1 < w ∧ 0 ≤ p.2 ∧ p.2 < h) : p ∈ cellsOf w h := by
  simp only [cellsOf, List.mem_flatMap, List.mem_map, List.mem_range]
  refine ⟨p.2.toNat, by omega, p.1.toNat, by omega, ?_⟩
  ext <;> simp <;> omega

theorem sidesT {c : Cfg} {w h : Int} (hw : c.w = w ∧ c.h = h ∧ 0 < c.tasks) : Sides (envT c) (sidesOf w h) (cellsOf w h) where
  neigh := by
    obtain ⟨rfl, rfl, _⟩ := hw
    rfl
  symm := by
    intro p x hp hx
    obtain ⟨rfl, rfl, _⟩ := hw
    refine mem_sidesOf.2 ⟨?_, of_decide_eq_true hp⟩
    exact (mem_sidesOf.1 hx).1.imp (fun h => ⟨h.1.symm, by rw [abs_sub_comm]; exact h.2⟩) fun h => ⟨h.1.symm, by rw [abs_sub_comm]; exact h.2⟩
  offered := by
    intro p x hx
    obtain ⟨rfl, rfl, _⟩ := hw
    obtain ⟨hx1, hx2⟩ := List.mem_filter.1 hx
    obtain ⟨o, ho, rfl⟩ := List.mem_map.1 hx1
    have hd : ∀ o ∈ ([(-1, 0), (0, -1), (0, 1), (1, 0)] : List Pos), o ∈ diffs := by decide +kernel
    exact ⟨_, List.mem_map.2 ⟨o, List.mem_filter.2 ⟨hd o ho, hx2⟩, rfl⟩, rfl⟩
  fin := by
    intro p d w hd hw a ha
    obtain ⟨o, h1, _, _, _, h5⟩ := mem_nextsT hd
    rw [hw] at h5
    obtain ⟨k, hk, rfl⟩ := Option.map_eq_some_iff.1 h5.symm
    exact add_lt_topT ha
  finEu := by
    intro p d hd a ha
    obtain ⟨o, h1, _, _, h4, _⟩ := mem_nextsT hd
    rw [h4]
    exact add_lt_topT ha
  tasks := hw.2.2
  cells := by
    intro v hv
    obtain ⟨rfl, rfl, _⟩ := hw
    exact mem_cellsOf (of_decide_eq_true hv)

theorem uses_of {w h : Int} {c : Cfg} {s e : Pos} {m : DM Pos (WithTop Rat)} (hu : MapUses w h c s e m) :
    Uses (sidesOf w h) (cellsOf w h) (envT c) s e m ∧ c.w = w ∧ c.h = h := by
  induction hu with
  | create hc hw hs he h => exact ⟨.create (gridT_laws hc _) (sidesT hw) hs he h, hw.1, hw.2.1⟩
  | @update c0 c s0 s e0 e rect m m' hh hc hw hs he hu ih =>
    refine ⟨.update ih.1 (gridT_laws hc _) (sidesT hw) hs he ?_ hu, hw.1, hw.2.1⟩
    funext p
    change inMap c p = inMap c0 p
    simp only [inMap, hw.1, hw.2.1, ih.2.1, ih.2.2]

theorem connected_of {c : Cfg} {e v : Pos} (h : SidePath c e v) : SideConnected (envT c) e v := by
  induction h with
  | goal => exact .goal
  | @step p x _ hs hi hc ih =>
    have hx : x ∈ sidesOf c.w c.h p := mem_sidesOf.2 ⟨hs, of_decide_eq_true hi⟩
    obtain ⟨hx1, hx2⟩ := List.mem_filter.1 hx
    obtain ⟨o, ho, rfl⟩ := List.mem_map.1 hx1
    have hd : ∀ o ∈ ([(-1, 0), (0, -1), (0, 1), (1, 0)] : List Pos), o ∈ diffs ∧ posOf o = [(0, 0)] := by decide +kernel
    obtain ⟨h1, h2⟩ := hd o ho
    have hfree : ¬ (posOf o).any (fun q => decide (c.cm (add p q) > 99)) = true := by
      rw [h2]
      simp [add, hc]
    obtain ⟨k, hk⟩ : ∃ k, stepCost c p o = some k := by
      unfold stepCost
      rw [if_neg hfree]
      exact ⟨_, rfl⟩
    refine .step ih hx ⟨(c.eu o : WithTop Rat), List.mem_map.2 ⟨o, List.mem_filter.2 ⟨h1, hi⟩, ?_⟩⟩ (w := (k : WithTop Rat))
    rw [hk]
    rfl

/-- **C123.** After a `create` and any number of calls of `update`, between which the map may change in any way, inside of the rectangles
announced or outside, the robot's cell has a distance whenever free cells with common sides lead from it to the goal in the current map:
the planner does not give up on a goal that can be reached in that way. -/
theorem reachable_has_distance {w h : Int} {c : Cfg} {s e : Pos} {m : DM Pos (WithTop Rat)} (hu : MapUses w h c s e m)
    (hs : inMap c s = true) (hp : SidePath c e s) : m.g s < ⊤ :=
  reached (uses_of hu).1 hs (connected_of hp)

/-! ### Examples -/

/-- A map of 3×3 cells with the given lethal cells. -/
def pocket (walls : List Pos) : Cfg where
  w := 3
  h := 3
  cm p := if p ∈ walls then 100 else 0
  hist _ := 0
  eu d := if d.1 * d.1 + d.2 * d.2 ≤ 1 then 1 else if d.1 * d.1 + d.2 * d.2 ≤ 2 then 3 / 2 else
    if d.1 * d.1 + d.2 * d.2 ≤ 4 then 2 else if d.1 * d.1 + d.2 * d.2 ≤ 5 then 9 / 4 else 3
  gl _ := 1
  ec0 := 1
  res := 1
  wc := 1
  wr := 1
  over := 4
  tasks := 1

theorem pocket_good (walls : List Pos) : GoodCfg (pocket walls) where
  ec0 := by simp [pocket]
  res := by simp [pocket]
  wc := by simp [pocket]
  wr := by simp [pocket]
  over := by simp [pocket]
  eu := by
    have : ∀ d ∈ diffs, (pocket []).ec0 ≤ (pocket []).eu d := by decide +kernel
    exact this
  gl := by intro d _; simp [pocket]
  cm := by intro p; simp only [pocket]; split <;> decide
  hist := by intro p; simp [pocket]
  ec0_lt := by
    have : (pocket []).ec0 < CostType.top := by decide +kernel
    exact this

/-- The map after the constructor. -/
def emptyT : DM Pos (WithTop Rat) := ⟨fun _ => ⊤, fun _ => false, none⟩

/-- The hypotheses of `reachable_has_distance` are met, and the distance is found although the change was not announced: the corner (0, 0) is walled off
when the map is created, and has no distance; then the wall at (1, 0) disappears, `update` is called with an empty rectangle, and it has one. -/
example : ∃ m1 m2 : DM Pos (WithTop Rat),
    Create (envT (pocket [(1, 0), (1, 1), (0, 1)])) (0, 0) (2, 2) emptyT m1 ∧ m1.g (0, 0) = ⊤ ∧
    MapUses 3 3 (pocket [(1, 1), (0, 1)]) (0, 0) (2, 2) m2 ∧ inMap (pocket [(1, 1), (0, 1)]) (0, 0) = true ∧
    SidePath (pocket [(1, 1), (0, 1)]) (2, 2) (0, 0) ∧ m2.g (0, 0) = ((11 / 4 : Rat) : WithTop Rat) := by
  obtain ⟨m1, h1⟩ : ∃ m, createD (envT (pocket [(1, 0), (1, 1), (0, 1)])) 40 (0, 0) (2, 2) emptyT = some m :=
    Option.isSome_iff_exists.mp (by decide +kernel)
  obtain ⟨m2, h2⟩ : ∃ m, (createD (envT (pocket [(1, 0), (1, 1), (0, 1)])) 40 (0, 0) (2, 2) emptyT).bind
      (updateD (envT (pocket [(1, 1), (0, 1)])) (cellsOf 3 3) 40 (0, 0) (2, 2) []) = some m :=
    Option.isSome_iff_exists.mp (by decide +kernel)
  have k1 : (createD (envT (pocket [(1, 0), (1, 1), (0, 1)])) 40 (0, 0) (2, 2) emptyT).map (fun m => m.g (0, 0)) = some ⊤ := by decide +kernel
  have k2 : ((createD (envT (pocket [(1, 0), (1, 1), (0, 1)])) 40 (0, 0) (2, 2) emptyT).bind
      (updateD (envT (pocket [(1, 1), (0, 1)])) (cellsOf 3 3) 40 (0, 0) (2, 2) [])).map (fun m => m.g (0, 0)) =
      some ((11 / 4 : Rat) : WithTop Rat) := by decide +kernel
  rw [h2] at k2
  rw [h1] at h2 k1
  simp only [Option.bind_some] at h2
  simp only [Option.map_some, Option.some.injEq] at k1 k2
  have hc := createD_create _ _ _ _ _ h1
  refine ⟨m1, m2, hc, k1, .update (.create (pocket_good _) ⟨rfl, rfl, by decide⟩ (by decide +kernel) (by decide +kernel) hc) (pocket_good _)
    ⟨rfl, rfl, by decide⟩ (.inl (by decide +kernel)) (by decide +kernel) (updateD_update _ _ _ _ _ _ _ h2), by decide +kernel, ?_, k2⟩
  have a1 := SidePath.step (c := pocket [(1, 1), (0, 1)]) (e := (2, 2)) (x := (2, 1)) .goal (.inl (by decide)) (by decide +kernel) (by decide +kernel)
  have a2 := SidePath.step (x := (2, 0)) a1 (.inl (by decide)) (by decide +kernel) (by decide +kernel)
  have a3 := SidePath.step (x := (1, 0)) a2 (.inr (by decide)) (by decide +kernel) (by decide +kernel)
  exact .step a3 (.inr (by decide)) (by decide +kernel) (by decide +kernel)

/-- **C123 needs common sides.**  The robot stands in the corner (0, 0); both cells beside it are lethal, and the only way out is the diagonal step to the free
cell (1, 1), which is permitted: the value after the creation is the cost of a route.  Then `update` is called with the robot's cell as the rectangle,
although nothing has changed, and the robot's cell has no distance any more: the cells around an erased cell that are looked at again are the
four with a common side, and the steps out of those start on a lethal cell. -/
theorem diagonal_lost : ∃ m1 m2 : DM Pos (WithTop Rat),
    Create (envT (pocket [(1, 0), (0, 1)])) (0, 0) (2, 2) emptyT m1 ∧ Connected (envT (pocket [(1, 0), (0, 1)])) (2, 2) (0, 0) ∧
    m1.g (0, 0) = ((5 / 2 : Rat) : WithTop Rat) ∧
    Update (envT (pocket [(1, 0), (0, 1)])) (cellsOf 3 3) (0, 0) (2, 2) [(0, 0)] m1 m2 ∧ m2.g (0, 0) = ⊤ := by
  obtain ⟨m1, h1⟩ : ∃ m, createD (envT (pocket [(1, 0), (0, 1)])) 40 (0, 0) (2, 2) emptyT = some m :=
    Option.isSome_iff_exists.mp (by decide +kernel)
  obtain ⟨m2, h2⟩ : ∃ m, (createD (envT (pocket [(1, 0), (0, 1)])) 40 (0, 0) (2, 2) emptyT).bind
      (updateD (envT (pocket [(1, 0), (0, 1)])) (cellsOf 3 3) 40 (0, 0) (2, 2) [(0, 0)]) = some m :=
    Option.isSome_iff_exists.mp (by decide +kernel)
  have k1 : (createD (envT (pocket [(1, 0), (0, 1)])) 40 (0, 0) (2, 2) emptyT).map (fun m => m.g (0, 0)) = some ((5 / 2 : Rat) : WithTop Rat) := by
    decide +kernel
  have k2 : ((createD (envT (pocket [(1, 0), (0, 1)])) 40 (0, 0) (2, 2) emptyT).bind
      (updateD (envT (pocket [(1, 0), (0, 1)])) (cellsOf 3 3) 40 (0, 0) (2, 2) [(0, 0)])).map (fun m => m.g (0, 0)) = some ⊤ := by decide +kernel
  rw [h2] at k2
  rw [h1] at h2 k1
  simp only [Option.bind_some] at h2
  simp only [Option.map_some, Option.some.injEq] at k1 k2
  have s1 : Step (envT (pocket [(1, 0), (0, 1)])) (2, 2) (1, 1) ((3 / 2 : Rat) : WithTop Rat) := ⟨((3 / 2 : Rat) : WithTop Rat), by decide +kernel⟩
  have s2 : Step (envT (pocket [(1, 0), (0, 1)])) (1, 1) (0, 0) ((3 / 2 : Rat) : WithTop Rat) := ⟨((3 / 2 : Rat) : WithTop Rat), by decide +kernel⟩
  exact ⟨m1, m2, createD_create _ _ _ _ _ h1, .step (.step .goal s1) s2, k1, updateD_update _ _ _ _ _ _ _ h2, k2⟩

end Verif.DistMap.Grid
