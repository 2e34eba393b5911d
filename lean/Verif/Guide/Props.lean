import Verif.Guide.Lemmas
import Verif.Model3D.Ends
import Mathlib.Combinatorics.SimpleGraph.Connectivity.Connected
import Mathlib.Data.Fintype.Prod
import Mathlib.Order.Interval.Finset.Basic
import Mathlib.Data.Int.Interval
/-! # C118: a goal that can be driven to is not given up because of the estimate -/
set_option linter.unusedVariables false
set_option maxHeartbeats 400000
namespace Verif.Guide
open Verif.Model3D Verif.Model3D.Spec
open Verif.GridMetric (Cell)
open Verif.DistMap (DM Create Update)
open Verif.DistMap.Grid
open Verif.DistMap.Spec (Route Hist)
open Verif.Astar (CostType)

theorem beside_symm {d : Cfg} {p q : Pos} (h : Beside d p q) : Beside d q p := by
  obtain ⟨h1, h2, h3, h4⟩ := h
  exact ⟨h2, h1, by rwa [abs_sub_comm], by rwa [abs_sub_comm]⟩

/-- The eight neighbours. -/
theorem unit_diffs (x y : Int) (hx : |x| ≤ 1) (hy : |y| ≤ 1) (h : (x, y) ≠ ((0, 0) : Pos)) : (x, y) ∈ diffs ∧ posOf (x, y) = [(0, 0)] := by
  rw [abs_le] at hx hy
  have hx' : x ∈ ([-1, 0, 1] : List Int) := by simp only [List.mem_cons, List.not_mem_nil, or_false]; omega
  have hy' : y ∈ ([-1, 0, 1] : List Int) := by simp only [List.mem_cons, List.not_mem_nil, or_false]; omega
  have key : ∀ x ∈ ([-1, 0, 1] : List Int), ∀ y ∈ ([-1, 0, 1] : List Int), (x, y) ≠ ((0, 0) : Pos) →
      (x, y) ∈ diffs ∧ posOf (x, y) = [(0, 0)] := by decide +kernel
  exact key x hx' y hy' h

/-- A step to a neighbouring column is permitted. -/
theorem beside_step {d : Cfg} {p q : Pos} (h : Beside d p q) (hne : p ≠ q) : ∃ w, Verif.DistMap.Spec.Step (env d) p q w := by
  obtain ⟨⟨-, hp⟩, ⟨hq, -⟩, h3, h4⟩ := h
  have hz : (q.1 - p.1, q.2 - p.2) ≠ ((0, 0) : Pos) := by
    intro h0
    have e1 := congrArg Prod.fst h0
    have e2 := congrArg Prod.snd h0
    simp only at e1 e2
    exact hne (Prod.ext (by omega) (by omega))
  obtain ⟨hd, hpos⟩ := unit_diffs (q.1 - p.1) (q.2 - p.2) (by rwa [abs_sub_comm]) (by rwa [abs_sub_comm]) hz
  have hadd : add p (q.1 - p.1, q.2 - p.2) = q := by
    unfold add; exact Prod.ext (by simp) (by simp)
  have hc : ∃ w, stepCost d p (q.1 - p.1, q.2 - p.2) = some w := by
    unfold stepCost
    rw [hpos, if_neg]
    · exact ⟨_, rfl⟩
    · simp only [List.any_cons, List.any_nil, Bool.or_false, decide_eq_true_eq, not_lt, gt_iff_lt]
      simpa [add] using hp
  obtain ⟨w, hw⟩ := hc
  refine ⟨w, d.eu (q.1 - p.1, q.2 - p.2), ?_⟩
  simp only [env, List.mem_map, List.mem_filter]
  exact ⟨_, ⟨hd, by rw [hadd]; exact hq⟩, by rw [hadd, hw]⟩

/-- The columns of the map that are not lethal, connected with their neighbours. -/
def graph (d : Cfg) : SimpleGraph (Fin d.w.toNat × Fin d.h.toNat) where
  Adj a b := a ≠ b ∧ Beside d ((a.1 : Int), (a.2 : Int)) ((b.1 : Int), (b.2 : Int))
  symm := ⟨fun a b h => ⟨h.1.symm, beside_symm h.2⟩⟩
  loopless := ⟨fun a h => h.1 rfl⟩

def point {d : Cfg} (a : Fin d.w.toNat × Fin d.h.toNat) : Pos := ((a.1 : Int), (a.2 : Int))

theorem point_of {d : Cfg} {p : Pos} (h : inMap d p = true) : ∃ a : Fin d.w.toNat × Fin d.h.toNat, point a = p := by
  obtain ⟨h1, h2, h3, h4⟩ := of_decide_eq_true h
  refine ⟨(⟨p.1.toNat, by omega⟩, ⟨p.2.toNat, by omega⟩), ?_⟩
  unfold point
  exact Prod.ext (by simp; omega) (by simp; omega)

theorem point_inj {d : Cfg} {a b : Fin d.w.toNat × Fin d.h.toNat} (h : point a = point b) : a = b := by
  unfold point at h
  have e1 := congrArg Prod.fst h
  have e2 := congrArg Prod.snd h
  simp only at e1 e2
  exact Prod.ext (Fin.ext (by omega)) (Fin.ext (by omega))

theorem reachable_of {d : Cfg} {p q : Pos} (h : Relation.ReflTransGen (Beside d) p q) : ∀ a b : Fin d.w.toNat × Fin d.h.toNat, point a = p →
    point b = q → (graph d).Reachable a b := by
  induction h with
  | refl => intro a b ha hb; rw [point_inj (ha.trans hb.symm)]
  | @tail y z _ hs ih =>
    intro a b ha hb
    obtain ⟨c, hc⟩ := point_of hs.1.1
    refine (ih a c ha hc).trans ?_
    by_cases hcb : c = b
    · rw [hcb]
    · refine SimpleGraph.Adj.reachable ⟨hcb, ?_⟩
      change Beside d (point c) (point b)
      rw [hc, hb]; exact hs

/-- Along a way over neighbouring columns there is a route of bounded cost. -/
theorem walk_route {d : Cfg} {B : Rat} (hB : Moderate d B) {goal : Pos} {a b : Fin d.w.toNat × Fin d.h.toNat} (w : (graph d).Walk a b)
    (c0 : Rat) (h0 : Route (env d) goal (point a) c0) : ∃ c, Route (env d) goal (point b) c ∧ c ≤ c0 + w.length * B := by
  induction w generalizing c0 with
  | nil => exact ⟨c0, h0, by simp⟩
  | @cons u v x hadj p ih =>
    obtain ⟨e, he⟩ := beside_step hadj.2 (fun h => hadj.1 (point_inj h))
    obtain ⟨c, hc, hle⟩ := ih (c0 + e) (.step h0 he)
    refine ⟨c, hc, hle.trans ?_⟩
    have := hB.step _ _ _ he
    rw [SimpleGraph.Walk.length_cons]
    push_cast
    linarith

/-- Connected with the goal over columns: a route of moderate cost. -/
theorem connected_route {d : Cfg} (hc : Verif.DistMap.GoodCfg d) {B : Rat} (hB : Moderate d B) {goal v : Pos}
    (hg : inMap d goal = true) (h : Relation.ReflTransGen (Beside d) v goal) :
    ∃ c, Route (env d) goal v c ∧ c < CostType.top := by
  have hv : inMap d v = true := by
    rcases Relation.ReflTransGen.cases_head h with rfl | ⟨x, hx, -⟩
    · exact hg
    · exact hx.1.1
  obtain ⟨a, ha⟩ := point_of hg
  obtain ⟨b, hb⟩ := point_of hv
  obtain ⟨w⟩ := (reachable_of h b a hb ha).symm
  have hlen := (w.toPath).2.length_lt
  obtain ⟨c, hr, hle⟩ := walk_route hB (w.toPath : (graph d).Walk a b) (env d).base (by rw [ha]; exact .goal)
  rw [hb] at hr
  refine ⟨c, hr, lt_of_le_of_lt hle ?_⟩
  have hbase : (env d).base ≤ 0 := (Verif.DistMap.grid_laws hc goal).base_le
  simp only [Fintype.card_prod, Fintype.card_fin] at hlen
  have h1 : (((w.toPath : (graph d).Walk a b).length : Nat) : Rat) ≤ ((d.w.toNat * d.h.toNat : Nat) : Rat) := by exact_mod_cast hlen.le
  have h2 := mul_le_mul_of_nonneg_right h1 hB.nonneg
  have h3 := hB.sum
  rw [mul_comm] at h3
  linarith

/-- The value at the goal is 0, and no value is negative. -/
theorem goal_zero {d : Cfg} (hc : Verif.DistMap.GoodCfg d) (ht : 0 < d.tasks) {cells : List Pos} (hcells : ∀ v, inMap d v = true → v ∈ cells)
    {goal s : Pos} {m : DM Pos Rat} (h : Hist (env d) cells goal s m) : m.g goal = 0 ∧ ∀ v, 0 ≤ m.g v := by
  have L := Verif.DistMap.grid_laws hc goal
  have key : ∀ {s : Pos} {m : DM Pos Rat}, Hist (env d) cells goal s m → Verif.DistMap.Good (env d) goal m.g m.edges ∧ m.goal = some goal := by
    intro s m h
    induction h with
    | create hs he h => have := Verif.DistMap.good_of_create L ht hs he h; exact ⟨this.1, this.2.2⟩
    | update hh hs he h ih =>
      obtain ⟨r1, r2, r3⟩ := Verif.DistMap.good_of_update L ht hcells ih.1 ih.2 hs he h
      exact ⟨r1, r3⟩
  exact ⟨(key h).1.zero, (key h).1.pos⟩

/-- The value is finite for every column connected with the goal whose best route is in range. -/
theorem near_known {d : Cfg} (hc : Verif.DistMap.GoodCfg d) (ht : 0 < d.tasks) {B : Rat} (hB : Moderate d B) {cells : List Pos}
    (hcells : ∀ v, inMap d v = true → v ∈ cells) {goal s : Pos} {m : DM Pos Rat} (hh : Hist (env d) cells goal s m) (hse : s ≠ goal)
    {v : Pos} (hv : Relation.ReflTransGen (Beside d) v goal) (hr : InRange d m goal s v) (hg : inMap d goal = true) :
    m.g v < CostType.top := by
  have L := Verif.DistMap.grid_laws hc goal
  by_cases hvg : v = goal
  · rw [hvg, (goal_zero hc ht hcells hh).1]; exact L.top0
  obtain ⟨c1, r1, l1⟩ := connected_route hc hB hg hv
  obtain ⟨c2, r2, l2⟩ := hr
  have hex := (Verif.DistMap.extend_exact L ht hcells hh hse).2.1
  have cut : ∀ c, c ≤ m.g s + d.over → (env d).cut c (m.g s) = false := by
    intro c h
    simp only [env, decide_eq_false_iff_not, not_lt, gt_iff_lt]
    linarith
  by_cases h : c2 < CostType.top
  · exact lt_of_le_of_lt ((hex v c2 hvg r2 h (cut _ l2)).2 c2 r2) h
  · have : c1 ≤ m.g s + d.over := le_trans (le_trans l1.le (not_lt.1 h)) l2
    exact lt_of_le_of_lt ((hex v c1 hvg r1 l1 (cut _ this)).2 c1 r1) l1

/-- A driven way connects the columns. -/
theorem drives_columns {g : Geo} (hs : Sane g) (hger : g.ger ≤ 1 / 4) {c : Wt} {u : Bool} {cm hy : Cell → Option Int} {lr : Int}
    {ss : List Cell} {d : Cfg} (hf : Fits g cm d) (ho : OnlyInside g cm) {a b : Cell} (h : Drives g c u cm hy lr ss a b) :
    Relation.ReflTransGen (Beside d) (column a) (column b) := by
  induction h with
  | refl => exact .refl
  | tail _ hs' ih => exact ih.trans (move_columns hs hger hf ho hs')

/-- **C118** (the goal is not refused).  If the vehicle can drive from the robot's own cell to a goal that is not lethal, then "Goal
unreachable" is not reported: after the distance map was created, and extended any number of times for other positions of the robot, its value
at the robot's cell is below the largest value. -/
theorem reachable_not_refused_partial {g : Geo} (hs : Sane g) (hger : g.ger ≤ 1 / 4) {c : Wt} {u : Bool} {cm hy : Cell → Option Int}
    {lr : Int} {ss : List Cell} {d : Cfg} (hf : Fits g cm d) (ho : OnlyInside g cm) (hc : Verif.DistMap.GoodCfg d) (ht : 0 < d.tasks)
    {B : Rat} (hB : Moderate d B) {cells : List Pos} (hcells : ∀ v, inMap d v = true → v ∈ cells) {robot goal : Cell} {m : DM Pos Rat}
    (hh : Hist (env d) cells (column goal) (column robot) m) (hfree : Free cm goal) (hd : Drives g c u cm hy lr ss robot goal) :
    Known m robot ∧ goalUnreachable m cm robot goal = some false := by
  have hcol := drives_columns hs hger hf ho hd
  have hg := (free_open hf ho hfree).1
  have L := Verif.DistMap.grid_laws hc (column goal)
  have hk : m.g (column robot) < CostType.top := by
    by_cases hse : column robot = column goal
    · rw [hse, (goal_zero hc ht hcells hh).1]; exact L.top0
    · obtain ⟨k, hk, hk'⟩ := connected_route hc hB hg hcol
      have := (Verif.DistMap.extend_exact L ht hcells hh hse).2.2 k hk hk'
      exact lt_of_le_of_lt (this.2 k hk) hk'
  refine ⟨hk, ?_⟩
  obtain ⟨v, hv, hle⟩ := hfree
  unfold goalUnreachable
  rw [if_neg (show ¬ m.g (robot.x, robot.y) = CostType.top from ne_of_lt hk), hv]
  simp only [Option.map_some, Option.some.injEq, decide_eq_false_iff_not]
  omega

/-- **C118** (what is refused).  A goal inside the map whose cell is not free is always reported unreachable, and so is every goal when
nothing is known about the robot's own cell. -/
theorem blocked_refused {cm : Cell → Option Int} (m : DM Pos Rat) {robot goal : Cell} {v : Int} (hv : cm goal = some v)
    (hb : ¬ Free cm goal ∨ m.g (column robot) = CostType.top) : goalUnreachable m cm robot goal = some true := by
  unfold goalUnreachable
  by_cases ht : m.g (robot.x, robot.y) = CostType.top
  · rw [if_pos ht]
  · rw [if_neg ht]
    rw [hv]
    simp only [Option.map_some, Option.some.injEq, decide_eq_true_eq]
    rcases hb with hb | hb
    · by_contra hc
      exact hb ⟨v, hv, by omega⟩
    · exact absurd hb ht

/-- **C119** (the value).  The integer a start pose begins with is the estimate cut off towards zero: never farther from zero than the estimate
and less than one away from it. -/
theorem start_value {g : Geo} {c : Wt} {m : DM Pos Rat} {goal s : Cell} {n : Int} {e : ℝ} (he : costEstim g c (estimOf m) s goal = some e)
    (h : startEstim g c m goal s = some n) : |((n : Int) : ℝ)| ≤ |e| ∧ |e - n| < 1 := by
  unfold startEstim at h
  rw [he] at h
  simp only at h
  split at h
  · have h := Option.some.inj h
    by_cases h0 : 0 ≤ e
    · rw [if_pos h0] at h
      have h1 := Int.floor_le e
      have h2 := Int.lt_floor_add_one e
      have h3 : (0 : ℝ) ≤ ((⌊e⌋ : Int) : ℝ) := by exact_mod_cast Int.floor_nonneg.mpr h0
      rw [← h, abs_of_nonneg h3, abs_of_nonneg h0, abs_lt]
      exact ⟨h1, by linarith, by linarith⟩
    · rw [if_neg h0] at h
      have h1 := Int.le_ceil e
      have h2 := Int.ceil_lt_add_one e
      have h3 : ((⌈e⌉ : Int) : ℝ) ≤ 0 := by exact_mod_cast Int.ceil_le.mpr (by push_cast; linarith)
      rw [← h, abs_of_nonpos h3, abs_of_neg (by linarith), abs_lt]
      exact ⟨by linarith, by linarith, by linarith⟩
  · cases h

/-- A lethal goal is refused. -/
example : goalUnreachable (⟨fun _ => 5, fun _ => false, none⟩ : DM Pos Rat) (fun _ => some 100) ⟨0, 0, 0⟩ ⟨3, 2, 0⟩ = some true :=
  blocked_refused _ rfl (.inl (by rintro ⟨v, hv, hle⟩; cases hv; omega))

theorem steps_route {d : Cfg} {B : Rat} (hB : Moderate d B) {goal : Pos} {n : Nat} {p q : Pos} (h : Steps d n p q) (c0 : Rat)
    (h0 : Route (env d) goal p c0) : ∃ c, Route (env d) goal q c ∧ c ≤ c0 + n * B := by
  induction h with
  | zero => exact ⟨c0, h0, by simp⟩
  | @succ n p q r _ hb ih =>
    obtain ⟨c, hc, hle⟩ := ih h0
    by_cases hqr : q = r
    · refine ⟨c, hqr ▸ hc, ?_⟩
      have := hB.nonneg
      push_cast
      linarith
    · obtain ⟨e, he⟩ := beside_step hb hqr
      refine ⟨c + e, .step hc he, ?_⟩
      have := hB.step _ _ _ he
      push_cast
      linarith

/-- **C118** (the robot moves on).  The distance map was last extended for a robot at `s`, which could reach the goal.  The robot is now `n`
columns further, and `n` steps cost no more than the overshoot: the estimate at its new cell is known as well. -/
theorem moved_known {d : Cfg} (hc : Verif.DistMap.GoodCfg d) (ht : 0 < d.tasks) {B : Rat} (hB : Moderate d B) {cells : List Pos}
    (hcells : ∀ v, inMap d v = true → v ∈ cells) {goal s r : Pos} {m : DM Pos Rat} (hh : Hist (env d) cells goal s m) (hse : s ≠ goal)
    (hg : inMap d goal = true) (hconn : Relation.ReflTransGen (Beside d) s goal) {n : Nat} (hn : Steps d n s r) (hover : n * B ≤ d.over) :
    m.g r < CostType.top := by
  have L := Verif.DistMap.grid_laws hc goal
  obtain ⟨k, hk, hk'⟩ := connected_route hc hB hg hconn
  have hs : Route (env d) goal s (m.g s) := ((Verif.DistMap.extend_exact L ht hcells hh hse).2.2 k hk hk').1
  obtain ⟨c, hcr, hle⟩ := steps_route hB hn _ hs
  refine near_known hc ht hB hcells hh hse ?_ ⟨c, hcr, by linarith⟩ hg
  clear hcr hle hover
  induction hn with
  | zero => exact hconn
  | succ _ hb ih => exact .head (beside_symm hb) (ih hh hse hconn hk hs)

end Verif.Guide
