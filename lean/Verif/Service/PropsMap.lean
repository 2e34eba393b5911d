import Verif.Service.Props
import Verif.PlannerMap.Rough
/-! # The service on the maps the planner holds (C111)

`planned_path` promises free poses if the map without headings is nowhere above the map with headings.  Here this is discharged for the maps
a history of messages leaves behind. -/
namespace Verif.Service
open Verif.GridMetric (Cell Pose)
open Verif.Model3D.Spec (Sane Nonneg)
open Verif.PlannerMap (Event BaseMap St run past AllSmall)

theorem least_nonneg (top : Int) (ht : 0 ≤ top) (f : Nat → Int) (n : Nat) (h : ∀ k < n, 0 ≤ f k) : 0 ≤ Verif.PlannerMap.least top n f := by
  induction n with
  | zero => simpa [Verif.PlannerMap.least] using ht
  | succ n ih =>
    have e : Verif.PlannerMap.least top (n + 1) f = min (Verif.PlannerMap.least top n f) (f n) := by
      unfold Verif.PlannerMap.least
      rw [List.range_succ, List.foldl_append]
      rfl
    rw [e]
    exact le_min (ih fun k hk => h k (by omega)) (h n (by omega))

/-- The service of a planner whose maps are those left behind by a history of messages with base map `b`. -/
structure Holds (n : Node) (s : St) (b : BaseMap) : Prop where
  width : n.geo.width = b.width
  height : n.geo.height = b.height
  angle : n.geo.angle = b.angle
  cm : ∀ c, Model3D.Spec.InMap n.geo c → n.cm c = s.cm c
  rough : ∀ c, OnRough n c → n.rough c = s.rough c

/-- Whatever base maps and updates were received, the map without headings has costs between 0 and 100 (unknown cells count as `unk ≥ 0`). -/
theorem rough_range (unk : Int) (hu : 0 ≤ unk) (h : List Event) (hs : AllSmall h) (s : St) (hr : run unk h = some s) (b : BaseMap)
    (hb : (past h).base = some b) (x y : Int) (hx : 0 ≤ x ∧ x < b.width) (hy : 0 ≤ y ∧ y < b.height) :
    0 ≤ s.rough ⟨x, y, 0⟩ ∧ s.rough ⟨x, y, 0⟩ ≤ 100 := by
  rw [Verif.PlannerMap.rough_costmap_is_base_with_last_update unk h hs s hr b hb x y (by unfold Verif.PlannerMap.InMap; simp only; omega)]
  have hb0 : 0 ≤ Verif.PlannerMap.least 100 b.angle fun k => b.at unk ⟨x, y, k⟩ :=
    least_nonneg _ (by norm_num) _ _ fun k _ => by
      unfold BaseMap.at
      dsimp only
      split <;> omega
  have hb1 := (Verif.PlannerMap.least_le 100 (fun k => b.at unk ⟨x, y, k⟩) b.angle).1
  unfold Verif.PlannerMap.expectedRough
  cases (past h).last with
  | none => exact ⟨hb0, hb1⟩
  | some ou =>
    obtain ⟨o, u⟩ := ou
    dsimp only
    split
    · exact ⟨le_trans hb0 (le_max_left _ _), max_le hb1 (Verif.PlannerMap.least_le 100 _ u.angle).1⟩
    · exact ⟨hb0, hb1⟩

/-- **C111** (on the maps of the planner).  After any history of base maps and updates whose last accepted update was not applied in
overwriting mode and covers all headings, every pose of every path the service returns lies in a cell that is not lethal. -/
theorem served_path_free_partial (unk : Int) (hu : 0 ≤ unk) (h : List Event) (hs : AllSmall h) (s : St) (hr : run unk h = some s)
    (b : BaseMap) (hb : (past h).base = some b)
    (hl : ∀ o w, (past h).last = some (o, w) → o = false ∧ w.yaw = 0 ∧ w.angle = b.angle) (n : Node) (hn : Holds n s b) (hg : Sane n.geo)
    (hw : 0 < n.geo.width ∧ 0 < n.geo.height) (hwt : Nonneg n.wt) (ha : n.acceptable ≤ 100) :
    Runs n ∧ ∀ q path, Answer n q (some path) → ∀ p ∈ path, OnFree n p := by
  have hcol : ∀ c, OnRough n c → 0 ≤ s.rough c ∧ s.rough c ≤ 100 := by
    rintro ⟨x, y, yaw⟩ ⟨h1, h2, h3, h4, h5⟩
    simp only at h1 h2 h3 h4 h5
    subst h5
    rw [hn.width] at h2
    rw [hn.height] at h4
    exact rough_range unk hu h hs s hr b hb x y ⟨h1, h2⟩ ⟨h3, h4⟩
  have hruns : Runs n := ⟨hg, hw.1, hw.2, hwt, fun c hc => by rw [hn.rough c hc]; exact (hcol c hc).1,
    fun c hc => by rw [hn.rough c hc]; exact (hcol c hc).2, ha⟩
  refine ⟨hruns, fun q path hq p hp => ?_⟩
  obtain ⟨-, -, -, _, _, -, -, -, -, -, hall⟩ := planned_path n hruns q path hq
  refine (hall p hp).2.2 fun c hc => ?_
  obtain ⟨h1, h2, h3, h4, h5, h6⟩ := id hc
  rw [hn.rough ⟨c.x, c.y, 0⟩ ⟨h1, h2, h3, h4, rfl⟩, hn.cm c hc]
  refine Verif.PlannerMap.rough_below_partial unk h hs s hr b hb hl c ?_
  rw [hn.width] at h2
  rw [hn.height] at h4
  rw [hn.angle] at h6
  unfold Verif.PlannerMap.InMap
  omega

/-- A base map of five by five cells with one heading, and an update that makes the middle cell lethal. -/
def mapB : BaseMap := ⟨0, 5, 5, 1, List.replicate 25 0⟩
def updB : Verif.PlannerMap.Update := ⟨1, 2, 2, 0, 1, 1, 1, [100]⟩
def histB : List Event := [.map false mapB, .update false updB]

noncomputable def exB : Node where
  hasMap := true
  frame := 0
  geo := ⟨5, 5, 1, 1, 2 * Real.pi / 1, 1, 1 / 2, 1 / 2⟩
  wt := ⟨1, 1, 0, 0, 1, 1, 0, 0, 1, 0, 1, 1, 0, 0⟩
  ox := 0
  oy := 0
  acceptable := 50
  tolAngle := 1
  cm := fun c => if c.x = 2 ∧ c.y = 2 then 100 else 0
  rough := fun c => if c.x = 2 ∧ c.y = 2 then 100 else 0
  tasks := 1
  limit := 0
  findBest := true

/-- The hypotheses of `served_path_free_partial` are met by this history, and a path is served. -/
example : ∃ s, AllSmall histB ∧ run 0 histB = some s ∧ (past histB).base = some mapB ∧
    (past histB).last = some (false, updB) ∧ Holds exB s mapB ∧ ∃ path, Answer exB (goTo 3 1) (some path) ∧ ∀ p ∈ path, OnFree exB p := by
  have hs : AllSmall histB := by
    intro o u hu
    simp only [histB, List.mem_cons, Event.update.injEq, reduceCtorEq, List.not_mem_nil, or_false, false_or] at hu
    obtain ⟨-, rfl⟩ := hu
    unfold Verif.PlannerMap.Small updB
    norm_num
  obtain ⟨s, hr⟩ : ∃ s, run 0 histB = some s :=
    Verif.PlannerMap.complete_messages_defined 0 _ hs (by
      intro e he
      simp only [histB, List.mem_cons, List.not_mem_nil, or_false] at he
      rcases he with rfl | rfl <;> simp [Verif.PlannerMap.Complete, mapB, updB])
  have hb : (past histB).base = some mapB := by rfl
  have hl : (past histB).last = some (false, updB) := by rfl
  have hcm : ∀ x y : Fin 5, Verif.PlannerMap.expected 0 mapB (some (false, updB)) ⟨x.val, y.val, 0⟩ =
      if x.val = 2 ∧ y.val = 2 then 100 else 0 := by decide +kernel
  have hro : ∀ x y : Fin 5, Verif.PlannerMap.expectedRough 0 mapB (some (false, updB)) x.val y.val =
      if x.val = 2 ∧ y.val = 2 then 100 else 0 := by decide +kernel
  have hfin : ∀ x : Int, 0 ≤ x → x < 5 → ∃ k : Fin 5, x = k.val := fun x h0 h5 => ⟨⟨x.toNat, by omega⟩, by simp; omega⟩
  have hn : Holds exB s mapB := by
    refine ⟨rfl, rfl, rfl, ?_, ?_⟩
    · rintro ⟨x, y, yaw⟩ ⟨h1, h2, h3, h4, h5, h6⟩
      simp only [exB] at h1 h2 h3 h4 h5 h6
      obtain ⟨kx, rfl⟩ := hfin x h1 h2
      obtain ⟨ky, rfl⟩ := hfin y h3 h4
      obtain rfl : yaw = 0 := by omega
      rw [Verif.PlannerMap.costmap_is_base_with_last_update 0 histB hs s hr mapB hb _ (by
        unfold Verif.PlannerMap.InMap mapB; simp only; omega), hl, hcm]
      simp only [exB]
      norm_cast
    · rintro ⟨x, y, yaw⟩ ⟨h1, h2, h3, h4, h5⟩
      simp only [exB] at h1 h2 h3 h4 h5
      obtain ⟨kx, rfl⟩ := hfin x h1 h2
      obtain ⟨ky, rfl⟩ := hfin y h3 h4
      subst h5
      rw [Verif.PlannerMap.rough_costmap_is_base_with_last_update 0 histB hs s hr mapB hb _ _ (by
        unfold Verif.PlannerMap.InMap mapB; simp only; omega), hl, hro]
      simp only [exB]
      norm_cast
  obtain ⟨hruns, hfree⟩ := served_path_free_partial 0 (le_refl _) histB hs s hr mapB hb (by
    intro o w hw
    rw [hl] at hw
    cases hw
    exact ⟨rfl, rfl, rfl⟩) exB hn ⟨by norm_num [exB], by simp [exB], by norm_num [exB], by norm_num [exB], by norm_num [exB], by norm_num [exB]⟩
    ⟨by norm_num [exB], by norm_num [exB]⟩
    ⟨by norm_num [exB], by norm_num [exB], by norm_num [exB], by norm_num [exB], by norm_num [exB], by norm_num [exB], by norm_num [exB],
      by norm_num [exB], by norm_num [exB]⟩ (by norm_num [exB])
  have hop : ∀ i : Int, 0 ≤ i → i < 5 → Open exB i 1 := fun i h0 h5 => ⟨h0, h5, by norm_num, by norm_num [exB], by norm_num [exB]⟩
  obtain ⟨⟨o, ho⟩, -⟩ := every_call_answered exB hruns (goTo 3 1)
  have := (plain_request exB hruns (by norm_num [exB]) rfl (goTo 3 1) rfl ⟨rfl, rfl⟩ 1 1 3 1
    ⟨by refine ⟨?_, ?_, ?_, ?_⟩ <;> norm_num [exB, goTo], by refine ⟨?_, ?_, ?_, ?_⟩ <;> norm_num [exB], by norm_num [exB]⟩
    ⟨by refine ⟨?_, ?_, ?_, ?_⟩ <;> norm_num [exB, goTo], by refine ⟨?_, ?_, ?_, ?_⟩ <;> norm_num [exB], by norm_num [exB]⟩ o ho).2 (by decide)
    (.tail (b := ((2, 1) : Int × Int)) (.tail .refl ⟨hop 1 (by norm_num) (by norm_num), hop 2 (by norm_num) (by norm_num), by norm_num⟩)
      ⟨hop 2 (by norm_num) (by norm_num), hop 3 (by norm_num) (by norm_num), by norm_num⟩)
  obtain ⟨path, rfl⟩ := Option.isSome_iff_exists.1 this
  exact ⟨s, hs, hr, hb, hl, hn, path, ho, hfree _ _ ho⟩

end Verif.Service
