import Verif.Scene.Spec
import Verif.Guide.PropsSearch
import Verif.StartPose.PropsPlan
import Verif.GridMetric.Props
/-! # Lemmas for the scene -/
namespace Verif.Scene
open Verif.Model3D Verif.Model3D.Spec
open Verif.GridMetric (Cell Pose grid2Metric grid2MetricF appendPath)
open Verif.DistMap (DM)
open Verif.DistMap.Grid (Pos env inMap)
open Verif.Guide (column Drive InRange)
open Verif.Astar.Vec (Search Why)

theorem known_some {sc : Scene} {a : Cell} {v : Int} : known sc a = some v ↔ InMap sc.g a ∧ sc.cm a = v := by
  unfold known
  constructor
  · intro h
    split at h
    · rename_i k; cases h; exact ⟨k, rfl⟩
    · cases h
  · rintro ⟨k, rfl⟩
    exact if_pos k

theorem known_covers (sc : Scene) : Covers sc.g (known sc) := fun a h => ⟨_, known_some.mpr ⟨h, rfl⟩⟩

theorem known_free {sc : Scene} {a : Cell} : Free (known sc) a ↔ InMap sc.g a ∧ sc.cm a ≤ 99 := by
  constructor
  · rintro ⟨v, h, hv⟩
    obtain ⟨h1, rfl⟩ := known_some.mp h
    exact ⟨h1, hv⟩
  · rintro ⟨h1, h2⟩
    exact ⟨_, known_some.mpr ⟨h1, rfl⟩, h2⟩

theorem inMap_of {sc : Scene} {B : Rat} (hg : Good sc B) {a : Cell} (h : StartPose.OnMap sc.pl.map a) : InMap sc.g a := Guide.onMap_inMap hg.same h

/-- A free cell stays where it is. -/
theorem place_free {sc : Scene} {a : Cell} (h : StartPose.OnMap sc.pl.map a) (hf : sc.cm a ≤ 99) : place sc a = .ok := by
  have hv := (SearchPos.validate_iff sc.pl.map.range sc.pl.map.width sc.pl.map.height sc.pl.map.angle a.x a.y a.yaw).mpr h
  unfold place SearchPos.relocate SearchPos.relocateImpl
  rw [if_neg (by simp), if_neg (by simp [hv]), if_neg (by omega)]

/-- Only an occupied cell is given up. -/
theorem place_rock {sc : Scene} {a : Cell} (h : place sc a = .inRock) : 100 ≤ sc.cm a := by
  by_contra hf
  unfold place SearchPos.relocate SearchPos.relocateImpl at h
  rw [if_neg (by simp)] at h
  by_cases hv : Gridmap.validateLoop sc.pl.map.range 2 [a.x, a.y, a.yaw] [sc.pl.map.width, sc.pl.map.height, sc.pl.map.angle] = false
  · rw [if_pos hv] at h; cases h
  · rw [if_neg hv, if_neg (by omega)] at h; cases h

/-- The free own cell is a start cell. -/
theorem own_start {sc : Scene} {B : Rat} (hg : Good sc B) (hon : StartPose.OnMap sc.pl.map (own sc)) (hf : sc.cm (own sc) ≤ 99) (p : P) :
    (starts sc p).1 ≠ .occupied ∧ (∃ x ∈ (starts sc p).2, x.1 = own sc) ∧
    ∀ x ∈ (starts sc p).2, 0 ≤ x.2 ∧ StartPose.OnMap sc.pl.map x.1 ∧ sc.cm x.1 ≤ 99 ∧ StartPose.sqDist sc.pl.info sc.robot x.1 ≤ 1 ∧ x.1.yaw = (own sc).yaw := by
  have hnear : ∃ x ∈ StartPose.nearStarts sc.pl sc.cm sc.robot, x.1 = own sc := by
    unfold StartPose.nearStarts
    dsimp only
    split
    · refine ⟨_, List.mem_filterMap.mpr ⟨own sc, ?_, (StartPose.candidate_iff _ _ _ _ _).mpr
        ⟨hon, (StartPose.own_near sc.pl sc.robot).le, hf, rfl⟩⟩, rfl⟩
      rw [List.mem_flatMap]
      refine ⟨0, by simp, List.mem_map.mpr ⟨0, by simp, ?_⟩⟩
      simp [own]
    · rw [if_pos (show sc.cm (StartPose.ownCell sc.pl sc.robot) < 100 from by unfold own at hf; omega)]
      exact ⟨_, List.mem_singleton.mpr rfl, rfl⟩
  refine ⟨?_, ?_, ?_⟩
  · rcases StartPose.starts_cases sc.pl hg.pl sc.cm sc.robot (cell sc p) with ⟨h, -⟩ | ⟨-, h, -⟩ | ⟨-, l, h, -⟩
    · exact absurd hon h
    · obtain ⟨x, hx, -⟩ := hnear; rw [h] at hx; cases hx
    · unfold starts; rw [h]; dsimp only; split <;> simp
  · rcases StartPose.starts_cases sc.pl hg.pl sc.cm sc.robot (cell sc p) with ⟨h, -⟩ | ⟨-, h, -⟩ | ⟨-, l, h, -, h2 | ⟨h2, -⟩⟩
    · exact absurd hon h
    · obtain ⟨x, hx, -⟩ := hnear; rw [h] at hx; cases hx
    · unfold starts; rw [h, h2]; exact hnear
    · obtain ⟨x, hx, -⟩ := hnear; rw [h2] at hx; cases hx
  · intro x hx
    obtain ⟨h1, h2, h3⟩ := StartPose.start_cells sc.pl hg.pl sc.cm sc.robot (cell sc p) x hx
    rcases h3 with ⟨-, k1, k2, k3⟩ | ⟨-, k1⟩ | ⟨k1, -⟩
    · refine ⟨?_, h1, h2, k2, k1⟩
      rw [k3]
      have := hg.pl.ec0
      have := hg.weight
      have : (0 : ℝ) ≤ (sc.cm x.1 : ℝ) := by exact_mod_cast hg.cm x.1
      positivity
    · rw [k1] at h1 h2 ⊢
      exact ⟨le_rfl, h1, h2, (StartPose.own_near sc.pl sc.robot).le, rfl⟩
    · unfold own at hf; omega

/-- The costs of all start cells are non-negative, and the cells are free (also when the robot's own cell is not). -/
theorem start_free {sc : Scene} {B : Rat} (hg : Good sc B) {p : P} {x : Cell × ℝ} (hx : x ∈ (starts sc p).2) :
    0 ≤ x.2 ∧ StartPose.OnMap sc.pl.map x.1 ∧ sc.cm x.1 ≤ 99 := by
  obtain ⟨h1, h2, h3⟩ := StartPose.start_cells sc.pl hg.pl sc.cm sc.robot (cell sc p) x hx
  refine ⟨?_, h1, h2⟩
  rcases h3 with ⟨-, k1, k2, k3⟩ | ⟨-, k1⟩ | ⟨k1, k2, -⟩
  · rw [k3]
    have := hg.pl.ec0
    have := hg.weight
    have : (0 : ℝ) ≤ (sc.cm x.1 : ℝ) := by exact_mod_cast hg.cm x.1
    positivity
  · rw [k1]
  · rw [k2]

/-- The search from the robot's cell succeeds, when the distance map was last extended for another cell. -/
theorem succeeds_from {sc : Scene} {B : Rat} (hg : Good sc B) {cells : List Pos} (hcells : ∀ v, inMap sc.d v = true → v ∈ cells) {eye : Cell} {m : DM Pos Rat} {p : P}
    (hd : Drivable sc m cells eye p) :
    Guide.goalUnreachable m (known sc) (own sc) (cell sc p) = some false ∧
    Relation.ReflTransGen (fun x y => Drive sc.g sc.c sc.u (known sc) sc.hy sc.lr ((starts sc p).2.map Prod.fst) x y ∧ Guide.Known m y) (own sc) (cell sc p) ∧
    ∀ v, 0 ≤ m.g v := by
  have ho : Guide.OnlyInside sc.g (known sc) := fun a v h => (known_some.mp h).1
  have hfree : Free (known sc) (cell sc p) := known_free.mpr ⟨inMap_of hg hd.onMap, hd.free⟩
  have hgo := (Guide.free_open hg.fits ho hfree).1
  have mono : ∀ a, Relation.ReflTransGen (fun x y => Drive sc.g sc.c sc.u (known sc) sc.hy sc.lr ((starts sc p).2.map Prod.fst) x y ∧
      InRange sc.d m (column (cell sc p)) (column eye) (column y)) a (cell sc p) →
      Guide.Drives sc.g sc.c sc.u (known sc) sc.hy sc.lr ((starts sc p).2.map Prod.fst) a (cell sc p) := by
    intro a ha
    induction ha using Relation.ReflTransGen.head_induction_on with
    | refl => exact .refl
    | head h _ ih => exact .head h.1 ih
  have hk : Guide.Known m (own sc) :=
    Guide.near_known hg.cfg hg.tasks hg.moderate hcells hd.map hd.apart (Guide.drives_columns hg.g hg.ger hg.fits ho (mono _ hd.way)) hd.here hgo
  refine ⟨?_, ?_, (Guide.goal_zero hg.cfg hg.tasks hcells hd.map).2⟩
  · unfold Guide.goalUnreachable
    rw [if_neg (show ¬ m.g ((own sc).x, (own sc).y) = _ from ne_of_lt hk), known_some.mpr ⟨inMap_of hg hd.onMap, rfl⟩]
    simp only [Option.map_some, Option.some.injEq, decide_eq_false_iff_not]
    have := hd.free
    omega
  · have key : ∀ a, Relation.ReflTransGen (fun x y => Drive sc.g sc.c sc.u (known sc) sc.hy sc.lr ((starts sc p).2.map Prod.fst) x y ∧
        InRange sc.d m (column (cell sc p)) (column eye) (column y)) a (cell sc p) →
        Relation.ReflTransGen (fun x y => Drive sc.g sc.c sc.u (known sc) sc.hy sc.lr ((starts sc p).2.map Prod.fst) x y ∧ Guide.Known m y) a (cell sc p) := by
      intro a ha
      induction ha using Relation.ReflTransGen.head_induction_on with
      | refl => exact .refl
      | @head x y h hr ih =>
        exact .head ⟨h.1, Guide.near_known hg.cfg hg.tasks hg.moderate hcells hd.map hd.apart
          (Guide.drives_columns hg.g hg.ger hg.fits ho (mono y hr)) h.2 hgo⟩ ih
    exact key _ hd.way

theorem toVec_inj {a b : Cell} (h : toVec a = toVec b) : a = b := by
  cases a; cases b
  simp only [toVec, List.cons.injEq, and_true] at h
  obtain ⟨rfl, rfl, rfl⟩ := h
  rfl

/-- If the robot can drive to the goal, the search that is not stopped finds a path. -/
theorem outcome_found {sc : Scene} {B : Rat} (hg : Good sc B) {cells : List Pos} (hcells : ∀ v, inMap sc.d v = true → v ∈ cells) {eye : Cell} {m : DM Pos Rat} {p : P}
    (hon : StartPose.OnMap sc.pl.map (own sc)) (hf : sc.cm (own sc) ≤ 99) (hd : Drivable sc m cells eye p) {best found : Bool} {ps : List P}
    (h : Outcome sc m best p false found ps) : found = true := by
  cases h with
  | same => rfl
  | @search junk sE tasks why r hne ht hE hs ha =>
    obtain ⟨-, way, hpos⟩ := succeeds_from hg hcells hd
    obtain ⟨-, ⟨x, hx, hxo⟩, hst⟩ := own_start hg hon hf p
    have := Guide.search_finds_partial (a := own sc) (w := (x.2 : WithTop ℝ)) ⟨hg.size.1, hg.size.2, hg.g.angle_pos⟩ hg.wt.ec2
      (fun a v k => (known_some.mp k).2 ▸ hg.cm a) hg.hy.2 hg.g hg.wt hpos ht
      (fun s hs => by
        obtain ⟨y, hy, rfl⟩ := List.mem_map.mp hs
        exact ⟨WithTop.coe_nonneg.mpr (hst y hy).1, WithTop.coe_lt_top _, rfl⟩)
      (fun s hs => by
        obtain ⟨y, hy, rfl⟩ := List.mem_map.mp hs
        exact fun k => hne y hy (toVec_inj k))
      (List.mem_map.mpr ⟨x, hx, by rw [hxo]⟩) (inMap_of hg hon) way hs
    rcases this with k | k
    · exact absurd (ha k) (by simp)
    · exact k.2

theorem clear_of_safe {sc : Scene} {B : Rat} (hg : Good sc B) {q : P} (h : Safe sc.g (known sc) q) : Clear sc (grid2MetricF sc.pl.info q) := by
  obtain ⟨a, hf, hx, hy, k, hk⟩ := h
  obtain ⟨h1, h2⟩ := known_free.mp hf
  have hr := hg.pl.res
  have ha := hg.pl.ares
  refine ⟨a, h1, h2, ?_, ?_, k, ?_⟩
  · have : (grid2MetricF sc.pl.info q).x - (grid2Metric sc.pl.info a).x = (q.x - a.x) * sc.pl.info.res := by
      simp only [grid2Metric, grid2MetricF]; ring
    rw [this, abs_mul, abs_of_pos hr]
    nlinarith
  · have : (grid2MetricF sc.pl.info q).y - (grid2Metric sc.pl.info a).y = (q.y - a.y) * sc.pl.info.res := by
      simp only [grid2Metric, grid2MetricF]; ring
    rw [this, abs_mul, abs_of_pos hr]
    nlinarith
  · have : (grid2MetricF sc.pl.info q).yaw - ((a.yaw + k * sc.g.angle : Int) : ℝ) * sc.pl.info.ares = (q.yaw - ((a.yaw + k * sc.g.angle : Int) : ℝ)) * sc.pl.info.ares := by
      simp only [grid2MetricF]; ring
    rw [this, abs_mul, abs_of_pos ha]
    nlinarith

theorem normal_eq {P : Astar.Vec.VProb (WithTop ℝ)} {w h A : Int} (hP : P.nonc = 2 ∧ P.size = [w, h, A]) {v : List Int} {a : Cell} (ha : 0 ≤ a.yaw ∧ a.yaw < A)
    (hv : Verif.Astar.Vec.Spec.IsNormalOf P v (toVec a)) : v = toVec a := by
  obtain ⟨hl, hx⟩ := hv
  obtain ⟨hn, hs⟩ := hP
  match v, hl with
  | [x, y, z], _ =>
    have e0 := (hx 0 (by simp [toVec]) (by simp [hs]) (by simp)).1 (by simp [hn])
    have e1 := (hx 1 (by simp [toVec]) (by simp [hs]) (by simp)).1 (by simp [hn])
    have e2 := (hx 2 (by simp [toVec]) (by simp [hs]) (by simp)).2 (by simp [hn])
    simp only [toVec, hs, List.getElem_cons_zero, List.getElem_cons_succ] at e0 e1 e2
    obtain ⟨⟨r1, r2⟩, k, hk⟩ := e2
    have : k = 0 := by
      rcases lt_trichotomy k 0 with h | h | h
      · nlinarith [ha.1, ha.2]
      · exact h
      · nlinarith [ha.1, ha.2]
    subst this
    simp only [toVec]
    rw [e0, e1, hk]
    simp

theorem angle_eq {sc : Scene} {B : Rat} (hg : Good sc B) : sc.pl.map.angle = sc.g.angle := hg.same.angle

theorem cell_yaw {sc : Scene} {B : Rat} (hg : Good sc B) (p : P) : 0 ≤ (cell sc p).yaw ∧ (cell sc p).yaw < sc.g.angle := by
  rw [← angle_eq hg]
  exact ⟨(SearchPos.cycU_spec _ _ hg.pl.angle).1, (SearchPos.cycU_spec _ _ hg.pl.angle).2.1⟩

theorem poseOf_centre (i : GridMetric.Info ℝ) (a : Cell) : grid2MetricF i (poseOf a) = grid2Metric i a := rfl

theorem estim_ge {sc : Scene} {B : Rat} (hg : Good sc B) (m : DM Pos Rat) (goal a : Cell) {l : ℝ}
    (h : Guide.searchEstim sc.g sc.c m goal (toVec a) < (l : WithTop ℝ)) : ((m.g (column a) : Rat) : ℝ) < l := by
  unfold Guide.searchEstim at h
  change (match costEstim sc.g sc.c (Guide.estimOf m) a goal with | none => ⊤ | some e => (e : WithTop ℝ)) < _ at h
  unfold costEstim Guide.estimOf at h
  dsimp only at h
  split_ifs at h with k
  · simp at h
  · simp only [Option.map_some, WithTop.coe_lt_coe] at h
    have := mul_nonneg hg.wt.ec2 (abs_nonneg ((upLoop sc.g.angle (downLoop sc.g.angle (a.yaw - goal.yaw)) : Int) : ℝ))
    change ((m.g (a.x, a.y) : Rat) : ℝ) < l
    linarith

theorem add_lt_of {raw e : WithTop ℝ} {l : ℝ} (h : raw + e < raw + (l : WithTop ℝ)) : e < (l : WithTop ℝ) := by
  induction raw using WithTop.recTopCoe with
  | top => simp at h
  | coe r =>
    induction e using WithTop.recTopCoe with
    | top => simp at h
    | coe x =>
      rw [← WithTop.coe_add, ← WithTop.coe_add, WithTop.coe_lt_coe] at h
      rw [WithTop.coe_lt_coe]
      linarith

theorem nearer_of {sc : Scene} {m : DM Pos Rat} {v : ℝ} (h : v < rangeLimit sc m) : Nearer sc m v := by
  unfold rangeLimit at h
  unfold Nearer
  change v + _ < ((m.g ((own sc).x, (own sc).y) : Rat) : ℝ)
  linarith

/-- Whatever the search hands out, found or the best known, is clear and begins at a start cell. -/
theorem outcome_any {sc : Scene} {B : Rat} (hg : Good sc B) {m : DM Pos Rat} {p : P} {best stopped found : Bool} {ps : List P}
    (h : Outcome sc m best p stopped found ps) :
    (∀ q ∈ ps, Clear sc q) ∧ (ps ≠ [] → ∃ x ∈ (starts sc p).2, ps.head? = some (grid2Metric sc.pl.info x.1)) := by
  have hin : ∀ x ∈ (starts sc p).2, InMap sc.g x.1 := fun x hx => inMap_of hg (start_free hg hx).2.1
  cases h with
  | same h =>
    obtain ⟨x, hx, e⟩ := h
    have hs := start_free hg hx
    rw [e] at hs
    have e1 : appendPath sc.pl.info (interpolatePath sc.g [cell sc p]) [] = [grid2Metric sc.pl.info (cell sc p)] := by
      rw [GridMetric.append_path]; rfl
    rw [e1]
    refine ⟨?_, fun _ => ⟨x, hx, by rw [e]; rfl⟩⟩
    intro q hq
    rw [List.mem_singleton] at hq
    subst hq
    exact clear_of_safe hg (q := poseOf (cell sc p)) ⟨cell sc p, known_free.mpr ⟨inMap_of hg hs.2.1, hs.2.2⟩, by simp [poseOf], by simp [poseOf], 0, by simp [poseOf]⟩
  | @search junk sE tasks why r hne ht hE hs ha =>
    obtain ⟨b, path⟩ := r
    by_cases hnil : path = []
    · subst hnil
      have e1 : appendPath sc.pl.info (interpolatePath sc.g ((([] : List (List Int))).map ofVec)) [] = [] := by
        rw [GridMetric.append_path]; rfl
      change (∀ q ∈ appendPath sc.pl.info (interpolatePath sc.g ((([] : List (List Int))).map ofVec)) [], Clear sc q) ∧ _
      rw [e1]
      exact ⟨fun q hq => (by cases hq), fun h => absurd e1 h⟩
    have hst : ∀ s ∈ ((starts sc p).2.map fun x => (toVec x.1, (x.2 : WithTop ℝ))), 0 ≤ s.2 ∧ Verif.Astar.Vec.Spec.InMap [sc.g.width, sc.g.height, sc.g.angle] s.1 := by
      intro s hs
      obtain ⟨y, hy, rfl⟩ := List.mem_map.mp hs
      exact ⟨WithTop.coe_nonneg.mpr (start_free hg hy).1, Guide.inMap_toVec (hin y hy)⟩
    have wf : Verif.Astar.Vec.Spec.WellFormed (search sc m p junk sE tasks) := by
      refine ⟨?_, by simp [search, planProb], by simp [search, planProb, toVec], ?_, ?_⟩
      · intro s hs'
        simp only [search, planProb, List.mem_cons, List.not_mem_nil, or_false] at hs'
        rcases hs' with rfl | rfl | rfl
        · exact hg.size.1
        · exact hg.size.2
        · exact hg.g.angle_pos
      · intro s hs'
        exact (hst s hs').2.length_eq
      · intro p d hd
        simp only [search, planProb, List.mem_map] at hd
        obtain ⟨x, -, rfl⟩ := hd
        rfl
    have hP : (search sc m p junk sE tasks).nonc = 2 ∧ (search sc m p junk sE tasks).size = [sc.g.width, sc.g.height, sc.g.angle] := ⟨rfl, rfl⟩
    obtain ⟨hall, hch, -⟩ := plan_safe sc.g hg.g hg.even hg.size sc.c sc.u (known sc) sc.hy (known_covers sc) hg.hy.1 sc.lr _ junk _ sE _ (toVec (cell sc p)) _ tasks 0
      rfl hst hs
    obtain ⟨⟨s0, hs0, hhead⟩, -⟩ := Verif.Astar.search_any_path_legal wf (fun x hx => (hst x hx).1) hs hnil
    obtain ⟨x0, hx0, rfl⟩ := List.mem_map.mp hs0
    have hhead := normal_eq hP ⟨(hin x0 hx0).2.2.2.2.1, (hin x0 hx0).2.2.2.2.2⟩ hhead
    have hyaw : ∀ a ∈ path.map ofVec, 0 ≤ a.yaw ∧ a.yaw < sc.g.angle := fun a ha => (hall a ha).2.2.2.2
    obtain ⟨-, i2, -⟩ := interpolate_through sc.g hg.g (path.map ofVec) hyaw
    have hsafe := interpolate_safe sc.g hg.g sc.c sc.u (known sc) sc.hy (path.map ofVec) hyaw (by
      intro a ha
      cases path with
      | nil => exact absurd rfl hnil
      | cons v l =>
        simp only [List.map_cons, List.cons.injEq] at ha
        change v = toVec x0.1 at hhead
        rw [hhead] at ha
        have := ha.1
        change x0.1 = a at this
        rw [← this]
        exact known_free.mpr ⟨hin x0 hx0, (start_free hg hx0).2.2⟩) hch
    simp only [GridMetric.append_path, List.nil_append]
    refine ⟨?_, fun _ => ⟨x0, hx0, ?_⟩⟩
    · intro q hq
      obtain ⟨y, hy, rfl⟩ := List.mem_map.mp hq
      exact clear_of_safe hg (hsafe y hy)
    · rw [List.head?_map, i2]
      cases path with
      | nil => exact absurd rfl hnil
      | cons v l =>
        change v = toVec x0.1 at hhead
        subst hhead
        rfl

/-- Whatever is found is clear, begins at a start cell and ends at the goal or well on the way to it. -/
theorem outcome_path {sc : Scene} {B : Rat} (hg : Good sc B) {m : DM Pos Rat} {p : P} {best stopped : Bool} {ps : List P}
    (h : Outcome sc m best p stopped true ps) :
    ps ≠ [] ∧ (∀ q ∈ ps, Clear sc q) ∧ (∃ x ∈ (starts sc p).2, ps.head? = some (grid2Metric sc.pl.info x.1)) ∧
    ∃ a : Cell, ps.getLast? = some (grid2Metric sc.pl.info a) ∧
      (a = cell sc p ∨ Nearer sc m ((m.g (column a) : Rat) : ℝ) ∨
        ((∃ x ∈ (starts sc p).2, x.1 = a) ∧ ∀ k, Guide.startEstim sc.g sc.c m (cell sc p) a = some k → Nearer sc m ((k : Int) : ℝ))) := by
  have hin : ∀ x ∈ (starts sc p).2, InMap sc.g x.1 := fun x hx => inMap_of hg (start_free hg hx).2.1
  generalize hb : true = b at h
  cases h with
  | same h =>
    obtain ⟨x, hx, e⟩ := h
    have hs := start_free hg hx
    rw [e] at hs
    have e1 : appendPath sc.pl.info (interpolatePath sc.g [cell sc p]) [] = [grid2Metric sc.pl.info (cell sc p)] := by
      rw [GridMetric.append_path]; rfl
    rw [e1]
    refine ⟨by simp, ?_, ⟨x, hx, by rw [e]; rfl⟩, ⟨cell sc p, rfl, .inl rfl⟩⟩
    intro q hq
    rw [List.mem_singleton] at hq
    subst hq
    exact clear_of_safe hg (q := poseOf (cell sc p)) ⟨cell sc p, known_free.mpr ⟨inMap_of hg hs.2.1, hs.2.2⟩, by simp [poseOf], by simp [poseOf], 0, by simp [poseOf]⟩
  | @search junk sE tasks why r hne ht hE hs ha =>
    obtain ⟨b, path⟩ := r
    change true = b at hb
    subst hb
    have hst : ∀ s ∈ ((starts sc p).2.map fun x => (toVec x.1, (x.2 : WithTop ℝ))), 0 ≤ s.2 ∧ Verif.Astar.Vec.Spec.InMap [sc.g.width, sc.g.height, sc.g.angle] s.1 := by
      intro s hs
      obtain ⟨y, hy, rfl⟩ := List.mem_map.mp hs
      exact ⟨WithTop.coe_nonneg.mpr (start_free hg hy).1, Guide.inMap_toVec (hin y hy)⟩
    have wf : Verif.Astar.Vec.Spec.WellFormed (search sc m p junk sE tasks) := by
      refine ⟨?_, by simp [search, planProb], by simp [search, planProb, toVec], ?_, ?_⟩
      · intro s hs'
        simp only [search, planProb, List.mem_cons, List.not_mem_nil, or_false] at hs'
        rcases hs' with rfl | rfl | rfl
        · exact hg.size.1
        · exact hg.size.2
        · exact hg.g.angle_pos
      · intro s hs'
        exact (hst s hs').2.length_eq
      · intro p d hd
        simp only [search, planProb, List.mem_map] at hd
        obtain ⟨x, -, rfl⟩ := hd
        rfl
    have hP : (search sc m p junk sE tasks).nonc = 2 ∧ (search sc m p junk sE tasks).size = [sc.g.width, sc.g.height, sc.g.angle] := ⟨rfl, rfl⟩
    obtain ⟨hall, hch, -⟩ := plan_safe sc.g hg.g hg.even hg.size sc.c sc.u (known sc) sc.hy (known_covers sc) hg.hy.1 sc.lr _ junk _ sE _ (toVec (cell sc p)) _ tasks 0
      rfl hst hs
    obtain ⟨hnil, ⟨s0, hs0, hhead⟩, hlast, -, -, -, hmem⟩ := Verif.Astar.search_path_legal wf (fun x hx => (hst x hx).1) hs
    obtain ⟨x0, hx0, rfl⟩ := List.mem_map.mp hs0
    have hhead := normal_eq hP ⟨(hin x0 hx0).2.2.2.2.1, (hin x0 hx0).2.2.2.2.2⟩ hhead
    have hyaw : ∀ a ∈ path.map ofVec, 0 ≤ a.yaw ∧ a.yaw < sc.g.angle := fun a ha => (hall a ha).2.2.2.2
    obtain ⟨-, i2, i3⟩ := interpolate_through sc.g hg.g (path.map ofVec) hyaw
    have hsafe := interpolate_safe sc.g hg.g sc.c sc.u (known sc) sc.hy (path.map ofVec) hyaw (by
      intro a ha
      cases path with
      | nil => exact absurd rfl hnil
      | cons v l =>
        simp only [List.map_cons, List.cons.injEq] at ha
        change v = toVec x0.1 at hhead
        rw [hhead] at ha
        have := ha.1
        change x0.1 = a at this
        rw [← this]
        exact known_free.mpr ⟨hin x0 hx0, (start_free hg hx0).2.2⟩) hch
    simp only [GridMetric.append_path, List.nil_append]
    refine ⟨?_, ?_, ⟨x0, hx0, ?_⟩, ?_⟩
    · intro h0
      rw [List.map_eq_nil_iff] at h0
      rw [h0] at i2
      cases path with
      | nil => exact hnil rfl
      | cons v l => simp at i2
    · intro q hq
      obtain ⟨y, hy, rfl⟩ := List.mem_map.mp hq
      exact clear_of_safe hg (hsafe y hy)
    · rw [List.head?_map, i2]
      cases path with
      | nil => exact absurd rfl hnil
      | cons v l =>
        change v = toVec x0.1 at hhead
        subst hhead
        rfl
    · have hl : (List.map (grid2MetricF sc.pl.info) (interpolatePath sc.g (path.map ofVec))).getLast? = some (grid2Metric sc.pl.info (ofVec (path.getLast hnil))) := by
        rw [List.getLast?_map, i3, List.getLast?_map, List.getLast?_map, List.getLast?_eq_some_getLast hnil]
        rfl
      refine ⟨_, hl, ?_⟩
      have hlin : path.getLast hnil = toVec (ofVec (path.getLast hnil)) := by
        refine (inMap_vec sc.g _ (hmem ?_ _ (List.getLast_mem hnil))).1
        intro s hs' v hv
        obtain ⟨y, hy, rfl⟩ := List.mem_map.mp hs'
        rw [normal_eq hP ⟨(hin y hy).2.2.2.2.1, (hin y hy).2.2.2.2.2⟩ hv]
        exact Guide.inMap_toVec (hin y hy)
      rcases hlast with k | ⟨q, raw, k, k2⟩
      · left
        rw [normal_eq hP (cell_yaw hg p) k]
        rfl
      · right
        change decide (q < raw + (rangeLimit sc m : WithTop ℝ)) = true at k
        have k := of_decide_eq_true k
        rcases k2 with rfl | ⟨s, hs', hv, hraw, rfl⟩
        · left
          rw [hlin] at k
          exact nearer_of (estim_ge hg m _ _ (add_lt_of k))
        · right
          obtain ⟨y, hy, rfl⟩ := List.mem_map.mp hs'
          have hv := normal_eq hP ⟨(hin y hy).2.2.2.2.1, (hin y hy).2.2.2.2.2⟩ hv
          change path.getLast hnil = toVec y.1 at hv
          rw [hv]
          refine ⟨⟨y, hy, rfl⟩, ?_⟩
          intro k' hk'
          rw [hv] at k
          change sE (toVec y.1) + raw < raw + (rangeLimit sc m : WithTop ℝ) at k
          rw [hE y.1 _ hk', add_comm] at k
          exact nearer_of (WithTop.coe_lt_coe.mp (add_lt_of k))

end Verif.Scene
