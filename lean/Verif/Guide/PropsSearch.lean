import Verif.Guide.Props
import Verif.StartPose.PropsPlan
import Verif.PlannerMap.Rough
import Verif.DistMap.Exec
/-! # C118, C119: the search with the estimate of the distance map -/
set_option linter.unusedVariables false
set_option maxHeartbeats 400000
namespace Verif.Guide
open Verif.Model3D Verif.Model3D.Spec
open Verif.GridMetric (Cell)
open Verif.DistMap (DM Create Update initDM createD createD_create)
open Verif.DistMap.Grid
open Verif.DistMap.Spec (Route Hist)
open Verif.Astar (CostType)
open Verif.Astar.Vec (Search Why)
open Real

/-- A value of the distance map gives an accepted estimate. -/
theorem known_accepted {g : Geo} {c : Wt} (h2 : 0 ≤ c.ec2) {m : DM Pos Rat} (hpos : ∀ v, 0 ≤ m.g v) {goal a : Cell} (hk : Known m a) :
    Verif.Astar.Spec.Accepted (searchEstim g c m goal (toVec a)) := by
  have hne : ¬ m.g (a.x, a.y) = CostType.top := ne_of_lt hk
  have e : ∃ e : ℝ, 0 ≤ e ∧ searchEstim g c m goal (toVec a) = (e : WithTop ℝ) := by
    refine ⟨((m.g (a.x, a.y) : Rat) : ℝ) + c.ec2 * |((upLoop g.angle (downLoop g.angle (a.yaw - goal.yaw)) : Int) : ℝ)|, ?_, ?_⟩
    · have : (0 : ℝ) ≤ ((m.g (a.x, a.y) : Rat) : ℝ) := by exact_mod_cast hpos _
      positivity
    · have he : estimOf m ⟨a.x, a.y, 0⟩ = some ((m.g (a.x, a.y) : Rat) : ℝ) := by
        unfold estimOf
        exact if_neg hne
      unfold searchEstim costEstim
      simp only [ofVec, toVec]
      rw [he]
      rfl
  obtain ⟨e, he, h⟩ := e
  rw [h]
  refine ⟨?_, WithTop.coe_ne_top⟩
  change ((0 : ℝ) : WithTop ℝ) ≤ (e : WithTop ℝ)
  exact WithTop.coe_le_coe.2 he

theorem toVec_len (a : Cell) : (toVec a).length = 3 := rfl

theorem inMap_toVec {g : Geo} {a : Cell} (h : InMap g a) : Verif.Astar.Vec.Spec.InMap [g.width, g.height, g.angle] (toVec a) := by
  obtain ⟨h1, h2, h3, h4, h5, h6⟩ := h
  exact .cons ⟨h1, h2⟩ (.cons ⟨h3, h4⟩ (.cons ⟨h5, h6⟩ .nil))

/-- **C118** (the search finds a path).  If the vehicle can drive from one of the start poses to the goal by way of cells at which the estimate
is known, then the search, unless it is stopped, succeeds: for every schedule of its threads. -/
theorem search_finds_partial {g : Geo} (hmap : 0 < g.width ∧ 0 < g.height ∧ 0 < g.angle) {c : Wt} (h2 : 0 ≤ c.ec2) {u : Bool}
    {cm hy : Cell → Option Int} (hcm : ∀ p x, cm p = some x → 0 ≤ x) (hhy : ∀ p x, hy p = some x → 0 ≤ x) (hsane : Sane g) (hw : Nonneg c)
    {lr : Int} {ss : List Cell} {junk : WithTop ℝ} {m : DM Pos Rat} (hpos : ∀ v, 0 ≤ m.g v) {goal : Cell}
    {sE : List Int → WithTop ℝ} {starts : List (List Int × WithTop ℝ)} {leave : WithTop ℝ → WithTop ℝ → Bool} {tasks : Nat} (ht : 0 < tasks)
    (hst : ∀ s ∈ starts, 0 ≤ s.2 ∧ s.2 < ⊤ ∧ s.1.length = 3) (hng : ∀ s ∈ starts, s.1 ≠ toVec goal) {a : Cell} {w : WithTop ℝ}
    (ha : (toVec a, w) ∈ starts) (hma : InMap g a)
    (way : Relation.ReflTransGen (fun x y => Drive g c u cm hy lr ss x y ∧ Known m y) a goal) {rb : Bool} {why : Why} {r}
    (h : Search (planProb g c u cm hy lr ss junk (searchEstim g c m goal) sE starts (toVec goal) leave tasks 0) rb why r) :
    why = .aborted ∨ (why = .found ∧ r.1 = true) := by
  set P := planProb g c u cm hy lr ss junk (searchEstim g c m goal) sE starts (toVec goal) leave tasks 0 with hP
  have wf : Verif.Astar.Vec.Spec.WellFormed P := by
    refine ⟨?_, by simp [P, planProb], rfl, ?_, ?_⟩
    · intro s hs'
      simp only [P, planProb, List.mem_cons, List.not_mem_nil, or_false] at hs'
      rcases hs' with rfl | rfl | rfl
      · exact hmap.1
      · exact hmap.2.1
      · exact hmap.2.2
    · intro s hs'
      exact (hst s hs').2.2
    · intro p d hd
      simp only [P, planProb, List.mem_map] at hd
      obtain ⟨x, -, rfl⟩ := hd
      rfl
  have norm_self : ∀ b : Cell, InMap g b → Verif.Astar.Vec.Spec.IsNormalOf P (toVec b) (toVec b) := by
    intro b hb
    refine ⟨rfl, ?_⟩
    intro i h1 h2 h3
    refine ⟨fun _ => rfl, fun _ => ⟨?_, 0, by simp⟩⟩
    obtain ⟨b1, b2, b3, b4, b5, b6⟩ := hb
    match i, h1 with
    | 0, _ => exact ⟨b1, b2⟩
    | 1, _ => exact ⟨b3, b4⟩
    | 2, _ => exact ⟨b5, b6⟩
  have hreach : ∀ b, Relation.ReflTransGen (fun x y => Drive g c u cm hy lr ss x y ∧ Known m y) a b →
      Verif.Astar.Vec.Spec.Reachable P (toVec b) ∧ InMap g b := by
    intro b hb
    induction hb with
    | refl => exact ⟨.start (s := (toVec a, w)) ha (norm_self a hma), hma⟩
    | @tail x y _ hxy ih =>
      obtain ⟨⟨hx, hy', ⟨p, hp, hr⟩, v, hv⟩, hk⟩ := hxy
      refine ⟨.move ih.1 ⟨⟨toVec p, ?_, ?_⟩, inMap_toVec hy', known_accepted h2 hpos hk, ?_⟩, hy'⟩
      · simp only [P, planProb, List.mem_map]
        exact ⟨p, by simpa [ofVec, toVec] using hp, rfl⟩
      · obtain ⟨r1, r2, ⟨k, hk⟩, r4, r5⟩ := hr
        refine ⟨rfl, ?_⟩
        intro i h1 h2 h3
        match i, h1 with
        | 0, _ =>
          refine ⟨fun _ => ?_, fun h => absurd h (by simp [P, planProb])⟩
          simpa [toVec] using r1
        | 1, _ =>
          refine ⟨fun _ => ?_, fun h => absurd h (by simp [P, planProb])⟩
          simpa [toVec] using r2
        | 2, _ =>
          refine ⟨fun h => absurd h (by simp [P, planProb]), fun _ => ⟨⟨r4, r5⟩, k, ?_⟩⟩
          simpa [toVec, P, planProb] using hk
      · have : P.cost (toVec x) (toVec y) = (v : WithTop ℝ) := by
          change encode junk (cost g c u cm hy x y) = _
          rw [hv]; rfl
        rw [this]
        refine ⟨?_, WithTop.coe_ne_top⟩
        change ((0 : ℝ) : WithTop ℝ) ≤ (v : WithTop ℝ)
        exact WithTop.coe_le_coe.2 (cost_lower_bound g hsane c hw u cm hy hcm hhy x y v hv).2
  obtain ⟨hR, hgoal⟩ := hreach goal way
  have hw' : why ≠ .exhausted := by
    intro he
    subst he
    have := Verif.Astar.exhausted_unreachable wf ht rfl (fun x hx => ⟨(hst x hx).1, (hst x hx).2.1⟩) (le_top : (0 : WithTop ℝ) ≤ ⊤)
      (fun p k x hk hk' hst' => by
        have h1 := hst'.2.2.2.2
        change k + P.cost p x < ⊤
        rw [WithTop.add_lt_top]
        exact ⟨hk', lt_top_iff_ne_top.2 h1⟩) h
    exact this.2 _ (norm_self goal hgoal) hR
  cases h with
  | noStart h => rw [show P.starts = starts from rfl] at h; rw [h] at ha; cases ha
  | same h => obtain ⟨s, hs, he⟩ := h; exact absurd he (hng s hs)
  | @run s f h1 h3 hf =>
    cases f with
    | exhausted => exact absurd rfl hw'
    | aborted => exact .inl rfl
    | found e => exact .inr ⟨rfl, Verif.Astar.found_returns_true (fun x hx => (hst x hx).1) (.run h1 h3 hf)⟩

/-- **C118** (end to end).  The distance map was created for the goal, and extended for the robot's cell.  If the vehicle can drive from the
robot's cell to the goal by way of cells from which a route to the goal costs no more than the robot's estimate plus the overshoot, then the
planner does not report an unreachable goal, and the search that begins at the robot's cell succeeds unless it is stopped. -/
theorem plan_succeeds_partial {g : Geo} (hmap : 0 < g.width ∧ 0 < g.height) (hsane : Sane g) (hger : g.ger ≤ 1 / 4) {c : Wt} (hw : Nonneg c)
    {u : Bool} {cm hy : Cell → Option Int} (hcm : ∀ p x, cm p = some x → 0 ≤ x) (hhy : ∀ p x, hy p = some x → 0 ≤ x)
    (ho : OnlyInside g cm) {d : Cfg} (hf : Fits g cm d) (hc : Verif.DistMap.GoodCfg d) (htd : 0 < d.tasks) {B : Rat} (hB : Moderate d B)
    {cells : List Pos} (hcells : ∀ v, inMap d v = true → v ∈ cells) {robot goal : Cell} {m : DM Pos Rat}
    (hh : Hist (env d) cells (column goal) (column robot) m) (hne : column robot ≠ column goal) (hfree : Free cm goal)
    {lr : Int} {ss : List Cell}
    (way : Relation.ReflTransGen
      (fun x y => Drive g c u cm hy lr ss x y ∧ InRange d m (column goal) (column robot) (column y)) robot goal) :
    goalUnreachable m cm robot goal = some false ∧
    ∀ (junk : WithTop ℝ) (sE : List Int → WithTop ℝ) (starts : List (List Int × WithTop ℝ)) (leave : WithTop ℝ → WithTop ℝ → Bool)
      (tasks : Nat), 0 < tasks → (∀ s ∈ starts, 0 ≤ s.2 ∧ s.2 < ⊤ ∧ s.1.length = 3) → (∀ s ∈ starts, s.1 ≠ toVec goal) →
      ∀ w, (toVec robot, w) ∈ starts → ∀ rb why r,
      Search (planProb g c u cm hy lr ss junk (searchEstim g c m goal) sE starts (toVec goal) leave tasks 0) rb why r →
      why = .aborted ∨ (why = .found ∧ r.1 = true) := by
  have mono : ∀ a, Relation.ReflTransGen
      (fun x y => Drive g c u cm hy lr ss x y ∧ InRange d m (column goal) (column robot) (column y)) a goal →
      Drives g c u cm hy lr ss a goal := by
    intro a ha
    induction ha using Relation.ReflTransGen.head_induction_on with
    | refl => exact .refl
    | head h _ ih => exact .head h.1 ih
  have hdr := mono robot way
  have hg := (free_open hf ho hfree).1
  refine ⟨(reachable_not_refused_partial hsane hger hf ho hc htd hB hcells hh hfree hdr).2, ?_⟩
  intro junk sE starts leave tasks ht hst hng w ha rb why r h
  have hin : InMap g robot := by
    rcases Relation.ReflTransGen.cases_head hdr with rfl | ⟨x, hx, -⟩
    · exact absurd rfl hne
    · exact hx.1
  have way' : Relation.ReflTransGen (fun x y => Drive g c u cm hy lr ss x y ∧ Known m y) robot goal := by
    have key : ∀ a, Relation.ReflTransGen
        (fun x y => Drive g c u cm hy lr ss x y ∧ InRange d m (column goal) (column robot) (column y)) a goal →
        Relation.ReflTransGen (fun x y => Drive g c u cm hy lr ss x y ∧ Known m y) a goal := by
      intro a ha
      induction ha using Relation.ReflTransGen.head_induction_on with
      | refl => exact .refl
      | @head x y h hr ih =>
        exact .head ⟨h.1, near_known hc htd hB hcells hh hne (drives_columns hsane hger hf ho (mono y hr)) h.2 hg⟩ ih
    exact key robot way
  exact search_finds_partial ⟨hmap.1, hmap.2, hsane.angle_pos⟩ hw.ec2 hcm hhy hsane hw (goal_zero hc htd hcells hh).2 ht hst hng ha hin way' h

/-! ### C119: the estimate of the start poses -/

/-- A cell whose centre is at most one cell away from the robot is the robot's own cell or a neighbour. -/
theorem near_own (pl : StartPose.Plan) (robot : Path2D.Pose) (x : Cell) (h : StartPose.sqDist pl.info robot x ≤ 1) :
    |(StartPose.ownCell pl robot).x - x.x| ≤ 1 ∧ |(StartPose.ownCell pl robot).y - x.y| ≤ 1 := by
  have key : ∀ (v : ℝ) (k : Int), (v - ((k : ℝ) + 1 / 2)) ^ 2 ≤ 1 → |⌊v⌋ - k| ≤ 1 := by
    intro v k hv
    have h1 := Int.floor_le v
    have h2 := Int.lt_floor_add_one v
    have h3 := abs_le_of_sq_le_sq (show (v - ((k : ℝ) + 1 / 2)) ^ 2 ≤ 1 ^ 2 by simpa using hv) (by norm_num)
    rw [abs_le] at h3
    have u1 : ((⌊v⌋ - k : Int) : ℝ) < ((2 : Int) : ℝ) := by push_cast; linarith [h3.1, h3.2]
    have u2 : ((-2 : Int) : ℝ) < ((⌊v⌋ - k : Int) : ℝ) := by push_cast; linarith [h3.1, h3.2]
    have u1 := Int.cast_lt.1 u1
    have u2 := Int.cast_lt.1 u2
    rw [abs_le]
    omega
  have h' : (StartPose.gx pl.info robot - ((x.x : ℝ) + 1 / 2)) ^ 2 + (StartPose.gy pl.info robot - ((x.y : ℝ) + 1 / 2)) ^ 2 ≤ 1 := h
  exact ⟨key (StartPose.gx pl.info robot) x.x (by nlinarith [sq_nonneg (StartPose.gy pl.info robot - ((x.y : ℝ) + 1 / 2))]),
    key (StartPose.gy pl.info robot) x.y (by nlinarith [sq_nonneg (StartPose.gx pl.info robot - ((x.x : ℝ) + 1 / 2))])⟩

theorem onMap_inMap {pl : StartPose.Plan} {g : Geo} {cmI : Cell → Int} {cm : Cell → Option Int} (h : SameMap pl g cmI cm) {x : Cell}
    (hx : StartPose.OnMap pl.map x) : InMap g x := by
  obtain ⟨⟨h1, h2⟩, ⟨h3, h4⟩, h5, h6⟩ := hx
  have := h.range
  rw [h.width] at h2
  rw [h.height] at h4
  rw [h.angle] at h6
  exact ⟨by omega, by omega, by omega, by omega, h5, h6⟩

/-- **C119**: if the robot's own cell is free and the vehicle can drive from there to the goal, then every start pose handed to the search has a
known estimate, and its conversion to `int` is defined, provided that one step costs no more than the overshoot and estimates are below
2³¹. -/
theorem starts_known_partial (pl : StartPose.Plan) (hpl : pl.Sane) {g : Geo} (hs : Sane g) (hger : g.ger ≤ 1 / 4) {cmI : Cell → Int}
    {cm hy : Cell → Option Int} (hsame : SameMap pl g cmI cm) (ho : OnlyInside g cm) {c : Wt} {u : Bool} {lr : Int} {ss : List Cell} {d : Cfg}
    (hf : Fits g cm d) (hc : Verif.DistMap.GoodCfg d) (ht : 0 < d.tasks) {B : Rat} (hB : Moderate d B) (hover : B ≤ d.over)
    {cells : List Pos} (hcells : ∀ v, inMap d v = true → v ∈ cells) {robot : Path2D.Pose} {goal : Cell} {m : DM Pos Rat}
    (hh : Hist (env d) cells (column goal) (column (StartPose.ownCell pl robot)) m)
    (hne : column (StartPose.ownCell pl robot) ≠ column goal) (hown : cmI (StartPose.ownCell pl robot) ≤ 99)
    (hd : Drives g c u cm hy lr ss (StartPose.ownCell pl robot) goal) (hfree : Free cm goal)
    (hfit : ∀ a : Cell, Known m a → ((m.g (column a) : Rat) : ℝ) + c.ec2 * g.angle < 2147483648) (h2 : 0 ≤ c.ec2) (x : Cell × ℝ)
    (hx : x ∈ (StartPose.starts pl cmI robot goal none).2) : Known m x.1 ∧ ∃ v, startEstim g c m goal x.1 = some v := by
  have hin : InMap g (StartPose.ownCell pl robot) := by
    rcases Relation.ReflTransGen.cases_head hd with h | ⟨y, hy, -⟩
    · rw [h] at hne; exact absurd rfl hne
    · exact hy.1
  have hfo : Free cm (StartPose.ownCell pl robot) := ⟨_, hsame.cm _ hin, hown⟩
  obtain ⟨hon, hle, hcase⟩ := StartPose.start_cells pl hpl cmI robot goal x hx
  have hxin := onMap_inMap hsame hon
  have hfx : Free cm x.1 := ⟨_, hsame.cm _ hxin, hle⟩
  have hnear : |(StartPose.ownCell pl robot).x - x.1.x| ≤ 1 ∧ |(StartPose.ownCell pl robot).y - x.1.y| ≤ 1 := by
    rcases hcase with h | h | h
    · exact near_own pl robot x.1 h.2.2.1
    · rw [h.2]; simp
    · omega
  have hk : Known m x.1 := by
    refine moved_known hc ht hB hcells hh hne (free_open hf ho hfree).1 (drives_columns hs hger hf ho hd)
      (.succ (.zero _) ⟨free_open hf ho hfo, free_open hf ho hfx, hnear.1, hnear.2⟩) ?_
    push_cast
    linarith
  refine ⟨hk, ?_⟩
  have he : estimOf m ⟨x.1.x, x.1.y, 0⟩ = some ((m.g (x.1.x, x.1.y) : Rat) : ℝ) := by
    unfold estimOf
    exact if_neg (ne_of_lt hk)
  have hpos : (0 : ℝ) ≤ ((m.g (x.1.x, x.1.y) : Rat) : ℝ) := by exact_mod_cast (goal_zero hc ht hcells hh).2 _
  have hA := hs.angle_pos
  unfold startEstim costEstim
  rw [he]
  simp only [Option.map_some]
  have habs : |((upLoop g.angle (downLoop g.angle (x.1.yaw - goal.yaw)) : Int) : ℝ)| ≤ g.angle := by
    obtain ⟨d1, -⟩ := downLoop_spec g.angle hA _ (x.1.yaw - goal.yaw) rfl
    obtain ⟨u1, u2, -⟩ := upLoop_spec g.angle hA _ (downLoop g.angle (x.1.yaw - goal.yaw)) rfl d1
    have : |upLoop g.angle (downLoop g.angle (x.1.yaw - goal.yaw))| ≤ g.angle := by rw [abs_le]; omega
    exact_mod_cast this
  have h1 := hfit x.1 hk
  have h3 := mul_le_mul_of_nonneg_left habs h2
  have h4 : 0 ≤ c.ec2 * |((upLoop g.angle (downLoop g.angle (x.1.yaw - goal.yaw)) : Int) : ℝ)| := by positivity
  have h5 : ((m.g (x.1.x, x.1.y) : Rat) : ℝ) + c.ec2 * g.angle < 2147483648 := h1
  rw [if_pos ⟨by linarith, by linarith⟩]
  exact ⟨_, rfl⟩

/-! ### A map of 4×6 cells of which the rows 3 to `hi` are lethal -/

noncomputable def gW : Geo := ⟨4, 6, 2, 1, π, 1, 1 / 2, 1 / 10⟩

theorem gW_sane : Sane gW := by
  refine ⟨by norm_num [gW], ?_, by norm_num [gW], by norm_num [gW], by norm_num [gW], by norm_num [gW]⟩
  simp only [gW]; push_cast; ring

def lethalRow (hi y : Int) : Int := if 3 ≤ y ∧ y ≤ hi then 100 else 0

def cmW (hi : Int) : Cell → Option Int := fun p =>
  if 0 ≤ p.x ∧ p.x < 4 ∧ 0 ≤ p.y ∧ p.y < 6 ∧ 0 ≤ p.yaw ∧ p.yaw < 2 then some (lethalRow hi p.y) else none

def cfgW (hi : Int) : Cfg where
  w := 4
  h := 6
  cm p := lethalRow hi p.2
  hist _ := 0
  eu d := if d.1 * d.1 + d.2 * d.2 ≤ 1 then 1 else if d.1 * d.1 + d.2 * d.2 ≤ 2 then 3 / 2 else 2
  gl _ := 1
  ec0 := 1
  res := 1
  wc := 1
  wr := 1
  over := 4
  tasks := 2

theorem cfgW_good (hi : Int) : Verif.DistMap.GoodCfg (cfgW hi) where
  ec0 := show (0 : Rat) ≤ 1 by norm_num
  res := show (0 : Rat) ≤ 1 by norm_num
  wc := show (0 : Rat) ≤ 1 by norm_num
  wr := show (0 : Rat) ≤ 1 by norm_num
  over := show (0 : Rat) ≤ 4 by norm_num
  eu := by
    have : ∀ d ∈ diffs, (1 : Rat) ≤ (if d.1 * d.1 + d.2 * d.2 ≤ 1 then 1 else if d.1 * d.1 + d.2 * d.2 ≤ 2 then 3 / 2 else 2) := by
      decide +kernel
    exact this
  gl := by intro d _; exact zero_le_one
  cm := by intro p; simp only [cfgW, lethalRow]; split <;> decide
  hist := by intro p; simp [cfgW]
  ec0_lt := by show (1 : Rat) < CostType.top; decide +kernel

theorem cmW_free (hi : Int) (p : Cell) (h : InMap gW p) (hy : ¬ (3 ≤ p.y ∧ p.y ≤ hi)) : Free (cmW hi) p := by
  refine ⟨0, ?_, by omega⟩
  unfold InMap gW at h
  simp only at h
  unfold cmW lethalRow
  rw [if_pos h, if_neg hy]

theorem cmW_inside (hi : Int) : OnlyInside gW (cmW hi) := by
  intro a v h
  unfold cmW at h
  split at h
  · rename_i hc; exact hc
  · cases h

theorem fitsW (hi : Int) : Fits gW (cmW hi) (cfgW hi) := by
  refine ⟨rfl, rfl, ?_⟩
  intro a v hin h
  unfold cmW at h
  split at h
  · cases h; exact le_rfl
  · cases h

/-- The cost of a straight move does not depend on the height of the map. -/
theorem cost_height (g : Geo) (w : Int) (c : Wt) (u : Bool) (cm hy : Cell → Option Int) (cur next : Cell)
    (h : cycS (next.yaw - cur.yaw) g.angle = 0) : cost { g with height := w } c u cm hy cur next = cost g c u cm hy cur next := by
  unfold cost
  simp only [h, if_true]
  rfl

/-- The vehicle can drive one cell ahead in the free rows. -/
theorem aheadW (hi : Int) (ss : List Cell) : Drive gW w0 true (cmW hi) (cmW hi) 0 ss ⟨1, 2, 0⟩ ⟨2, 2, 0⟩ := by
  have hr : Reaches gW ⟨1, 2, 0⟩ ⟨1, 0, 0⟩ ⟨2, 2, 0⟩ := ⟨by norm_num, by norm_num, ⟨0, by norm_num⟩, by norm_num, by norm_num [gW]⟩
  have hprim : (⟨1, 0, 0⟩ : Cell) ∈ primitives gW w0 0 := by
    rw [primitive_iff _ gW_sane w0 0 _ ⟨by omega, by norm_num [gW]⟩]
    have hx : ahead gW 0 ⟨1, 0, 0⟩ = 1 := by simp [ahead, gW]
    have hy : aside gW 0 ⟨1, 0, 0⟩ = 0 := by simp [aside, gW]
    refine ⟨by norm_num [gW], by norm_num, by norm_num [gW], Or.inr ⟨by norm_num, Or.inl ⟨rfl, ?_, ?_⟩⟩⟩
    · rw [hx]; norm_num [gW]
    · intro h; exact absurd hy h
  refine ⟨by norm_num [InMap, gW], by norm_num [InMap, gW], ⟨⟨1, 0, 0⟩, ?_, hr⟩, ?_⟩
  · have hR : 0 ≤ gW.range := by norm_num [gW]
    unfold searchGrids
    split
    · exact hprim
    · exact (mem_rough gW hR _).2 ⟨by norm_num [gW], rfl⟩
  · have hs : Sane { gW with height := 3 } := ⟨gW_sane.1, gW_sane.2, gW_sane.3, gW_sane.4, gW_sane.5, gW_sane.6⟩
    obtain ⟨v, hv⟩ := free_move_accepted { gW with height := 3 } hs ⟨1, by norm_num [gW]⟩ w0 true (cmW hi) (cmW hi)
      (fun p hp => cmW_free hi p ⟨hp.1, hp.2.1, hp.2.2.1, lt_trans hp.2.2.2.1 (by norm_num [gW]), hp.2.2.2.2⟩
        (fun h => absurd hp.2.2.2.1 (by simp only; omega)))
      (fun p hp => by
        obtain ⟨v, hv, -⟩ := cmW_free hi p ⟨hp.1, hp.2.1, hp.2.2.1, lt_trans hp.2.2.2.1 (by norm_num [gW]), hp.2.2.2.2⟩
          (fun h => absurd hp.2.2.2.1 (by simp only; omega))
        exact ⟨v, hv⟩)
      ⟨1, 2, 0⟩ ⟨1, 0, 0⟩ ⟨2, 2, 0⟩ (by norm_num [InMap, gW]) (by norm_num [InMap, gW]) (by
        rw [primitive_iff _ hs w0 0 _ ⟨by omega, by norm_num [gW]⟩]
        have hx : ahead { gW with height := 3 } 0 ⟨1, 0, 0⟩ = 1 := by simp [ahead, gW]
        have hy : aside { gW with height := 3 } 0 ⟨1, 0, 0⟩ = 0 := by simp [aside, gW]
        refine ⟨by norm_num [gW], by norm_num, by norm_num [gW], Or.inr ⟨by norm_num, Or.inl ⟨rfl, ?_, ?_⟩⟩⟩
        · rw [hx]; norm_num [gW]
        · intro h; exact absurd hy h)
      ⟨by norm_num, by norm_num, ⟨0, by norm_num⟩, by norm_num, by norm_num [gW]⟩ (fun _ h => absurd rfl h)
    rw [cost_height] at hv
    · exact ⟨v, hv⟩
    · decide +kernel

noncomputable def plW (anti : Bool) : StartPose.Plan :=
  { info := ⟨1, 1, 0, 0, 2⟩, map := ⟨4, 6, 2, 1, 50⟩, antialias := anti, ec0 := 1, weight := 1, tolRange := 2, tolAngle := 0,
    finLin := 0, finAng := 0, dist := fun _ => 0 }

theorem plW_sane (anti : Bool) : (plW anti).Sane :=
  ⟨by norm_num [plW], by norm_num [plW], by norm_num [plW], rfl, by norm_num [plW], by norm_num [plW]⟩

theorem ownW (anti : Bool) (x y : ℝ) : StartPose.ownCell (plW anti) ⟨⟨x, y⟩, 0, .nan⟩ = ⟨⌊x⌋, ⌊y⌋, 0⟩ := by
  unfold StartPose.ownCell GridMetric.metric2GridF StartPose.coords plW
  simp only [sub_zero, div_one]
  have : Verif.CSpace.lround (0 : ℝ) = 0 := by simpa using GridMetric.lround_int (K := ℝ) 0
  rw [this, Model3D.cycU_id 0 2 (by norm_num) ⟨le_rfl, by norm_num⟩]

def cmWI (hi : Int) : Cell → Int := fun p => lethalRow hi p.y

/-- **C118** (what is missing from `reachable_not_refused_partial`).  The robot stands in the lethal cell (1, 4), is relocated to the free cell
(1, 2), from where it can drive to the goal (2, 2) directly.  The estimate is known at the relocated start pose, but the planner looks at the
robot's own cell and reports that the goal is unreachable. -/
theorem relocated_refused : ∃ m : DM Pos Rat, Create (env (cfgW 5)) (1, 4) (2, 2) initDM m ∧
    StartPose.ownCell (plW true) ⟨⟨3 / 2, 9 / 2⟩, 0, .nan⟩ = ⟨1, 4, 0⟩ ∧
    StartPose.starts (plW true) (cmWI 5) ⟨⟨3 / 2, 9 / 2⟩, 0, .nan⟩ ⟨2, 2, 0⟩ none = (.normal, [(⟨1, 2, 0⟩, 0)]) ∧
    Drives gW w0 true (cmW 5) (cmW 5) 0 [] ⟨1, 2, 0⟩ ⟨2, 2, 0⟩ ∧ Known m ⟨1, 2, 0⟩ ∧
    goalUnreachable m (cmW 5) ⟨1, 4, 0⟩ ⟨2, 2, 0⟩ = some true := by
  obtain ⟨m, h1⟩ : ∃ m, createD (env (cfgW 5)) 60 (1, 4) (2, 2) initDM = some m :=
    Option.isSome_iff_exists.mp (by decide +kernel)
  have k1 : (createD (env (cfgW 5)) 60 (1, 4) (2, 2) initDM).map (fun m => (m.g (1, 4), decide (m.g (1, 2) < CostType.top))) =
      some (CostType.top, true) := by decide +kernel
  rw [h1] at k1
  simp only [Option.map_some, Option.some.injEq, Prod.mk.injEq, decide_eq_true_eq] at k1
  have f1 : ⌊(3 / 2 : ℝ)⌋ = 1 := by rw [Int.floor_eq_iff]; norm_num
  have f2 : ⌊(9 / 2 : ℝ)⌋ = 4 := by rw [Int.floor_eq_iff]; norm_num
  have ho := ownW true (3 / 2) (9 / 2)
  rw [f1, f2] at ho
  refine ⟨m, createD_create _ _ _ _ _ h1, ho, ?_, .single (aheadW 5 []), k1.2, ?_⟩
  · rcases StartPose.starts_cases (plW true) (plW_sane true) (cmWI 5) ⟨⟨3 / 2, 9 / 2⟩, 0, .nan⟩ ⟨2, 2, 0⟩ with
      ⟨h, -⟩ | ⟨-, -, ⟨-, h⟩, -⟩ | ⟨-, l, e, hl, h⟩
    · rw [ho] at h
      exact absurd (by norm_num [StartPose.OnMap, plW]) h
    · rw [ho] at h
      exact absurd ⟨⟨0, -2, 0⟩, ⟨1, 2, 0⟩, ⟨by norm_num, by norm_num, by norm_num [plW]⟩, ⟨by simp, by norm_num [plW], by norm_num [plW],
        by norm_num, by norm_num [plW]⟩, by norm_num [SearchPos.Inside, plW], by norm_num [cmWI, lethalRow]⟩ (h (by norm_num [plW]))
    · rcases h with rfl | ⟨-, c, rfl, hc⟩
      · exfalso
        obtain ⟨x, hx⟩ := List.exists_mem_of_ne_nil _ hl
        obtain ⟨a1, a2, a3, a4, a5⟩ := (StartPose.near_antialias (plW true) (plW_sane true) (cmWI 5) _ rfl x).1 hx
        have hn := (near_own (plW true) _ x.1 a4).2
        rw [ho] at hn
        simp only [abs_le] at hn
        obtain ⟨-, ⟨-, b⟩, -⟩ := a1
        simp only [plW] at b
        unfold cmWI lethalRow at a2
        rw [if_pos (by omega)] at a2
        omega
      · have hcc : c = ⟨1, 2, 0⟩ := by
          rw [ho] at hc
          have key : ∀ acc : Int, acc ≤ 100 → SearchPos.Nearest (plW true).map (cmWI 5) (plW true).dist ⟨1, 4, 0⟩ (plW true).tolRange
              (plW true).tolAngle 0 acc c → c = ⟨1, 2, 0⟩ := by
            rintro acc ha ⟨d, ⟨⟨r1, r2, r3⟩, ⟨-, -, q1, -, q2⟩, ⟨i1, i2, -, -, i3, i4, -, -, i5, i6⟩, v⟩, -⟩
            obtain ⟨dx, dy, dw⟩ := d
            obtain ⟨cx, cy, cw⟩ := c
            simp only [plW] at *
            have hdw : dw = 0 := by rw [abs_le] at q2; omega
            have hcy : cy ≤ 2 := by
              by_contra hcon
              unfold cmWI lethalRow at v
              rw [if_pos (by simp only; omega)] at v
              omega
            have hdy : dy = -2 := by nlinarith [sq_nonneg dx]
            have hdx : dx = 0 := by rw [hdy] at q1; nlinarith [sq_nonneg dx]
            obtain ⟨k, hk⟩ := r3
            simp only [Cell.mk.injEq]
            omega
          rcases hc with hc | ⟨-, hc⟩
          · exact key _ (by norm_num [plW]) hc
          · exact key _ le_rfl hc
        rw [e, hcc]
        have : StartPose.finishing (plW true) ⟨1, 2, 0⟩ ⟨2, 2, 0⟩ = false := by
          unfold StartPose.finishing
          rw [decide_eq_false_iff_not]
          rintro ⟨h, -⟩
          norm_num [plW] at h
        simp [this]
  · unfold goalUnreachable
    exact if_pos k1.1

/-- **C119** (what is missing from `starts_known_partial`).  The robot stands at the far side of the lethal cell (1, 3), which can be entered
from the side of the goal.  The planner does not report an unreachable goal.  The start pose is the free cell (1, 4) behind the wall, whose
estimate is the largest value: the conversion to `int` is undefined. -/
theorem start_undefined : ∃ m : DM Pos Rat, Create (env (cfgW 3)) (1, 3) (2, 2) initDM m ∧
    StartPose.ownCell (plW true) ⟨⟨3 / 2, 19 / 5⟩, 0, .nan⟩ = ⟨1, 3, 0⟩ ∧
    (∃ w, (⟨1, 4, 0⟩, w) ∈ (StartPose.starts (plW true) (cmWI 3) ⟨⟨3 / 2, 19 / 5⟩, 0, .nan⟩ ⟨2, 2, 0⟩ none).2) ∧
    goalUnreachable m (cmW 3) ⟨1, 3, 0⟩ ⟨2, 2, 0⟩ = some false ∧ ∀ g c, startEstim g c m ⟨2, 2, 0⟩ ⟨1, 4, 0⟩ = none := by
  obtain ⟨m, h1⟩ : ∃ m, createD (env (cfgW 3)) 60 (1, 3) (2, 2) initDM = some m :=
    Option.isSome_iff_exists.mp (by decide +kernel)
  have k1 : (createD (env (cfgW 3)) 60 (1, 3) (2, 2) initDM).map (fun m => (m.g (1, 4), decide (m.g (1, 3) < CostType.top))) =
      some (CostType.top, true) := by decide +kernel
  rw [h1] at k1
  simp only [Option.map_some, Option.some.injEq, Prod.mk.injEq, decide_eq_true_eq] at k1
  have f1 : ⌊(3 / 2 : ℝ)⌋ = 1 := by rw [Int.floor_eq_iff]; norm_num
  have f2 : ⌊(19 / 5 : ℝ)⌋ = 3 := by rw [Int.floor_eq_iff]; norm_num
  have ho := ownW true (3 / 2) (19 / 5)
  rw [f1, f2] at ho
  refine ⟨m, createD_create _ _ _ _ _ h1, ho, ?_, ?_, ?_⟩
  · refine StartPose.start_complete (plW true) (plW_sane true) (cmWI 3) _ _ rfl (by rw [ho]; norm_num [StartPose.OnMap, plW]) ⟨1, 4, 0⟩
      (by norm_num [StartPose.OnMap, plW]) (by norm_num [cmWI, lethalRow]) (by rw [ho]) ?_
    norm_num [StartPose.sqDist, StartPose.gx, StartPose.gy, plW]
  · unfold goalUnreachable
    rw [if_neg (show ¬ m.g (1, 3) = CostType.top from ne_of_lt k1.2)]
    norm_num [cmW, lethalRow]
  · intro g c
    have he : estimOf m ⟨1, 4, 0⟩ = none := by
      unfold estimOf
      exact if_pos k1.1
    unfold startEstim costEstim
    rw [he]
    rfl

/-! ### The hypotheses are met -/

/-- Without lethal rows no step costs more than 2. -/
theorem moderateW : Moderate (cfgW 2) 2 := by
  refine ⟨by norm_num, ?_, by decide +kernel⟩
  rintro p x w ⟨eu, hd⟩
  simp only [env, List.mem_map, List.mem_filter] at hd
  obtain ⟨d, -, he⟩ := hd
  have hw : stepCost (cfgW 2) p d = some w := congrArg Verif.DistMap.Edge.cost he
  have hz : ∀ q : Pos, (cfgW 2).cm q = 0 := by
    intro q
    change lethalRow 2 q.2 = 0
    unfold lethalRow
    rw [if_neg (by omega)]
  have hh : ∀ q : Pos, (cfgW 2).hist q = 0 := fun _ => rfl
  unfold stepCost at hw
  simp only [hz, hh] at hw
  split at hw
  · cases hw
  · simp only [List.map_const', List.sum_replicate, smul_zero, Int.cast_zero, zero_mul, add_zero, mul_zero, Option.some.injEq] at hw
    have hle : (cfgW 2).eu d ≤ 2 := by
      simp only [cfgW]
      split
      · norm_num
      · split <;> norm_num
    rw [← hw]
    split
    · norm_num
    · exact hle

def cells24 : List Pos := (List.range 4).flatMap fun x => (List.range 6).map fun y => ((x : Int), (y : Int))

theorem mem_cells24 (v : Pos) (h : inMap (cfgW 2) v = true) : v ∈ cells24 := by
  obtain ⟨h1, h2, h3, h4⟩ := of_decide_eq_true h
  simp only [cfgW] at h2 h4
  have key : ∀ x ∈ ([0, 1, 2, 3] : List Int), ∀ y ∈ ([0, 1, 2, 3, 4, 5] : List Int), ((x, y) : Pos) ∈ cells24 := by decide +kernel
  refine key v.1 ?_ v.2 ?_
  · simp only [List.mem_cons, List.not_mem_nil, or_false]; omega
  · simp only [List.mem_cons, List.not_mem_nil, or_false]; omega

/-- The robot at (1, 2), the goal at (2, 2), no walls: everything `plan_succeeds_partial` asks for is met. -/
example : ∃ m : DM Pos Rat, Hist (env (cfgW 2)) cells24 (column ⟨2, 2, 0⟩) (column ⟨1, 2, 0⟩) m ∧
    goalUnreachable m (cmW 2) ⟨1, 2, 0⟩ ⟨2, 2, 0⟩ = some false ∧ ∃ path,
    Search (planProb gW w0 true (cmW 2) (cmW 2) 0 [] 0 (searchEstim gW w0 m ⟨2, 2, 0⟩) (fun _ => 0) [(toVec ⟨1, 2, 0⟩, 0)]
      (toVec ⟨2, 2, 0⟩) (fun _ _ => false) 1 0) false .found (true, path) := by
  obtain ⟨m, h1⟩ : ∃ m, createD (env (cfgW 2)) 60 (1, 2) (2, 2) initDM = some m :=
    Option.isSome_iff_exists.mp (by decide +kernel)
  have hh : Hist (env (cfgW 2)) cells24 (column ⟨2, 2, 0⟩) (column ⟨1, 2, 0⟩) m :=
    .create (by decide +kernel) (by decide +kernel) (createD_create _ _ _ _ _ h1)
  have hnn : ∀ p x, cmW 2 p = some x → 0 ≤ x := by
    intro p x h
    unfold cmW at h
    split at h
    · cases h; unfold lethalRow; split <;> omega
    · cases h
  have hpos := (goal_zero (cfgW_good 2) (by decide) mem_cells24 hh).2
  have key := plan_succeeds_partial (g := gW) ⟨by norm_num [gW], by norm_num [gW]⟩ gW_sane (by norm_num [gW]) (c := w0)
    (by constructor <;> norm_num [w0]) (u := true) hnn hnn (cmW_inside 2) (fitsW 2) (cfgW_good 2) (by decide) moderateW mem_cells24 hh
    (by decide) (cmW_free 2 _ (by norm_num [InMap, gW]) (by omega)) (lr := 0) (ss := [])
    (.single ⟨aheadW 2 [], _, .goal, by
      have := hpos (1, 2)
      change -(1 : Rat) * (1 / 2) ≤ m.g (1, 2) + 4
      linarith⟩)
  refine ⟨m, hh, key.1, ?_⟩
  obtain ⟨why, r, hwhy, hsr⟩ := (plan_ends gW ⟨by norm_num [gW], by norm_num [gW], by norm_num [gW]⟩ w0 true (cmW 2) (cmW 2) 0 [] 0
    (searchEstim gW w0 m ⟨2, 2, 0⟩) (fun _ => 0) [(toVec ⟨1, 2, 0⟩, 0)] (toVec ⟨2, 2, 0⟩) (fun _ _ => false) 1 0 rfl
    (by simp [toVec])).2 false
  rcases key.2 0 (fun _ => 0) [(toVec ⟨1, 2, 0⟩, 0)] (fun _ _ => false) 1 (by norm_num) (by simp [toVec]) (by simp [toVec]) 0 (by simp)
    false why r hsr with h | ⟨h, h'⟩
  · exact absurd h hwhy
  · rw [h] at hsr
    obtain ⟨b, l⟩ := r
    simp only at h'
    subst h'
    exact ⟨l, hsr⟩

/-- The robot at (1.5, 2.5) with the neighbouring start poses: everything `starts_known_partial` asks for is met, and there is a start pose. -/
example : ∃ m : DM Pos Rat, Hist (env (cfgW 2)) cells24 (column ⟨2, 2, 0⟩) (column ⟨1, 2, 0⟩) m ∧
    ∃ w v, ((⟨1, 2, 0⟩ : Cell), w) ∈ (StartPose.starts (plW true) (cmWI 2) ⟨⟨3 / 2, 5 / 2⟩, 0, .nan⟩ ⟨2, 2, 0⟩ none).2 ∧
    startEstim gW w0 m ⟨2, 2, 0⟩ ⟨1, 2, 0⟩ = some v := by
  obtain ⟨m, h1⟩ : ∃ m, createD (env (cfgW 2)) 60 (1, 2) (2, 2) initDM = some m :=
    Option.isSome_iff_exists.mp (by decide +kernel)
  have k1 : (createD (env (cfgW 2)) 60 (1, 2) (2, 2) initDM).map (fun m => decide (∀ v ∈ cells24, m.g v < CostType.top → m.g v ≤ 100)) =
      some true := by decide +kernel
  rw [h1] at k1
  simp only [Option.map_some, Option.some.injEq, decide_eq_true_eq] at k1
  have hc := createD_create _ _ _ _ _ h1
  have hh : Hist (env (cfgW 2)) cells24 (column ⟨2, 2, 0⟩) (column ⟨1, 2, 0⟩) m := .create (by decide +kernel) (by decide +kernel) hc
  have hgood := (Verif.DistMap.good_of_create (Verif.DistMap.grid_laws (cfgW_good 2) (2, 2)) (by decide : 0 < (cfgW 2).tasks)
    (by decide +kernel) (by decide +kernel) hc).1
  have f1 : ⌊(3 / 2 : ℝ)⌋ = 1 := by rw [Int.floor_eq_iff]; norm_num
  have f2 : ⌊(5 / 2 : ℝ)⌋ = 2 := by rw [Int.floor_eq_iff]; norm_num
  have ho := ownW true (3 / 2) (5 / 2)
  rw [f1, f2] at ho
  obtain ⟨w, hw⟩ := StartPose.start_complete (plW true) (plW_sane true) (cmWI 2) ⟨⟨3 / 2, 5 / 2⟩, 0, .nan⟩ ⟨2, 2, 0⟩ rfl
    (by rw [ho]; norm_num [StartPose.OnMap, plW]) ⟨1, 2, 0⟩ (by norm_num [StartPose.OnMap, plW]) (by norm_num [cmWI, lethalRow]) (by rw [ho])
    (by norm_num [StartPose.sqDist, StartPose.gx, StartPose.gy, plW])
  have hsame : SameMap (plW true) gW (cmWI 2) (cmW 2) := by
    refine ⟨rfl, rfl, rfl, by norm_num [plW], fun a ha => ?_⟩
    unfold InMap gW at ha
    simp only at ha
    unfold cmW
    rw [if_pos ha]
    rfl
  obtain ⟨-, v, hv⟩ := starts_known_partial (plW true) (plW_sane true) gW_sane (by norm_num [gW]) hsame (cmW_inside 2) (c := w0) (u := true)
    (hy := cmW 2) (lr := 0) (ss := []) (fitsW 2) (cfgW_good 2) (by decide) moderateW (show (2 : Rat) ≤ 4 by norm_num) mem_cells24
    (robot := ⟨⟨3 / 2, 5 / 2⟩, 0, .nan⟩) (by rw [ho]; exact hh) (by rw [ho]; decide) (by rw [ho]; decide)
    (by rw [ho]; exact .single (aheadW 2 [])) (cmW_free 2 _ (by norm_num [InMap, gW]) (by omega)) (by
      intro a ha
      have h1 := k1 (column a) (mem_cells24 _ (hgood.inMap _ ha)) ha
      have h2 : ((m.g (column a) : Rat) : ℝ) ≤ 100 := by exact_mod_cast h1
      have h3 : w0.ec2 * (gW.angle : ℝ) ≤ 1000 := by norm_num [w0, gW]
      linarith) (by norm_num [w0]) _ hw
  exact ⟨m, hh, w, v, hw, hv⟩

/-! ### The maps of the planner -/

/-- **C118** (the two maps).  After any history of base maps and updates whose last accepted update covers all headings and was not applied in
overwriting mode, the map from which the distances are computed hides no free cell: `Fits` holds. -/
theorem map_fits_partial (unk : Int) (h : List Verif.PlannerMap.Event) (hs : Verif.PlannerMap.AllSmall h) (s : Verif.PlannerMap.St)
    (hr : Verif.PlannerMap.run unk h = some s) (b : Verif.PlannerMap.BaseMap) (hb : (Verif.PlannerMap.past h).base = some b)
    (hl : ∀ o w, (Verif.PlannerMap.past h).last = some (o, w) → o = false ∧ w.yaw = 0 ∧ w.angle = b.angle) (g : Geo)
    (hg : g.width = b.width ∧ g.height = b.height ∧ g.angle = b.angle) (cm : Cell → Option Int)
    (hcm : ∀ a, InMap g a → cm a = some (s.cm a)) (d : Cfg) (hd : d.w = g.width ∧ d.h = g.height) (hdc : ∀ p, d.cm p = s.rough ⟨p.1, p.2, 0⟩) :
    Fits g cm d := by
  refine ⟨hd.1, hd.2, ?_⟩
  intro a v ha hv
  rw [hcm a ha] at hv
  cases hv
  rw [hdc]
  refine Verif.PlannerMap.rough_below_partial unk h hs s hr b hb hl a ?_
  obtain ⟨h1, h2, h3, h4, h5, h6⟩ := ha
  rw [hg.1] at h2
  rw [hg.2.1] at h4
  rw [hg.2.2] at h6
  unfold Verif.PlannerMap.InMap
  omega

end Verif.Guide
