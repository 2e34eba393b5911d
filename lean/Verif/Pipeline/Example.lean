import Verif.Pipeline.Props
/-! # From the map to the path: a complete run

A map of four cells in a row, the last one occupied; a square robot; the costmap node publishes, the planner receives, the
search finds a path from the first cell to the second. -/
namespace Verif.Pipeline
open Verif.CSpace Verif.CSpace.Spec Verif.Layers Verif.Layers.Spec Verif.Polygon Verif.Polygon.Spec
open Verif.Model3D Verif.Model3D.Spec
open Verif.Astar Verif.Astar.Vec Verif.Astar.Spec
open Verif.GridMetric (Cell Pose)
open Real

/-! ### The search -/

/-- The corridor of `Verif.Model3D.g1`, four cells long. -/
noncomputable def g4 : Geo := { g1 with width := 4 }

theorem g4_sane : Sane g4 := by
  refine ⟨by norm_num [g4, g1], ?_, by norm_num [g4, g1], by norm_num [g4, g1], by norm_num [g4, g1], by norm_num [g4, g1]⟩
  simp only [g4, g1]; push_cast; ring

/-- Two free cells, two blocked ones. -/
def cm4 : Cell → Option Int := fun p =>
  if 0 ≤ p.x ∧ p.x < 4 ∧ 0 ≤ p.y ∧ p.y < 1 ∧ 0 ≤ p.yaw ∧ p.yaw < 2 then some (if p.x < 2 then 0 else 100) else none

theorem cm4_free : ∀ p, Verif.Model3D.Spec.InMap g1 p → Free cm4 p := by
  intro p h
  unfold Verif.Model3D.Spec.InMap g1 at h
  simp only at h
  refine ⟨0, ?_, by omega⟩
  unfold cm4
  rw [if_pos (by omega), if_pos (by omega)]

theorem cm4_covers (g : Geo) (hg : g = g1 ∨ g = g4) : Covers g cm4 := by
  intro p hp
  unfold Verif.Model3D.Spec.InMap at hp
  unfold cm4
  refine ⟨_, if_pos ?_⟩
  rcases hg with rfl | rfl
  · simp only [g1] at hp; omega
  · simp only [g4, g1] at hp; omega

theorem cm4_nonneg : ∀ p x, cm4 p = some x → 0 ≤ x := by
  intro p x h
  unfold cm4 at h
  split at h
  · cases h; split <;> omega
  · cases h

/-- Without a change of heading the cost does not depend on the width of the map. -/
theorem cost_width (g : Geo) (n : Int) (c : Wt) (u : Bool) (cm hy : Cell → Option Int) (a b : Cell)
    (h : cycS (b.yaw - a.yaw) g.angle = 0) : cost { g with width := n } c u cm hy a b = cost g c u cm hy a b := by
  unfold cost
  simp only [h, if_true]
  rfl

noncomputable def wide : VProb (WithTop ℝ) :=
  planProb g4 w0 true cm4 cm4 0 [] 0 (fun _ => 0) (fun _ => 0) [([0, 0, 0], 0)] [1, 0, 0] (fun _ _ => false) 1 0

theorem wide_ahead : ∃ v : ℝ, 0 ≤ v ∧ cost g4 w0 true cm4 cm4 ⟨0, 0, 0⟩ ⟨1, 0, 0⟩ = .val v := by
  obtain ⟨v, hv⟩ := free_move_accepted g1 g1_sane ⟨1, by norm_num [g1]⟩ w0 true cm4 cm4 cm4_free (cm4_covers g1 (Or.inl rfl))
    ⟨0, 0, 0⟩ ⟨1, 0, 0⟩ ⟨1, 0, 0⟩ (by norm_num [Verif.Model3D.Spec.InMap, g1]) (by norm_num [Verif.Model3D.Spec.InMap, g1]) (by
      rw [primitive_iff g1 g1_sane w0 0 _ ⟨by omega, by norm_num [g1]⟩]
      have hx : ahead g1 0 ⟨1, 0, 0⟩ = 1 := by simp [ahead, g1]
      have hy : aside g1 0 ⟨1, 0, 0⟩ = 0 := by simp [aside, g1]
      refine ⟨by norm_num [g1], by norm_num, by norm_num [g1], Or.inr ⟨by norm_num, Or.inl ⟨rfl, ?_, ?_⟩⟩⟩
      · rw [hx]; norm_num [g1]
      · intro h; exact absurd hy h)
    ⟨by norm_num, by norm_num, ⟨0, by norm_num⟩, by norm_num, by norm_num [g1]⟩ (fun _ h => absurd rfl h)
  refine ⟨v, (cost_lower_bound g1 g1_sane w0 (by constructor <;> norm_num [w0]) true cm4 cm4 cm4_nonneg cm4_nonneg _ _ v hv).2, ?_⟩
  rw [← hv]
  exact cost_width g1 4 w0 true cm4 cm4 _ _ (by decide +kernel)

theorem wide_stay : ∃ v : ℝ, 0 ≤ v ∧ cost g4 w0 true cm4 cm4 ⟨0, 0, 0⟩ ⟨0, 0, 0⟩ = .val v := by
  have hc : cycS 0 g4.angle = 0 := by decide +kernel
  have he : cm4 ⟨0, 0, 0⟩ = some 0 := by simp [cm4]
  have hv : ∃ v, cost g4 w0 true cm4 cm4 ⟨0, 0, 0⟩ ⟨0, 0, 0⟩ = .val v := by
    unfold cost
    simp [he, hc, turnScan]
  obtain ⟨v, hv⟩ := hv
  exact ⟨v, (cost_lower_bound g4 g4_sane w0 (by constructor <;> norm_num [w0]) true cm4 cm4 cm4_nonneg cm4_nonneg _ _ v hv).2, hv⟩

theorem wide_nexts : (Verif.Astar.Vec.toProb wide).nexts [0, 0, 0] = [[0, 0, 0], [1, 0, 0]] := by
  have hg : wide.grids [0, 0, 0] = [[-1, 0, 0], [0, -1, 0], [0, 0, 0], [0, 1, 0], [1, 0, 0]] := by
    have : searchGrids g4 w0 0 [] (ofVec [0, 0, 0]) = searchListRough g4 := by simp [searchGrids]
    simp only [wide, planProb, this]
    decide +kernel
  simp only [Verif.Astar.Vec.toProb, hg]
  decide +kernel

theorem wide_found : ∃ path, Search wide false .found (true, path) := by
  obtain ⟨v, hv0, hv⟩ := wide_ahead
  obtain ⟨v', hv0', hv'⟩ := wide_stay
  have hgoal : (Verif.Astar.Vec.toProb wide).goal = [1, 0, 0] := by decide +kernel
  have hstarts : (Verif.Astar.Vec.toProb wide).starts = [([0, 0, 0], 0)] := by
    have : Verif.Astar.Vec.norm wide [0, 0, 0] = [0, 0, 0] := by decide +kernel
    change [(Verif.Astar.Vec.norm wide [0, 0, 0], (0 : WithTop ℝ))] = _
    rw [this]
  have hinit : Verif.Astar.Reach (Verif.Astar.Vec.toProb wide) (Verif.Astar.init (Verif.Astar.Vec.toProb wide) [0, 0, 0]) :=
    .init _ (by rw [hstarts]; simp)
  have hopen : (Verif.Astar.init (Verif.Astar.Vec.toProb wide) [0, 0, 0]).open_ = [⟨0 + 0, 0, [0, 0, 0]⟩] := by
    simp only [Verif.Astar.init, hstarts, List.map_cons, List.map_nil]
    rfl
  have hg : (Verif.Astar.init (Verif.Astar.Vec.toProb wide) [0, 0, 0]).g [0, 0, 0] = 0 := by
    simp only [Verif.Astar.init, hstarts, List.foldl_cons, List.foldl_nil, Verif.Astar.setF, if_true]
  have hg1 : (Verif.Astar.init (Verif.Astar.Vec.toProb wide) [0, 0, 0]).g [1, 0, 0] = ⊤ := by
    simp only [Verif.Astar.init, hstarts, List.foldl_cons, List.foldl_nil, Verif.Astar.setF]
    rw [if_neg (by decide)]
    rfl
  generalize hs0 : Verif.Astar.init (Verif.Astar.Vec.toProb wide) [0, 0, 0] = s0 at *
  have hcol : Verif.Astar.Collect (Verif.Astar.Vec.toProb wide) (Verif.Astar.Vec.toProb wide).tasks s0.open_
      [⟨0 + 0, 0, [0, 0, 0]⟩] [] none := by
    rw [hopen]
    refine .take (rest := []) (List.Perm.refl _) (by simp) ?_ (.full _)
    rintro (h | h)
    · rw [hgoal] at h
      exact absurd h (by decide)
    · exact absurd h (by simp [Verif.Astar.Vec.toProb, wide, planProb])
  have hexp : Verif.Astar.expand (Verif.Astar.Vec.toProb wide) s0.g ⟨0 + 0, 0, [0, 0, 0]⟩ =
      [.upd ⟨[0, 0, 0], [1, 0, 0], 0 + (v : WithTop ℝ) + 0, 0 + (v : WithTop ℝ)⟩] := by
    have hc1 : (Verif.Astar.Vec.toProb wide).cost [0, 0, 0] [1, 0, 0] = (v : WithTop ℝ) := by
      change encode 0 (cost g4 w0 true cm4 cm4 ⟨0, 0, 0⟩ ⟨1, 0, 0⟩) = _
      rw [hv]; rfl
    have hc0 : (Verif.Astar.Vec.toProb wide).cost [0, 0, 0] [0, 0, 0] = (v' : WithTop ℝ) := by
      change encode 0 (cost g4 w0 true cm4 cm4 ⟨0, 0, 0⟩ ⟨0, 0, 0⟩) = _
      rw [hv']; rfl
    have hest : ∀ x, (Verif.Astar.Vec.toProb wide).estim x = (0 : WithTop ℝ) := fun _ => rfl
    have hr : ∀ w : ℝ, 0 ≤ w → ¬ Verif.Astar.rejected (w : WithTop ℝ) := by
      rintro w hw (h | h)
      · have : (w : WithTop ℝ) < ((0 : ℝ) : WithTop ℝ) := h
        rw [WithTop.coe_lt_coe] at this
        linarith
      · exact absurd (show (w : WithTop ℝ) = ⊤ from h) (WithTop.coe_ne_top)
    have hr0 : ¬ Verif.Astar.rejected (0 : WithTop ℝ) := hr 0 (le_refl _)
    have e0 : Verif.Astar.expandOne (Verif.Astar.Vec.toProb wide) s0.g [0, 0, 0] 0 [0, 0, 0] = none := by
      unfold Verif.Astar.expandOne
      rw [hc0, hest, hg, if_neg (lt_irrefl _), if_neg hr0, if_neg (hr v' hv0'), if_neg]
      have : (0 : WithTop ℝ) ≤ ((v' : ℝ) : WithTop ℝ) := by
        change ((0 : ℝ) : WithTop ℝ) ≤ ((v' : ℝ) : WithTop ℝ)
        exact WithTop.coe_le_coe.2 hv0'
      exact not_lt.2 (CostType.le_add _ _ this)
    have e1 : Verif.Astar.expandOne (Verif.Astar.Vec.toProb wide) s0.g [0, 0, 0] 0 [1, 0, 0] =
        some ⟨[0, 0, 0], [1, 0, 0], 0 + (v : WithTop ℝ) + 0, 0 + (v : WithTop ℝ)⟩ := by
      unfold Verif.Astar.expandOne
      rw [hc1, hest, hg, hg1, if_neg (by exact not_top_lt), if_neg hr0, if_neg (hr v hv0), if_pos]
      change (0 : WithTop ℝ) + (v : WithTop ℝ) < ⊤
      rw [zero_add]
      exact WithTop.coe_lt_top v
    unfold Verif.Astar.expand
    simp only
    rw [if_neg (by rw [hg]; exact lt_irrefl _), wide_nexts]
    simp only [List.filterMap_cons, List.filterMap_nil, e0, e1]
    rfl
  have hround := Verif.Astar.Round.mk (P := Verif.Astar.Vec.toProb wide) (s := s0) (b := s0.better) hcol (by simp)
    (List.Perm.refl _) (Or.inl rfl) (by
      simp only [List.flatMap_cons, List.flatMap_nil, List.append_nil, hexp]
      refine .cons (.push _ _ ?_ (Or.inl rfl)) (.nil _)
      simp only
      rw [hg1]
      change (0 : WithTop ℝ) + (v : WithTop ℝ) < ⊤
      rw [zero_add]
      exact WithTop.coe_lt_top v)
  have hr1 := Verif.Astar.Reach.round hinit hround
  have hfin := Verif.Astar.Final.found hr1 (cs := []) (o' := []) (e := ⟨0 + (v : WithTop ℝ) + 0, 0 + (v : WithTop ℝ), [1, 0, 0]⟩) (by
    refine .hit 0 _ _ [] (List.Perm.refl _) (by simp) (Or.inl ?_)
    rw [hgoal])
  have hsearch := Search.run (P := wide) (returnBest := false) (by simp [wide, planProb])
    (by simp [wide, planProb]) hfin
  have key : ∀ r, Search wide false .found r → ∃ path, Search wide false .found (true, path) := by
    rintro ⟨b, path⟩ h
    have ht := Verif.Astar.found_returns_true (P := wide) (by
      intro x hx
      simp only [wide, planProb, List.mem_singleton] at hx
      rw [hx]) h
    simp only at ht
    subst ht
    exact ⟨path, h⟩
  exact key _ hsearch

theorem wide_plans : ∃ q : Pose ℝ, q.x = 1 ∧ q.y = 0 ∧ Plans g4 cm4 q := by
  obtain ⟨path, h⟩ := wide_found
  have wf : Verif.Astar.Vec.Spec.WellFormed wide := by
    refine ⟨?_, by simp [wide, planProb], by simp [wide, planProb], ?_, ?_⟩
    · intro s hs
      simp only [wide, planProb, g4, g1, List.mem_cons, List.not_mem_nil, or_false] at hs
      omega
    · intro s hs
      simp only [wide, planProb, List.mem_singleton] at hs
      rw [hs]; rfl
    · intro p d hd
      simp only [wide, planProb, List.mem_map] at hd
      obtain ⟨x, -, rfl⟩ := hd
      rfl
  obtain ⟨hne, ⟨s, hs, hhead⟩, hlast, -⟩ := search_path_legal wf (by
    intro x hx
    simp only [wide, planProb, List.mem_singleton] at hx
    rw [hx]) h
  have hlen : 2 ≤ path.length := by
    rcases path with _ | ⟨a, _ | ⟨b, l⟩⟩
    · exact absurd rfl hne
    · exfalso
      simp only [wide, planProb, List.mem_singleton] at hs
      rw [hs] at hhead
      simp only [List.head_cons, List.getLast_singleton] at hhead hlast
      rcases hlast with hl | ⟨p, raw, hl, -⟩
      · unfold Verif.Astar.Vec.Spec.IsNormalOf Verif.CyclicVec.Spec.VecNormalised at hhead hl
        have hw : 0 < a.length := by rw [hl.1]; simp [wide, planProb]
        have e1 := (hhead.2 0 (by simp) (by simp [wide, planProb]) hw).1 (by simp [wide, planProb])
        have e2 := (hl.2 0 (by simp [wide, planProb]) (by simp [wide, planProb]) hw).1 (by simp [wide, planProb])
        rw [e1] at e2
        simp [wide, planProb] at e2
      · simp [wide, planProb] at hl
    · simp
  have hend : (ofVec (path.getLast hne)).x = 1 ∧ (ofVec (path.getLast hne)).y = 0 := by
    rcases hlast with hl | ⟨p, raw, hl, -⟩
    · unfold Verif.Astar.Vec.Spec.IsNormalOf Verif.CyclicVec.Spec.VecNormalised at hl
      generalize path.getLast hne = a at *
      have hw : a.length = 3 := by rw [hl.1]; simp [wide, planProb]
      have e1 := (hl.2 0 (by simp [wide, planProb]) (by simp [wide, planProb]) (by omega)).1 (by simp [wide, planProb])
      have e2 := (hl.2 1 (by simp [wide, planProb]) (by simp [wide, planProb]) (by omega)).1 (by simp [wide, planProb])
      obtain ⟨x, y, w, rfl⟩ := List.length_eq_three.1 hw
      refine ⟨?_, ?_⟩
      · simpa [wide, planProb, ofVec] using e1
      · simpa [wide, planProb, ofVec] using e2
    · simp [wide, planProb] at hl
  have hex : ∃ q : Pose ℝ, q.x = 1 ∧ q.y = 0 ∧ q ∈ interpolatePath g4 (path.map ofVec) := by
    have key : ∀ (l : List Cell) (h : l ≠ []), (⟨(l.getLast h).x, (l.getLast h).y, (l.getLast h).yaw⟩ : Pose ℝ) ∈ interpolatePath g4 l := by
      intro l
      induction l with
      | nil => intro h; exact absurd rfl h
      | cons a l ih =>
        intro _
        cases l with
        | nil => exact List.mem_singleton.2 rfl
        | cons b l =>
          have := ih (by simp)
          rw [List.getLast_cons (by simp)]
          unfold interpolatePath
          exact List.mem_append_right _ this
    have := key (path.map ofVec) (by simpa using hne)
    refine ⟨_, ?_, ?_, this⟩
    · simp only [List.getLast_map]
      have : (ofVec (path.getLast hne)).x = 1 := hend.1
      rw [this]; norm_num
    · simp only [List.getLast_map]
      have : (ofVec (path.getLast hne)).y = 0 := hend.2
      rw [this]; norm_num
  obtain ⟨q, hqx, hqy, hq⟩ := hex
  refine ⟨q, hqx, hqy, w0, true, cm4, 0, [], 0, _, _, _, _, _, _, _, _, _, _, path, cm4_covers g4 (Or.inr rfl), rfl, ?_, h, hlen, hq⟩
  intro s hs
  simp only [List.mem_singleton] at hs
  rw [hs]
  refine ⟨le_refl _, ?_⟩
  exact List.Forall₂.cons (by norm_num [g4, g1]) (List.Forall₂.cons (by norm_num [g4, g1]) (List.Forall₂.cons (by norm_num [g4, g1]) .nil))

/-! ### The costmap node -/

/-- A square robot, half a cell wide. -/
noncomputable def sq : Foot := ⟨[(-(1 / 4), -(1 / 4)), (1 / 4, -(1 / 4)), (1 / 4, 1 / 4), (-(1 / 4), 1 / 4)], 8 / 5, 0, 0⟩

/-- Four cells in a row, the last one occupied. -/
def row : Msg ℝ := ⟨⟨4, 1, 1, 0, 0, [0, 0, 0, 100]⟩, 0, 7⟩

theorem sq_core : Core sq.pts (1 / 5) := by
  intro a ha
  left
  have h1 : a.1 ^ 2 + a.2 ^ 2 ≤ (1 / 5) ^ 2 := by rwa [hypot_le_iff (by norm_num)] at ha
  have := (inside_rect (-(1 / 4) : ℝ) (1 / 4) (-(1 / 4)) (1 / 4) (by norm_num) (by norm_num) a).2
  apply this
  refine ⟨⟨?_, ?_⟩, ?_, ?_⟩ <;> nlinarith [sq_nonneg a.1, sq_nonneg a.2]

theorem sq_radius : radius (close sq.pts) < 9 / 25 := by
  have h : ∀ x y : ℝ, x ^ 2 = 1 / 16 → y ^ 2 = 1 / 16 → hypot x y = Real.sqrt (1 / 8) := by
    intro x y hx hy
    unfold hypot
    congr 1
    nlinarith
  have hs : Real.sqrt (1 / 8) < 9 / 25 := by
    rw [Real.sqrt_lt' (by norm_num)]
    norm_num
  have hp : 0 < Real.sqrt (1 / 8) := Real.sqrt_pos.2 (by norm_num)
  rcases (radius_fold (close sq.pts) 0).2.2 with h0 | ⟨p, hp, h0⟩
  · unfold radius
    rw [h0]
    norm_num
  · unfold radius
    rw [h0]
    have : hypot p.1 p.2 = Real.sqrt (1 / 8) := by
      simp only [close, sq, List.cons_append, List.nil_append, List.mem_cons, List.not_mem_nil, or_false] at hp
      rcases hp with rfl | rfl | rfl | rfl | rfl <;> exact h _ _ (by norm_num) (by norm_num)
    rw [this]
    exact hs

theorem sq_compact : radius (close sq.pts) - 1 / 5 + Real.sqrt 2 * row.grid.res < sq.expand := by
  have h1 := sq_radius
  have h2 : Real.sqrt 2 < 36 / 25 := by
    rw [Real.sqrt_lt' (by norm_num)]
    norm_num
  simp only [row, sq, mul_one] at *
  linarith

/-- Two cells away the template is empty. -/
theorem sq_far (res : ℝ) (hres : res = 1) (ang : ℝ) (x a : Int) (hx : x ≤ -2) : sq.template 10 res ang x 0 a = 0 := by
  subst hres
  have hr := sq_radius
  have hx2 : (2 : ℝ) ≤ hypot ((x : ℝ) * 1) (((0 : Int) : ℝ) * 1) := by
    have hx' : (x : ℝ) ≤ -2 := by exact_mod_cast hx
    unfold hypot
    apply Real.le_sqrt_of_sq_le
    push_cast
    nlinarith
  apply template_far
  · norm_num [sq]
  · norm_num [sq]
  · norm_num
  · by_contra hc
    have := covers_near sq.pts _ _ _ (by simpa only [Bool.not_eq_false] using hc)
    linarith
  · intro q hq
    by_contra hc
    push Not at hc
    have := outline_near sq.pts _ _ _ _ ⟨q, hq, hc.le⟩
    norm_num [sq] at this hx2 hr
    norm_num [sq] at hr
    linarith
  · norm_num [sq]
  · simp [sq]

theorem row_generate (r : Bool) (c0 : Cells) (x a : Int) (B : Int) (hB : 0 ≤ B) (hx : x < 2 ∨ 100 ≤ B) (ha : 0 ≤ a ∧ a < 2) (h0 : c0 x 0 a ≤ B) :
    generate .max r false (sq.rangeMax (infoOf 2 row).res)
      (fun x y a => sq.template 10 (infoOf 2 row).res (2 * Real.pi / ((infoOf 2 row).ang : ℝ)) x y a) row.grid (infoOf 2 row) c0 x 0 a ≤ B := by
  have hcell : ∀ i : Nat, i < 4 → cellX row.grid (infoOf 2 row) i = i ∧ cellY row.grid (infoOf 2 row) i = 0 := by
    intro i hi
    obtain ⟨ex, ey⟩ := cell_eq row.grid (infoOf 2 row) rfl (by norm_num [infoOf, row]) i
    have hoff : offX row.grid (infoOf 2 row) = 0 ∧ offY row.grid (infoOf 2 row) = 0 := by
      unfold offX offY infoOf lround
      simp only [sub_self, zero_div, le_refl, if_true, zero_add]
      norm_num
    rw [ex, ey, hoff.1, hoff.2]
    simp only [row]
    omega
  unfold generate
  rw [if_pos (show 0 ≤ a ∧ a < (infoOf 2 row).ang by simpa [infoOf] using ha)]
  unfold clearTravelable
  rw [if_pos (Or.inl (by decide))]
  unfold generateSpecified
  simp only [Bool.false_eq_true, if_false]
  have key : ∀ (l : List (Nat × Int)) (c : Int → Int → Int), (∀ iv ∈ l, iv ∈ row.grid.items) → c x 0 ≤ B →
      l.foldl (putValue (sq.rangeMax (infoOf 2 row).res)
        (fun x y => sq.template 10 (infoOf 2 row).res (2 * Real.pi / ((infoOf 2 row).ang : ℝ)) x y a) row.grid (infoOf 2 row)) c x 0 ≤ B := by
    intro l
    induction l with
    | nil => intro c _ h; exact h
    | cons iv l ih =>
      intro c hl hc
      rw [List.foldl_cons]
      apply ih _ (fun iv h => hl iv (List.mem_cons_of_mem _ h))
      obtain ⟨i, v⟩ := iv
      obtain ⟨hi, hv⟩ := mem_items.1 (hl _ List.mem_cons_self)
      simp only at hi hv
      have hi4 : i < 4 := hi
      unfold putValue
      simp only [hcell i hi4]
      split
      · exact hc
      split
      · exact hc
      split
      · change (if x = (i : Int) ∧ (0 : Int) = 0 then (if c x 0 < 0 then 0 else c x 0) else c x 0) ≤ B
        split
        · split <;> omega
        · exact hc
      · rename_i hv0
        have h3 : i = 3 := by
          by_contra h3
          apply hv0
          rw [← hv]
          have : i = 0 ∨ i = 1 ∨ i = 2 := by omega
          rcases this with rfl | rfl | rfl <;> rfl
        subst h3
        unfold stamp
        split
        · have hb := template_bounds 10 sq (infoOf 2 row).res (2 * Real.pi / ((infoOf 2 row).ang : ℝ)) (by norm_num [sq]) (by norm_num [sq])
            (x - 3) 0 a
          have hv3 : v = 100 := by rw [← hv]; rfl
          have hz : x < 2 → sq.template 10 (infoOf 2 row).res (2 * Real.pi / ((infoOf 2 row).ang : ℝ)) (x - 3) 0 a = 0 := fun h =>
            sq_far (infoOf 2 row).res rfl _ (x - 3) a (by omega)
          simp only [sub_zero, Nat.cast_ofNat, hv3, Int.mul_tdiv_cancel _ (show (100 : Int) ≠ 0 by norm_num)]
          split
          · rcases hx with hx | hx
            · rw [hz hx]; omega
            · omega
          · exact hc
        · exact hc
  exact key _ _ (fun _ h => h) h0

theorem row_cells (x a : Int) (B : Int) (hB : 0 ≤ B) (hx : x < 2 ∨ 100 ≤ B) (ha : 0 ≤ a ∧ a < 2) :
    rootCells (fun m => sq.rangeMax m.res) (fun m x y a => sq.template 10 m.res (2 * Real.pi / (m.ang : ℝ)) x y a) .max false
      (infoOf 2 row) row x 0 a ≤ B := by
  unfold rootCells
  simp only
  split
  · omega
  exact row_generate true _ x a B hB hx ha (by omega)

theorem row_step : ∃ (s' : Node ℝ) (c : Cells), Layers.step (Node.init 2 0 (rootKind 10 sq .max) [.staticOut]) (.base row) =
    some (s', [.map 7 c]) ∧ s'.info = infoOf 2 row ∧ c = rootCells (fun m => sq.rangeMax m.res)
      (fun m x y a => sq.template 10 m.res (2 * Real.pi / (m.ang : ℝ)) x y a) .max false (infoOf 2 row) row := by
  have hb : ∀ (m : Info ℝ) r (c : Cells), blit m r c c = c := by
    intro m r c
    unfold blit
    simp
  simp only [Layers.step, Layers.cbMap, setBaseMap, Node.init, rootKind, Layer.fresh, List.map_cons, List.map_nil, entry, layerStep, hb,
      Option.map_some, List.append_nil, List.nil_append]
  rw [if_pos (by norm_num [row])]
  simp only [if_true]
  exact ⟨_, _, rfl, rfl, rfl⟩

theorem row_publishes : ∃ c : Cells, (∀ x a B : Int, 0 ≤ a ∧ a < 2 → 0 ≤ B → (x < 2 ∨ 100 ≤ B) → c x 0 a ≤ B) ∧
    Publishes 10 sq .max 2 [.staticOut] row (message (infoOf 2 row) 7 c) := by
  obtain ⟨s', c, hs, hi, hc⟩ := row_step
  refine ⟨c, fun x a B ha hB hx => by rw [hc]; exact row_cells x a B hB hx ha, 0, [], .base row, _, s', [], _, 7, c, rfl, hs, by simp,
    rfl, by rw [hi]⟩

theorem row_receives (c : Cells) : Receives 0 (message (infoOf 2 row) 7 c) (PlannerMap.baseCell 0 (message (infoOf 2 row) 7 c)) := by
  have h : ∃ ps, PlannerMap.run 0 [.map false (message (infoOf 2 row) 7 c)] = some ps ∧
      ps.cm = PlannerMap.baseCell 0 (message (infoOf 2 row) 7 c) := by
    simp only [PlannerMap.run, List.foldlM_cons, List.foldlM_nil, PlannerMap.step, PlannerMap.cbMap, PlannerMap.loadMap]
    rw [if_neg (by simp [message, flat, infoOf])]
    exact ⟨_, rfl, rfl⟩
  obtain ⟨ps, h1, h2⟩ := h
  exact ⟨[.map false (message (infoOf 2 row) 7 c)], ps, by intro o u h; simp at h, h1, rfl,
    by intro ov u h; simp [PlannerMap.past, PlannerMap.past1] at h, h2⟩

theorem row_raised (c : Cells) (hc : ∀ x a B : Int, 0 ≤ a ∧ a < 2 → 0 ≤ B → (x < 2 ∨ 100 ≤ B) → c x 0 a ≤ B) :
    Raised g4 (PlannerMap.baseCell 0 (message (infoOf 2 row) 7 c)) cm4 := by
  refine ⟨cm4_covers g4 (Or.inr rfl), ?_⟩
  rintro ⟨x, y, a⟩ v h
  unfold cm4 at h
  simp only at h
  split at h
  · rename_i hp
    cases h
    refine ⟨by unfold Verif.Model3D.Spec.InMap; simp only [g4, g1]; omega, ?_⟩
    obtain ⟨n, rfl⟩ := Int.eq_ofNat_of_zero_le hp.1
    obtain ⟨k, rfl⟩ := Int.eq_ofNat_of_zero_le hp.2.2.2.2.1
    obtain rfl : y = 0 := by omega
    have h0 : ∀ B : Int, 0 ≤ B → ((n : Int) < 2 ∨ 100 ≤ B) → c n 0 k ≤ B := fun B hB hx => hc n k B (by omega) hB hx
    have hB : c n 0 k ≤ (if (n : Int) < 2 then 0 else 100) := by
      split
      · exact h0 0 (by omega) (by omega)
      · exact h0 100 (by omega) (by omega)
    have hB0 : (0 : Int) ≤ (if (n : Int) < 2 then 0 else 100) := by split <;> omega
    have e : PlannerMap.baseCell 0 (message (infoOf 2 row) 7 c) ⟨n, 0, k⟩ = if c n 0 k < 0 then 0 else c n 0 k := by
      have := message_get (infoOf 2 row) 7 c 0 n 0 k (by simp only [infoOf, row]; omega) (by simp [infoOf, row]) (by simp only [infoOf]; omega)
      simpa [PlannerMap.baseCell, PlannerMap.BaseMap.at] using this
    rw [e]
    split <;> omega
  · cases h

/-- Everything together: the costmap node publishes, the planner receives, the search finds a path, and no pose of it makes
the robot touch the occupied cell. -/
theorem complete_run : ∃ (c : Cells) (cm0 : Cell → Int) (q : Pose ℝ),
    Publishes 10 sq .max 2 [.staticOut] row (message (infoOf 2 row) 7 c) ∧ Receives 0 (message (infoOf 2 row) 7 c) cm0 ∧
    Raised g4 cm0 cm4 ∧ Plans g4 cm4 q ∧ ∀ z, InCell row 3 0 z → ¬ Touches sq (pose 2 row q) z := by
  obtain ⟨c, hc, hp⟩ := row_publishes
  obtain ⟨q, -, -, hq⟩ := wide_plans
  have hr := row_raised c hc
  refine ⟨c, _, q, hp, row_receives c, hr, hq, fun z hz => ?_⟩
  refine path_clear 10 sq .max 2 [.staticOut] (1 / 5) (by norm_num [sq]) (by norm_num [sq]) (by norm_num) (by norm_num [sq]) (by norm_num [sq])
    sq_core ⟨[], [], rfl, by simp, by simp⟩ row ⟨by norm_num [row], by simp [row]⟩ sq_compact _ hp 0 _ (row_receives c) g4 g4_sane
    ⟨1, by norm_num [g4, g1]⟩ ⟨by norm_num [g4, g1, row], by norm_num [g4, g1, row], by norm_num [g4, g1], by norm_num [g4, g1, row]⟩ cm4 hr q hq 3 0
    ⟨by simp [row], by simp [row], by simp [row]⟩ z hz ?_
  intro x y hx hy _
  simp only [row] at hx hy
  have : x = 0 ∨ x = 1 ∨ x = 2 ∨ x = 3 := by omega
  obtain rfl : y = 0 := by omega
  rcases this with rfl | rfl | rfl | rfl <;> simp [Known, row]

end Verif.Pipeline
