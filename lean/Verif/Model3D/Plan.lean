import Verif.Model3D.Props
import Verif.Astar.Props
import Mathlib.Algebra.Order.Monoid.WithTop
/-! # The search with the 3-DOF model: planned paths are safe end to end -/
set_option linter.unusedVariables false
namespace Verif.Model3D
open Spec
open Verif.GridMetric (Cell Pose)
open Real
open Verif.Astar (CostType)
open Verif.Astar.Vec (VProb Search)

/-- Costs of the search: real numbers with a largest value (`numeric_limits<float>::max()`). -/
noncomputable instance : CostType (WithTop ℝ) :=
  { (inferInstance : LinearOrder (WithTop ℝ)), (inferInstance : Add (WithTop ℝ)), (inferInstance : Zero (WithTop ℝ)) with
    top := ⊤
    neg1 := ((-1 : ℝ) : WithTop ℝ)
    neg1_lt_zero := by
      change ((-1 : ℝ) : WithTop ℝ) < ((0 : ℝ) : WithTop ℝ)
      rw [WithTop.coe_lt_coe]; norm_num
    le_add := fun c w h => by
      change c ≤ c + w
      exact le_add_of_nonneg_right h }

/-- The vector of a cell and back (`Astar::Vec` is an array of three integers). -/
def toVec (p : Cell) : List Int := [p.x, p.y, p.yaw]
def ofVec : List Int → Cell
  | [x, y, w] => ⟨x, y, w⟩
  | _ => ⟨0, 0, 0⟩

/-- What the search sees of a cost: `-1` for a blocked move, the largest value for an infinite one (an infinite sum is
never smaller than a stored cost), and anything (`junk`) when the evaluation is undefined. -/
noncomputable def encode (junk : WithTop ℝ) : Res → WithTop ℝ
  | .undefined => junk
  | .blocked => ((-1 : ℝ) : WithTop ℝ)
  | .infinite => ⊤
  | .val v => (v : WithTop ℝ)

/-- `as_.search(starts, e, path_grid, model_, …)`, planner_3d.cpp 1995–2005, grid_astar.h 169–193: the search over the
three-dimensional grid whose third coordinate is cyclic, with the moves and costs of `GridAstarModel3D`. -/
noncomputable def planProb (g : Geo) (c : Wt) (u : Bool) (cm hy : Cell → Option Int) (lr : Int) (ss : List Cell)
    (junk : WithTop ℝ) (estim startEstim : List Int → WithTop ℝ) (starts : List (List Int × WithTop ℝ)) (goal : List Int)
    (leave : WithTop ℝ → WithTop ℝ → Bool) (tasks limit : Nat) : VProb (WithTop ℝ) where
  nonc := 2
  size := [g.width, g.height, g.angle]
  grids := fun p => (searchGrids g c lr ss (ofVec p)).map toVec
  estim := estim
  cost := fun p x => encode junk (cost g c u cm hy (ofVec p) (ofVec x))
  startEstim := startEstim
  starts := starts
  goal := goal
  leave := leave
  tasks := tasks
  limit := limit

theorem inMap_vec (g : Geo) (v : List Int) (h : Verif.Astar.Vec.Spec.InMap [g.width, g.height, g.angle] v) :
    v = toVec (ofVec v) ∧ InMap g (ofVec v) := by
  unfold Verif.Astar.Vec.Spec.InMap at h
  cases h with
  | cons h1 h2 =>
    cases h2 with
    | cons h2 h3 =>
      cases h3 with
      | cons h3 h4 =>
        cases h4
        exact ⟨rfl, h1.1, h1.2, h2.1, h2.2, h3.1, h3.2⟩

/-- Every path handed out by the search over the 3-DOF model consists of cells of the map and of moves the search offers, each with a finite cost. -/
theorem plan_moves (g : Geo) (hs : Sane g) (hev : Even g.angle) (hmap : 0 < g.width ∧ 0 < g.height) (c : Wt) (u : Bool)
    (cm hy : Cell → Option Int) (hcm : Covers g cm) (hhy : Covers g hy) (lr : Int) (ss : List Cell) (junk : WithTop ℝ)
    (estim startEstim : List Int → WithTop ℝ) (starts : List (List Int × WithTop ℝ)) (goal : List Int)
    (leave : WithTop ℝ → WithTop ℝ → Bool) (tasks limit : Nat)
    (hg : goal.length = 3) (hst : ∀ s ∈ starts, 0 ≤ s.2 ∧ Verif.Astar.Vec.Spec.InMap [g.width, g.height, g.angle] s.1)
    {rb b : Bool} {why} {path : List (List Int)}
    (h : Search (planProb g c u cm hy lr ss junk estim startEstim starts goal leave tasks limit) rb why (b, path)) :
    (∀ a ∈ path.map ofVec, InMap g a) ∧ (path.map ofVec).IsChain (fun a b => (∃ p ∈ searchGrids g c lr ss a, Reaches g a p b) ∧ ∃ v, cost g c u cm hy a b = .val v) := by
  by_cases hne : path = []
  · subst hne; exact ⟨fun _ h => (by cases h), List.isChain_nil⟩
  have wf : Verif.Astar.Vec.Spec.WellFormed (planProb g c u cm hy lr ss junk estim startEstim starts goal leave tasks limit) := by
    refine ⟨?_, by simp [planProb], by simpa [planProb] using hg, ?_, ?_⟩
    · intro s hs'
      simp only [planProb, List.mem_cons, List.not_mem_nil, or_false] at hs'
      rcases hs' with rfl | rfl | rfl
      · exact hmap.1
      · exact hmap.2
      · exact hs.angle_pos
    · intro s hs'
      exact (hst s hs').2.length_eq
    · intro p d hd
      simp only [planProb, List.mem_map] at hd
      obtain ⟨x, -, rfl⟩ := hd
      rfl
  obtain ⟨-, hch, -, -, hin⟩ := Verif.Astar.search_any_path_legal wf (fun x hx => (hst x hx).1) h hne
  have hin := hin (by
    intro s hs' x hx
    obtain ⟨hv, hm⟩ := inMap_vec g _ (hst s hs').2
    obtain ⟨hl, hx⟩ := hx
    rw [hv] at hl hx
    generalize ofVec s.1 = t at *
    match x, hl with
    | [a, b, w], _ =>
      obtain ⟨m1, m2, m3, m4, m5, m6⟩ := hm
      have e0 := (hx 0 (by simp [toVec]) (by simp [planProb]) (by simp)).1 (by simp [planProb])
      have e1 := (hx 1 (by simp [toVec]) (by simp [planProb]) (by simp)).1 (by simp [planProb])
      have e2 := (hx 2 (by simp [toVec]) (by simp [planProb]) (by simp)).2 (by simp [planProb])
      simp only [toVec, List.getElem_cons_zero, List.getElem_cons_succ] at e0 e1
      subst e0
      subst e1
      have e2 := e2.1
      exact List.Forall₂.cons ⟨m1, m2⟩ (List.Forall₂.cons ⟨m3, m4⟩ (List.Forall₂.cons e2 List.Forall₂.nil)))
  have hcells : ∀ v ∈ path, v = toVec (ofVec v) ∧ InMap g (ofVec v) := fun v hv => inMap_vec g v (hin v hv)
  have hch' : (path.map ofVec).IsChain (fun a b => (∃ p ∈ searchGrids g c lr ss a, Reaches g a p b) ∧ ∃ v, cost g c u cm hy a b = .val v) := by
    have : ∀ (l : List (List Int)), (∀ v ∈ l, v = toVec (ofVec v) ∧ InMap g (ofVec v)) →
        l.IsChain (Verif.Astar.Vec.Spec.Step (planProb g c u cm hy lr ss junk estim startEstim starts goal leave tasks limit)) →
        (l.map ofVec).IsChain (fun a b => (∃ p ∈ searchGrids g c lr ss a, Reaches g a p b) ∧ ∃ v, cost g c u cm hy a b = .val v) := by
      intro l
      induction l with
      | nil => intro _ _; simp
      | cons a l ih =>
        intro hl hc
        cases l with
        | nil => simp
        | cons b l =>
          rw [List.isChain_cons_cons] at hc
          simp only [List.map_cons]
          rw [List.isChain_cons_cons]
          refine ⟨?_, ih (fun v hv => hl v (List.mem_cons_of_mem _ hv)) hc.2⟩
          obtain ⟨ha, hma⟩ := hl a (List.mem_cons_self ..)
          obtain ⟨hb, hmb⟩ := hl b (List.mem_cons_of_mem _ (List.mem_cons_self ..))
          obtain ⟨⟨d, hd, hnorm⟩, -, -, hacc⟩ := hc.1
          simp only [planProb, List.mem_map] at hd
          obtain ⟨p, hp, rfl⟩ := hd
          -- the cell reached
          have hreach : Reaches g (ofVec a) p (ofVec b) := by
            obtain ⟨-, hx⟩ := hnorm
            rw [ha, hb] at hx
            generalize ofVec a = A at *
            generalize ofVec b = B at *
            have e0 := (hx 0 (by simp [toVec]) (by simp [planProb]) (by simp [toVec])).1 (by simp [planProb])
            have e1 := (hx 1 (by simp [toVec]) (by simp [planProb]) (by simp [toVec])).1 (by simp [planProb])
            have e2 := (hx 2 (by simp [toVec]) (by simp [planProb]) (by simp [toVec])).2 (by simp [planProb])
            simp only [toVec, planProb, List.zipWith_cons_cons, List.getElem_cons_zero, List.getElem_cons_succ] at e0 e1 e2
            obtain ⟨⟨r1, r2⟩, k, hk⟩ := e2
            exact ⟨e0, e1, ⟨k, hk⟩, r1, r2⟩
          have hdef := cost_defined g hs hev c u cm hy hcm hhy lr ss (ofVec a) p (ofVec b) hma hmb hp hreach
          obtain ⟨h0, htop⟩ := hacc
          simp only [planProb] at h0 htop
          refine ⟨⟨p, hp, hreach⟩, ?_⟩
          cases hco : cost g c u cm hy (ofVec a) (ofVec b) with
          | undefined => exact absurd hco hdef
          | blocked =>
            rw [hco] at h0
            exact absurd h0 (not_le.2 (CostType.neg1_lt_zero (C := WithTop ℝ)))
          | infinite =>
            rw [hco] at htop
            exact absurd rfl htop
          | val v => exact ⟨v, rfl⟩
    exact this path hcells hch
  have hall : ∀ a ∈ path.map ofVec, InMap g a := by
    intro a ha
    obtain ⟨v, hv, rfl⟩ := List.mem_map.1 ha
    exact (hcells v hv).2
  exact ⟨hall, hch'⟩

/-- Every path handed out by the search over the 3-DOF model, also the best known one of a search that failed or was stopped, is safe: all its cells are in the map, every move has a finite
cost, and every pose of the path sent to the controller lies in a free cell, for every schedule of the search threads
and every estimate. -/
theorem plan_safe (g : Geo) (hs : Sane g) (hev : Even g.angle) (hmap : 0 < g.width ∧ 0 < g.height) (c : Wt) (u : Bool)
    (cm hy : Cell → Option Int) (hcm : Covers g cm) (hhy : Covers g hy) (lr : Int) (ss : List Cell) (junk : WithTop ℝ)
    (estim startEstim : List Int → WithTop ℝ) (starts : List (List Int × WithTop ℝ)) (goal : List Int)
    (leave : WithTop ℝ → WithTop ℝ → Bool) (tasks limit : Nat)
    (hg : goal.length = 3) (hst : ∀ s ∈ starts, 0 ≤ s.2 ∧ Verif.Astar.Vec.Spec.InMap [g.width, g.height, g.angle] s.1)
    {rb b : Bool} {why} {path : List (List Int)}
    (h : Search (planProb g c u cm hy lr ss junk estim startEstim starts goal leave tasks limit) rb why (b, path)) :
    (∀ a ∈ path.map ofVec, InMap g a) ∧
    (path.map ofVec).IsChain (fun a b => ∃ v, cost g c u cm hy a b = .val v) ∧
    (2 ≤ path.length → ∀ q ∈ interpolatePath g (path.map ofVec), Safe g cm q) := by
  obtain ⟨hall, hch0⟩ := plan_moves g hs hev hmap c u cm hy hcm hhy lr ss junk estim startEstim starts goal leave tasks limit hg hst h
  have hch' : (path.map ofVec).IsChain (fun a b => ∃ v, cost g c u cm hy a b = .val v) := hch0.imp (fun _ _ h => h.2)
  refine ⟨hall, hch', ?_⟩
  intro h2
  apply interpolate_safe g hs c u cm hy _ _ _ hch'
  · intro a ha
    exact (hall a ha).2.2.2.2
  · intro a ha
    have := congrArg List.length ha
    simp at this
    omega

/-! ### A search that finds a path: the hypotheses above are met -/

/-- A corridor of two cells with two headings. -/
noncomputable def g1 : Geo := ⟨2, 1, 2, 1, π, 1, 1 / 2, 1 / 10⟩

theorem g1_sane : Sane g1 := by
  refine ⟨by norm_num [g1], ?_, by norm_num [g1], by norm_num [g1], by norm_num [g1], by norm_num [g1]⟩
  simp only [g1]; push_cast; ring

def empty1 : Cell → Option Int := fun p =>
  if 0 ≤ p.x ∧ p.x < 2 ∧ 0 ≤ p.y ∧ p.y < 1 ∧ 0 ≤ p.yaw ∧ p.yaw < 2 then some 0 else none

theorem empty1_free : ∀ p, InMap g1 p → Free empty1 p := by
  intro p h
  refine ⟨0, ?_, by omega⟩
  unfold InMap g1 at h
  unfold empty1
  simp only at h
  rw [if_pos h]

theorem empty1_covers : Covers g1 empty1 := fun p hp => by obtain ⟨c, h, -⟩ := empty1_free p hp; exact ⟨c, h⟩

noncomputable def corridor : VProb (WithTop ℝ) :=
  planProb g1 w0 true empty1 empty1 0 [] 0 (fun _ => 0) (fun _ => 0) [([0, 0, 0], 0)] [1, 0, 0] (fun _ _ => false) 1 0

theorem corridor_ahead : ∃ v : ℝ, 0 ≤ v ∧ cost g1 w0 true empty1 empty1 ⟨0, 0, 0⟩ ⟨1, 0, 0⟩ = .val v := by
  obtain ⟨v, hv⟩ := free_move_accepted g1 g1_sane ⟨1, by norm_num [g1]⟩ w0 true empty1 empty1 empty1_free empty1_covers
    ⟨0, 0, 0⟩ ⟨1, 0, 0⟩ ⟨1, 0, 0⟩ (by norm_num [InMap, g1]) (by norm_num [InMap, g1]) (by
      rw [primitive_iff g1 g1_sane w0 0 _ ⟨by omega, by norm_num [g1]⟩]
      have hx : ahead g1 0 ⟨1, 0, 0⟩ = 1 := by simp [ahead, g1]
      have hy : aside g1 0 ⟨1, 0, 0⟩ = 0 := by simp [aside, g1]
      refine ⟨by norm_num [g1], by norm_num, by norm_num [g1], Or.inr ⟨by norm_num, Or.inl ⟨rfl, ?_, ?_⟩⟩⟩
      · rw [hx]; norm_num [g1]
      · intro h; exact absurd hy h)
    ⟨by norm_num, by norm_num, ⟨0, by norm_num⟩, by norm_num, by norm_num [g1]⟩ (fun _ h => absurd rfl h)
  have hnn : ∀ p x, empty1 p = some x → 0 ≤ x := by
    intro p x h
    unfold empty1 at h
    split at h
    · cases h; exact le_refl _
    · cases h
  exact ⟨v, (cost_lower_bound g1 g1_sane w0 (by constructor <;> norm_num [w0]) true empty1 empty1 hnn hnn _ _ v hv).2, hv⟩

theorem corridor_stay : ∃ v : ℝ, 0 ≤ v ∧ cost g1 w0 true empty1 empty1 ⟨0, 0, 0⟩ ⟨0, 0, 0⟩ = .val v := by
  have hc : cycS 0 g1.angle = 0 := by decide +kernel
  have he : empty1 ⟨0, 0, 0⟩ = some 0 := by simp [empty1]
  have hnn : ∀ p x, empty1 p = some x → 0 ≤ x := by
    intro p x h
    unfold empty1 at h
    split at h
    · cases h; exact le_refl _
    · cases h
  have hv : ∃ v, cost g1 w0 true empty1 empty1 ⟨0, 0, 0⟩ ⟨0, 0, 0⟩ = .val v := by
    unfold cost
    simp [he, hc, turnScan]
  obtain ⟨v, hv⟩ := hv
  exact ⟨v, (cost_lower_bound g1 g1_sane w0 (by constructor <;> norm_num [w0]) true empty1 empty1 hnn hnn _ _ v hv).2, hv⟩

theorem corridor_nexts : (Verif.Astar.Vec.toProb corridor).nexts [0, 0, 0] = [[0, 0, 0], [1, 0, 0]] := by
  have hg : corridor.grids [0, 0, 0] = [[-1, 0, 0], [0, -1, 0], [0, 0, 0], [0, 1, 0], [1, 0, 0]] := by
    have : searchGrids g1 w0 0 [] (ofVec [0, 0, 0]) = searchListRough g1 := by simp [searchGrids]
    simp only [corridor, planProb, this]
    decide +kernel
  simp only [Verif.Astar.Vec.toProb, hg]
  decide +kernel

theorem corridor_found : ∃ path, Search corridor false .found (true, path) := by
  obtain ⟨v, hv0, hv⟩ := corridor_ahead
  obtain ⟨v', hv0', hv'⟩ := corridor_stay
  have hgoal : (Verif.Astar.Vec.toProb corridor).goal = [1, 0, 0] := by decide +kernel
  have hstarts : (Verif.Astar.Vec.toProb corridor).starts = [([0, 0, 0], 0)] := by
    have : Verif.Astar.Vec.norm corridor [0, 0, 0] = [0, 0, 0] := by decide +kernel
    change [(Verif.Astar.Vec.norm corridor [0, 0, 0], (0 : WithTop ℝ))] = _
    rw [this]
  have hinit : Verif.Astar.Reach (Verif.Astar.Vec.toProb corridor) (Verif.Astar.init (Verif.Astar.Vec.toProb corridor) [0, 0, 0]) :=
    .init _ (by rw [hstarts]; simp)
  have hopen : (Verif.Astar.init (Verif.Astar.Vec.toProb corridor) [0, 0, 0]).open_ = [⟨0 + 0, 0, [0, 0, 0]⟩] := by
    simp only [Verif.Astar.init, hstarts, List.map_cons, List.map_nil]
    rfl
  have hg : (Verif.Astar.init (Verif.Astar.Vec.toProb corridor) [0, 0, 0]).g [0, 0, 0] = 0 := by
    simp only [Verif.Astar.init, hstarts, List.foldl_cons, List.foldl_nil, Verif.Astar.setF, if_true]
  have hg1 : (Verif.Astar.init (Verif.Astar.Vec.toProb corridor) [0, 0, 0]).g [1, 0, 0] = ⊤ := by
    simp only [Verif.Astar.init, hstarts, List.foldl_cons, List.foldl_nil, Verif.Astar.setF]
    rw [if_neg (by decide)]
    rfl
  generalize hs0 : Verif.Astar.init (Verif.Astar.Vec.toProb corridor) [0, 0, 0] = s0 at *
  have hcol : Verif.Astar.Collect (Verif.Astar.Vec.toProb corridor) (Verif.Astar.Vec.toProb corridor).tasks s0.open_
      [⟨0 + 0, 0, [0, 0, 0]⟩] [] none := by
    rw [hopen]
    refine .take (rest := []) (List.Perm.refl _) (by simp) ?_ (.full _)
    rintro (h | h)
    · rw [hgoal] at h
      exact absurd h (by decide)
    · exact absurd h (by simp [Verif.Astar.Vec.toProb, corridor, planProb])
  have hexp : Verif.Astar.expand (Verif.Astar.Vec.toProb corridor) s0.g ⟨0 + 0, 0, [0, 0, 0]⟩ =
      [.upd ⟨[0, 0, 0], [1, 0, 0], 0 + (v : WithTop ℝ) + 0, 0 + (v : WithTop ℝ)⟩] := by
    have hc1 : (Verif.Astar.Vec.toProb corridor).cost [0, 0, 0] [1, 0, 0] = (v : WithTop ℝ) := by
      change encode 0 (cost g1 w0 true empty1 empty1 ⟨0, 0, 0⟩ ⟨1, 0, 0⟩) = _
      rw [hv]; rfl
    have hc0 : (Verif.Astar.Vec.toProb corridor).cost [0, 0, 0] [0, 0, 0] = (v' : WithTop ℝ) := by
      change encode 0 (cost g1 w0 true empty1 empty1 ⟨0, 0, 0⟩ ⟨0, 0, 0⟩) = _
      rw [hv']; rfl
    have hest : ∀ x, (Verif.Astar.Vec.toProb corridor).estim x = (0 : WithTop ℝ) := fun _ => rfl
    have hr : ∀ w : ℝ, 0 ≤ w → ¬ Verif.Astar.rejected (w : WithTop ℝ) := by
      rintro w hw (h | h)
      · have : (w : WithTop ℝ) < ((0 : ℝ) : WithTop ℝ) := h
        rw [WithTop.coe_lt_coe] at this
        linarith
      · exact absurd (show (w : WithTop ℝ) = ⊤ from h) (WithTop.coe_ne_top)
    have hr0 : ¬ Verif.Astar.rejected (0 : WithTop ℝ) := hr 0 (le_refl _)
    have e0 : Verif.Astar.expandOne (Verif.Astar.Vec.toProb corridor) s0.g [0, 0, 0] 0 [0, 0, 0] = none := by
      unfold Verif.Astar.expandOne
      rw [hc0, hest, hg, if_neg (lt_irrefl _), if_neg hr0, if_neg (hr v' hv0'), if_neg]
      have : (0 : WithTop ℝ) ≤ ((v' : ℝ) : WithTop ℝ) := by
        change ((0 : ℝ) : WithTop ℝ) ≤ ((v' : ℝ) : WithTop ℝ)
        exact WithTop.coe_le_coe.2 hv0'
      exact not_lt.2 (CostType.le_add _ _ this)
    have e1 : Verif.Astar.expandOne (Verif.Astar.Vec.toProb corridor) s0.g [0, 0, 0] 0 [1, 0, 0] =
        some ⟨[0, 0, 0], [1, 0, 0], 0 + (v : WithTop ℝ) + 0, 0 + (v : WithTop ℝ)⟩ := by
      unfold Verif.Astar.expandOne
      rw [hc1, hest, hg, hg1, if_neg (by exact not_top_lt), if_neg hr0, if_neg (hr v hv0), if_pos]
      change (0 : WithTop ℝ) + (v : WithTop ℝ) < ⊤
      rw [zero_add]
      exact WithTop.coe_lt_top v
    unfold Verif.Astar.expand
    simp only
    rw [if_neg (by rw [hg]; exact lt_irrefl _), corridor_nexts]
    simp only [List.filterMap_cons, List.filterMap_nil, e0, e1]
    rfl
  have hround := Verif.Astar.Round.mk (P := Verif.Astar.Vec.toProb corridor) (s := s0) (b := s0.better) hcol (by simp)
    (List.Perm.refl _) (Or.inl rfl) (by
      simp only [List.flatMap_cons, List.flatMap_nil, List.append_nil, hexp]
      refine .cons (.push _ _ ?_ (Or.inl rfl)) (.nil _)
      simp only
      rw [hg1]
      change (0 : WithTop ℝ) + (v : WithTop ℝ) < ⊤
      rw [zero_add]
      exact WithTop.coe_lt_top v)
  have hr1 := Verif.Astar.Reach.round hinit hround
  have hfin := Verif.Astar.Final.found hr1 (cs := []) (o' := []) (e := ⟨0 + (v : WithTop ℝ) + 0, 0 + (v : WithTop ℝ), [1, 0, 0]⟩) (by
    refine .hit 0 _ _ [] (List.Perm.refl _) (by simp) (Or.inl ?_)
    rw [hgoal])
  have hsearch := Search.run (P := corridor) (returnBest := false) (by simp [corridor, planProb])
    (by simp [corridor, planProb]) hfin
  have key : ∀ r, Search corridor false .found r → ∃ path, Search corridor false .found (true, path) := by
    rintro ⟨b, path⟩ h
    have ht := Verif.Astar.found_returns_true (P := corridor) (by
      intro x hx
      simp only [corridor, planProb, List.mem_singleton] at hx
      rw [hx]) h
    simp only at ht
    subst ht
    exact ⟨path, h⟩
  exact key _ hsearch

/-- The path of the corridor search is safe. -/
example : ∃ path : List (List Int), Search corridor false .found (true, path) ∧
    (path.map ofVec).IsChain (fun a b => ∃ v, cost g1 w0 true empty1 empty1 a b = .val v) := by
  obtain ⟨path, h⟩ := corridor_found
  refine ⟨path, h, (plan_safe g1 g1_sane ⟨1, by norm_num [g1]⟩ (by norm_num [g1]) w0 true empty1 empty1 empty1_covers
    empty1_covers 0 [] 0 _ _ _ _ _ _ _ rfl ?_ h).2.1⟩
  intro s hs
  simp only [List.mem_singleton] at hs
  rw [hs]
  refine ⟨le_refl _, ?_⟩
  exact List.Forall₂.cons (by norm_num [g1]) (List.Forall₂.cons (by norm_num [g1]) (List.Forall₂.cons (by norm_num [g1]) .nil))

end Verif.Model3D
