import Verif.Joints2D.Lemmas
import Mathlib.Algebra.Order.Monoid.WithTop
/-! # The search for a way of the two joints -/
set_option linter.unusedVariables false
set_option linter.unusedSectionVars false
namespace Verif.Joints2D
open Verif.Astar (CostType)
open Verif.Astar.Vec (VProb Search)
open Verif.CyclicVec.Spec
variable {K : Type} [Field K] [LinearOrder K] [IsStrictOrderedRing K] [FloorRing K]

/-- Costs of the search: numbers with a largest value (`numeric_limits<float>::max()`). -/
scoped instance costType : CostType (WithTop K) :=
  { (inferInstance : LinearOrder (WithTop K)), (inferInstance : Add (WithTop K)), (inferInstance : Zero (WithTop K)) with
    top := ⊤
    neg1 := ((-1 : K) : WithTop K)
    neg1_lt_zero := by
      change ((-1 : K) : WithTop K) < ((0 : K) : WithTop K)
      rw [WithTop.coe_lt_coe]; norm_num
    le_add := fun c w h => by
      change c ≤ c + w
      exact le_add_of_nonneg_right h }

/-- The vector of a cell and back. -/
def toVec (p : Int × Int) : List Int := [p.1, p.2]
def ofVec : List Int → Int × Int
  | [a, b] => (a, b)
  | _ => (0, 0)

/-- `as_.search(starts, e, path_grid, model_, …, 0, …)`, planner_2dof_serial_joints.cpp 569–570, 587–590, 503 (`as_.reset`): the search over
the cyclic grid of `2 * resolution` cells per joint, with the moves and costs of the model; it also leaves at a cell whose estimate is
negative.  The estimate of the start is cast to `int` (grid_astar.h 219). -/
def problem (p : Par K) (m : Int × Int → Int) (s e : Int × Int) (tasks limit : Nat) : VProb (WithTop K) where
  nonc := 0
  size := [p.res * 2, p.res * 2]
  grids := fun _ => (moves p).map toVec
  estim := fun v => ((estim p (ofVec v) e : K) : WithTop K)
  cost := fun a b => ((cost p m (ofVec a) (ofVec b) : K) : WithTop K)
  startEstim := fun v => (((⌊estim p (ofVec v) e⌋ : Int) : K) : WithTop K)
  starts := [(toVec s, 0)]
  goal := toVec e
  leave := fun pr raw => decide (pr < raw)
  tasks := tasks
  limit := limit

theorem estim_nonneg (p : Par K) (a b : Int × Int) : 0 ≤ estim p a b := euclid_nonneg _ _

theorem mem_ring (r : Int) (d : Int × Int) : d ∈ ring r ↔ |d.1| ≤ r ∧ |d.2| ≤ r := by
  unfold ring
  simp only [List.mem_flatMap, List.mem_map, Model3D.mem_upTo, abs_le]
  constructor
  · rintro ⟨a, ha, b, hb, rfl⟩; exact ⟨ha, hb⟩
  · rintro ⟨h1, h2⟩; exact ⟨d.1, h1, d.2, h2, rfl⟩

theorem problem_wf (p : Par K) (hp : Sane p) (m : Int × Int → Int) (s e : Int × Int) (t l : Nat) :
    Verif.Astar.Vec.Spec.WellFormed (problem p m s e t l) := by
  have := hp.res
  refine ⟨?_, by simp [problem], rfl, ?_, ?_⟩
  · intro x hx
    simp only [problem, List.mem_cons, List.not_mem_nil, or_false, or_self] at hx
    omega
  · intro x hx
    simp only [problem, List.mem_cons, List.not_mem_nil, or_false] at hx
    rw [hx]; rfl
  · intro q d hd
    simp only [problem, List.mem_map] at hd
    obtain ⟨x, -, rfl⟩ := hd
    rfl

theorem inMap_vec (p : Par K) (v : List Int) (h : Verif.Astar.Vec.Spec.InMap [p.res * 2, p.res * 2] v) :
    v = toVec (ofVec v) ∧ inMap p (ofVec v) = true := by
  cases h with
  | cons h1 h2 =>
    cases h2 with
    | cons h2 h3 =>
      cases h3
      exact ⟨rfl, by unfold inMap; exact decide_eq_true ⟨h1.1, h1.2, h2.1, h2.2⟩⟩

theorem inMap_iff (p : Par K) (c : Int × Int) : inMap p c = true ↔ (0 ≤ c.1 ∧ c.1 < p.res * 2) ∧ (0 ≤ c.2 ∧ c.2 < p.res * 2) := by
  unfold inMap
  rw [decide_eq_true_iff]
  tauto

theorem vec_inMap (p : Par K) (c : Int × Int) (h : inMap p c = true) : Verif.Astar.Vec.Spec.InMap [p.res * 2, p.res * 2] (toVec c) := by
  obtain ⟨h1, h2⟩ := (inMap_iff p c).mp h
  exact .cons h1 (.cons h2 .nil)

/-- Normal form of a pair of cells. -/
theorem normal_iff (p : Par K) (m : Int × Int → Int) (s e : Int × Int) (t l : Nat) (x y : Int × Int) :
    Verif.Astar.Vec.Spec.IsNormalOf (problem p m s e t l) (toVec x) (toVec y) ↔ inMap p x = true ∧ Same p x y := by
  rw [inMap_iff]
  constructor
  · rintro ⟨-, h⟩
    have h0 := (h 0 (by simp [toVec]) (by simp [problem]) (by simp [toVec])).2 (by simp [problem])
    have h1 := (h 1 (by simp [toVec]) (by simp [problem]) (by simp [toVec])).2 (by simp [problem])
    exact ⟨⟨h0.1, h1.1⟩, h0.2, h1.2⟩
  · rintro ⟨⟨h0, h1⟩, s0, s1⟩
    refine ⟨rfl, ?_⟩
    intro i hi hr hw
    refine ⟨fun hn => absurd hn (by simp [problem]), fun _ => ?_⟩
    have : i = 0 ∨ i = 1 := by simp [toVec] at hi; omega
    rcases this with rfl | rfl
    · exact ⟨h0, s0⟩
    · exact ⟨h1, s1⟩

theorem same_inMap (p : Par K) (hp : 0 < p.res) (x y : Int × Int) (hx : inMap p x = true) (hy : inMap p y = true) (h : Same p x y) : x = y := by
  obtain ⟨⟨a1, a2⟩, a3, a4⟩ := (inMap_iff p x).mp hx
  obtain ⟨⟨b1, b2⟩, b3, b4⟩ := (inMap_iff p y).mp hy
  obtain ⟨⟨k, hk⟩, j, hj⟩ := h
  have u : ∀ a b k : Int, 0 ≤ a → a < p.res * 2 → 0 ≤ b → b < p.res * 2 → a = b + k * (p.res * 2) → a = b := by
    intro a b k h1 h2 h3 h4 h5
    have c1 : k < 1 := by
      by_contra hc
      have := mul_le_mul_of_nonneg_right (not_lt.mp hc) (by omega : 0 ≤ p.res * 2)
      linarith
    have c2 : -1 < k := by
      by_contra hc
      have := mul_le_mul_of_nonneg_right (not_lt.mp hc) (by omega : 0 ≤ p.res * 2)
      linarith
    have : k = 0 := by omega
    rw [h5, this]; ring
  exact Prod.ext (u _ _ k a1 a2 b1 b2 hk) (u _ _ j a3 a4 b3 b4 hj)

theorem step_iff (p : Par K) (hp : Sane p) (m : Int × Int → Int) (hm : ∀ c, 0 ≤ m c) (s e : Int × Int) (t l : Nat) (a b : Int × Int)
    (ha : inMap p a = true) :
    Verif.Astar.Vec.Spec.Step (problem p m s e t l) (toVec a) (toVec b) ↔ Legal p m a b := by
  have hd : ∀ d : Int × Int, |d.1| ≤ p.range → |d.2| ≤ p.range → Displaced p a d b → turn p a b = d := fun d h1 h2 h3 =>
    turn_displaced p hp a a d b ⟨⟨0, by ring⟩, ⟨0, by ring⟩⟩ ⟨h1, h2⟩ h3
  constructor
  · rintro ⟨⟨v, hv, hn⟩, -, -, hacc⟩
    simp only [problem, List.mem_map] at hv
    obtain ⟨d, hd', rfl⟩ := hv
    obtain ⟨r1, r2⟩ := (mem_ring _ _).mp hd'
    have hn := (normal_iff p m s e t l b (a.1 + d.1, a.2 + d.2)).mp hn
    have h0 : (0 : K) ≤ cost p m a b := by
      have := hacc.1
      simp only [problem] at this
      exact WithTop.coe_le_coe.mp this
    obtain ⟨hb, hcl⟩ := cost_clear p m a b h0
    rw [hd d r1 r2 hn.2] at hcl
    exact ⟨hn.1, d, r1, r2, hn.2, hcl⟩
  · rintro ⟨hb, d, r1, r2, hdis, hcl⟩
    refine ⟨⟨toVec d, ?_, ?_⟩, vec_inMap p b hb, ?_, ?_⟩
    · exact List.mem_map.mpr ⟨d, (mem_ring _ _).mpr ⟨r1, r2⟩, rfl⟩
    · exact (normal_iff p m s e t l b (a.1 + d.1, a.2 + d.2)).mpr ⟨hb, hdis⟩
    · exact ⟨WithTop.coe_le_coe.mpr (estim_nonneg p b e), WithTop.coe_ne_top⟩
    · refine ⟨WithTop.coe_le_coe.mpr ?_, WithTop.coe_ne_top⟩
      rw [← hd d r1 r2 hdis] at hcl
      exact (euclid_nonneg p _).trans (cost_ge p hp m hm a b hb hcl)

theorem search_good' (p : Par K) (hp : Sane p) (m : Int × Int → Int) (hm : ∀ c, 0 ≤ m c) (s e : Int × Int) (hs : inMap p s = true)
    (he : inMap p e = true) (t l : Nat) {rb : Bool} {why} {path : List (List Int)} (h : Search (problem p m s e t l) rb why (true, path)) :
    GoodSearch p m s e (path.map ofVec) := by
  obtain ⟨hne, ⟨s', hs', hhead⟩, hlast, hch, -, -, hin0⟩ := Verif.Astar.search_path_legal (problem_wf p hp m s e t l) (by
    intro x hx
    simp only [problem, List.mem_cons, List.not_mem_nil, or_false] at hx
    rw [hx]) h
  simp only [problem, List.mem_cons, List.not_mem_nil, or_false] at hs'
  subst hs'
  have hst : ∀ x, Verif.Astar.Vec.Spec.IsNormalOf (problem p m s e t l) x (toVec s) → x = toVec s := by
    intro x hx
    match x, hx.1 with
    | [a, b], _ =>
      have := (normal_iff p m s e t l (a, b) s).mp hx
      exact congrArg toVec (same_inMap p hp.res (a, b) s this.1 hs this.2)
  have hin := hin0 (by
    intro y hy x hx
    simp only [problem, List.mem_cons, List.not_mem_nil, or_false] at hy
    subst hy
    rw [hst x hx]
    exact vec_inMap p s hs)
  have hcells : ∀ v ∈ path, v = toVec (ofVec v) ∧ inMap p (ofVec v) = true := fun v hv => inMap_vec p v (hin v hv)
  refine ⟨?_, ?_, ?_⟩
  · rw [List.head?_map, List.head?_eq_some_head hne, hst _ hhead]; rfl
  · rw [List.getLast?_map, List.getLast?_eq_some_getLast hne]
    have hl : Verif.Astar.Vec.Spec.IsNormalOf (problem p m s e t l) (path.getLast hne) (toVec e) := by
      rcases hlast with hlast | ⟨pr, raw, hl, hc⟩
      · exact hlast
      · exfalso
        simp only [problem, decide_eq_true_eq] at hl
        refine absurd hl (not_lt.mpr ?_)
        have h0 : (0 : WithTop K) ≤ ((estim p (ofVec (path.getLast hne)) e : K) : WithTop K) := WithTop.coe_le_coe.mpr (estim_nonneg p _ _)
        rcases hc with rfl | ⟨x, hx, -, -, rfl⟩
        · exact le_add_of_nonneg_right h0
        · exact le_add_of_nonneg_left (WithTop.coe_le_coe.mpr (Int.cast_nonneg (Int.floor_nonneg.2 (estim_nonneg p _ _))))
    obtain ⟨hv, hmv⟩ := hcells _ (List.getLast_mem hne)
    rw [hv] at hl
    have := (normal_iff p m s e t l _ e).mp hl
    rw [Option.map_some, same_inMap p hp.res _ e this.1 he this.2]
  · clear hlast hhead hin hin0 hne h
    induction path with
    | nil => exact .nil
    | cons a path ih =>
      cases path with
      | nil => exact .singleton _
      | cons b path =>
        rw [List.isChain_cons_cons] at hch
        have ih := ih hch.2 (fun v hv => hcells v (List.mem_cons_of_mem _ hv))
        simp only [List.map_cons] at ih ⊢
        rw [List.isChain_cons_cons]
        refine ⟨?_, ih⟩
        obtain ⟨ha, hma⟩ := hcells a List.mem_cons_self
        obtain ⟨hb, hmb⟩ := hcells b (List.mem_cons_of_mem _ List.mem_cons_self)
        have := hch.1
        rw [ha, hb] at this
        exact (step_iff p hp m hm s e t l _ _ hma).mp this

theorem search_exhausted' (p : Par K) (hp : Sane p) (m : Int × Int → Int) (hm : ∀ c, 0 ≤ m c) (s e : Int × Int) (hs : inMap p s = true)
    (he : inMap p e = true) (t : Nat) (ht : 0 < t) {rb : Bool} {r : Bool × List (List Int)}
    (h : Search (problem p m s e t 0) rb .exhausted r) : ∀ cs, ¬ GoodSearch p m s e cs := by
  rintro cs ⟨h1, h2, h3⟩
  obtain ⟨-, hno⟩ := Verif.Astar.exhausted_unreachable (problem_wf p hp m s e t 0) ht rfl (by
      intro x hx
      simp only [problem, List.mem_cons, List.not_mem_nil, or_false] at hx
      rw [hx]
      exact ⟨le_refl _, WithTop.coe_lt_top (0 : K)⟩) le_top (by
      intro q c x _ hc _
      exact WithTop.add_lt_top.mpr ⟨hc, WithTop.coe_lt_top _⟩) h
  refine hno (toVec e) ((normal_iff p m s e t 0 e e).mpr ⟨he, ⟨0, by ring⟩, ⟨0, by ring⟩⟩) ?_
  have key : ∀ (cs : List (Int × Int)) (a : Int × Int), inMap p a = true → Verif.Astar.Vec.Spec.Reachable (problem p m s e t 0) (toVec a) →
      cs.head? = some a → cs.getLast? = some e → cs.IsChain (Legal p m) → Verif.Astar.Vec.Spec.Reachable (problem p m s e t 0) (toVec e) := by
    intro cs
    induction cs with
    | nil => intro a _ _ h; cases h
    | cons x cs ih =>
      intro a ha hr h1 h2 h3
      cases h1
      cases cs with
      | nil => cases h2; exact hr
      | cons y cs =>
        rw [List.isChain_cons_cons] at h3
        exact ih y h3.1.1 (.move hr ((step_iff p hp m hm s e t 0 x y ha).mpr h3.1)) rfl (by rwa [List.getLast?_cons_cons] at h2) h3.2
  exact key cs s hs (.start (s := (toVec s, 0)) (List.mem_singleton.mpr rfl)
    ((normal_iff p m s e t 0 s s).mpr ⟨hs, ⟨0, by ring⟩, ⟨0, by ring⟩⟩)) h1 h2 h3

end Verif.Joints2D
