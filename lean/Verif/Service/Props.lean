import Verif.Service.Cost
import Verif.Model3D.Ends
/-! # The answers of the `make_plan` service (C111) -/
set_option linter.unusedVariables false
namespace Verif.Service
open Verif.GridMetric (Cell Pose metric2GridC appendPath grid2MetricF)
open Verif.CSpace (lround lround_near)
open Verif.Model3D
open Verif.Model3D.Spec (Sane Nonneg poseOf placed)
open Verif.Astar.Vec (VProb Search Why)
open Verif.SearchPos (Nearest Exists Eligible Inside relocate Status)

section helpers

/-- The cell taken for a pose by the node. -/
theorem relocate_takes (n : Node) (hr : Runs n) (tol : ℝ) (p : Pose ℝ) (c : Cell) (hc : metric2GridC n.info p = some c) :
    let r := relocate n.map n.cm n.rough (euclidCost n.geo n.wt) c (lround (tol / n.geo.res)) n.tolAngle true
    ((r.1 = .ok ∨ r.1 = .relocated) ∧ Takes n tol p r.2) ∨
    ((r.1 = .outOfMap ∨ r.1 = .inRock) ∧ ¬ ∃ c, Takes n tol p c) := by
  intro r
  have hA := hr.geo.angle_pos
  have hares : 0 < n.geo.ares := by
    rw [hr.geo.ares]
    have := Real.pi_pos
    have : (0 : ℝ) < n.geo.angle := by exact_mod_cast hA
    positivity
  obtain ⟨c', hc', hx, hy, -⟩ := GridMetric.wrapper_same_cell n.info hA p
  rw [hc] at hc'
  cases hc'
  have hcell : ∀ i j, InCell n p.x p.y i j ↔ c.x = i ∧ c.y = j := by
    intro i j
    rw [hx, hy]
    exact ((GridMetric.cell_of_point n.info hr.geo.res_pos hares p i j).1).symm
  have hin := (hcell c.x c.y).2 ⟨rfl, rfl⟩
  have hr' := SearchPos.relocate_cases n.map hA n.cm n.rough (euclidCost n.geo n.wt) c (lround (tol / n.geo.res)) n.tolAngle true
  simp only [if_true] at hr'
  change (match r with
    | (.outOfMap, c') => _ | (.ok, c') => _ | (.inRock, c') => _ | (.relocated, c') => _) at hr'
  generalize r = r at hr'
  rcases r with ⟨st, d⟩
  cases st with
  | ok =>
    obtain ⟨⟨h1, h2, -⟩, h3, h4⟩ := hr'
    exact Or.inl ⟨Or.inl rfl, c.x, c.y, hin, ⟨h1.1, h1.2, h2.1, h2.2⟩, Or.inl ⟨h3, h4⟩⟩
  | relocated =>
    obtain ⟨⟨h1, h2, -⟩, h3, h4⟩ := hr'
    exact Or.inl ⟨Or.inr rfl, c.x, c.y, hin, ⟨h1.1, h1.2, h2.1, h2.2⟩, Or.inr ⟨h3, h4⟩⟩
  | outOfMap =>
    obtain ⟨h1, h2⟩ := hr'
    refine Or.inr ⟨Or.inl rfl, ?_⟩
    rintro ⟨d', i, j, h3, h4, -⟩
    obtain ⟨rfl, rfl⟩ := (hcell i j).1 h3
    exact h1 ⟨⟨h4.1, h4.2.1⟩, ⟨h4.2.2.1, h4.2.2.2⟩, le_refl _, hA⟩
  | inRock =>
    obtain ⟨h1, h2, h3, h4, h5⟩ := hr'
    refine Or.inr ⟨Or.inr rfl, ?_⟩
    rintro ⟨d', i, j, h6, h7, h8⟩
    obtain ⟨rfl, rfl⟩ := (hcell i j).1 h6
    rcases h8 with ⟨h8, -⟩ | ⟨-, ⟨d, h8, -⟩ | ⟨-, d, h8, -⟩⟩
    · exact h8 h2
    · exact h4 ⟨d, d', h8⟩
    · by_cases ha : n.map.acceptable = 100
      · rw [ha] at h4
        exact h4 ⟨d, d', h8⟩
      · exact h5 ha ⟨d, d', h8⟩

theorem takes_within (n : Node) (hr : Runs n) (tol : ℝ) (p : Pose ℝ) (c : Cell) (h : Takes n tol p c) : Within n c := by
  have hA := hr.geo.angle_pos
  have hg := hr.geo.range_pos
  obtain ⟨i, j, -, h1, h2⟩ := h
  obtain ⟨a1, a2, a3, a4⟩ := h1
  rcases h2 with ⟨-, rfl⟩ | ⟨-, ⟨d, h2, -⟩ | ⟨-, d, h2, -⟩⟩
  · refine ⟨?_, ?_, ?_, ?_, le_refl _, hA⟩ <;> simp only <;> omega
  all_goals
    obtain ⟨-, -, hi, -⟩ := h2
    exact ⟨hi.2.2.1, hi.2.2.2.1, hi.2.2.2.2.2.2.1, hi.2.2.2.2.2.2.2.1, hi.2.2.2.2.2.2.2.2.1, hi.2.2.2.2.2.2.2.2.2⟩

/-- What the preparation decides. -/
theorem prepare_cases (n : Node) (hr : Runs n) (q : Request) :
    (prepare n q = .refused ∧ (n.hasMap = false ∨ q.startFrame ≠ n.frame ∨ q.goalFrame ≠ n.frame ∨
      (¬ ∃ c, Takes n q.tolerance q.start c) ∨ ¬ ∃ c, Takes n q.tolerance q.goal c)) ∨
    (∃ s e, prepare n q = .ready s e ∧ n.hasMap = true ∧ q.startFrame = n.frame ∧ q.goalFrame = n.frame ∧
      Takes n q.tolerance q.start s ∧ Takes n q.tolerance q.goal e) := by
  have hA := hr.geo.angle_pos
  by_cases h1 : n.hasMap = false
  · exact Or.inl ⟨by unfold prepare; rw [if_pos h1], Or.inl h1⟩
  by_cases h2 : q.startFrame ≠ n.frame ∨ q.goalFrame ≠ n.frame
  · refine Or.inl ⟨by unfold prepare; rw [if_neg h1, if_pos h2], ?_⟩
    rcases h2 with h2 | h2
    · exact Or.inr (Or.inl h2)
    · exact Or.inr (Or.inr (Or.inl h2))
  obtain ⟨s, hs, -⟩ := GridMetric.wrapper_same_cell n.info hA q.start
  obtain ⟨e, he, -⟩ := GridMetric.wrapper_same_cell n.info hA q.goal
  have hs' := relocate_takes n hr q.tolerance q.start s hs
  have he' := relocate_takes n hr q.tolerance q.goal e he
  have hp : prepare n q =
      (let range := lround (q.tolerance / n.geo.res)
       let rs := SearchPos.relocate n.map n.cm n.rough (euclidCost n.geo n.wt) s range n.tolAngle true
       let re := SearchPos.relocate n.map n.cm n.rough (euclidCost n.geo n.wt) e range n.tolAngle true
       if rs.1 = .outOfMap ∨ rs.1 = .inRock then .refused
       else if re.1 = .outOfMap ∨ re.1 = .inRock then .refused
       else .ready rs.2 re.2) := by
    unfold prepare
    rw [if_neg h1, if_neg h2, hs, he]
  simp only at hp hs' he'
  rw [hp]
  generalize SearchPos.relocate n.map n.cm n.rough (euclidCost n.geo n.wt) s _ n.tolAngle true = rs at hs' ⊢
  generalize SearchPos.relocate n.map n.cm n.rough (euclidCost n.geo n.wt) e _ n.tolAngle true = re at he' ⊢
  rcases hs' with ⟨hs1, hs2⟩ | ⟨hs1, hs2⟩
  · have hs3 : ¬ (rs.1 = .outOfMap ∨ rs.1 = .inRock) := by rcases hs1 with h | h <;> rw [h] <;> decide
    rw [if_neg hs3]
    rcases he' with ⟨he1, he2⟩ | ⟨he1, he2⟩
    · have he3 : ¬ (re.1 = .outOfMap ∨ re.1 = .inRock) := by rcases he1 with h | h <;> rw [h] <;> decide
      rw [if_neg he3]
      push Not at h2
      exact Or.inr ⟨rs.2, re.2, rfl, by simpa using h1, h2.1, h2.2, hs2, he2⟩
    · rw [if_pos he1]
      exact Or.inl ⟨rfl, Or.inr (Or.inr (Or.inr (Or.inr he2)))⟩
  · rw [if_pos hs1]
    exact Or.inl ⟨rfl, Or.inr (Or.inr (Or.inr (Or.inl hs2)))⟩

/-- The pose, in cells, lies in the closed square of the cell. -/
def NearC (q : Pose ℝ) (i j : Int) : Prop := |q.x - i| ≤ 1 / 2 ∧ |q.y - j| ≤ 1 / 2

theorem leg_open (n : Node) (hr : Runs n) (a b : Cell) (h : Leg n a b) : Open n a.x a.y := by
  obtain ⟨h1, -, -, -, h5⟩ := h
  have hpos : 0 < samples n (b.x - a.x) (b.y - a.y) := by
    have hne : ¬ (b.x - a.x = 0 ∧ b.y - a.y = 0) := by omega
    rw [← totalStep_samples n hr.geo _ _ 0 hne]
    have := totalStep_pos n.geo hr.geo ⟨b.x - a.x, b.y - a.y, 0⟩ hne
    omega
  have h0 : lround (0 : ℝ) = 0 := by simpa using GridMetric.lround_int (K := ℝ) 0
  rcases h5 0 (by exact_mod_cast hpos) with h | h
  · simp only [Nat.cast_zero, zero_div, mul_zero, h0, add_zero] at h
    exact absurd h h1
  · simpa only [Nat.cast_zero, zero_div, mul_zero, h0, add_zero] using h

theorem leg_pose (n : Node) (hr : Runs n) (a b : Cell) (h : Leg n a b) (k : Nat)
    (hk : k < totalStep n.geo ⟨b.x - a.x, b.y - a.y, b.yaw⟩) :
    let q := placed a (sampleAt n.geo a.yaw ⟨b.x - a.x, b.y - a.y, b.yaw⟩ (ratioOf n.geo ⟨b.x - a.x, b.y - a.y, b.yaw⟩ k))
    q.yaw = a.yaw ∧ ((∃ i j, Open n i j ∧ NearC q i j) ∨ NearC q b.x b.y) := by
  obtain ⟨h1, -, hy, -, h5⟩ := h
  have hne : ¬ (b.x - a.x = 0 ∧ b.y - a.y = 0) := by omega
  have ht := totalStep_samples n hr.geo (b.x - a.x) (b.y - a.y) b.yaw hne
  have ht' : (totalStep n.geo ⟨b.x - a.x, b.y - a.y, b.yaw⟩ : ℝ) = (samples n (b.x - a.x) (b.y - a.y) : ℝ) := by
    rw [← ht]; push_cast; rfl
  intro q
  have hq : q = ⟨(a.x : ℝ) + ((b.x - a.x : Int) : ℝ) * ((k : ℝ) / (samples n (b.x - a.x) (b.y - a.y) : ℝ)),
      (a.y : ℝ) + ((b.y - a.y : Int) : ℝ) * ((k : ℝ) / (samples n (b.x - a.x) (b.y - a.y) : ℝ)), a.yaw⟩ := by
    have hs := sample_straight n hr.geo (b.x - a.x) (b.y - a.y) a.yaw (ratioOf n.geo ⟨b.x - a.x, b.y - a.y, b.yaw⟩ k)
    simp only [q]
    rw [← hy] at hs ⊢
    rw [hs]
    unfold placed ratioOf
    rw [ht']
  rw [hq]
  refine ⟨rfl, ?_⟩
  have near : ∀ (a : Int) (v : ℝ), |(a : ℝ) + v - ((a + lround v : Int) : ℝ)| ≤ 1 / 2 := by
    intro a v
    have := lround_near v
    rw [show (a : ℝ) + v - ((a + lround v : Int) : ℝ) = -((lround v : ℝ) - v) by push_cast; ring, abs_neg]
    exact this
  rcases h5 k (by omega) with h | h
  · right
    constructor
    · have := near a.x (((b.x - a.x : Int) : ℝ) * ((k : ℝ) / (samples n (b.x - a.x) (b.y - a.y) : ℝ)))
      rwa [h.1] at this
    · have := near a.y (((b.y - a.y : Int) : ℝ) * ((k : ℝ) / (samples n (b.x - a.x) (b.y - a.y) : ℝ)))
      rwa [h.2] at this
  · left
    exact ⟨_, _, h, near _ _, near _ _⟩

theorem interp_poses (n : Node) (hr : Runs n) (e : Cell) : ∀ (cells : List Cell) (s : Cell), Leads n s e cells → (∀ c ∈ cells, Within n c) →
    ∀ q ∈ interpolatePath n.geo cells, q.yaw = s.yaw ∧ ((∃ i j, Open n i j ∧ NearC q i j) ∨ NearC q e.x e.y) := by
  intro cells
  have self : ∀ (c : Cell), NearC (poseOf c) c.x c.y := fun c => by constructor <;> simp [poseOf]
  induction cells with
  | nil => rintro s ⟨h, -⟩ -; cases h
  | cons a rest ih =>
    rintro s ⟨h1, h2, h3⟩ h4 q hq
    cases h1
    cases rest with
    | nil =>
      cases h2
      simp only [interpolatePath, List.mem_singleton] at hq
      rw [hq]
      exact ⟨rfl, Or.inr (self a)⟩
    | cons b rest =>
      rw [List.isChain_cons_cons] at h3
      have hl : Leads n b e (b :: rest) := ⟨rfl, by rwa [List.getLast?_cons_cons] at h2, h3.2⟩
      obtain ⟨mid, he, hmid⟩ := interpolate_cons n.geo hr.geo a b rest (h4 a List.mem_cons_self).2.2.2.2
      rw [he] at hq
      have hb : (∃ i j, Open n i j ∧ i = b.x ∧ j = b.y) ∨ (e.x = b.x ∧ e.y = b.y) := by
        cases rest with
        | nil =>
          have := hl.last
          cases this
          exact Or.inr ⟨rfl, rfl⟩
        | cons c rest =>
          have := h3.2
          rw [List.isChain_cons_cons] at this
          exact Or.inl ⟨_, _, leg_open n hr b c this.1, rfl, rfl⟩
      rcases List.mem_append.1 hq with hq | hq
      · rcases List.mem_cons.1 hq with rfl | hq
        · exact ⟨rfl, Or.inl ⟨_, _, leg_open n hr a b h3.1, self a⟩⟩
        · obtain ⟨-, -, k, hk, rfl⟩ := hmid q hq
          obtain ⟨g1, g2⟩ := leg_pose n hr a b h3.1 k hk
          refine ⟨g1, ?_⟩
          rcases g2 with g2 | g2
          · exact Or.inl g2
          · rcases hb with ⟨i, j, ho, rfl, rfl⟩ | ⟨h5, h6⟩
            · exact Or.inl ⟨_, _, ho, g2⟩
            · rw [h5, h6]; exact Or.inr g2
      · have := ih b hl (fun c hc => h4 c (List.mem_cons_of_mem _ hc)) q hq
        rw [h3.1.2.2.1] at this
        exact this

theorem interp_segments (n : Node) (hr : Runs n) (e : Cell) : ∀ (cells : List Cell) (s : Cell), Leads n s e cells → (∀ c ∈ cells, Within n c) →
    ∀ q ∈ interpolatePath n.geo cells, q = poseOf e ∨ ∃ a b : Cell, [a, b] <:+: cells ∧ ∃ t : ℝ, 0 ≤ t ∧ t < 1 ∧
      q.x = (1 - t) * a.x + t * b.x ∧ q.y = (1 - t) * a.y + t * b.y := by
  intro cells
  induction cells with
  | nil => rintro s ⟨h, -⟩ -; cases h
  | cons a rest ih =>
    rintro s ⟨h1, h2, h3⟩ h4 q hq
    cases h1
    cases rest with
    | nil =>
      cases h2
      simp only [interpolatePath, List.mem_singleton] at hq
      exact Or.inl hq
    | cons b rest =>
      rw [List.isChain_cons_cons] at h3
      have hl : Leads n b e (b :: rest) := ⟨rfl, by rwa [List.getLast?_cons_cons] at h2, h3.2⟩
      obtain ⟨mid, he, hmid⟩ := interpolate_cons n.geo hr.geo a b rest (h4 a List.mem_cons_self).2.2.2.2
      rw [he] at hq
      have hab : [a, b] <:+: a :: b :: rest := ⟨[], rest, rfl⟩
      rcases List.mem_append.1 hq with hq | hq
      · rcases List.mem_cons.1 hq with rfl | hq
        · exact Or.inr ⟨a, b, hab, 0, le_refl _, by norm_num, by simp [poseOf], by simp [poseOf]⟩
        · obtain ⟨-, -, k, hk, rfl⟩ := hmid q hq
          obtain ⟨t0, t1⟩ := ratio_range n.geo ⟨b.x - a.x, b.y - a.y, b.yaw⟩ k hk
          refine Or.inr ⟨a, b, hab, _, t0, t1, ?_⟩
          have hs := sample_straight n hr.geo (b.x - a.x) (b.y - a.y) a.yaw (ratioOf n.geo ⟨b.x - a.x, b.y - a.y, b.yaw⟩ k)
          rw [← h3.1.2.2.1] at hs ⊢
          rw [hs]
          unfold placed
          simp only
          push_cast
          constructor <;> ring
      · rcases ih b hl (fun c hc => h4 c (List.mem_cons_of_mem _ hc)) q hq with h | ⟨a', b', ⟨l1, l2, hi⟩, h⟩
        · exact Or.inl h
        · exact Or.inr ⟨a', b', ⟨a :: l1, l2, by rw [← hi]; rfl⟩, h⟩

theorem takes_open (n : Node) (hr : Runs n) (hb : RoughBelow n) (tol : ℝ) (p : Pose ℝ) (c : Cell) (h : Takes n tol p c) :
    Open n c.x c.y := by
  have hw := takes_within n hr tol p c h
  refine ⟨hw.1, hw.2.1, hw.2.2.1, hw.2.2.2.1, ?_⟩
  obtain ⟨i, j, -, -, h2⟩ := h
  rcases h2 with ⟨h2, rfl⟩ | ⟨-, ⟨d, h2, -⟩ | ⟨-, d, h2, -⟩⟩
  · have := hr.le100 ⟨i, j, 0⟩ ⟨hw.1, hw.2.1, hw.2.2.1, hw.2.2.2.1, rfl⟩
    simp only
    omega
  · have := h2.2.2.2
    have := hb c hw
    have := hr.acceptable
    have : n.map.acceptable = n.acceptable := rfl
    omega
  · have := h2.2.2.2
    have := hb c hw
    omega

theorem near_free (n : Node) (hr : Runs n) (q : Pose ℝ) (i j : Int) (h : NearC q i j) :
    |(grid2MetricF n.info q).x - (n.ox + (i + 1 / 2) * n.geo.res)| ≤ n.geo.res / 2 ∧
    |(grid2MetricF n.info q).y - (n.oy + (j + 1 / 2) * n.geo.res)| ≤ n.geo.res / 2 := by
  have hp := hr.geo.res_pos
  have key : ∀ (v o : ℝ) (i : Int), |v - i| ≤ 1 / 2 → |(v + 1 / 2) * n.geo.res + o - (o + (i + 1 / 2) * n.geo.res)| ≤ n.geo.res / 2 := by
    intro v o i h
    rw [show (v + 1 / 2) * n.geo.res + o - (o + (i + 1 / 2) * n.geo.res) = (v - i) * n.geo.res by ring, abs_mul, abs_of_pos hp]
    nlinarith
  exact ⟨key _ _ _ h.1, key _ _ _ h.2⟩

theorem search_ne (n : Node) (junk : WithTop ℝ) (s e : Cell) {why : Why} {path : List (List Int)}
    (h : Search (problem n junk s e) n.findBest why (true, path)) : s ≠ e := by
  rintro rfl
  generalize hr : (true, path) = r at h
  cases h with
  | noStart => cases hr
  | same => cases hr
  | run h1 h2 hf => exact h2 (toVec s, 0) (List.mem_singleton.mpr rfl) rfl

/-- A search that fails shows that there is no way. -/
theorem failed_no_way (n : Node) (hr : Runs n) (ht : 0 < n.tasks) (hl : n.limit = 0) (junk : WithTop ℝ) (s e : Cell)
    (hs0 : Within n s) (he0 : Within n e) {why : Why} {path : List (List Int)} (hw : why ≠ .aborted)
    (hs : Search (problem n junk s e) n.findBest why (false, path)) : ¬ Way n s e := by
  rintro ⟨hne, hway⟩
  cases why with
  | aborted => exact hw rfl
  | exhausted => exact exhausted_no_way n hr ht hl junk s e hs0 he0 hs hway
  | found =>
    have := Verif.Astar.found_returns_true (P := problem n junk s e) (by
      intro x hx
      simp only [problem, List.mem_cons, List.not_mem_nil, or_false] at hx
      rw [hx]) hs
    cases this
  | noStart =>
    generalize hw' : Why.noStart = w at hs
    generalize hr' : (false, path) = r at hs
    cases hs with
    | noStart h => cases h
    | same => cases hw'
    | @run s0 f h1 h2 hf => cases f <;> cases hw'
  | startIsGoal =>
    generalize hw' : Why.startIsGoal = w at hs
    generalize hr' : (false, path) = r at hs
    cases hs with
    | noStart h => cases h
    | same h =>
      obtain ⟨x, hx, hxe⟩ := h
      simp only [problem, List.mem_cons, List.not_mem_nil, or_false] at hx
      subst hx
      simp only [problem, toVec, List.cons.injEq, and_true] at hxe
      obtain ⟨x1, x2, x3⟩ := hxe
      rcases s with ⟨_, _, _⟩
      rcases e with ⟨_, _, _⟩
      simp only at x1 x2 x3
      subst x1; subst x2; subst x3
      exact hne rfl
    | @run s0 f h1 h2 hf => cases f <;> cases hw'


theorem starts_nonneg (n : Node) (junk : WithTop ℝ) (s e : Cell) : ∀ x ∈ (problem n junk s e).starts, (0 : WithTop ℝ) ≤ x.2 := by
  intro x hx
  simp only [problem, List.mem_cons, List.not_mem_nil, or_false] at hx
  rw [hx]

/-- A move to a neighbouring cell of the map is possible from every open cell. -/
theorem unit_leg (n : Node) (hr : Runs n) (a b : Cell) (ho : Open n a.x a.y) (hy : b.yaw = a.yaw)
    (hb : 0 ≤ b.x ∧ b.x < n.geo.width ∧ 0 ≤ b.y ∧ b.y < n.geo.height)
    (hd : (b.x - a.x) ^ 2 + (b.y - a.y) ^ 2 = 1) : Leg n a b := by
  have hR := hr.geo.range_pos
  have hcase : (b.y = a.y ∧ (b.x - a.x = 1 ∨ b.x - a.x = -1)) ∨ (b.x = a.x ∧ (b.y - a.y = 1 ∨ b.y - a.y = -1)) := by
    have h1 := sq_nonneg (b.x - a.x)
    have h2 := sq_nonneg (b.y - a.y)
    have b1 : |b.x - a.x| ≤ 1 := abs_le_of_sq_le_sq (by linarith) (by norm_num)
    have b2 : |b.y - a.y| ≤ 1 := abs_le_of_sq_le_sq (by linarith) (by norm_num)
    rw [abs_le] at b1 b2
    generalize hdx : b.x - a.x = dx at *
    generalize hdy : b.y - a.y = dy at *
    have c1 : dx = -1 ∨ dx = 0 ∨ dx = 1 := by omega
    have c2 : dy = -1 ∨ dy = 0 ∨ dy = 1 := by omega
    rcases c1 with rfl | rfl | rfl <;> rcases c2 with rfl | rfl | rfl <;> norm_num at hd <;> omega
  have h0 : lround (0 : ℝ) = 0 := by simpa using GridMetric.lround_int (K := ℝ) 0
  have part : ∀ (d : Int) (t : ℝ), (d = 1 ∨ d = -1) → 0 ≤ t → t < 1 → lround ((d : ℝ) * t) = 0 ∨ lround ((d : ℝ) * t) = d := by
    intro d t hd t0 t1
    have h := abs_le.1 (lround_near ((d : ℝ) * t))
    generalize lround ((d : ℝ) * t) = z at h
    rcases hd with rfl | rfl
    · push_cast at h
      have z1 : (z : ℝ) < 2 := by linarith [h.2]
      have z2 : (-1 : ℝ) < z := by linarith [h.1]
      have z1 : z < 2 := by exact_mod_cast z1
      have z2 : -1 < z := by exact_mod_cast z2
      omega
    · push_cast at h
      have z1 : (z : ℝ) < 1 := by linarith [h.2]
      have z2 : (-2 : ℝ) < z := by linarith [h.1]
      have z1 : z < 1 := by exact_mod_cast z1
      have z2 : -2 < z := by exact_mod_cast z2
      omega
  refine ⟨by omega, by nlinarith, hy, hb, ?_⟩
  intro k hk
  have t0 : (0 : ℝ) ≤ (k : ℝ) / (samples n (b.x - a.x) (b.y - a.y) : ℝ) := by
    have : (0 : ℝ) ≤ (samples n (b.x - a.x) (b.y - a.y) : ℝ) := by exact_mod_cast (by omega : 0 ≤ samples n (b.x - a.x) (b.y - a.y))
    positivity
  have t1 : (k : ℝ) / (samples n (b.x - a.x) (b.y - a.y) : ℝ) < 1 := by
    have h : (0 : ℝ) < (samples n (b.x - a.x) (b.y - a.y) : ℝ) := by exact_mod_cast (by omega : 0 < samples n (b.x - a.x) (b.y - a.y))
    rw [div_lt_one h]
    exact_mod_cast hk
  generalize (k : ℝ) / (samples n (b.x - a.x) (b.y - a.y) : ℝ) = t at t0 t1
  rcases hcase with ⟨h1, h2⟩ | ⟨h1, h2⟩
  · rw [h1]
    simp only [sub_self, Int.cast_zero, zero_mul, h0, add_zero]
    rcases part _ t h2 t0 t1 with h | h <;> rw [h]
    · right; simpa using ho
    · left; exact ⟨by omega, trivial⟩
  · rw [h1]
    simp only [sub_self, Int.cast_zero, zero_mul, h0, add_zero]
    rcases part _ t h2 t0 t1 with h | h <;> rw [h]
    · right; simpa using ho
    · left; exact ⟨trivial, by omega⟩

/-- If a cell within reach is cheap enough, the pose can be placed. -/
theorem takes_exists (n : Node) (hr : Runs n) (tol : ℝ) (p : Pose ℝ) (i j : Int) (h1 : InCell n p.x p.y i j) (h2 : Inner n i j)
    (h3 : n.rough ⟨i, j, 0⟩ = 100)
    (h4 : Exists n.map n.cm ⟨i, j, 0⟩ (lround (tol / n.geo.res)) n.tolAngle 0 n.acceptable) : ∃ c, Takes n tol p c := by
  cases h : SearchPos.searchAvailablePos n.map n.cm (euclidCost n.geo n.wt) ⟨i, j, 0⟩ (lround (tol / n.geo.res)) n.tolAngle with
  | none =>
    have := (SearchPos.search_fails_iff n.map hr.geo.angle_pos _ _ _ _ _ _ _).1 h
    simp only [if_true] at this
    exact absurd h4 this.1
  | some c =>
    have := SearchPos.search_returns_nearest n.map hr.geo.angle_pos _ _ _ _ _ _ _ _ h
    simp only [if_true] at this
    exact ⟨c, i, j, h1, h2, Or.inr ⟨h3, this⟩⟩

theorem takes_plain (n : Node) (hr : Runs n) (tol : ℝ) (p : Pose ℝ) (i j : Int) (h1 : InCell n p.x p.y i j) (h2 : Inner n i j)
    (h3 : n.rough ⟨i, j, 0⟩ ≠ 100) (c : Cell) : Takes n tol p c ↔ c = ⟨i, j, 0⟩ := by
  constructor
  · rintro ⟨i', j', g1, -, g⟩
    have hres := hr.geo.res_pos
    have uniq : ∀ (o v : ℝ) (i i' : Int), o + i * n.geo.res ≤ v → v < o + (i + 1) * n.geo.res → o + i' * n.geo.res ≤ v →
        v < o + (i' + 1) * n.geo.res → i = i' := by
      intro o v i i' a1 a2 a3 a4
      have u1 : (i : ℝ) * n.geo.res < (i' + 1) * n.geo.res := by linarith
      have u2 : (i' : ℝ) * n.geo.res < (i + 1) * n.geo.res := by linarith
      have u1 := lt_of_mul_lt_mul_right u1 hres.le
      have u2 := lt_of_mul_lt_mul_right u2 hres.le
      have u1 : i < i' + 1 := by exact_mod_cast u1
      have u2 : i' < i + 1 := by exact_mod_cast u2
      omega
    have e1 := uniq _ _ _ _ h1.1 h1.2.1 g1.1 g1.2.1
    have e2 := uniq _ _ _ _ h1.2.2.1 h1.2.2.2 g1.2.2.1 g1.2.2.2
    subst e1; subst e2
    rcases g with ⟨-, g⟩ | ⟨g, -⟩
    · exact g
    · exact absurd g h3
  · rintro rfl
    exact ⟨i, j, h1, h2, Or.inl ⟨h3, rfl⟩⟩

end helpers

/-- **C111** (the returned path).  A returned path starts at the centre of the cell taken for the start pose and ends at the centre
of the cell taken for the goal pose, all its poses have the heading of the start cell, and each of them lies in a cell that is not lethal
or in the goal's cell; the latter is not lethal either if the costmap without headings is at most the one with headings.  The two cells
are connected by straight moves through cells that are not lethal. -/
theorem planned_path (n : Node) (hr : Runs n) (q : Request) (path : List (Pose ℝ)) (h : Answer n q (some path)) :
    n.hasMap = true ∧ q.startFrame = n.frame ∧ q.goalFrame = n.frame ∧
    ∃ s e, Takes n q.tolerance q.start s ∧ Takes n q.tolerance q.goal e ∧ Way n s e ∧
      path.head? = some (centre n s) ∧ path.getLast? = some (centre n e) ∧
      (∀ p ∈ path, p.yaw = s.yaw * n.geo.ares ∧
        (OnFree n p ∨ (|p.x - (centre n e).x| ≤ n.geo.res / 2 ∧ |p.y - (centre n e).y| ≤ n.geo.res / 2)) ∧
        (RoughBelow n → OnFree n p)) := by
  cases h with
  | @planned s e junk why path hp hw hs =>
    rcases prepare_cases n hr q with ⟨h1, -⟩ | ⟨s', e', h1, h2, h3, h4, h5, h6⟩
    · rw [hp] at h1; cases h1
    rw [hp] at h1
    cases h1
    refine ⟨h2, h3, h4, s, e, h5, h6, ?_⟩
    obtain ⟨hl, hwith, -⟩ := found_leads n hr junk s e (takes_within n hr _ _ _ h5) (takes_within n hr _ _ _ h6) hs
    obtain ⟨-, t1, t2⟩ := interpolate_through n.geo hr.geo (path.map ofVec) (fun c hc => (hwith c hc).2.2.2.2)
    rw [GridMetric.append_path, List.nil_append]
    have hc : ∀ c : Cell, grid2MetricF n.info (poseOf c) = centre n c := by
      intro c
      unfold grid2MetricF poseOf centre Node.info
      simp only [Pose.mk.injEq]
      exact ⟨by ring, by ring, trivial⟩
    refine ⟨⟨search_ne n junk s e hs, leads_way n s e _ hl⟩, ?_, ?_, ?_⟩
    · rw [List.head?_map, t1, List.head?_map, hl.first]
      exact congrArg some (hc s)
    · rw [List.getLast?_map, t2, List.getLast?_map, hl.last]
      exact congrArg some (hc e)
    · intro p hp'
      obtain ⟨g, hg, rfl⟩ := List.mem_map.1 hp'
      obtain ⟨g1, g2⟩ := interp_poses n hr e _ s hl hwith g hg
      refine ⟨?_, ?_, ?_⟩
      · change g.yaw * n.geo.ares = _
        rw [g1]
      · rcases g2 with ⟨i, j, g2, g3⟩ | g2
        · exact Or.inl ⟨i, j, g2, near_free n hr g i j g3⟩
        · exact Or.inr (near_free n hr g e.x e.y g2)
      · intro hb
        rcases g2 with ⟨i, j, g2, g3⟩ | g2
        · exact ⟨i, j, g2, near_free n hr g i j g3⟩
        · exact ⟨_, _, takes_open n hr hb _ _ _ h6, near_free n hr g e.x e.y g2⟩

/-- **C111** (which path).  The path follows a list of cells from the one taken for the start to the one taken for the goal, each reached
from the one before by a straight move: it passes through their centres in order, and each of its poses lies on the segment between two
successive centres.  With one task per round and no queue limit, no other such list costs less. -/
theorem planned_cells (n : Node) (hr : Runs n) (q : Request) (path : List (Pose ℝ)) (h : Answer n q (some path)) :
    ∃ s e cells, Takes n q.tolerance q.start s ∧ Takes n q.tolerance q.goal e ∧ Leads n s e cells ∧
      (cells.map (centre n)).Sublist path ∧
      (∀ p ∈ path, p = centre n e ∨ ∃ a b : Cell, [a, b] <:+: cells ∧ ∃ t : ℝ, 0 ≤ t ∧ t < 1 ∧
        p.x = (1 - t) * (centre n a).x + t * (centre n b).x ∧ p.y = (1 - t) * (centre n a).y + t * (centre n b).y) ∧
      (n.tasks = 1 → n.limit = 0 → ∀ cells', Leads n s e cells' → wayCost n cells ≤ wayCost n cells') := by
  cases h with
  | @planned s e junk why path hp hw hs =>
    rcases prepare_cases n hr q with ⟨h1, -⟩ | ⟨s', e', h1, h2, h3, h4, h5, h6⟩
    · rw [hp] at h1; cases h1
    rw [hp] at h1
    cases h1
    have hs0 := takes_within n hr _ _ _ h5
    have he0 := takes_within n hr _ _ _ h6
    obtain ⟨hl, hwith, -⟩ := found_leads n hr junk s e hs0 he0 hs
    obtain ⟨t0, -, -⟩ := interpolate_through n.geo hr.geo (path.map ofVec) (fun c hc => (hwith c hc).2.2.2.2)
    rw [GridMetric.append_path, List.nil_append]
    have hc : ∀ c : Cell, grid2MetricF n.info (poseOf c) = centre n c := by
      intro c
      unfold grid2MetricF poseOf centre Node.info
      simp only [Pose.mk.injEq]
      exact ⟨by ring, by ring, trivial⟩
    refine ⟨s, e, path.map ofVec, h5, h6, hl, ?_, ?_, ?_⟩
    · have := t0.map (grid2MetricF n.info)
      rw [List.map_map] at this
      have hfun : (grid2MetricF n.info ∘ poseOf) = centre n := funext hc
      rwa [hfun] at this
    · intro p hp'
      obtain ⟨g, hg, rfl⟩ := List.mem_map.1 hp'
      rcases interp_segments n hr e _ s hl hwith g hg with rfl | ⟨a, b, hab, t, ht0, ht1, hx, hy⟩
      · exact Or.inl (hc e)
      · refine Or.inr ⟨a, b, hab, t, ht0, ht1, ?_, ?_⟩
        · change (g.x + 1 / 2) * n.geo.res + n.ox = (1 - t) * (n.ox + (a.x + 1 / 2) * n.geo.res) + t * (n.ox + (b.x + 1 / 2) * n.geo.res)
          rw [hx]; ring
        · change (g.y + 1 / 2) * n.geo.res + n.oy = (1 - t) * (n.oy + (a.y + 1 / 2) * n.geo.res) + t * (n.oy + (b.y + 1 / 2) * n.geo.res)
          rw [hy]; ring
    · intro ht hl' cells' hc'
      exact found_cheapest n hr ht hl' junk s e hs0 he0 hs cells' hc'

/-- **C111** (no answer without a reason).  With at least one task per round and no queue limit, a call that fails was made without a
map or in another frame, or one of its poses cannot be placed, or there is no way between the cells taken for them. -/
theorem failure_reasons (n : Node) (hr : Runs n) (ht : 0 < n.tasks) (hl : n.limit = 0) (q : Request) (h : Answer n q none) :
    n.hasMap = false ∨ q.startFrame ≠ n.frame ∨ q.goalFrame ≠ n.frame ∨
    (¬ ∃ c, Takes n q.tolerance q.start c) ∨ (¬ ∃ c, Takes n q.tolerance q.goal c) ∨
    ∃ s e, Takes n q.tolerance q.start s ∧ Takes n q.tolerance q.goal e ∧ ¬ Way n s e := by
  rcases prepare_cases n hr q with ⟨h1, h2⟩ | ⟨s, e, h1, h2, h3, h4, h5, h6⟩
  · rcases h2 with h | h | h | h | h
    · exact Or.inl h
    · exact Or.inr (Or.inl h)
    · exact Or.inr (Or.inr (Or.inl h))
    · exact Or.inr (Or.inr (Or.inr (Or.inl h)))
    · exact Or.inr (Or.inr (Or.inr (Or.inr (Or.inl h))))
  · refine Or.inr (Or.inr (Or.inr (Or.inr (Or.inr ⟨s, e, h5, h6, ?_⟩))))
    cases h with
    | refused h => rw [h1] at h; cases h
    | @failed s' e' junk why path hp hw hs =>
      rw [h1] at hp
      cases hp
      exact failed_no_way n hr ht hl junk s e (takes_within n hr _ _ _ h5) (takes_within n hr _ _ _ h6) hw hs

/-- **C111** (every call is answered).  Whatever the request, the planner's search comes to an end, and the call has an answer. -/
theorem every_call_answered (n : Node) (hr : Runs n) (q : Request) :
    (∃ o, Answer n q o) ∧
    ∀ s e junk, prepare n q = .ready s e → ∀ run : Nat → Verif.Astar.St (List Int) (WithTop ℝ),
      Verif.Astar.Reach (Verif.Astar.Vec.toProb (problem n junk s e)) (run 0) →
      ¬ ∀ k, Verif.Astar.Round (Verif.Astar.Vec.toProb (problem n junk s e)) (run k) (run (k + 1)) := by
  constructor
  · rcases prepare_cases n hr q with ⟨h1, -⟩ | ⟨s, e, h1, -⟩
    · exact ⟨none, .refused h1⟩
    · obtain ⟨why, ⟨b, path⟩, hw, hs⟩ := search_answers (wellFormed n hr 0 s e) (starts_nonneg n 0 s e) n.findBest
      cases b with
      | false => exact ⟨_, .failed h1 hw hs⟩
      | true => exact ⟨_, .planned h1 hw hs⟩
  · intro s e junk _ run h
    exact search_ends (wellFormed n hr junk s e) (starts_nonneg n junk s e) run h

/-- **C111** (success).  With at least one task per round and no queue limit, a call whose poses can be placed succeeds exactly if there
is a way between the cells taken for them, for every schedule of the search threads. -/
theorem success_iff_way (n : Node) (hr : Runs n) (ht : 0 < n.tasks) (hl : n.limit = 0) (q : Request) (hm : n.hasMap = true)
    (hf : q.startFrame = n.frame ∧ q.goalFrame = n.frame) (hs : ∃ c, Takes n q.tolerance q.start c)
    (he : ∃ c, Takes n q.tolerance q.goal c) :
    ∃ s e, Takes n q.tolerance q.start s ∧ Takes n q.tolerance q.goal e ∧ ∀ o, Answer n q o → (o.isSome ↔ Way n s e) := by
  rcases prepare_cases n hr q with ⟨h1, h⟩ | ⟨s, e, h1, h2, h3, h4, h5, h6⟩
  · exfalso
    rcases h with h | h | h | h | h
    · rw [hm] at h; cases h
    · exact h hf.1
    · exact h hf.2
    · exact h hs
    · exact h he
  · refine ⟨s, e, h5, h6, ?_⟩
    intro o ho
    have hs0 := takes_within n hr _ _ _ h5
    have he0 := takes_within n hr _ _ _ h6
    cases ho with
    | refused h => rw [h1] at h; cases h
    | @failed s' e' junk why path hp hw hs =>
      rw [h1] at hp
      cases hp
      simp only [Option.isSome_none, Bool.false_eq_true, false_iff]
      exact failed_no_way n hr ht hl junk s e hs0 he0 hw hs
    | @planned s' e' junk why path hp hw hs =>
      rw [h1] at hp
      cases hp
      simp only [Option.isSome_some, true_iff]
      exact ⟨search_ne n junk s e hs, leads_way n s e _ (found_leads n hr junk s e hs0 he0 hs).1⟩

/-- **C111** (plain requests).  Between two positions in cells that are not lethal, the call succeeds exactly if the cells differ and are
connected by straight moves; so it does whenever they differ and are connected by neighbouring cells that are not lethal. -/
theorem plain_request (n : Node) (hr : Runs n) (ht : 0 < n.tasks) (hl : n.limit = 0) (q : Request) (hm : n.hasMap = true)
    (hf : q.startFrame = n.frame ∧ q.goalFrame = n.frame) (i j k l : Int)
    (hs : InCell n q.start.x q.start.y i j ∧ Inner n i j ∧ n.rough ⟨i, j, 0⟩ ≠ 100)
    (he : InCell n q.goal.x q.goal.y k l ∧ Inner n k l ∧ n.rough ⟨k, l, 0⟩ ≠ 100) (o : Option (List (Pose ℝ))) (ho : Answer n q o) :
    (o.isSome ↔ Way n ⟨i, j, 0⟩ ⟨k, l, 0⟩) ∧
    ((i, j) ≠ (k, l) → Relation.ReflTransGen
      (fun a b : Int × Int => Open n a.1 a.2 ∧ Open n b.1 b.2 ∧ (b.1 - a.1) ^ 2 + (b.2 - a.2) ^ 2 = 1) (i, j) (k, l) → o.isSome) := by
  obtain ⟨s, e, h1, h2, h3⟩ := success_iff_way n hr ht hl q hm hf ⟨_, (takes_plain n hr q.tolerance q.start i j hs.1 hs.2.1 hs.2.2 _).2 rfl⟩
    ⟨_, (takes_plain n hr q.tolerance q.goal k l he.1 he.2.1 he.2.2 _).2 rfl⟩
  rw [takes_plain n hr _ _ i j hs.1 hs.2.1 hs.2.2] at h1
  rw [takes_plain n hr _ _ k l he.1 he.2.1 he.2.2] at h2
  subst h1; subst h2
  refine ⟨h3 o ho, fun hne hway => (h3 o ho).2 ⟨fun h => hne ?_, ?_⟩⟩
  · rw [Cell.mk.injEq] at h
    rw [h.1, h.2.1]
  · have key : ∀ c : Int × Int, Relation.ReflTransGen
        (fun a b : Int × Int => Open n a.1 a.2 ∧ Open n b.1 b.2 ∧ (b.1 - a.1) ^ 2 + (b.2 - a.2) ^ 2 = 1) (i, j) c →
        Relation.ReflTransGen (Leg n) ⟨i, j, 0⟩ ⟨c.1, c.2, 0⟩ := by
      intro c hc
      induction hc with
      | refl => exact .refl
      | @tail b c _ hbc ih =>
        refine .tail ih (unit_leg n hr ⟨b.1, b.2, 0⟩ ⟨c.1, c.2, 0⟩ hbc.1 rfl ?_ hbc.2.2)
        exact ⟨hbc.2.1.1, hbc.2.1.2.1, hbc.2.1.2.2.1, hbc.2.1.2.2.2.1⟩
    exact key (k, l) hway

/-- Finding: a call whose two positions lie in one cell fails, although the robot need not move. -/
theorem same_cell_fails (n : Node) (hr : Runs n) (ht : 0 < n.tasks) (hl : n.limit = 0) (q : Request) (i j : Int)
    (hs : InCell n q.start.x q.start.y i j ∧ Inner n i j ∧ n.rough ⟨i, j, 0⟩ ≠ 100)
    (he : InCell n q.goal.x q.goal.y i j) (o : Option (List (Pose ℝ))) (ho : Answer n q o) : o = none := by
  cases o with
  | none => rfl
  | some path =>
    obtain ⟨h1, h2, h3, s, e, h4, h5, h6, -⟩ := planned_path n hr q path ho
    rw [takes_plain n hr _ _ i j hs.1 hs.2.1 hs.2.2] at h4
    rw [takes_plain n hr _ _ i j he hs.2.1 hs.2.2] at h5
    exact absurd (h4.trans h5.symm) h6.1

theorem legs_yaw (n : Node) (s e : Cell) (h : Relation.ReflTransGen (Leg n) s e) : e.yaw = s.yaw := by
  induction h with
  | refl => rfl
  | tail _ hl ih => rw [hl.2.2.1, ih]

/-- Finding: if the cells taken for the two poses differ in their headings (poses that are moved away from lethal cells get the heading of
the cell found), the call fails, whatever the map. -/
theorem headings_differ_fails (n : Node) (hr : Runs n) (q : Request)
    (h : ∀ s e, Takes n q.tolerance q.start s → Takes n q.tolerance q.goal e → s.yaw ≠ e.yaw) (o : Option (List (Pose ℝ)))
    (ho : Answer n q o) : o = none := by
  cases o with
  | none => rfl
  | some path =>
    obtain ⟨-, -, -, s, e, h4, h5, h6, -⟩ := planned_path n hr q path ho
    exact absurd (legs_yaw n s e h6.2).symm (h s e h4 h5)

/-! ### Examples -/

/-- A map of five by five cells of a metre with four headings; the cell in the middle is lethal, the others are for heading 0 only. -/
noncomputable def ex : Node where
  hasMap := true
  frame := 0
  geo := ⟨5, 5, 4, 1, 2 * Real.pi / 4, 1, 1 / 2, 1 / 2⟩
  wt := ⟨1, 1, 0, 0, 1, 1, 0, 0, 1, 0, 1, 1, 0, 0⟩
  ox := 0
  oy := 0
  acceptable := 50
  tolAngle := 1
  cm := fun c => if c.x = 2 ∧ c.y = 2 then 100 else if c.yaw = 0 then 100 else 0
  rough := fun c => if c.x = 2 ∧ c.y = 2 then 100 else 0
  tasks := 1
  limit := 0
  findBest := true

theorem ex_runs : Runs ex where
  geo := ⟨by norm_num [ex], by simp [ex], by norm_num [ex], by norm_num [ex], by norm_num [ex], by norm_num [ex]⟩
  width := by norm_num [ex]
  height := by norm_num [ex]
  wt := ⟨by norm_num [ex], by norm_num [ex], by norm_num [ex], by norm_num [ex], by norm_num [ex], by norm_num [ex], by norm_num [ex],
    by norm_num [ex], by norm_num [ex]⟩
  nonneg := fun c _ => by simp only [ex]; split <;> norm_num
  le100 := fun c _ => by simp only [ex]; split <;> norm_num
  acceptable := by norm_num [ex]

theorem ex_below : RoughBelow ex := fun c _ => by
  simp only [ex]
  split_ifs <;> norm_num

/-- A request from the cell (1, 1) to the cell `(i, j)`. -/
noncomputable def goTo (i j : Int) : Request := ⟨0, 0, ⟨3 / 2, 3 / 2, 0⟩, ⟨i + 1 / 2, j + 1 / 2, 0⟩, 1⟩

theorem to_start (i j : Int) : InCell ex (goTo i j).start.x (goTo i j).start.y 1 1 ∧ Inner ex 1 1 ∧ ex.rough ⟨1, 1, 0⟩ ≠ 100 := by
  refine ⟨⟨?_, ?_, ?_, ?_⟩, ⟨?_, ?_, ?_, ?_⟩, ?_⟩ <;> norm_num [ex, goTo]

theorem to_goal (i j : Int) : InCell ex (goTo i j).goal.x (goTo i j).goal.y i j := by
  refine ⟨?_, ?_, ?_, ?_⟩ <;> simp only [ex, goTo] <;> linarith

theorem ex_step (a b : Int × Int) (ha : 0 ≤ a.1 ∧ a.1 < 5 ∧ 0 ≤ a.2 ∧ a.2 < 5 ∧ ¬ (a.1 = 2 ∧ a.2 = 2))
    (hb : 0 ≤ b.1 ∧ b.1 < 5 ∧ 0 ≤ b.2 ∧ b.2 < 5 ∧ ¬ (b.1 = 2 ∧ b.2 = 2)) (hd : (b.1 - a.1) ^ 2 + (b.2 - a.2) ^ 2 = 1) :
    Open ex a.1 a.2 ∧ Open ex b.1 b.2 ∧ (b.1 - a.1) ^ 2 + (b.2 - a.2) ^ 2 = 1 := by
  refine ⟨⟨ha.1, ha.2.1, ha.2.2.1, ha.2.2.2.1, ?_⟩, ⟨hb.1, hb.2.1, hb.2.2.1, hb.2.2.2.1, ?_⟩, hd⟩
  · simp only [ex]; rw [if_neg ha.2.2.2.2]; norm_num
  · simp only [ex]; rw [if_neg hb.2.2.2.2]; norm_num

/-- The call from (1, 1) to (3, 1) has an answer, and every answer is a path. -/
example : ∃ path, Answer ex (goTo 3 1) (some path) := by
  obtain ⟨⟨o, ho⟩, -⟩ := every_call_answered ex ex_runs (goTo 3 1)
  have := (plain_request ex ex_runs (by norm_num [ex]) rfl (goTo 3 1) rfl ⟨rfl, rfl⟩ 1 1 3 1 (to_start 3 1)
    ⟨to_goal 3 1, by constructor <;> norm_num [ex], by norm_num [ex]⟩ o ho).2 (by decide)
    (.tail (.tail .refl (ex_step (1, 1) (2, 1) (by decide) (by decide) (by decide))) (ex_step (2, 1) (3, 1) (by decide) (by decide) (by decide)))
  obtain ⟨path, rfl⟩ := Option.isSome_iff_exists.1 this
  exact ⟨path, ho⟩

/-- Every answer to the call from (1, 1) to itself is a failure. -/
example (o) (h : Answer ex (goTo 1 1) o) : o = none :=
  same_cell_fails ex ex_runs (by norm_num [ex]) rfl (goTo 1 1) 1 1 (to_start 1 1) (to_goal 1 1) o h

/-- Finding (concrete): the goal lies in a lethal cell and is moved to a neighbour, which is connected to the start, but the call fails because
the neighbour is taken with another heading. -/
theorem moved_goal_fails : ∃ n q, Runs n ∧ RoughBelow n ∧ 0 < n.tasks ∧ n.limit = 0 ∧ n.hasMap = true ∧
    (q.startFrame = n.frame ∧ q.goalFrame = n.frame) ∧ (∃ s, Takes n q.tolerance q.start s) ∧ (∃ e, Takes n q.tolerance q.goal e) ∧
    (∀ s e, Takes n q.tolerance q.start s → Takes n q.tolerance q.goal e →
      Relation.ReflTransGen (Leg n) s ⟨e.x, e.y, s.yaw⟩) ∧
    ∀ o, Answer n q o → o = none := by
  have hst : ∀ s, Takes ex (goTo 2 2).tolerance (goTo 2 2).start s ↔ s = ⟨1, 1, 0⟩ :=
    takes_plain ex ex_runs _ _ 1 1 (to_start 2 2).1 (to_start 2 2).2.1 (to_start 2 2).2.2
  have hres : lround ((goTo 2 2).tolerance / ex.geo.res) = 1 := by
    have : (goTo 2 2).tolerance / ex.geo.res = ((1 : Int) : ℝ) := by norm_num [goTo, ex]
    rw [this]
    exact GridMetric.lround_int 1
  have h22 : ex.rough ⟨2, 2, 0⟩ = 100 := by simp [ex]
  have hin : Inner ex 2 2 := by constructor <;> norm_num [ex]
  have hgo : ∀ e, Takes ex (goTo 2 2).tolerance (goTo 2 2).goal e →
      e.yaw ≠ 0 ∧ ((e.x = 1 ∧ e.y = 2) ∨ (e.x = 3 ∧ e.y = 2) ∨ (e.x = 2 ∧ e.y = 1) ∨ (e.x = 2 ∧ e.y = 3)) := by
    intro e he
    have key : ∀ d acc, acc ≤ 100 → Eligible ex.map ex.cm ⟨2, 2, 0⟩ 1 1 0 acc d e →
        e.yaw ≠ 0 ∧ ((e.x = 1 ∧ e.y = 2) ∨ (e.x = 3 ∧ e.y = 2) ∨ (e.x = 2 ∧ e.y = 1) ∨ (e.x = 2 ∧ e.y = 3)) := by
      rintro d acc ha ⟨⟨r1, r2, -⟩, ⟨-, -, r3, -⟩, -, r4⟩
      have hc : ex.cm e < 100 := lt_of_lt_of_le r4 ha
      have hn : ¬ (e.x = 2 ∧ e.y = 2) := by
        intro h
        simp only [ex] at hc
        rw [if_pos h] at hc
        omega
      refine ⟨?_, ?_⟩
      · intro h
        simp only [ex] at hc
        rw [if_neg hn, if_pos h] at hc
        omega
      · have h1 := sq_nonneg d.x
        have h2 := sq_nonneg d.y
        have b1 : |d.x| ≤ 1 := abs_le_of_sq_le_sq (by linarith) (by norm_num)
        have b2 : |d.y| ≤ 1 := abs_le_of_sq_le_sq (by linarith) (by norm_num)
        rw [abs_le] at b1 b2
        simp only at r1 r2
        have c1 : d.x = -1 ∨ d.x = 0 ∨ d.x = 1 := by omega
        have c2 : d.y = -1 ∨ d.y = 0 ∨ d.y = 1 := by omega
        rcases c1 with h | h | h <;> rcases c2 with h' | h' | h' <;> rw [h, h'] at r3 <;> norm_num at r3 <;> omega
    obtain ⟨i, j, h1, h2, h3⟩ := he
    have hij : (⟨i, j, 0⟩ : Cell) = ⟨2, 2, 0⟩ := by
      have hg := to_goal 2 2
      simp only [InCell, ex, goTo] at h1 hg
      obtain ⟨a1, a2, a3, a4⟩ := h1
      push_cast at a1 a2 a3 a4
      have u1 : (i : ℝ) < 3 := by linarith
      have u2 : (1 : ℝ) < i := by linarith
      have u3 : (j : ℝ) < 3 := by linarith
      have u4 : (1 : ℝ) < j := by linarith
      have u1 : i < 3 := by exact_mod_cast u1
      have u2 : 1 < i := by exact_mod_cast u2
      have u3 : j < 3 := by exact_mod_cast u3
      have u4 : 1 < j := by exact_mod_cast u4
      rw [Cell.mk.injEq]
      omega
    rw [hij, hres] at h3
    rcases h3 with ⟨h3, -⟩ | ⟨-, ⟨d, h3, -⟩ | ⟨-, d, h3, -⟩⟩
    · exact absurd h22 h3
    · exact key d _ (by norm_num [ex]) h3
    · exact key d _ (le_refl _) h3
  refine ⟨ex, goTo 2 2, ex_runs, ex_below, by norm_num [ex], rfl, rfl, ⟨rfl, rfl⟩, ⟨_, (hst _).2 rfl⟩, ?_, ?_, ?_⟩
  · refine takes_exists ex ex_runs _ _ 2 2 (to_goal 2 2) hin h22 ?_
    rw [hres]
    refine ⟨⟨1, 0, 1⟩, ⟨3, 2, 1⟩, ⟨by norm_num, by norm_num, ⟨0, by norm_num⟩⟩, ⟨by simp, by norm_num, by norm_num, by norm_num, by norm_num [ex]⟩, ?_, ?_⟩
    · refine ⟨?_, ?_, ?_, ?_, ?_, ?_, ?_, ?_, ?_, ?_⟩ <;> norm_num [ex, Node.map]
    · norm_num [ex]
  · intro s e hs he
    rw [hst] at hs
    subst hs
    have leg : ∀ a b : Int × Int, (0 ≤ a.1 ∧ a.1 < 5 ∧ 0 ≤ a.2 ∧ a.2 < 5 ∧ ¬ (a.1 = 2 ∧ a.2 = 2)) →
        (0 ≤ b.1 ∧ b.1 < 5 ∧ 0 ≤ b.2 ∧ b.2 < 5 ∧ ¬ (b.1 = 2 ∧ b.2 = 2)) → (b.1 - a.1) ^ 2 + (b.2 - a.2) ^ 2 = 1 →
        Leg ex ⟨a.1, a.2, 0⟩ ⟨b.1, b.2, 0⟩ := by
      intro a b ha hb hd
      obtain ⟨o1, o2, -⟩ := ex_step a b ha hb hd
      exact unit_leg ex ex_runs _ _ o1 rfl ⟨o2.1, o2.2.1, o2.2.2.1, o2.2.2.2.1⟩ hd
    rcases (hgo e he).2 with ⟨h1, h2⟩ | ⟨h1, h2⟩ | ⟨h1, h2⟩ | ⟨h1, h2⟩ <;> rw [h1, h2]
    · exact .single (leg (1, 1) (1, 2) (by decide) (by decide) (by decide))
    · exact .tail (.tail (.single (leg (1, 1) (2, 1) (by decide) (by decide) (by decide)))
        (leg (2, 1) (3, 1) (by decide) (by decide) (by decide))) (leg (3, 1) (3, 2) (by decide) (by decide) (by decide))
    · exact .single (leg (1, 1) (2, 1) (by decide) (by decide) (by decide))
    · exact .tail (.tail (.single (leg (1, 1) (1, 2) (by decide) (by decide) (by decide)))
        (leg (1, 2) (1, 3) (by decide) (by decide) (by decide))) (leg (1, 3) (2, 3) (by decide) (by decide) (by decide))
  · refine headings_differ_fails ex ex_runs (goTo 2 2) ?_
    intro s e hs he
    rw [hst] at hs
    subst hs
    exact fun h => (hgo e he).1 h.symm

end Verif.Service
