import Verif.Service.Spec
import Verif.SearchPos.Props
import Verif.GridMetric.Props
/-! # The search of the `make_plan` service -/
set_option linter.unusedVariables false
namespace Verif.Service
open Verif.GridMetric (Cell Pose)
open Verif.CSpace (lround)
open Verif.Model3D
open Verif.Model3D.Spec (Sane Nonneg Free poseOf placed)
open Verif.Astar.Vec (VProb Search Why)

theorem totalStep_samples (n : Node) (hs : Sane n.geo) (dx dy w : Int) (hne : ¬ (dx = 0 ∧ dy = 0)) :
    (totalStep n.geo ⟨dx, dy, w⟩ : Int) = samples n dx dy := by
  have h2 := totalStep_pos n.geo hs ⟨dx, dy, w⟩ hne
  unfold totalStep len sqlen at h2 ⊢
  unfold samples
  simp only at h2 ⊢
  omega

/-- The points of a straight motion do not depend on the heading. -/
theorem sample_straight (n : Node) (hs : Sane n.geo) (dx dy w : Int) (ρ : ℝ) :
    sampleAt n.geo w ⟨dx, dy, w⟩ ρ = ⟨dx * ρ, dy * ρ, w⟩ := by
  have : IsStraight n.geo w ⟨dx, dy, w⟩ := by
    unfold IsStraight
    rw [straight_zero]
    norm_num
  unfold sampleAt
  rw [if_pos this, straightAt_eq n.geo hs]

theorem cell_straight (n : Node) (hs : Sane n.geo) (dx dy : Int) (ρ : ℝ) :
    cellOf n.geo (sampleAt n.geo 0 ⟨dx, dy, 0⟩ ρ) = ⟨lround (dx * ρ), lround (dy * ρ), 0⟩ := by
  rw [sample_straight n hs]
  unfold cellOf
  simp only
  rw [headings_eq n.geo hs]
  have : lround (((0 : Int) : ℝ)) = 0 := by simpa using GridMetric.lround_int (K := ℝ) 0
  rw [this, cycU_id 0 n.geo.angle hs.angle_pos ⟨le_refl _, hs.angle_pos⟩]

/-- The cells of the sampled points of a displacement, the destination left out, are open. -/
def Clear (n : Node) (a : Cell) (dx dy : Int) : Prop :=
  ∀ k : Nat, (k : Int) < samples n dx dy →
    let i := lround ((dx : ℝ) * ((k : ℝ) / (samples n dx dy : ℝ)))
    let j := lround ((dy : ℝ) * ((k : ℝ) / (samples n dx dy : ℝ)))
    (i = dx ∧ j = dy) ∨ Open n (a.x + i) (a.y + j)

theorem free_iff (n : Node) (x y : Int) : Free (roughAt n) ⟨x, y, 0⟩ ↔ Open n x y := by
  unfold Free roughAt Open
  simp only
  constructor
  · rintro ⟨c, hc, h⟩
    split at hc
    · rename_i hin
      cases hc
      exact ⟨hin.1, hin.2.1, hin.2.2.1, hin.2.2.2.1, h⟩
    · cases hc
  · rintro ⟨h1, h2, h3, h4, h5⟩
    exact ⟨_, if_pos ⟨h1, h2, h3, h4, trivial⟩, h5⟩

theorem mem_cells (n : Node) (hs : Sane n.geo) (a : Cell) (dx dy : Int) (hne : ¬ (dx = 0 ∧ dy = 0)) (p : Cell) :
    p ∈ ((page n.geo 0 ⟨dx, dy, 0⟩).motion.map fun q => (⟨a.x + q.x, a.y + q.y, 0⟩ : Cell)) ↔
      ∃ k : Nat, (k : Int) < samples n dx dy ∧
        ¬ (lround ((dx : ℝ) * ((k : ℝ) / (samples n dx dy : ℝ))) = dx ∧ lround ((dy : ℝ) * ((k : ℝ) / (samples n dx dy : ℝ))) = dy) ∧
        p = ⟨a.x + lround ((dx : ℝ) * ((k : ℝ) / (samples n dx dy : ℝ))), a.y + lround ((dy : ℝ) * ((k : ℝ) / (samples n dx dy : ℝ))), 0⟩ := by
  have ht := totalStep_samples n hs dx dy 0 hne
  have ht' : (totalStep n.geo ⟨dx, dy, 0⟩ : ℝ) = (samples n dx dy : ℝ) := by rw [← ht]; push_cast; rfl
  rw [List.mem_map]
  constructor
  · rintro ⟨q, hq, rfl⟩
    obtain ⟨k, hk, rfl, hd⟩ := (mem_motion n.geo 0 ⟨dx, dy, 0⟩ q).1 hq
    rw [cell_straight n hs] at hd ⊢
    unfold ratioOf at hd ⊢
    rw [ht'] at hd ⊢
    refine ⟨k, by omega, ?_, rfl⟩
    rintro ⟨h1, h2⟩
    exact hd (by rw [h1, h2])
  · rintro ⟨k, hk, hd, rfl⟩
    refine ⟨⟨lround ((dx : ℝ) * ((k : ℝ) / (samples n dx dy : ℝ))), lround ((dy : ℝ) * ((k : ℝ) / (samples n dx dy : ℝ))), 0⟩, ?_, rfl⟩
    rw [mem_motion]
    refine ⟨k, by omega, ?_, ?_⟩
    · rw [cell_straight n hs]
      unfold ratioOf
      rw [ht']
    · intro h
      rw [Cell.mk.injEq] at h
      exact hd ⟨h.1, h.2.1⟩

theorem find_zero (n : Node) (hs : Sane n.geo) (dx dy : Int) (hne : ¬ (dx = 0 ∧ dy = 0))
    (hr : dx * dx + dy * dy ≤ n.geo.range * n.geo.range) : find n.geo 0 ⟨dx, dy, 0⟩ = some (page n.geo 0 ⟨dx, dy, 0⟩) := by
  have h0 := hs.angle_pos
  have := hs.range_pos
  rw [find_some n.geo (by omega) 0 ⟨dx, dy, 0⟩ hne hr ⟨le_refl _, by rw [headings_eq n.geo hs]; exact h0⟩, headings_eq n.geo hs,
    cycU_id 0 _ h0 ⟨le_refl _, h0⟩]

/-- A move gets a cost exactly if it is within range and its way is clear. -/
theorem cost_iff (n : Node) (hs : Sane n.geo) (a b : Cell) :
    (∃ v, cost2D n.geo n.wt (roughAt n) a b = .val v) ↔
      ¬ (b.x - a.x = 0 ∧ b.y - a.y = 0) ∧ (b.x - a.x) * (b.x - a.x) + (b.y - a.y) * (b.y - a.y) ≤ n.geo.range * n.geo.range ∧
      Clear n a (b.x - a.x) (b.y - a.y) := by
  generalize hdx : b.x - a.x = dx
  generalize hdy : b.y - a.y = dy
  constructor
  · rintro ⟨v, hv⟩
    unfold cost2D at hv
    simp only [hdx, hdy] at hv
    cases hf : find n.geo 0 ⟨dx, dy, 0⟩ with
    | none => rw [hf] at hv; cases hv
    | some pg =>
      have hsome := (motion_found_iff n.geo hs 0 ⟨dx, dy, 0⟩).1 (by rw [hf]; rfl)
      obtain ⟨h1, h2, -⟩ := hsome
      simp only at h1 h2
      rw [find_zero n hs dx dy h1 h2] at hv
      simp only at hv
      split at hv
      · cases hv
      · cases hv
      · rename_i s t h hscan
        refine ⟨h1, h2, ?_⟩
        intro k hk
        by_cases hd : (lround ((dx : ℝ) * ((k : ℝ) / (samples n dx dy : ℝ))) = dx ∧ lround ((dy : ℝ) * ((k : ℝ) / (samples n dx dy : ℝ))) = dy)
        · exact Or.inl hd
        · refine Or.inr ?_
          rw [← free_iff]
          exact scan_free _ _ _ _ _ _ _ _ _ _ _ hscan _ ((mem_cells n hs a dx dy h1 _).2 ⟨k, hk, hd, rfl⟩)
  · rintro ⟨h1, h2, h3⟩
    unfold cost2D
    simp only [hdx, hdy]
    rw [find_zero n hs dx dy h1 h2]
    simp only
    obtain ⟨s, t, h, he⟩ := scan_sums (roughAt n) (roughAt n) false 0
      ((page n.geo 0 ⟨dx, dy, 0⟩).motion.map fun q => (⟨a.x + q.x, a.y + q.y, 0⟩ : Cell)) 0 0 0 (by
        intro p hp
        obtain ⟨k, hk, hd, rfl⟩ := (mem_cells n hs a dx dy h1 p).1 hp
        have hf : Free (roughAt n) _ := (free_iff n _ _).2 ((h3 k hk).resolve_left hd)
        obtain ⟨c, hc, hc'⟩ := hf
        exact ⟨⟨c, hc, hc'⟩, c, hc⟩)
    rw [he]
    exact ⟨_, rfl⟩

/-- Costs can be evaluated within the map. -/
theorem cost_defined2D (n : Node) (hs : Sane n.geo) (a b : Cell)
    (ha : 0 ≤ a.x ∧ a.x < n.geo.width ∧ 0 ≤ a.y ∧ a.y < n.geo.height)
    (hb : 0 ≤ b.x ∧ b.x < n.geo.width ∧ 0 ≤ b.y ∧ b.y < n.geo.height) :
    cost2D n.geo n.wt (roughAt n) a b ≠ .undefined ∧ cost2D n.geo n.wt (roughAt n) a b ≠ .infinite := by
  unfold cost2D
  simp only
  cases hf : find n.geo 0 ⟨b.x - a.x, b.y - a.y, 0⟩ with
  | none => simp
  | some pg =>
    obtain ⟨h1, h2, -⟩ := (motion_found_iff n.geo hs 0 ⟨b.x - a.x, b.y - a.y, 0⟩).1 (by rw [hf]; rfl)
    simp only at h1 h2
    rw [find_zero n hs _ _ h1 h2] at hf
    cases hf
    simp only
    have hd := scan_defined (roughAt n) (roughAt n) false 0
      ((page n.geo 0 ⟨b.x - a.x, b.y - a.y, 0⟩).motion.map fun q => (⟨a.x + q.x, a.y + q.y, 0⟩ : Cell)) 0 0 0 (by
        intro p hp
        rw [List.mem_map] at hp
        obtain ⟨q, hq, rfl⟩ := hp
        have hst : IsStraight n.geo 0 ⟨b.x - a.x, b.y - a.y, 0⟩ := by
          unfold IsStraight
          rw [straight_zero]
          norm_num
        obtain ⟨x1, x2, y1, y2, -⟩ := straight_cells n.geo hs 0 _ q hst hq
        have : (∃ c, roughAt n ⟨a.x + q.x, a.y + q.y, 0⟩ = some c) := by
          refine ⟨_, if_pos ⟨?_, ?_, ?_, ?_, rfl⟩⟩ <;> simp only at x1 x2 y1 y2 ⊢ <;> omega
        exact ⟨this, this⟩)
    split
    · rename_i hu; exact absurd hu hd
    · simp
    · simp

theorem estim_nonneg (n : Node) (hw : Nonneg n.wt) (a b : Cell) : 0 ≤ costEstim2D n.wt a b := by
  unfold costEstim2D
  rw [euclidCostRough_eq]
  have := hw.ec0
  unfold Model3D.Spec.cellDist
  positivity

theorem cost_nonneg (n : Node) (hr : Runs n) (a b : Cell) (v : ℝ) (h : cost2D n.geo n.wt (roughAt n) a b = .val v) : 0 ≤ v := by
  have hnn : ∀ p x, roughAt n p = some x → 0 ≤ x := by
    intro p x hx
    unfold roughAt at hx
    split at hx
    · rename_i hin
      cases hx; exact hr.nonneg p hin
    · cases hx
  have h1 := (estim2D_consistent n.geo hr.geo n.wt hr.wt _ hnn a b b v h).2
  have := hr.wt.ec0
  refine le_trans ?_ h1
  unfold Model3D.Spec.cellDist
  positivity

/-! ### Cells of the grid -/

/-- The cell belongs to the map. -/
abbrev Within (n : Node) (c : Cell) : Prop := Model3D.Spec.InMap n.geo c

theorem wellFormed (n : Node) (hr : Runs n) (junk : WithTop ℝ) (s e : Cell) :
    Verif.Astar.Vec.Spec.WellFormed (problem n junk s e) := by
  refine ⟨?_, by simp [problem], by simp [problem, toVec], ?_, ?_⟩
  · intro x hx
    simp only [problem, List.mem_cons, List.not_mem_nil, or_false] at hx
    rcases hx with rfl | rfl | rfl
    · exact hr.width
    · exact hr.height
    · exact hr.geo.angle_pos
  · intro x hx
    simp only [problem, List.mem_cons, List.not_mem_nil, or_false] at hx
    rw [hx]; rfl
  · intro q d hd
    simp only [problem, List.mem_map] at hd
    obtain ⟨x, -, rfl⟩ := hd
    rfl

theorem vec_inMap (n : Node) (c : Cell) (h : Within n c) :
    Verif.Astar.Vec.Spec.InMap [n.geo.width, n.geo.height, n.geo.angle] (toVec c) :=
  .cons ⟨h.1, h.2.1⟩ (.cons ⟨h.2.2.1, h.2.2.2.1⟩ (.cons ⟨h.2.2.2.2.1, h.2.2.2.2.2⟩ .nil))

theorem normal_iff (n : Node) (junk : WithTop ℝ) (s e x y : Cell) :
    Verif.Astar.Vec.Spec.IsNormalOf (problem n junk s e) (toVec x) (toVec y) ↔
      x.x = y.x ∧ x.y = y.y ∧ (0 ≤ x.yaw ∧ x.yaw < n.geo.angle) ∧ ∃ k : Int, x.yaw = y.yaw + k * n.geo.angle := by
  constructor
  · rintro ⟨-, h⟩
    have h0 := (h 0 (by simp [toVec]) (by simp [problem]) (by simp [toVec])).1 (by simp [problem])
    have h1 := (h 1 (by simp [toVec]) (by simp [problem]) (by simp [toVec])).1 (by simp [problem])
    have h2 := (h 2 (by simp [toVec]) (by simp [problem]) (by simp [toVec])).2 (by simp [problem])
    simp only [toVec, List.getElem_cons_zero, List.getElem_cons_succ] at h0 h1
    exact ⟨h0, h1, h2.1, h2.2⟩
  · rintro ⟨h0, h1, h2, h3⟩
    refine ⟨rfl, ?_⟩
    intro i hi hr hw
    have : i = 0 ∨ i = 1 ∨ i = 2 := by simp [toVec] at hi; omega
    rcases this with rfl | rfl | rfl
    · exact ⟨fun _ => h0, fun h => absurd h (by simp [problem])⟩
    · exact ⟨fun _ => h1, fun h => absurd h (by simp [problem])⟩
    · exact ⟨fun h => absurd h (by simp [problem]), fun _ => ⟨h2, h3⟩⟩

theorem normal_within (n : Node) (hr : Runs n) (junk : WithTop ℝ) (s e x y : Cell) (hy : 0 ≤ y.yaw ∧ y.yaw < n.geo.angle) :
    Verif.Astar.Vec.Spec.IsNormalOf (problem n junk s e) (toVec x) (toVec y) ↔ x = y := by
  rw [normal_iff]
  constructor
  · rintro ⟨h0, h1, h2, k, hk⟩
    have hA := hr.geo.angle_pos
    have hk0 : k = 0 := mul_small hA (by omega) (by omega)
    rw [hk0] at hk
    rcases x with ⟨x1, x2, x3⟩
    rcases y with ⟨y1, y2, y3⟩
    simp only at h0 h1 hk
    subst h0; subst h1
    simp only [zero_mul, add_zero] at hk
    rw [hk]
  · rintro rfl
    exact ⟨rfl, rfl, hy, 0, by ring⟩

theorem leg_iff (n : Node) (hs : Sane n.geo) (a b : Cell) :
    Leg n a b ↔ (∃ v, cost2D n.geo n.wt (roughAt n) a b = .val v) ∧ b.yaw = a.yaw ∧
      (0 ≤ b.x ∧ b.x < n.geo.width ∧ 0 ≤ b.y ∧ b.y < n.geo.height) := by
  rw [cost_iff n hs]
  unfold Leg Clear
  constructor
  · rintro ⟨h1, h2, h3, h4, h5⟩
    refine ⟨⟨by omega, by nlinarith, ?_⟩, h3, h4⟩
    intro k hk
    rcases h5 k hk with h | h
    · left
      constructor <;> omega
    · exact Or.inr h
  · rintro ⟨⟨h1, h2, h5⟩, h3, h4⟩
    refine ⟨by omega, by nlinarith, h3, h4, ?_⟩
    intro k hk
    rcases h5 k hk with h | h
    · left
      constructor <;> omega
    · exact Or.inr h

theorem step_iff (n : Node) (hr : Runs n) (junk : WithTop ℝ) (s e a b : Cell) (ha : Within n a) :
    Verif.Astar.Vec.Spec.Step (problem n junk s e) (toVec a) (toVec b) ↔ Leg n a b := by
  have hs := hr.geo
  have hrange : 0 ≤ n.geo.range := by have := hs.range_pos; omega
  rw [leg_iff n hs]
  constructor
  · rintro ⟨⟨v, hv, hn⟩, hin, -, hacc⟩
    simp only [problem, List.mem_map] at hv
    obtain ⟨d, hd', rfl⟩ := hv
    obtain ⟨r1, r2⟩ := (mem_rough n.geo hrange d).1 hd'
    have hz : List.zipWith (· + ·) (toVec a) (toVec d) = toVec ⟨a.x + d.x, a.y + d.y, a.yaw⟩ := by
      simp [toVec, r2]
    rw [hz] at hn
    have hb := (normal_within n hr junk s e b _ (by simpa using ha.2.2.2.2)).1 hn
    obtain ⟨-, hinb⟩ := inMap_vec n.geo _ hin
    have hinb : Model3D.Spec.InMap n.geo b := hinb
    obtain ⟨hu, hi⟩ := cost_defined2D n hs a b ⟨ha.1, ha.2.1, ha.2.2.1, ha.2.2.2.1⟩ ⟨hinb.1, hinb.2.1, hinb.2.2.1, hinb.2.2.2.1⟩
    obtain ⟨h0, htop⟩ := hacc
    have hc : (problem n junk s e).cost (toVec a) (toVec b) = encode junk (cost2D n.geo n.wt (roughAt n) a b) := rfl
    rw [hc] at h0
    refine ⟨?_, by rw [hb], hinb.1, hinb.2.1, hinb.2.2.1, hinb.2.2.2.1⟩
    cases hco : cost2D n.geo n.wt (roughAt n) a b with
    | undefined => exact absurd hco hu
    | infinite => exact absurd hco hi
    | blocked =>
      rw [hco] at h0
      exact absurd h0 (not_le.2 (Verif.Astar.CostType.neg1_lt_zero (C := WithTop ℝ)))
    | val v => exact ⟨v, rfl⟩
  · rintro ⟨⟨v, hv⟩, hyaw, hb⟩
    have hci := (cost_iff n hs a b).1 ⟨v, hv⟩
    have hwb : Within n b := ⟨hb.1, hb.2.1, hb.2.2.1, hb.2.2.2, by rw [hyaw]; exact ha.2.2.2.2.1, by rw [hyaw]; exact ha.2.2.2.2.2⟩
    refine ⟨⟨toVec ⟨b.x - a.x, b.y - a.y, 0⟩, ?_, ?_⟩, vec_inMap n b hwb, ?_, ?_⟩
    · exact List.mem_map.2 ⟨_, (mem_rough n.geo hrange _).2 ⟨hci.2.1, rfl⟩, rfl⟩
    · have hz : List.zipWith (· + ·) (toVec a) (toVec ⟨b.x - a.x, b.y - a.y, 0⟩) = toVec b := by
        simp [toVec, hyaw]
      rw [hz]
      exact (normal_within n hr junk s e b b hwb.2.2.2.2).2 rfl
    · exact ⟨WithTop.coe_le_coe.2 (estim_nonneg n hr.wt b e), WithTop.coe_ne_top⟩
    · have hc : (problem n junk s e).cost (toVec a) (toVec b) = (v : WithTop ℝ) := by
        change encode junk (cost2D n.geo n.wt (roughAt n) a b) = _
        rw [hv]; rfl
      rw [hc]
      exact ⟨WithTop.coe_le_coe.2 (cost_nonneg n hr a b v hv), WithTop.coe_ne_top⟩

/-! ### Results of the search -/

theorem found_leads (n : Node) (hr : Runs n) (junk : WithTop ℝ) (s e : Cell) (hs : Within n s) (he : Within n e) {why : Why}
    {path : List (List Int)} (h : Search (problem n junk s e) n.findBest why (true, path)) :
    Leads n s e (path.map ofVec) ∧ (∀ c ∈ path.map ofVec, Within n c) ∧ (path.map ofVec).map toVec = path := by
  obtain ⟨hne, ⟨s', hs', hhead⟩, hlast, hch, -, -, hin0⟩ := Verif.Astar.search_path_legal (wellFormed n hr junk s e) (by
    intro x hx
    simp only [problem, List.mem_cons, List.not_mem_nil, or_false] at hx
    rw [hx]) h
  simp only [problem, List.mem_cons, List.not_mem_nil, or_false] at hs'
  subst hs'
  have hst : ∀ (x : List Int) (t : Cell), Within n t → Verif.Astar.Vec.Spec.IsNormalOf (problem n junk s e) x (toVec t) → x = toVec t := by
    intro x t ht hx
    match x, hx.1 with
    | [a, b, c], _ => exact congrArg toVec ((normal_within n hr junk s e ⟨a, b, c⟩ t ht.2.2.2.2).1 hx)
  have hin := hin0 (by
    intro y hy x hx
    simp only [problem, List.mem_cons, List.not_mem_nil, or_false] at hy
    subst hy
    rw [hst x s hs hx]
    exact vec_inMap n s hs)
  have hcells : ∀ v ∈ path, v = toVec (ofVec v) ∧ Within n (ofVec v) := fun v hv => inMap_vec n.geo v (hin v hv)
  refine ⟨⟨?_, ?_, ?_⟩, ?_, ?_⟩
  · rw [List.head?_map, List.head?_eq_some_head hne, hst _ s hs hhead]; rfl
  · rw [List.getLast?_map, List.getLast?_eq_some_getLast hne]
    have hl : Verif.Astar.Vec.Spec.IsNormalOf (problem n junk s e) (path.getLast hne) (toVec e) := by
      rcases hlast with hlast | ⟨pr, raw, hl, hc⟩
      · exact hlast
      · exfalso
        simp only [problem, decide_eq_true_eq] at hl
        refine absurd hl (not_lt.mpr ?_)
        have h0 : (0 : WithTop ℝ) ≤ ((costEstim2D n.wt (ofVec (path.getLast hne)) e : ℝ) : WithTop ℝ) :=
          WithTop.coe_le_coe.mpr (estim_nonneg n hr.wt _ _)
        have h1 : (0 : WithTop ℝ) ≤ (((⌊costEstim2D n.wt (ofVec (path.getLast hne)) e⌋ : Int) : ℝ) : WithTop ℝ) :=
          WithTop.coe_le_coe.mpr (Int.cast_nonneg (Int.floor_nonneg.2 (estim_nonneg n hr.wt _ _)))
        rcases hc with rfl | ⟨x, hx, -, -, rfl⟩
        · exact le_add_of_nonneg_right h0
        · exact le_add_of_nonneg_left h1
    rw [hst _ e he hl]; rfl
  · clear hlast hhead hin hin0 hne h
    induction path with
    | nil => exact .nil
    | cons a path ih =>
      cases path with
      | nil => exact .singleton _
      | cons b path =>
        rw [List.isChain_cons_cons] at hch
        have ih := ih hch.2 (fun v hv => hcells v (List.mem_cons_of_mem _ hv))
        simp only [List.map_cons] at ih ⊢
        rw [List.isChain_cons_cons]
        refine ⟨?_, ih⟩
        obtain ⟨ha, hma⟩ := hcells a List.mem_cons_self
        obtain ⟨hb, hmb⟩ := hcells b (List.mem_cons_of_mem _ List.mem_cons_self)
        have := hch.1
        rw [ha, hb] at this
        exact (step_iff n hr junk s e _ _ hma).mp this
  · intro c hc
    obtain ⟨v, hv, rfl⟩ := List.mem_map.1 hc
    exact (hcells v hv).2
  · rw [List.map_map]
    refine (List.map_congr_left ?_).trans (List.map_id path)
    intro v hv
    exact (hcells v hv).1.symm

theorem leg_within (n : Node) (a b : Cell) (ha : Within n a) (h : Leg n a b) : Within n b := by
  obtain ⟨-, -, hy, hb, -⟩ := h
  exact ⟨hb.1, hb.2.1, hb.2.2.1, hb.2.2.2, by rw [hy]; exact ha.2.2.2.2.1, by rw [hy]; exact ha.2.2.2.2.2⟩

theorem leads_way (n : Node) (s e : Cell) (cells : List Cell) (h : Leads n s e cells) : Relation.ReflTransGen (Leg n) s e := by
  obtain ⟨h1, h2, h3⟩ := h
  induction cells generalizing s with
  | nil => cases h1
  | cons a cells ih =>
    cases h1
    cases cells with
    | nil => cases h2; exact .refl
    | cons b cells =>
      rw [List.isChain_cons_cons] at h3
      exact .head h3.1 (ih b rfl (by rwa [List.getLast?_cons_cons] at h2) h3.2)

theorem exhausted_no_way (n : Node) (hr : Runs n) (ht : 0 < n.tasks) (hl : n.limit = 0) (junk : WithTop ℝ) (s e : Cell)
    (hs : Within n s) (he : Within n e) {r : Bool × List (List Int)}
    (h : Search (problem n junk s e) n.findBest .exhausted r) : ¬ Relation.ReflTransGen (Leg n) s e := by
  intro hway
  have hdefd : ∀ a b : Cell, Within n a → Verif.Astar.Vec.Spec.Step (problem n junk s e) (toVec a) (toVec b) →
      ∃ v : ℝ, (problem n junk s e).cost (toVec a) (toVec b) = (v : WithTop ℝ) := by
    intro a b ha hst
    obtain ⟨⟨v, hv⟩, -⟩ := (leg_iff n hr.geo a b).1 ((step_iff n hr junk s e a b ha).1 hst)
    refine ⟨v, ?_⟩
    change encode junk (cost2D n.geo n.wt (roughAt n) a b) = _
    rw [hv]; rfl
  obtain ⟨-, hno⟩ := Verif.Astar.exhausted_unreachable (wellFormed n hr junk s e) ht hl (by
      intro x hx
      simp only [problem, List.mem_cons, List.not_mem_nil, or_false] at hx
      rw [hx]
      exact ⟨le_refl _, WithTop.coe_lt_top (0 : ℝ)⟩) le_top (by
      intro q c x hq hc hst
      have hlt : (problem n junk s e).cost q x < (⊤ : WithTop ℝ) := lt_top_iff_ne_top.2 hst.2.2.2.2
      exact WithTop.add_lt_top.mpr ⟨hc, hlt⟩) h
  refine hno (toVec e) ((normal_within n hr junk s e e e he.2.2.2.2).2 rfl) ?_
  have key : ∀ c, Relation.ReflTransGen (Leg n) s c → Within n c ∧ Verif.Astar.Vec.Spec.Reachable (problem n junk s e) (toVec c) := by
    intro c hc
    induction hc with
    | refl => exact ⟨hs, .start (s := (toVec s, 0)) (List.mem_singleton.mpr rfl) ((normal_within n hr junk s e s s hs.2.2.2.2).2 rfl)⟩
    | tail _ hleg ih =>
      exact ⟨leg_within n _ _ ih.1 hleg, .move ih.2 ((step_iff n hr junk s e _ _ ih.1).2 hleg)⟩
  exact (key e hway).2

end Verif.Service
