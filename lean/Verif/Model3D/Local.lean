import Verif.Model3D.Plan
/-! # C143: steps of a plan near to and far from the start -/
namespace Verif.Model3D
open Spec Verif.GridMetric Verif.Astar.Vec

namespace Spec

/-- The cell is closer than `lr` cells to one of the starts. -/
def Near (lr : Int) (starts : List Cell) (a : Cell) : Prop := ∃ s ∈ starts, (a.x - s.x) ^ 2 + (a.y - s.y) ^ 2 < lr ^ 2

/-- A displacement of at most `range` cells, in any direction, that keeps the heading. -/
def Shift (g : Geo) (a b : Cell) : Prop := b.yaw = a.yaw ∧ (b.x - a.x) ^ 2 + (b.y - a.y) ^ 2 ≤ g.range ^ 2

end Spec

theorem near_iff (lr : Int) (starts : List Cell) (a : Cell) :
    (starts.any fun s => decide (sqlen ⟨s.x - a.x, s.y - a.y, s.yaw - a.yaw⟩ < lr * lr)) = true ↔ Near lr starts a := by
  rw [List.any_eq_true]
  unfold Near sqlen
  constructor
  · rintro ⟨s, hs, h⟩
    refine ⟨s, hs, ?_⟩
    have := of_decide_eq_true h
    simp only at this
    nlinarith
  · rintro ⟨s, hs, h⟩
    refine ⟨s, hs, decide_eq_true ?_⟩
    simp only
    nlinarith

/-- **C143**, the moves the search offers: near the start exactly the feasible ones, farther away exactly the displacements without turn. -/
theorem offered_iff (g : Geo) (hs : Sane g) (c : Wt) (lr : Int) (starts : List Cell) (a p : Cell) (ha : 0 ≤ a.yaw ∧ a.yaw < g.angle) :
    (Near lr starts a → (p ∈ searchGrids g c lr starts a ↔ Feasible g c a.yaw p)) ∧
    (¬ Near lr starts a → (p ∈ searchGrids g c lr starts a ↔ p.x ^ 2 + p.y ^ 2 ≤ g.range ^ 2 ∧ p.yaw = 0)) := by
  have hR : 0 ≤ g.range := by have := hs.range_pos; omega
  constructor
  · intro hn
    unfold searchGrids
    rw [if_pos ((near_iff lr starts a).mpr hn)]
    exact primitive_iff g hs c a.yaw p ha
  · intro hn
    unfold searchGrids
    rw [if_neg (fun h => hn ((near_iff lr starts a).mp h)), mem_rough g hR, pow_two, pow_two, pow_two]

/-- **C143**, the steps of a plan: near the start each is a feasible move; farther away each keeps the heading. -/
theorem plan_steps (g : Geo) (hs : Sane g) (hev : Even g.angle) (hmap : 0 < g.width ∧ 0 < g.height) (c : Wt) (u : Bool)
    (cm hy : Cell → Option Int) (hcm : Covers g cm) (hhy : Covers g hy) (lr : Int) (ss : List Cell) (junk : WithTop ℝ)
    (estim startEstim : List Int → WithTop ℝ) (starts : List (List Int × WithTop ℝ)) (goal : List Int)
    (leave : WithTop ℝ → WithTop ℝ → Bool) (tasks limit : Nat)
    (hg : goal.length = 3) (hst : ∀ s ∈ starts, 0 ≤ s.2 ∧ Verif.Astar.Vec.Spec.InMap [g.width, g.height, g.angle] s.1)
    {rb b : Bool} {why} {path : List (List Int)}
    (h : Search (planProb g c u cm hy lr ss junk estim startEstim starts goal leave tasks limit) rb why (b, path)) :
    (path.map ofVec).IsChain (fun a b => (Near lr ss a → ∃ p, Feasible g c a.yaw p ∧ Reaches g a p b) ∧ (¬ Near lr ss a → Shift g a b)) := by
  obtain ⟨hin, hch⟩ := plan_moves g hs hev hmap c u cm hy hcm hhy lr ss junk estim startEstim starts goal leave tasks limit hg hst h
  generalize path.map ofVec = l at hin hch
  induction l with
  | nil => exact List.isChain_nil
  | cons a l ih =>
    cases l with
    | nil => exact List.isChain_singleton a
    | cons b l =>
      rw [List.isChain_cons_cons] at hch ⊢
      refine ⟨?_, ih (fun x hx => hin x (List.mem_cons_of_mem _ hx)) hch.2⟩
      obtain ⟨⟨p, hp, hr⟩, -⟩ := hch.1
      have ha := hin a (by simp)
      obtain ⟨o1, o2⟩ := offered_iff g hs c lr ss a p ⟨ha.2.2.2.2.1, ha.2.2.2.2.2⟩
      refine ⟨fun hn => ⟨p, (o1 hn).mp hp, hr⟩, fun hn => ?_⟩
      obtain ⟨hd, hy0⟩ := (o2 hn).mp hp
      obtain ⟨r1, r2, ⟨k, rk⟩, r4, r5⟩ := hr
      have hk : k = 0 := by
        have h1 := ha.2.2.2.2.1
        have h2 := ha.2.2.2.2.2
        rw [hy0] at rk
        by_contra hne
        rcases lt_or_gt_of_ne hne with h | h <;> nlinarith
      refine ⟨by rw [rk, hy0, hk]; ring, ?_⟩
      rw [r1, r2]
      have e1 : a.x + p.x - a.x = p.x := by ring
      have e2 : a.y + p.y - a.y = p.y := by ring
      rw [e1, e2]; exact hd

/-- **C143**, finding: far from the start the slant is not limited. In free space every displacement that keeps the heading and goes at least half a cell ahead or back is offered
and gets a finite cost, however far it goes to the side. -/
theorem far_slant (g : Geo) (hs : Sane g) (hev : Even g.angle) (c : Wt) (u : Bool) (cm hy : Cell → Option Int)
    (hcm : ∀ p, InMap g p → Free cm p) (hhy : Covers g hy) (lr : Int) (ss : List Cell) (a b : Cell) (ha : InMap g a) (hb : InMap g b) (hfar : ¬ Near lr ss a)
    (hsh : Shift g a b) (hah : g.res / 2 ≤ |ahead g a.yaw ⟨b.x - a.x, b.y - a.y, 0⟩|) :
    ⟨b.x - a.x, b.y - a.y, 0⟩ ∈ searchGrids g c lr ss a ∧ ∃ v, cost g c u cm hy a b = .val v := by
  obtain ⟨hyaw, hd⟩ := hsh
  have hw : 0 ≤ a.yaw ∧ a.yaw < g.angle := ⟨ha.2.2.2.2.1, ha.2.2.2.2.2⟩
  refine ⟨((offered_iff g hs c lr ss a _ hw).2 hfar).mpr ⟨hd, rfl⟩, ?_⟩
  have hr : Reaches g a ⟨b.x - a.x, b.y - a.y, 0⟩ b := ⟨by simp, by simp, ⟨0, by simp [hyaw]⟩, hb.2.2.2.2.1, hb.2.2.2.2.2⟩
  have hne : ¬ (b.x - a.x = 0 ∧ b.y - a.y = 0) := by
    rintro ⟨h1, h2⟩
    rw [h1, h2] at hah
    have := hs.res_pos
    simp [ahead] at hah
    linarith
  exact free_move_accepted g hs hev { c with aspect := 0 } u cm hy hcm hhy a _ b ha hb
    ((primitive_iff g hs _ a.yaw _ hw).mpr ⟨by simp only; nlinarith, le_refl _, hs.angle_pos, Or.inr ⟨hne, Or.inl ⟨rfl, hah, fun _ => abs_nonneg _⟩⟩⟩) hr
    (fun _ h => absurd rfl h)

/-- The hypotheses of `plan_steps` can be met: the plan of `corridor_found`, whose steps are far from every start. -/
example : ∃ path : List (List Int), Search corridor false .found (true, path) ∧
    (path.map ofVec).IsChain (fun a b => (Near 0 [] a → ∃ p, Feasible g1 w0 a.yaw p ∧ Reaches g1 a p b) ∧ (¬ Near 0 [] a → Shift g1 a b)) := by
  obtain ⟨path, h⟩ := corridor_found
  refine ⟨path, h, plan_steps g1 g1_sane ⟨1, by norm_num [g1]⟩ (by norm_num [g1]) w0 true empty1 empty1 empty1_covers
    empty1_covers 0 [] 0 _ _ _ _ _ _ _ rfl ?_ h⟩
  intro s hs
  simp only [List.mem_singleton] at hs
  rw [hs]
  refine ⟨le_refl _, ?_⟩
  exact List.Forall₂.cons (by norm_num [g1]) (List.Forall₂.cons (by norm_num [g1]) (List.Forall₂.cons (by norm_num [g1]) .nil))

/-- The hypotheses of `far_slant` can be met, with a displacement of one cell ahead and four to the side; near the start it is not offered when the parameters ask for a ratio of at least 2. -/
example : InMap g0 ⟨10, 10, 0⟩ ∧ InMap g0 ⟨11, 14, 0⟩ ∧ ¬ Near 5 [⟨5, 10, 0⟩] ⟨10, 10, 0⟩ ∧ Near 6 [⟨5, 10, 0⟩] ⟨10, 10, 0⟩ ∧ Shift g0 ⟨10, 10, 0⟩ ⟨11, 14, 0⟩ ∧
    g0.res / 2 ≤ |ahead g0 0 ⟨11 - 10, 14 - 10, 0⟩| ∧ ¬ Feasible g0 { w0 with aspect := 2 } 0 ⟨11 - 10, 14 - 10, 0⟩ := by
  have hx : ahead g0 0 ⟨11 - 10, 14 - 10, 0⟩ = 1 := by norm_num [ahead, g0]
  have hy : aside g0 0 ⟨11 - 10, 14 - 10, 0⟩ = 4 := by norm_num [aside, g0]
  refine ⟨by norm_num [InMap, g0], by norm_num [InMap, g0], by norm_num [Near], by norm_num [Near], by norm_num [Shift, g0], by rw [hx]; norm_num [g0], ?_⟩
  rintro ⟨-, -, -, h | ⟨-, h | h⟩⟩
  · norm_num at h
  · have := h.2.2 (by rw [hy]; norm_num)
    rw [hx, hy] at this
    norm_num at this
  · exact h.1 rfl

end Verif.Model3D
