import Verif.Service.Lemmas
import Mathlib.Algebra.BigOperators.Group.List.Lemmas
/-! # Costs of ways, and cheapest ones -/
set_option linter.unusedVariables false
namespace Verif.Service
open Verif.GridMetric (Cell Pose)
open Verif.CSpace (lround)
open Verif.Model3D
open Verif.Model3D.Spec (Sane Nonneg Free)
open Verif.Astar (CostType)
open Verif.Astar.Vec (VProb Search Why toProb)

theorem motion_nodup (g : Geo) (s : Int) (d : Cell) : (page g s d).motion.Nodup := by
  unfold page
  simp only
  have : ∀ (ks : List Nat) (m : List Cell), m.Nodup →
      (ks.foldl (fun m k => record d m (cellOf g (sampleAt g s d (ratioOf g d k)))) m).Nodup := by
    intro ks
    induction ks with
    | nil => intro m h; exact h
    | cons k ks ih =>
      intro m h
      rw [List.foldl_cons]
      apply ih
      unfold record
      split
      · rename_i hk
        rw [List.nodup_append]
        refine ⟨h, List.nodup_singleton _, ?_⟩
        intro x hx y hy
        rw [List.mem_singleton] at hy
        subst hy
        rintro rfl
        exact hk.2 hx
      · exact h
  exact this _ _ List.nodup_nil

theorem scan_value (cm hy : Cell → Option Int) (thr : Int) : ∀ (l : List Cell) (s t h s' t' h' : Int),
    scan cm hy false thr l s t h = .sums s' t' h' → s' = s + (l.map fun p => (cm p).getD 0).sum := by
  intro l
  induction l with
  | nil =>
    intro s t h s' t' h' he
    simp only [scan, Scan.sums.injEq] at he
    simp [he.1]
  | cons q l ih =>
    intro s t h s' t' h' he
    simp only [scan] at he
    cases hc : cm q with
    | none => rw [hc] at he; cases he
    | some c =>
      rw [hc] at he
      simp only [Bool.false_eq_true, if_false] at he
      split at he
      · cases he
      · rw [ih _ _ _ _ _ _ he, List.map_cons, List.sum_cons, hc]
        simp only [Option.getD_some]
        ring

/-- The cost of a move, computed by the model, is the specified one. -/
theorem leg_value (n : Node) (hs : Sane n.geo) (a b : Cell) (v : ℝ) (h : cost2D n.geo n.wt (roughAt n) a b = .val v) :
    v = legCost n a b := by
  obtain ⟨hne, hr, -⟩ := (cost_iff n hs a b).1 ⟨v, h⟩
  unfold cost2D at h
  simp only at h
  rw [find_zero n hs _ _ hne hr] at h
  simp only at h
  generalize hpg : page n.geo 0 ⟨b.x - a.x, b.y - a.y, 0⟩ = pg at h
  have hdist : pg.distance = √(((b.x - a.x) ^ 2 + (b.y - a.y) ^ 2 : Int) : ℝ) := by
    rw [← hpg]
    unfold page
    have hst : IsStraight n.geo 0 ⟨b.x - a.x, b.y - a.y, 0⟩ := by
      unfold IsStraight
      rw [straight_zero]
      norm_num
    simp only
    rw [if_pos hst]
    unfold len sqlen
    simp only
    congr 2
    ring
  have hmem := fun p => mem_cells n hs a (b.x - a.x) (b.y - a.y) hne p
  rw [hpg] at hmem
  have hnd : pg.motion.Nodup := hpg ▸ motion_nodup _ _ _
  have hyaw : ∀ q ∈ pg.motion, q.yaw = 0 := by
    intro q hq
    rw [← hpg] at hq
    obtain ⟨k, -, rfl, -⟩ := (mem_motion n.geo 0 _ q).1 hq
    rw [cell_straight n hs]
  let L := pg.motion.map fun q => (a.x + q.x, a.y + q.y)
  have hL : L.Nodup := by
    refine (List.nodup_map_iff_inj_on hnd).2 ?_
    intro x hx y hy hxy
    rw [Prod.mk.injEq] at hxy
    have h1 := hyaw x hx
    have h2 := hyaw y hy
    rcases x with ⟨x1, x2, x3⟩
    rcases y with ⟨y1, y2, y3⟩
    simp only at hxy h1 h2
    rw [Cell.mk.injEq]
    omega
  have hset : L.toFinset = crossed n a b := by
    ext ⟨i, j⟩
    have hi := hmem ⟨i, j, 0⟩
    simp only [L, crossed, List.mem_toFinset, List.mem_map, Finset.mem_erase, ne_eq, Finset.mem_image, Finset.mem_range, Prod.mk.injEq] at hi ⊢
    have hi' : (∃ q ∈ pg.motion, a.x + q.x = i ∧ a.y + q.y = j) ↔ ∃ q ∈ pg.motion, (⟨a.x + q.x, a.y + q.y, 0⟩ : Cell) = ⟨i, j, 0⟩ := by
      simp only [Cell.mk.injEq, and_true]
    rw [hi', hi]
    constructor
    · rintro ⟨k, hk, hd, he⟩
      rw [Cell.mk.injEq] at he
      obtain ⟨rfl, rfl, -⟩ := he
      refine ⟨?_, k, by omega, rfl, rfl⟩
      rintro ⟨h1, h2⟩
      exact hd ⟨by omega, by omega⟩
    · rintro ⟨hd, k, hk, rfl, rfl⟩
      refine ⟨k, Int.lt_toNat.1 hk, ?_, rfl⟩
      rintro ⟨h1, h2⟩
      exact hd ⟨by omega, by omega⟩
  have hlen : (pg.motion.length : ℝ) = ((crossed n a b).card : ℝ) := by
    rw [← hset, List.toFinset_card_of_nodup hL]
    simp [L]
  have hsum : ∀ s t hh, scan (roughAt n) (roughAt n) false 0 (pg.motion.map fun q => (⟨a.x + q.x, a.y + q.y, 0⟩ : Cell)) 0 0 0 = .sums s t hh →
      (s : ℝ) = ∑ c ∈ crossed n a b, (n.rough ⟨c.1, c.2, 0⟩ : ℝ) := by
    intro s t hh he
    have hf := scan_free _ _ _ _ _ _ _ _ _ _ _ he
    rw [scan_value _ _ _ _ _ _ _ _ _ _ he, ← hset, List.sum_toFinset _ hL]
    push_cast
    rw [zero_add, List.map_map, List.map_map, List.map_map]
    congr 1
    refine List.map_congr_left ?_
    intro q hq
    obtain ⟨c, hc, -⟩ := hf ⟨a.x + q.x, a.y + q.y, 0⟩ (List.mem_map.2 ⟨q, hq, rfl⟩)
    simp only [Function.comp_apply]
    rw [hc]
    simp only [Option.getD_some]
    unfold roughAt at hc
    split at hc
    · cases hc; rfl
    · cases hc
  split at h
  · cases h
  · cases h
  · rename_i s t hh hscan
    rw [Res.val.injEq] at h
    rw [← h, euclidCostRough_eq, hsum s t hh hscan, hlen, hdist]
    unfold legCost Model3D.Spec.cellDist
    simp only [sub_zero]
    congr 1
    rw [mul_comm (100 : ℝ), ← div_div]
    ring

/-! ### Cheapest ways -/

theorem exact_add : Verif.Astar.ExactAdd (WithTop ℝ) where
  assoc a b c := add_assoc a b c
  mono_right a b w h := add_le_add_right h w
  mono_left a b w h := add_le_add_left h w
  strict_left a b w hw h := by
    have hw : w ≠ ⊤ := hw
    exact WithTop.add_lt_add_right hw h

theorem norm_within (n : Node) (hr : Runs n) (junk : WithTop ℝ) (s e t : Cell) (ht : Within n t) :
    Verif.Astar.Vec.norm (problem n junk s e) (toVec t) = toVec t :=
  ((Verif.Astar.Vec.norm_iff (wellFormed n hr junk s e) (v := toVec t) rfl).1 ((normal_within n hr junk s e t t ht.2.2.2.2).2 rfl)).symm

theorem prob_starts (n : Node) (hr : Runs n) (junk : WithTop ℝ) (s e : Cell) (hs : Within n s) :
    (toProb (problem n junk s e)).starts = [(toVec s, 0)] := by
  have : (toProb (problem n junk s e)).starts = [(Verif.Astar.Vec.norm (problem n junk s e) (toVec s), 0)] := rfl
  rw [this, norm_within n hr junk s e s hs]

theorem move_leg (n : Node) (hr : Runs n) (junk : WithTop ℝ) (s e a : Cell) (ha : Within n a) (x : List Int) :
    Verif.Astar.Spec.Move (toProb (problem n junk s e)) (toVec a) x ↔ ∃ b, x = toVec b ∧ Within n b ∧ Leg n a b := by
  rw [Verif.Astar.Vec.move_iff (wellFormed n hr junk s e) (p := toVec a) rfl]
  constructor
  · intro h
    obtain ⟨h1, h2⟩ := inMap_vec n.geo x h.2.1
    rw [h1] at h
    exact ⟨ofVec x, h1, h2, (step_iff n hr junk s e a _ ha).1 h⟩
  · rintro ⟨b, rfl, -, h⟩
    exact (step_iff n hr junk s e a b ha).2 h

theorem leg_cost (n : Node) (hr : Runs n) (junk : WithTop ℝ) (s e a b : Cell) (h : Leg n a b) :
    (toProb (problem n junk s e)).cost (toVec a) (toVec b) = (legCost n a b : WithTop ℝ) ∧ 0 ≤ legCost n a b ∧
    ∀ c, costEstim2D n.wt a c ≤ legCost n a b + costEstim2D n.wt b c := by
  obtain ⟨⟨v, hv⟩, -⟩ := (leg_iff n hr.geo a b).1 h
  have hval := leg_value n hr.geo a b v hv
  rw [← hval]
  refine ⟨?_, cost_nonneg n hr a b v hv, ?_⟩
  · change encode junk (cost2D n.geo n.wt (roughAt n) a b) = _
    rw [hv]; rfl
  · intro c
    refine (estim2D_consistent n.geo hr.geo n.wt hr.wt (roughAt n) ?_ a b c v hv).1
    intro p x hx
    unfold roughAt at hx
    split at hx
    · rename_i hin
      cases hx; exact hr.nonneg p hin
    · cases hx

theorem within_route (n : Node) (hr : Runs n) (junk : WithTop ℝ) (s e : Cell) (hs : Within n s) {p : List Int} {c : WithTop ℝ}
    (h : Verif.Astar.Spec.Route (toProb (problem n junk s e)) p c) : 0 ≤ c ∧ ∃ a, Within n a ∧ p = toVec a := by
  induction h with
  | start h =>
    rw [prob_starts n hr junk s e hs, List.mem_singleton, Prod.mk.injEq] at h
    rw [h.1, h.2]
    exact ⟨le_refl _, s, hs, rfl⟩
  | move _ hm ih =>
    obtain ⟨h0, a, ha, rfl⟩ := ih
    refine ⟨le_trans h0 (CostType.le_add _ _ hm.2.2.1), ?_⟩
    obtain ⟨b, rfl, hb, -⟩ := (move_leg n hr junk s e a ha _).1 hm
    exact ⟨b, hb, rfl⟩

theorem opt_hyp (n : Node) (hr : Runs n) (ht : n.tasks = 1) (hl : n.limit = 0) (junk : WithTop ℝ) (s e : Cell) (hs : Within n s) :
    Verif.Astar.OptHyp (toProb (problem n junk s e)) where
  tasks := ht
  limit := hl
  leave v raw := by
    have h0 : (0 : WithTop ℝ) ≤ ((costEstim2D n.wt (ofVec v) e : ℝ) : WithTop ℝ) := WithTop.coe_le_coe.mpr (estim_nonneg n hr.wt _ _)
    exact decide_eq_false (not_lt.2 (le_add_of_nonneg_right h0))
  leaveStart v raw _ := by
    have h0 : (0 : WithTop ℝ) ≤ (((⌊costEstim2D n.wt (ofVec v) e⌋ : Int) : ℝ) : WithTop ℝ) :=
      WithTop.coe_le_coe.mpr (Int.cast_nonneg (Int.floor_nonneg.2 (estim_nonneg n hr.wt _ _)))
    exact decide_eq_false (not_lt.2 (le_add_of_nonneg_left h0))
  consistent p c x hp hm := by
    obtain ⟨-, a, ha, rfl⟩ := within_route n hr junk s e hs hp
    obtain ⟨b, rfl, hb, hleg⟩ := (move_leg n hr junk s e a ha _).1 hm
    obtain ⟨h1, -, h3⟩ := leg_cost n hr junk s e a b hleg
    rw [h1]
    exact WithTop.coe_le_coe.2 (h3 e)
  startEstim v c h := by
    rw [prob_starts n hr junk s e hs, List.mem_singleton, Prod.mk.injEq] at h
    rw [h.2]
    change (((⌊costEstim2D n.wt (ofVec v) e⌋ : Int) : ℝ) : WithTop ℝ) + 0 ≤ 0 + ((costEstim2D n.wt (ofVec v) e : ℝ) : WithTop ℝ)
    rw [add_zero, zero_add]
    exact WithTop.coe_le_coe.2 (Int.floor_le _)
  startBest v c c' h hr' := by
    rw [prob_starts n hr junk s e hs, List.mem_singleton, Prod.mk.injEq] at h
    rw [h.2]
    exact (within_route n hr junk s e hs hr').1
  starts0 x h := by
    rw [prob_starts n hr junk s e hs, List.mem_singleton] at h
    rw [h]
    exact ⟨le_refl _, le_top⟩
  top0 := le_top

theorem moves_way (n : Node) (hr : Runs n) (junk : WithTop ℝ) (s e : Cell) : ∀ (cells : List Cell) (r : ℝ), cells.IsChain (Leg n) →
    Verif.Astar.Spec.movesCost (toProb (problem n junk s e)) (cells.map toVec) (r : WithTop ℝ) = ((r + wayCost n cells : ℝ) : WithTop ℝ) := by
  intro cells
  induction cells with
  | nil => intro r _; simp [Verif.Astar.Spec.movesCost, wayCost]
  | cons a rest ih =>
    intro r h
    cases rest with
    | nil => simp [Verif.Astar.Spec.movesCost, wayCost]
    | cons b rest =>
      rw [List.isChain_cons_cons] at h
      simp only [List.map_cons, Verif.Astar.Spec.movesCost] at ih ⊢
      rw [(leg_cost n hr junk s e a b h.1).1]
      have := ih (r + legCost n a b) h.2
      rw [wayCost, ← add_assoc]
      exact this

theorem route_way (n : Node) (hr : Runs n) (junk : WithTop ℝ) (s e : Cell) (hs : Within n s) : ∀ (cells : List Cell) (a : Cell) (r : ℝ),
    Within n a → Verif.Astar.Spec.Route (toProb (problem n junk s e)) (toVec a) (r : WithTop ℝ) →
    Leads n a e cells → Verif.Astar.Spec.Route (toProb (problem n junk s e)) (toVec e) ((r + wayCost n cells : ℝ) : WithTop ℝ) := by
  intro cells
  induction cells with
  | nil => rintro a r _ _ ⟨h, -⟩; cases h
  | cons a rest ih =>
    rintro a' r ha hroute ⟨h1, h2, h3⟩
    cases h1
    cases rest with
    | nil =>
      cases h2
      simpa [wayCost] using hroute
    | cons b rest =>
      rw [List.isChain_cons_cons] at h3
      have hb := leg_within n a b ha h3.1
      have hm := (move_leg n hr junk s e a ha (toVec b)).2 ⟨b, rfl, hb, h3.1⟩
      have hroute' := Verif.Astar.Spec.Route.move hroute hm
      rw [(leg_cost n hr junk s e a b h3.1).1] at hroute'
      have := ih b (r + legCost n a b) hb hroute' ⟨rfl, by rwa [List.getLast?_cons_cons] at h2, h3.2⟩
      rw [wayCost, ← add_assoc]
      exact this

/-- With one task per round and no queue limit, the cells of the path found are a cheapest way. -/
theorem found_cheapest (n : Node) (hr : Runs n) (ht : n.tasks = 1) (hl : n.limit = 0) (junk : WithTop ℝ) (s e : Cell) (hs : Within n s)
    (he : Within n e) {why : Why} {path : List (List Int)} (h : Search (problem n junk s e) n.findBest why (true, path)) :
    ∀ cells, Leads n s e cells → wayCost n (path.map ofVec) ≤ wayCost n cells := by
  intro cells hc
  obtain ⟨hlead, hwith, hpath⟩ := found_leads n hr junk s e hs he h
  have hgoal : (toProb (problem n junk s e)).goal = toVec e := norm_within n hr junk s e e he
  have hroute := route_way n hr junk s e hs cells s 0 hs (.start (by rw [prob_starts n hr junk s e hs]; exact List.mem_singleton.2 rfl)) hc
  generalize hres : (true, path) = r at h
  cases h with
  | noStart => cases hres
  | same => cases hres
  | @run st f h1 h2 hf =>
    cases f with
    | exhausted => simp only [Verif.Astar.result] at hres; split at hres <;> cases hres
    | aborted => simp only [Verif.Astar.result] at hres; split at hres <;> cases hres
    | found x =>
      obtain ⟨-, l, c0, hl1, ⟨hl2, hl3⟩, hl4⟩ := Verif.Astar.path_optimal (rb := n.findBest) exact_add (opt_hyp n hr ht hl junk s e hs) hf
      rw [← hres] at hl1
      cases hl1
      rw [prob_starts n hr junk s e hs, List.mem_singleton, Prod.mk.injEq] at hl3
      rw [hgoal] at hl4
      have := hl4 _ hroute
      rw [hl3.2, ← hpath] at this
      have hm := moves_way n hr junk s e (path.map ofVec) 0 hlead.legs
      rw [WithTop.coe_zero] at hm
      rw [hm] at this
      have := WithTop.coe_le_coe.1 this
      linarith

end Verif.Service
