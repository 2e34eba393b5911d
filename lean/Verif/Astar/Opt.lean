import Verif.Astar.Complete

set_option linter.unusedSectionVars false
set_option linter.unusedVariables false

/-! Optimality of the one-task-per-round search (helper lemmas for C09). -/
namespace Verif.Astar
open Spec

variable {V C : Type} [DecidableEq V] [CostType C]

/-- Exact arithmetic laws needed for optimality (true of integers and rationals, also with a largest element added, not of rounded
floats). -/
structure ExactAdd (C : Type) [CostType C] : Prop where
  assoc : ∀ a b c : C, a + b + c = a + (b + c)
  mono_right : ∀ a b w : C, a ≤ b → w + a ≤ w + b
  mono_left : ∀ a b w : C, a ≤ b → a + w ≤ b + w
  strict_left : ∀ a b w : C, w ≠ CostType.top → a < b → a + w < b + w

/-- Assumptions of the optimality theorem. -/
structure OptHyp (P : Prob V C) : Prop where
  tasks : P.tasks = 1
  limit : P.limit = 0
  leave : ∀ v raw, P.leave (raw + P.estim v) raw = false
  leaveStart : ∀ s c, (s, c) ∈ P.starts → P.leave (P.startEstim s + c) c = false
  consistent : ∀ p c x, Route P p c → Move P p x → P.estim p ≤ P.cost p x + P.estim x
  startEstim : ∀ s c, (s, c) ∈ P.starts → P.startEstim s + c ≤ c + P.estim s
  startBest : ∀ s c c', (s, c) ∈ P.starts → Route P s c' → c ≤ c'
  starts0 : ∀ x ∈ P.starts, (0 : C) ≤ x.2 ∧ x.2 ≤ CostType.top
  top0 : (0 : C) ≤ CostType.top

/-- Relaxed: all admissible moves out of `v` are accounted for. -/
def Relaxed (P : Prob V C) (s : St V C) (v : V) : Prop := ∀ x, Move P v x → s.gh x ≤ s.gh v + P.cost v x

def Best (P : Prob V C) (s : St V C) (v : V) : Prop := ∀ c, Route P v c → s.gh v ≤ c

structure InvO (P : Prob V C) (s : St V C) (Q : V → Prop) : Prop where
  top : ∀ v, s.gh v ≤ CostType.top
  prio : ∀ e ∈ s.open_, s.gh e.v ≤ e.raw ∧
    (e.p = e.raw + P.estim e.v ∨ ((e.v, e.raw) ∈ P.starts))
  todo : ∀ v, s.gh v < CostType.top →
    (∃ e ∈ s.open_, e.v = v ∧ e.raw = s.gh v ∧ e.p ≤ s.gh v + P.estim v) ∨ Relaxed P s v ∨ Q v
  closed : ∀ v, s.g v ≠ s.gh v → Relaxed P s v ∧ Best P s v
  starts : ∀ x ∈ P.starts, s.gh x.1 ≤ x.2

theorem relaxed_mono {P : Prob V C} {s s' : St V C} (hm : ∀ v, s'.gh v ≤ s.gh v) {v : V}
    (hv : s'.gh v = s.gh v) (h : Relaxed P s v) : Relaxed P s' v := by
  intro x hx; rw [hv]; exact le_trans (hm x) (h x hx)

theorem invO_upd {P : Prob V C} {s s' : St V C} {u : Upd V C} {Q : V → Prop} (hl0 : P.limit = 0)
    (io : InvO P s Q) (inv : Inv P s) (hok : UpdOk P s u)
    (h : ActRel P.limit s (.upd u) s') :
    InvO P s' Q ∧ (∀ v, s'.gh v ≤ s.gh v) ∧ (∀ v, v ≠ u.p1 → s'.gh v = s.gh v ∧ s'.g v = s.g v) ∧
    (s.g u.p1 = s.gh u.p1 → s'.gh u.p1 ≤ u.cost) := by
  cases h with
  | skip _ hns =>
    exact ⟨io, fun v => le_refl _, fun v _ => ⟨rfl, rfl⟩, fun hg => by rw [← hg]; exact not_lt.mp hns⟩
  | push _ h hl =>
    have hg := (inv_push inv hok h).1
    have hm : ∀ v, setF s.gh u.p1 u.cost v ≤ s.gh v := setF_le (le_of_lt hg)
    obtain ⟨c, hc0, hrt, hcp, hk, hmv, hcost, hest⟩ := hok
    refine ⟨⟨fun v => le_trans (hm v) (io.top v), ?_, ?_, ?_, fun x hx => le_trans (hm _) (io.starts x hx)⟩,
      hm, fun v hv => ⟨by simp [setF, hv], by simp [setF, hv]⟩, fun _ => by simp [setF]⟩
    · intro e he
      rcases List.mem_cons.mp he with rfl | he
      · exact ⟨by simp [setF], .inl hest⟩
      · exact ⟨le_trans (hm _) (io.prio e he).1, (io.prio e he).2⟩
    · intro v hv
      by_cases hvx : v = u.p1
      · subst hvx
        exact .inl ⟨_, List.mem_cons_self, rfl, by simp [setF], by simp only [setF, if_true]; exact le_of_eq hest⟩
      · have hv' : s.gh v < CostType.top := by simpa [setF, hvx] using hv
        rcases io.todo v hv' with ⟨e, he, h1, h2, h3⟩ | h | h
        · exact .inl ⟨e, List.mem_cons_of_mem _ he, h1, by simp only [setF, if_neg hvx]; exact h2,
            by simp only [setF, if_neg hvx]; exact h3⟩
        · exact .inr (.inl (relaxed_mono (s' := { s with g := _, gh := setF s.gh u.p1 u.cost, par := _, open_ := _ })
            hm (by simp [setF, hvx]) h))
        · exact .inr (.inr h)
    · intro v hv
      by_cases hvx : v = u.p1
      · subst hvx; simp [setF] at hv
      · simp only [setF, if_neg hvx] at hv
        obtain ⟨h1, h2⟩ := io.closed v hv
        refine ⟨relaxed_mono (s' := { s with g := _, gh := setF s.gh u.p1 u.cost, par := _, open_ := _ })
          hm (by simp [setF, hvx]) h1, ?_⟩
        intro c' hr
        simp only [setF, if_neg hvx]
        exact h2 c' hr
  | pushDrop _ x rest h hl hx => rw [hl0] at hl; exact absurd hl.1 (lt_irrefl _)

theorem invO_upds {P : Prob V C} {s s' : St V C} {as : List (Act V C)} {Q : V → Prop}
    (hl0 : P.limit = 0) (io : InvO P s Q) (inv : Inv P s) (hok : ∀ a ∈ as, ActOk P s a)
    (hupd : ∀ a ∈ as, ∃ u, a = .upd u ∧ s.g u.p1 = s.gh u.p1)
    (h : ActsRel P.limit s as s') :
    InvO P s' Q ∧ (∀ v, s'.gh v ≤ s.gh v) ∧
    (∀ v, (∀ u, Act.upd u ∈ as → v ≠ u.p1) → s'.gh v = s.gh v ∧ s'.g v = s.g v) ∧
    (∀ u, Act.upd u ∈ as → s'.gh u.p1 ≤ u.cost) := by
  induction h with
  | nil => exact ⟨io, fun v => le_refl _, fun v _ => ⟨rfl, rfl⟩, by simp⟩
  | @cons s s1 s2 a as h1 h2 ih =>
    obtain ⟨u, rfl, hgu⟩ := hupd a (by simp)
    have hoku := hok _ (List.mem_cons_self (a := Act.upd u))
    obtain ⟨r1, r2, r3, r4⟩ := invO_upd hl0 io inv hoku h1
    have inv1 := inv_act inv hoku h1
    obtain ⟨q1, q2, q3, q4⟩ := ih r1 inv1
      (fun b hb => actOk_mono inv hoku (hok b (by simp [hb])) h1)
      (fun b hb => by
        obtain ⟨w, hw, hgw⟩ := hupd b (by simp [hb])
        refine ⟨w, hw, ?_⟩
        by_cases hwu : w.p1 = u.p1
        · rw [hwu]
          rw [hwu] at hgw
          cases h1 with
          | skip => exact hgw
          | push => simp [setF]
          | pushDrop => simp [setF]
        · rw [(r3 _ hwu).1, (r3 _ hwu).2]; exact hgw)
    refine ⟨q1, fun v => le_trans (q2 v) (r2 v), ?_, ?_⟩
    · intro v hv
      have hvu := hv u (by simp)
      obtain ⟨e1, e2⟩ := q3 v (fun w hw => hv w (by simp [hw]))
      rw [e1, e2]
      exact r3 v hvu
    · intro w hw
      rcases List.mem_cons.mp hw with hw | hw
      · obtain rfl := Act.upd.inj hw
        exact le_trans (q2 _) (r4 hgu)
      · exact q4 w hw

/-- Along any route below `top`, either the value is already at most the route cost or an open entry has
a priority at most the route's cost plus the estimate. -/
theorem witness {P : Prob V C} (ex : ExactAdd C) (hyp : OptHyp P) {s : St V C}
    (io : InvO P s (fun _ => False)) {v : V} {c : C} (hr : Route P v c) (hc : c < CostType.top) :
    s.gh v ≤ c ∨ ∃ e ∈ s.open_, e.p ≤ c + P.estim v := by
  induction hr with
  | start h => exact .inl (io.starts _ h)
  | @move p x c hr hm ih =>
    have hcx : c ≤ c + P.cost p x := CostType.le_add _ _ hm.2.2.1
    have hstep : c + P.estim p ≤ c + P.cost p x + P.estim x := by
      rw [ex.assoc]; exact ex.mono_right _ _ _ (hyp.consistent p c x hr hm)
    rcases ih (lt_of_le_of_lt hcx hc) with h | ⟨e, he, hp⟩
    · rcases io.todo p (lt_of_le_of_lt h (lt_of_le_of_lt hcx hc)) with ⟨e, he, h1, h2, h3⟩ | h' | h'
      · exact .inr ⟨e, he, le_trans h3 (le_trans (ex.mono_left _ _ _ h) hstep)⟩
      · exact .inl (le_trans (h' x hm) (ex.mono_left _ _ _ h))
      · exact absurd h' id
    · exact .inr ⟨e, he, le_trans hp hstep⟩

/-- An entry of minimal priority has an optimal raw cost if it carries the current value. -/
theorem best_of_min {P : Prob V C} (ex : ExactAdd C) (hyp : OptHyp P) {s : St V C}
    (io : InvO P s (fun _ => False)) {e : Ent V C} (he : e ∈ s.open_) (hmin : ∀ x ∈ s.open_, e.p ≤ x.p) :
    ∀ c, Route P e.v c → s.gh e.v ≤ c := by
  intro c hr
  by_contra hlt
  have hlt := not_le.mp hlt
  obtain ⟨h1, h2⟩ := io.prio e he
  rcases witness ex hyp io hr (lt_of_lt_of_le hlt (io.top _)) with h | ⟨x, hx, hxp⟩
  · exact absurd h (not_le.mpr hlt)
  · rcases h2 with h2 | h2
    · have h3 : e.raw + P.estim e.v ≤ c + P.estim e.v := by
        rw [← h2]; exact le_trans (hmin x hx) hxp
      have hest : P.estim e.v ≠ CostType.top := by
        generalize hv : e.v = v at hr
        cases hr with
        | start h => exact absurd (io.starts _ h) (not_le.mpr (hv ▸ hlt))
        | move _ hm => exact hm.2.1.2
      exact absurd h3 (not_le.mpr (ex.strict_left _ _ _ hest (lt_of_lt_of_le hlt h1)))
    · exact absurd (hyp.startBest _ _ _ h2 hr) (not_le.mpr (lt_of_lt_of_le hlt h1))

theorem expandOne_none {P : Prob V C} {g : V → C} {p x : V} {c : C} (hm : Move P p x)
    (h : expandOne P g p c x = none) : g x < g p ∨ g x ≤ c + P.cost p x := by
  unfold expandOne at h
  split at h
  · rename_i h1; exact .inl h1
  · rw [if_neg (not_rejected.mpr hm.2.1), if_neg (not_rejected.mpr hm.2.2)] at h
    split at h
    · cases h
    · rename_i h1; exact .inr (not_lt.mp h1)

theorem invO_round {P : Prob V C} (ex : ExactAdd C) (hyp : OptHyp P) {s s' : St V C}
    (inv : Inv P s) (io : InvO P s (fun _ => False)) (h : Round P s s') :
    InvO P s' (fun _ => False) := by
  cases h with
  | mk hc hne hp hb ha =>
    rename_i cs o' b acts
    rw [hyp.tasks] at hc
    -- exactly one center
    generalize ho : s.open_ = o at hc
    cases hc with
    | empty => exact absurd rfl hne
    | @take _ _ e rest cs' _ _ hpo hmin hh hc' =>
      cases hc' with
      | full =>
        subst ho
        have heo : e ∈ s.open_ := hpo.symm.subset (by simp)
        have hro : ∀ x ∈ o', x ∈ s.open_ := fun x hx => hpo.symm.subset (List.mem_cons_of_mem _ hx)
        have hbest := best_of_min ex hyp io heo hmin
        generalize hs0 : ({ s with open_ := o', better := b } : St V C) = s0 at ha
        have inv0 : Inv P s0 := by
          subst hs0
          refine ⟨fun x hx => inv.ents x (hro x hx), inv.ghost, inv.par, inv.reach, ?_⟩
          rcases hb with rfl | ⟨x, hx, rfl⟩
          · exact inv.better
          · simp only [List.mem_singleton] at hx
            subst hx; exact (inv.ents x heo).2.2.1
        simp only [List.flatMap_cons, List.flatMap_nil, List.append_nil] at hp
        have io0 : InvO P s0 (fun v => v = e.v ∧ ¬ e.raw > s.g e.v) := by
          subst hs0
          refine ⟨io.top, fun x hx => io.prio x (hro x hx), ?_, io.closed, io.starts⟩
          intro v hv
          rcases io.todo v hv with ⟨x, hx, h1, h2, h3⟩ | h | h
          · rcases List.mem_cons.mp (hpo.subset hx) with rfl | hx'
            · subst h1
              by_cases hg : s.g x.v = s.gh x.v
              · refine .inr (.inr ⟨rfl, ?_⟩)
                rw [hg, h2]; exact lt_irrefl _
              · exact .inr (.inl (io.closed _ hg).1)
            · exact .inl ⟨x, hx', h1, h2, h3⟩
          · exact .inr (.inl h)
          · exact absurd h id
        by_cases hst : e.raw > s.g e.v
        · -- stale: nothing to do
          have hnil : expand P s.g e = [] := by unfold expand; rw [if_pos hst]
          rw [hnil] at hp
          have := hp.eq_nil
          subst this
          cases ha with
          | nil =>
            refine ⟨io0.top, io0.prio, ?_, io0.closed, io0.starts⟩
            intro v hv
            rcases io0.todo v hv with h | h | h
            · exact .inl h
            · exact .inr (.inl h)
            · exact absurd hst h.2
        · -- fresh
          have hge : s.g e.v = s.gh e.v := by
            rcases inv.ghost e.v with h | h
            · exact h
            · exfalso
              rw [h] at hst
              exact hst (lt_of_lt_of_le CostType.neg1_lt_zero (inv.ents e heo).1)
          have hraw : e.raw = s.gh e.v :=
            le_antisymm (by rw [← hge]; exact not_lt.mp hst) (io.prio e heo).1
          have hroute : Route P e.v e.raw := (inv.ents e heo).2.2.2
          -- cells that get no update are already fine
          have hnone : ∀ x, Move P e.v x → expandOne P s.g e.v e.raw x = none →
              s.gh x ≤ s.gh e.v + P.cost e.v x := by
            intro x hm hn
            by_cases hgx : s.g x = s.gh x
            · rcases expandOne_none hm hn with h | h
              · rw [hgx, hge] at h
                exact le_trans (le_of_lt h) (CostType.le_add _ _ hm.2.2.1)
              · rw [hgx, hraw] at h; exact h
            · rw [← hraw]; exact (io.closed x hgx).2 _ (.move hroute hm)
          subst hs0
          by_cases hemp : ((P.nexts e.v).filterMap (expandOne P s.g e.v e.raw)).isEmpty = true
          · have hex : expand P s.g e = [.dont e.v] := by
              unfold expand; rw [if_neg hst]; simp only; rw [if_pos hemp]
            rw [hex] at hp
            obtain rfl := List.perm_singleton.mp hp
            have hrel : Relaxed P s e.v := by
              intro x hm
              refine hnone x hm ?_
              by_contra hne'
              obtain ⟨u, hu⟩ := Option.ne_none_iff_exists'.mp hne'
              have : u ∈ (P.nexts e.v).filterMap (expandOne P s.g e.v e.raw) :=
                List.mem_filterMap.mpr ⟨x, hm.1, hu⟩
              rw [List.isEmpty_iff] at hemp
              rw [hemp] at this; simp at this
            cases ha with
            | cons h1 h2 =>
              cases h2
              cases h1
              refine ⟨io0.top, io0.prio, ?_, ?_, io0.starts⟩
              · intro v hv
                rcases io0.todo v hv with h | h | h
                · exact .inl h
                · exact .inr (.inl h)
                · obtain ⟨rfl, _⟩ := h
                  exact .inr (.inl hrel)
              · intro v hv
                by_cases hve : v = e.v
                · subst hve; exact ⟨hrel, hbest⟩
                · simp only [setF, if_neg hve] at hv
                  exact io.closed v hv
          · have hex : expand P s.g e =
                ((P.nexts e.v).filterMap (expandOne P s.g e.v e.raw)).map .upd := by
              unfold expand; rw [if_neg hst]; simp only; rw [if_neg hemp]
            have hmem : ∀ a ∈ acts, a ∈ expand P s.g e := fun a h => hp.subset h
            have hupd : ∀ a ∈ acts, ∃ u, a = .upd u ∧ s.g u.p1 = s.gh u.p1 := by
              intro a ha'
              have := hmem a ha'
              rw [hex, List.mem_map] at this
              obtain ⟨u, hu, rfl⟩ := this
              refine ⟨u, rfl, ?_⟩
              obtain ⟨e0, hm, hcost, _, hle, hgt, _⟩ := expand_upd (hmem _ ha')
              rcases inv.ghost u.p1 with h | h
              · exact h
              · exfalso
                have h0 : (0 : C) ≤ u.cost := by
                  rw [hcost]; exact le_trans (inv.ents e heo).1 (CostType.le_add _ _ hm.2.2.1)
                rw [h] at hgt
                exact absurd (lt_trans hgt CostType.neg1_lt_zero) (not_lt.mpr h0)
            obtain ⟨q1, q2, q3, q4⟩ := invO_upds hyp.limit io0 inv0
              (fun a ha' => by
                have := actOk_expand inv heo (hmem a ha')
                cases a with
                | dont => trivial
                | upd u => exact this) hupd ha
            have hself : s'.gh e.v = s.gh e.v := by
              refine (q3 e.v ?_).1
              intro u hu heq
              obtain ⟨e0, hm, hcost, _, hle, hgt, _⟩ := expand_upd (hmem _ hu)
              rw [← heq, hge, ← hraw, hcost] at hgt
              exact absurd hgt (not_lt.mpr (CostType.le_add _ _ hm.2.2.1))
            refine ⟨q1.top, q1.prio, ?_, q1.closed, q1.starts⟩
            intro v hv
            rcases q1.todo v hv with h | h | h
            · exact .inl h
            · exact .inr (.inl h)
            · obtain ⟨rfl, _⟩ := h
              refine .inr (.inl ?_)
              intro x hm
              rw [hself]
              cases hone : expandOne P s.g e.v e.raw x with
              | none => exact le_trans (q2 x) (hnone x hm hone)
              | some u =>
                have hu : Act.upd u ∈ acts := by
                  refine hp.symm.subset ?_
                  rw [hex]
                  exact List.mem_map_of_mem (List.mem_filterMap.mpr ⟨x, hm.1, hone⟩)
                obtain ⟨rfl, _⟩ := expandOne_some hone
                have := q4 _ hu
                simp only at this
                rw [← hraw]; exact this

theorem invO_reach {P : Prob V C} (ex : ExactAdd C) (hyp : OptHyp P) {s : St V C} (h : Reach P s) :
    InvO P s (fun _ => False) := by
  induction h with
  | init b hb =>
    have hinit : ∀ v, (init P b).gh v = CostType.top ∨ (v, (init P b).gh v) ∈ P.starts := by
      intro v; exact foldl_setF_cases P.starts _ v
    have hrec : ∀ v ∈ SS P, (v, (init P b).gh v) ∈ P.starts := by
      intro v hv; exact foldl_setF_mem P.starts _ v hv
    have hle : ∀ x ∈ P.starts, (init P b).gh x.1 ≤ x.2 := by
      intro x hx
      exact hyp.startBest _ _ _ (hrec x.1 (List.mem_map_of_mem hx)) (.start hx)
    refine ⟨?_, ?_, ?_, fun v hv => absurd rfl hv, hle⟩
    · intro v
      rcases hinit v with h | h
      · exact le_of_eq h
      · exact (hyp.starts0 _ h).2
    · intro e he
      simp only [init, List.mem_map] at he
      obtain ⟨x, hx, rfl⟩ := he
      exact ⟨hle x hx, .inr hx⟩
    · intro v hv
      rcases hinit v with h | h
      · rw [h] at hv; exact absurd hv (lt_irrefl _)
      · refine .inl ⟨_, List.mem_map_of_mem (f := fun s : V × C =>
          (⟨P.startEstim s.1 + s.2, s.2, s.1⟩ : Ent V C)) h, rfl, rfl, ?_⟩
        exact hyp.startEstim _ _ h
  | round hr h ih =>
    exact invO_round ex hyp (inv_reach (fun x hx => (hyp.starts0 x hx).1) hr) ih h

/-- Cost along the chain of parents is at most the recorded value. -/
theorem movesCost_le {P : Prob V C} (ex : ExactAdd C) {s : St V C} (inv : Inv P s) :
    ∀ (t : List V) (b : V) (acc : C),
      (b :: t).IsChain (fun a b => b ∉ SS P ∧ plookup s.par b = some a) → b ∉ SS P → acc ≤ s.gh b →
      movesCost P (b :: t) acc ≤ s.gh ((b :: t).getLast (by simp))
  | [], b, acc, _, _, h => by simpa [movesCost] using h
  | d :: t, b, acc, hch, hb, h => by
    rw [List.isChain_cons_cons] at hch
    obtain ⟨⟨hd, hpar⟩, hch⟩ := hch
    obtain ⟨hm, c, hrt, hc, heq⟩ := inv.par d b hpar
    have := movesCost_le ex inv t d (acc + P.cost b d) hch hd (by
      rw [heq]; exact ex.mono_left _ _ _ (le_trans h (hc hb)))
    simpa [movesCost] using this

theorem pathCost_le {P : Prob V C} (ex : ExactAdd C) (hyp : OptHyp P) {s : St V C} (inv : Inv P s)
    (io : InvO P s (fun _ => False)) {l : List V} {v : V} (hl : LegalPath P l v)
    (hch : l.IsChain (fun a b => b ∉ SS P ∧ plookup s.par b = some a))
    (hvr : s.gh v = CostType.top ∨ Route P v (s.gh v)) :
    ∃ c0, (l.head hl.ne, c0) ∈ P.starts ∧ movesCost P l c0 ≤ s.gh v := by
  obtain ⟨hne, hfirst, hlast, hmoves⟩ := hl
  obtain ⟨⟨s0, c0⟩, hs0, hs0e⟩ := List.mem_map.mp hfirst
  refine ⟨c0, by rw [← hs0e]; exact hs0, ?_⟩
  match l, hne, hlast, hch, hs0e with
  | [a], _, hlast, _, hs0e =>
    simp only [List.head_cons] at hs0e
    simp only [List.getLast_singleton] at hlast
    subst hlast
    subst hs0e
    simp only [movesCost]
    rcases hvr with h | h
    · rw [h]; exact (hyp.starts0 _ hs0).2
    · exact hyp.startBest _ _ _ hs0 h
  | a :: b :: t, _, hlast, hch, hs0e =>
    rw [List.isChain_cons_cons] at hch
    obtain ⟨⟨hb, hpar⟩, hch⟩ := hch
    obtain ⟨hm, c, hrt, hc, heq⟩ := inv.par b a hpar
    simp only [List.head_cons] at hs0e
    subst hs0e
    have h1 : c0 + P.cost s0 b ≤ s.gh b := by
      rw [heq]; exact ex.mono_left _ _ _ (hyp.startBest _ _ _ hs0 hrt)
    have := movesCost_le ex inv t b _ hch hb h1
    have hl2 : (b :: t).getLast (by simp) = v := by rw [← hlast]; simp
    rw [hl2] at this
    simpa [movesCost] using this

end Verif.Astar
