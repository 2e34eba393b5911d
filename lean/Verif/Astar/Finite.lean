import Verif.Astar.Term
import Mathlib.Data.Set.Finite.List
import Mathlib.Data.Set.Finite.Lattice
set_option linter.unusedSectionVars false
set_option linter.unusedVariables false
/-! The search computes only finitely many costs, whatever the type of costs: no run of it is infinite (C08). -/
namespace Verif.Astar
open Spec

variable {V C : Type} [DecidableEq V] [CostType C]

/-- A way from a start to a cell that enters no cell twice (`l`: the cells entered, last first), with its cost; where it enters a cell, the
map's value is not higher than the cost so far. -/
inductive Trail (P : Prob V C) (gh : V → C) : List V → V → C → Prop
  | start {x : V × C} (h : x ∈ P.starts) : Trail P gh [] x.1 x.2
  | move {l p c x} (h : Trail P gh l p c) (hm : Move P p x) (hle : gh x ≤ c + P.cost p x) (hn : x ∉ l) : Trail P gh (x :: l) x (c + P.cost p x)

theorem Trail.mono {P : Prob V C} {gh gh' : V → C} {l : List V} {v : V} {c : C} (h : Trail P gh l v c) (hle : ∀ v, gh' v ≤ gh v) : Trail P gh' l v c := by
  induction h with
  | start h => exact .start h
  | move h hm hl hn ih => exact .move ih hm (le_trans (hle _) hl) hn

theorem Trail.low {P : Prob V C} {gh : V → C} {l : List V} {v : V} {c : C} (h : Trail P gh l v c) : ∀ x ∈ l, gh x ≤ c := by
  induction h with
  | start h => intro x hx; cases hx
  | @move l p c x h hm hl hn ih =>
    intro y hy
    rcases List.mem_cons.mp hy with rfl | hy
    · exact hl
    · exact le_trans (ih y hy) (CostType.le_add _ _ hm.2.2.1)

theorem Trail.nodup {P : Prob V C} {gh : V → C} {l : List V} {v : V} {c : C} (h : Trail P gh l v c) : l.Nodup := by
  induction h with
  | start h => exact List.nodup_nil
  | move h hm hl hn ih => exact List.nodup_cons.mpr ⟨hn, ih⟩

theorem Trail.inside {P : Prob V C} {L : List V} (hL : Closed P L) {gh : V → C} {l : List V} {v : V} {c : C} (h : Trail P gh l v c) :
    v ∈ L ∧ ∀ x ∈ l, x ∈ L := by
  induction h with
  | start h => exact ⟨hL.1 _ h, fun x hx => by cases hx⟩
  | @move l p c x h hm hl hn ih =>
    have hx := hL.2 p ih.1 x hm.1
    exact ⟨hx, fun y hy => (List.mem_cons.mp hy).elim (fun k => k ▸ hx) (ih.2 y)⟩

/-- The cost of the way with the given start and cells. -/
def trailCost (P : Prob V C) (x : V × C) : List V → C
  | [] => x.2
  | v :: l => trailCost P x l + P.cost (l.headD x.1) v

theorem Trail.value {P : Prob V C} {gh : V → C} {l : List V} {v : V} {c : C} (h : Trail P gh l v c) :
    ∃ x ∈ P.starts, l.headD x.1 = v ∧ trailCost P x l = c := by
  induction h with
  | start h => exact ⟨_, h, rfl, rfl⟩
  | @move l p c x h hm hl hn ih =>
    obtain ⟨y, h1, h2, h3⟩ := ih
    exact ⟨y, h1, rfl, by rw [trailCost, h3, h2]⟩

/-- The costs that can occur. -/
def Occurs (P : Prob V C) (c : C) : Prop := c = CostType.top ∨ c = CostType.neg1 ∨ ∃ gh l v, Trail P gh l v c

theorem occurs_finite {P : Prob V C} {L : List V} (hL : Closed P L) : {c | Occurs P c}.Finite := by
  have hl : {l : List V | (∀ x ∈ l, x ∈ L) ∧ l.length ≤ L.length}.Finite := by
    have h1 := List.finite_length_le {v // v ∈ L} L.length
    refine (h1.image (List.map Subtype.val)).subset ?_
    rintro l ⟨hin, hlen⟩
    refine ⟨l.attach.map fun x => ⟨x.1, hin x.1 x.2⟩, by simpa using hlen, ?_⟩
    simp
  have hs : {x : V × C | x ∈ P.starts}.Finite := List.finite_toSet P.starts
  have himg := (hs.prod hl).image fun x => trailCost P x.1 x.2
  refine ((Set.finite_singleton CostType.top).union ((Set.finite_singleton CostType.neg1).union himg)).subset ?_
  rintro c (h | h | ⟨gh, l, v, h⟩)
  · exact .inl h
  · exact .inr (.inl h)
  · obtain ⟨x, h1, -, h3⟩ := h.value
    refine .inr (.inr ⟨(x, l), ⟨h1, (h.inside hL).2, ?_⟩, h3⟩)
    exact (h.nodup.subperm (h.inside hL).2).length_le

/-- Every value of the map and of the open list is the cost of such a way. -/
structure InvT (P : Prob V C) (s : St V C) : Prop where
  vals : ∀ v, s.gh v = CostType.top ∨ ∃ l, Trail P s.gh l v (s.gh v)
  ents : ∀ e ∈ s.open_, ∃ l, Trail P s.gh l e.v e.raw

/-- Likewise for an update waiting to be applied. -/
def ActT (P : Prob V C) (s : St V C) : Act V C → Prop
  | .upd u => ∃ l c, Trail P s.gh l u.p0 c ∧ Move P u.p0 u.p1 ∧ u.cost = c + P.cost u.p0 u.p1
  | .dont _ => True

theorem invT_push {P : Prob V C} {s : St V C} (inv : InvT P s) {u : Upd V C} (hu : ActT P s (.upd u)) (hg : s.gh u.p1 > u.cost) :
    (∀ v, setF s.gh u.p1 u.cost v ≤ s.gh v) ∧
    InvT P { s with g := setF s.g u.p1 u.cost, gh := setF s.gh u.p1 u.cost,
                    par := pinsert s.par u.p1 u.p0, open_ := ⟨u.estim, u.cost, u.p1⟩ :: s.open_ } := by
  have hle := setF_le (f := s.gh) (k := u.p1) (b := u.cost) (le_of_lt hg)
  obtain ⟨l, c, ht, hm, hc⟩ := hu
  have hnew : Trail P (setF s.gh u.p1 u.cost) (u.p1 :: l) u.p1 u.cost := by
    rw [hc]
    refine .move (ht.mono (by rw [← hc]; exact hle)) hm (by simp [setF]) fun hx => ?_
    have := ht.low _ hx
    exact absurd (lt_of_lt_of_le hg (le_trans this (by rw [hc]; exact CostType.le_add _ _ hm.2.2.1))) (lt_irrefl _)
  refine ⟨hle, ?_, ?_⟩
  · intro v
    dsimp only
    by_cases hv : v = u.p1
    · subst hv
      have e : setF s.gh u.p1 u.cost u.p1 = u.cost := by simp [setF]
      rw [e]
      exact .inr ⟨_, hnew⟩
    · have e : setF s.gh u.p1 u.cost v = s.gh v := by simp [setF, hv]
      rw [e]
      exact (inv.vals v).imp id fun ⟨l, h⟩ => ⟨l, h.mono hle⟩
  · intro e he
    rcases List.mem_cons.mp he with rfl | he
    · exact ⟨_, hnew⟩
    · obtain ⟨l, h⟩ := inv.ents e he
      exact ⟨l, h.mono hle⟩

theorem invT_acts {P : Prob V C} {s s' : St V C} {as : List (Act V C)} (inv : Inv P s) (it : InvT P s) (ha : ∀ a ∈ as, ActOk P s a)
    (hb : ∀ a ∈ as, ActT P s a) (h : ActsRel P.limit s as s') : InvT P s' := by
  induction h with
  | nil => exact it
  | @cons s s1 s2 a as h1 h2 ih =>
    have q1 := ha a (by simp)
    have q2 := hb a (by simp)
    have keep : ∀ {t : St V C}, (∀ v, t.gh v ≤ s.gh v) → ∀ b ∈ as, ActT P t b := by
      intro t hle b hm
      have := hb b (by simp [hm])
      cases b with
      | dont => trivial
      | upd w =>
        obtain ⟨l, c, k1, k2⟩ := this
        exact ⟨l, c, k1.mono hle, k2⟩
    have i1 := inv_act inv q1 h1
    have ok : ∀ b ∈ as, ActOk P s1 b := fun b hm => actOk_mono inv q1 (ha b (by simp [hm])) h1
    cases h1 with
    | skip u h => exact ih i1 it ok (keep fun v => le_refl _)
    | push u h hl =>
      have hg := (inv_push inv q1 h).1
      have := invT_push it q2 hg
      exact ih i1 this.2 ok (keep this.1)
    | pushDrop u x rest h hl hx =>
      have hg := (inv_push inv q1 h).1
      have := invT_push it q2 hg
      exact ih i1 ⟨this.2.vals, fun e he => this.2.ents e (hx.symm.subset (List.mem_cons_of_mem _ he))⟩ ok (keep this.1)
    | dont p => exact ih i1 ⟨it.vals, it.ents⟩ ok (keep fun v => le_refl _)

theorem invT_reach {P : Prob V C} (hs : ∀ x ∈ P.starts, (0 : C) ≤ x.2) {s : St V C} (h : Reach P s) : InvT P s := by
  induction h with
  | init b hb =>
    refine ⟨fun v => ?_, ?_⟩
    · have key : ∀ (l : List (V × C)) (f : V → C), (∀ x ∈ l, x ∈ P.starts) →
          (∀ v, f v = CostType.top ∨ ∃ x ∈ P.starts, x.1 = v ∧ x.2 = f v) →
          ∀ v, l.foldl (fun g s => setF g s.1 s.2) f v = CostType.top ∨ ∃ x ∈ P.starts, x.1 = v ∧ x.2 = l.foldl (fun g s => setF g s.1 s.2) f v := by
        intro l
        induction l with
        | nil => intro f _ h; exact h
        | cons x l ih =>
          intro f hin h
          refine ih _ (fun y hy => hin y (by simp [hy])) fun v => ?_
          by_cases hv : v = x.1
          · exact .inr ⟨x, hin x (by simp), hv.symm, by simp [setF, hv]⟩
          · rcases h v with k | ⟨y, k1, k2, k3⟩
            · exact .inl (by simp [setF, hv, k])
            · exact .inr ⟨y, k1, k2, by simp [setF, hv, k3]⟩
      rcases key P.starts (fun _ => CostType.top) (fun x hx => hx) (fun v => .inl rfl) v with k | ⟨x, k1, k2, k3⟩
      · exact .inl k
      · refine .inr ⟨[], ?_⟩
        show Trail P _ [] v (P.starts.foldl (fun g s => setF g s.1 s.2) (fun _ => CostType.top) v)
        rw [← k3, ← k2]
        exact .start k1
    · intro e he
      simp only [init, List.mem_map] at he
      obtain ⟨x, hx, rfl⟩ := he
      exact ⟨[], .start hx⟩
  | @round s s' hr h ih =>
    have inv := inv_reach hs hr
    cases h with
    | mk hc hne hp hb ha =>
      rename_i cs o' b acts
      have hmem := collect_mem hc
      have hent : ∀ a ∈ acts, ∃ e ∈ cs, a ∈ expand P s.g e := by
        intro a hm
        have := hp.subset hm
        rw [List.mem_flatMap] at this
        exact this
      have inv' : Inv P { s with open_ := o', better := b } := by
        refine ⟨fun e he => inv.ents e (hmem.2.1 e he), inv.ghost, inv.par, inv.reach, ?_⟩
        rcases hb with rfl | ⟨e, he, rfl⟩
        · exact inv.better
        · exact (inv.ents e (hmem.1 e he)).2.2.1
      refine invT_acts inv' ⟨ih.vals, fun e he => ih.ents e (hmem.2.1 e he)⟩ (fun a hm => ?_) (fun a hm => ?_) ha
      · obtain ⟨e, he, hm⟩ := hent a hm
        have := actOk_expand inv (hmem.1 e he) hm
        cases a with
        | dont => trivial
        | upd u => exact this
      · obtain ⟨e, he, hm⟩ := hent a hm
        cases a with
        | dont => trivial
        | upd u =>
          obtain ⟨e0, k1, k2, -⟩ := expand_upd hm
          obtain ⟨l, hl⟩ := ih.ents e (hmem.1 e he)
          exact ⟨l, e.raw, e0 ▸ hl, k1, k2⟩

/-- No run of the search is infinite, whatever the type of costs. -/
theorem wf_rounds_any {P : Prob V C} {L : List V} (hL : Closed P L) (hs : ∀ x ∈ P.starts, (0 : C) ≤ x.2) (ht : (0 : C) ≤ CostType.top) :
    WellFounded (fun s' s : St V C => Reach P s ∧ Round P s s') := by
  classical
  obtain ⟨F, hF⟩ := (occurs_finite hL).exists_finset
  let rank : C → Nat := fun c => (F.filter (· < c)).card
  have mono : ∀ a b, a ≤ b → rank a ≤ rank b := fun a b h =>
    Finset.card_le_card fun x hx => by
      rw [Finset.mem_filter] at hx ⊢
      exact ⟨hx.1, lt_of_lt_of_le hx.2 h⟩
  have strict : ∀ a b, Occurs P a → a < b → rank a < rank b := fun a b ha h =>
    Finset.card_lt_card (Finset.ssubset_iff_subset_ne.mpr ⟨fun x hx => by
      rw [Finset.mem_filter] at hx ⊢
      exact ⟨hx.1, lt_trans hx.2 h⟩, fun he => by
      have : a ∈ F.filter (· < b) := Finset.mem_filter.mpr ⟨(hF a).mpr ha, h⟩
      rw [← he, Finset.mem_filter] at this
      exact lt_irrefl _ this.2⟩)
  have occ : ∀ {s : St V C}, Reach P s → ∀ v, Occurs P (s.g v) := by
    intro s hr v
    rcases (inv_reach hs hr).ghost v with h | h
    · rw [h]
      exact ((invT_reach hs hr).vals v).imp id fun ⟨l, k⟩ => .inr ⟨_, l, v, k⟩
    · rw [h]; exact .inr (.inl rfl)
  have hwf : WellFounded (Prod.Lex (α := {v // v ∈ L} → ℕ) (β := ℕ) (· < ·) (· < ·)) :=
    (wellFounded_lt (α := {v // v ∈ L} → ℕ)).prod_lex wellFounded_lt
  refine Subrelation.wf ?_ (InvImage.wf (fun s : St V C => ((fun v : {v // v ∈ L} => rank (s.g v.1)), s.open_.length)) hwf)
  intro s' s ⟨hr, h⟩
  obtain ⟨_, h1, h2⟩ := round_effect hL hs ht hr (reach_in hL hs ht hr) h
  show Prod.Lex _ _ _ _
  rw [Prod.lex_def]
  have hle : (fun v : {v // v ∈ L} => rank (s'.g v.1)) ≤ (fun v : {v // v ∈ L} => rank (s.g v.1)) := fun v => mono _ _ (h1 v.1)
  rcases h2 with ⟨v, hv, hlt⟩ | h2
  · exact .inl (lt_of_le_not_ge hle (fun hge => absurd (hge ⟨v, hv⟩) (not_le.mpr (strict _ _ (occ (.round hr h) v) hlt))))
  · rcases lt_or_eq_of_le hle with h | h
    · exact .inl h
    · exact .inr ⟨h, h2⟩

end Verif.Astar
