import Verif.DistMap.Change

set_option linter.unusedSectionVars false
set_option linter.unusedVariables false

/-! # An update does not lose what can be reached -/
namespace Verif.DistMap
open Spec
open Verif.Astar (CostType setF setF_le)

variable {V C : Type} [DecidableEq V] [CostType C]

theorem fetch_flags {E : Env V C} {g : V → C} {sc : C} {n : Nat} {o cs o' : List (C × V)} {ed ed' : V → Bool}
    (h : Fetch E g sc n o ed cs o' ed') : ∀ v, ed' v = true → ed v = true ∨ ∃ e ∈ o, e.2 = v := by
  induction h with
  | full => exact fun v h => .inl h
  | empty => exact fun v h => .inl h
  | @stale n o ed e rest cs o' ed' hp _ h hc ih =>
    intro v hv
    exact (ih v hv).imp id fun ⟨x, hx, he⟩ => ⟨x, hp.symm.subset (List.mem_cons_of_mem _ hx), he⟩
  | @cut n o ed e rest cs o' ed' hp _ h hcut hc ih =>
    intro v hv
    rcases ih v hv with h | ⟨x, hx, he⟩
    · by_cases hve : v = e.2
      · exact .inr ⟨e, hp.symm.subset List.mem_cons_self, hve.symm⟩
      · left
        simpa [setF, hve] using h
    · exact .inr ⟨x, hp.symm.subset (List.mem_cons_of_mem _ hx), he⟩
  | @take n o ed e rest cs o' ed' hp _ h hcut hc ih =>
    intro v hv
    exact (ih v hv).imp id fun ⟨x, hx, he⟩ => ⟨x, hp.symm.subset (List.mem_cons_of_mem _ hx), he⟩

/-- Every step of `p` to a side neighbour has been tried: the neighbour has a value, or the step is blocked and `p` is remembered. -/
def Tried (E : Env V C) (nb : V → List V) (g : V → C) (edges : V → Bool) (p : V) : Prop :=
  ∀ d ∈ E.nexts p, d.next ∈ nb p → g d.next < CostType.top ∨ (d.cost = none ∧ edges p = true)

theorem tried_mono {E : Env V C} {nb : V → List V} {g g' : V → C} {ed ed' : V → Bool} (hg : ∀ v, g' v ≤ g v) (he : ∀ v, ed v = true → ed' v = true)
    {p : V} (h : Tried E nb g ed p) : Tried E nb g' ed' p := fun d hd hn =>
  (h d hd hn).imp (fun h => lt_of_le_of_lt (hg _) h) fun h => ⟨h.1, he p h.2⟩

/-- Invariant of an expansion; `Q p r` says that `p` is being expanded with the value `r`. -/
structure InvR (E : Env V C) (nb : V → List V) (goal start : V) (z : C) (s : FSt V C) (Q : V → C → Prop) : Prop where
  top : ∀ v, s.g v ≤ CostType.top
  pos : ∀ v, v ≠ goal → (0 : C) ≤ s.g v
  goalV : s.g goal = z
  ents : ∀ e ∈ s.open_, (0 : C) ≤ e.1 ∨ e.1 = E.base
  low : ∀ e ∈ s.open_, s.g e.2 ≤ e.1 ∨ e.2 = goal
  ins : ∀ v, s.g v < CostType.top → E.inMap v = true
  flags : ∀ v, s.edges v = true → E.inMap v = true
  entsIn : ∀ e ∈ s.open_, E.inMap e.2 = true
  todo : ∀ p, s.g p < CostType.top → (∃ e ∈ s.open_, e.2 = p ∧ e.1 = s.g p) ∨ Tried E nb s.g s.edges p ∨
    (E.cut (s.g p) (s.g start) = true ∧ s.edges p = true) ∨ Q p (s.g p)

def ActR (E : Env V C) : Act V C → Prop
  | .upd x c => (0 : C) ≤ c ∧ E.inMap x = true
  | .edge p => E.inMap p = true

theorem invR_act {E : Env V C} {nb : V → List V} {goal start : V} {z : C} (hz : z ≤ 0) (L : Laws2 E goal) {s : FSt V C} {a : Act V C} {Q : V → C → Prop}
    (inv : InvR E nb goal start z s Q) (ha : ActR E a) :
    InvR E nb goal start z (applyAct s a) Q ∧ (∀ v, (applyAct s a).g v ≤ s.g v) ∧ (∀ v, s.edges v = true → (applyAct s a).edges v = true) ∧
    (∀ x c, a = .upd x c → (applyAct s a).g x ≤ c) ∧ (∀ p, a = .edge p → (applyAct s a).edges p = true) := by
  cases a with
  | edge p =>
    have he : ∀ v, s.edges v = true → setF s.edges p true v = true := by
      intro v hv
      unfold setF
      split
      · rfl
      · exact hv
    refine ⟨⟨inv.top, inv.pos, inv.goalV, inv.ents, inv.low, inv.ins, ?_, inv.entsIn, ?_⟩, fun v => le_refl _, he, by simp, ?_⟩
    · intro v hv
      by_cases h : v = p
      · rw [h]; exact ha
      · simp only [applyAct, setF, if_neg h] at hv; exact inv.flags v hv
    · intro v hv
      rcases inv.todo v hv with h | h | h | h
      · exact .inl h
      · exact .inr (.inl (tried_mono (fun _ => le_refl _) he h))
      · exact .inr (.inr (.inl ⟨h.1, he v h.2⟩))
      · exact .inr (.inr (.inr h))
    · intro q hq
      cases hq
      simp [applyAct, setF]
  | upd x c =>
    unfold applyAct
    simp only
    split
    · rename_i hgt
      have hm : ∀ v, setF s.g x c v ≤ s.g v := setF_le (le_of_lt hgt)
      refine ⟨⟨fun v => le_trans (hm v) (inv.top v), ?_, ?_, ?_, ?_, ?_, inv.flags, ?_, ?_⟩, hm, fun v h => h, ?_, by simp⟩
      · intro v hv
        simp only [setF]
        split
        · exact ha.1
        · exact inv.pos v hv
      · have hxg : goal ≠ x := by
          rintro rfl
          rw [inv.goalV] at hgt
          exact absurd hgt (not_lt.2 (le_trans hz ha.1))
        simp only [setF, if_neg hxg]
        exact inv.goalV
      · intro e he
        rcases List.mem_cons.1 he with rfl | he
        · exact .inl ha.1
        · exact inv.ents e he
      · intro e he
        rcases List.mem_cons.1 he with rfl | he
        · left; simp [setF]
        · exact (inv.low e he).imp (fun h => le_trans (hm _) h) id
      · intro v hv
        by_cases h : v = x
        · rw [h]; exact ha.2
        · simp only [setF, if_neg h] at hv; exact inv.ins v hv
      · intro e he
        rcases List.mem_cons.1 he with rfl | he
        · exact ha.2
        · exact inv.entsIn e he
      · intro v hv
        by_cases hvx : v = x
        · subst hvx
          exact .inl ⟨_, List.mem_cons_self, rfl, by simp [setF]⟩
        · have hgv : setF s.g x c v = s.g v := by simp [setF, hvx]
          simp only at hv
          rw [hgv] at hv
          simp only
          rw [hgv]
          rcases inv.todo v hv with ⟨e, he, h1, h2⟩ | h | h | h
          · exact .inl ⟨e, List.mem_cons_of_mem _ he, h1, h2⟩
          · exact .inr (.inl (tried_mono hm (fun _ h => h) h))
          · exact .inr (.inr (.inl ⟨L.cut_mono _ _ _ _ (le_refl _) (hm start) h.1, h.2⟩))
          · exact .inr (.inr (.inr h))
      · intro y c' h
        cases h
        simp [setF]
    · rename_i hgt
      exact ⟨inv, fun v => le_refl _, fun v h => h, fun y c' h => by cases h; exact not_lt.mp hgt, by simp⟩

theorem invR_acts {E : Env V C} {nb : V → List V} {goal start : V} {z : C} (hz : z ≤ 0) (L : Laws2 E goal) {Q : V → C → Prop} :
    ∀ (as : List (Act V C)) {s : FSt V C}, InvR E nb goal start z s Q → (∀ a ∈ as, ActR E a) →
    InvR E nb goal start z (as.foldl applyAct s) Q ∧ (∀ v, (as.foldl applyAct s).g v ≤ s.g v) ∧
    (∀ v, s.edges v = true → (as.foldl applyAct s).edges v = true) ∧
    (∀ x c, Act.upd x c ∈ as → (as.foldl applyAct s).g x ≤ c) ∧ (∀ p, Act.edge p ∈ as → (as.foldl applyAct s).edges p = true)
  | [], s, h, _ => ⟨h, fun v => le_refl _, fun _ h => h, by simp, by simp⟩
  | a :: as, s, h, ha => by
    obtain ⟨h1, h2, h3, h4, h5⟩ := invR_act (a := a) hz L h (ha a (by simp))
    obtain ⟨r1, r2, r3, r4, r5⟩ := invR_acts hz L as h1 (fun b hb => ha b (by simp [hb]))
    refine ⟨r1, fun v => le_trans (r2 v) (h2 v), fun v hv => r3 v (h3 v hv), ?_, ?_⟩
    · intro x c hx
      rcases List.mem_cons.mp hx with hx | hx
      · exact le_trans (r2 x) (h4 x c hx.symm)
      · exact r4 x c hx
    · intro p hp
      rcases List.mem_cons.mp hp with hp | hp
      · exact r3 p (h5 p hp.symm)
      · exact r5 p hp

theorem invR_round {E : Env V C} {nb : V → List V} {cells : List V} {goal start : V} {z : C} (hz : z ≤ 0) (L : Laws2 E goal) (S : Sides E nb cells) {s s' : FSt V C}
    (inv : InvR E nb goal start z s (fun _ _ => False)) (h : Round E start s s') : InvR E nb goal start z s' (fun _ _ => False) := by
  cases h with
  | mk hf hne hp =>
    rename_i cs o' ed' acts
    obtain ⟨h1, h2⟩ := fetch_mem hf
    obtain ⟨c1, c2⟩ := fetch_cover hf
    have hed : ∀ v, ed' v = true → s.edges v = true ∨ ∃ e ∈ s.open_, e.2 = v := fetch_flags hf
    have inv0 : InvR E nb goal start z { s with open_ := o', edges := ed' } (fun v r => (r, v) ∈ cs) := by
      refine ⟨inv.top, inv.pos, inv.goalV, fun e he => inv.ents e (h2 e he), fun e he => inv.low e (h2 e he), inv.ins, ?_, fun e he => inv.entsIn e (h2 e he), ?_⟩
      · intro v hv
        rcases hed v hv with h | ⟨e, he, rfl⟩
        · exact inv.flags v h
        · exact inv.entsIn e he
      intro v hv
      rcases inv.todo v hv with ⟨e, he, e1, e2⟩ | h | h | h
      · rcases c1 e he with h | h | h | h
        · exact .inl ⟨e, h, e1, e2⟩
        · refine .inr (.inr (.inr ?_))
          simp only
          rw [← e2, ← e1]; exact h
        · rw [e1, e2] at h; exact absurd h (lt_irrefl _)
        · refine .inr (.inr (.inl ⟨?_, ?_⟩))
          · simp only; rw [← e2]; exact h.1
          · simp only; rw [← e1]; exact h.2
      · exact .inr (.inl (tried_mono (fun _ => le_refl _) c2 h))
      · exact .inr (.inr (.inl ⟨h.1, c2 v h.2⟩))
      · exact absurd h id
    have hactR : ∀ a ∈ acts, ActR E a := by
      intro a ha
      have := hp.subset ha
      rw [List.mem_flatMap] at this
      obtain ⟨e, he, hae⟩ := this
      have heo := (h1 e he).1
      cases a with
      | edge p =>
        simp only [expand, List.mem_filterMap] at hae
        obtain ⟨d, hd, hae⟩ := hae
        unfold expandOne at hae
        split at hae
        · cases hae
        · split at hae
          · cases hae; exact inv.entsIn e heo
          · split at hae <;> cases hae
      | upd x c =>
        obtain ⟨w, hst, rfl⟩ := expand_upd hae
        have hst' := hst
        obtain ⟨eu, hd⟩ := hst
        have hw := (L.nonneg _ _ w hd rfl).1
        refine ⟨?_, L.inMap _ _ hd⟩
        rcases inv.ents e heo with h | h
        · exact le_trans h (CostType.le_add _ _ hw)
        · rw [h]; exact L.back _ _ _ hst'
    obtain ⟨r1, r2, r3, r4, r5⟩ := invR_acts hz L acts inv0 hactR
    refine ⟨r1.top, r1.pos, r1.goalV, r1.ents, r1.low, r1.ins, r1.flags, r1.entsIn, ?_⟩
    intro v hv
    rcases r1.todo v hv with h | h | h | h
    · exact .inl h
    · exact .inr (.inl h)
    · exact .inr (.inr (.inl h))
    · refine .inr (.inl ?_)
      generalize hs' : acts.foldl applyAct { s with open_ := o', edges := ed' } = s' at *
      intro d hd hn
      have hmem : ∀ a, expandOne s.g (s'.g v, v) d = some a → a ∈ acts := by
        intro a ha
        refine hp.symm.subset ?_
        rw [List.mem_flatMap]
        exact ⟨_, h, List.mem_filterMap.mpr ⟨_, hd, ha⟩⟩
      have hgv : s.g v < CostType.top := by
        rcases inv.low _ (h1 _ h).1 with h | h
        · exact lt_of_le_of_lt h hv
        · simp only at h
          rw [h, inv.goalV]
          exact lt_of_le_of_lt hz L.top0
      unfold expandOne at hmem
      simp only at hmem
      by_cases hc1 : s.g d.next ≤ s.g v + d.euclid
      · left
        exact lt_of_le_of_lt (le_trans (r2 _) hc1) (S.finEu v d hd _ hgv)
      · rw [if_neg hc1] at hmem
        cases hcost : d.cost with
        | none =>
          rw [hcost] at hmem
          exact .inr ⟨rfl, r5 v (hmem _ rfl)⟩
        | some w =>
          rw [hcost] at hmem
          left
          have hfin := S.fin v d w hd hcost _ hv
          simp only at hmem
          by_cases hc2 : s.g d.next > s'.g v + w
          · rw [if_pos hc2] at hmem
            exact lt_of_le_of_lt (r4 _ _ (hmem _ rfl)) hfin
          · exact lt_of_le_of_lt (le_trans (r2 _) (not_lt.1 hc2)) hfin

/-- State between calls. -/
structure GoodR (E : Env V C) (nb : V → List V) (goal : V) (m : DM V C) : Prop where
  goalIs : m.goal = some goal
  top : ∀ v, m.g v ≤ CostType.top
  pos : ∀ v, (0 : C) ≤ m.g v
  zero : m.g goal = 0
  ins : ∀ v, m.g v < CostType.top → E.inMap v = true
  flags : ∀ v, m.edges v = true → E.inMap v = true
  side : ∀ p x, m.g p < CostType.top → x ∈ nb p → m.g x < CostType.top ∨ m.edges p = true

/-- Nothing that can be reached is left out as long as the start has no value. -/
def Reaches (E : Env V C) (nb : V → List V) (start : V) (g : V → C) : Prop :=
  g start = CostType.top → ∀ p x w, g p < CostType.top → x ∈ nb p → Step E p x w → g x < CostType.top

theorem invR_fill {E : Env V C} {nb : V → List V} {cells : List V} {goal start : V} {z : C} (hz : z ≤ 0) (L : Laws2 E goal) (S : Sides E nb cells) {s s' : FSt V C}
    (h : Fill E start s s') : InvR E nb goal start z s (fun _ _ => False) →
    (∀ v, s'.g v ≤ CostType.top) ∧ (∀ v, v ≠ goal → (0 : C) ≤ s'.g v) ∧ s'.g goal = z ∧
    (∀ v, s'.edges v = true → E.inMap v = true) ∧ (∀ v, s'.g v < CostType.top → E.inMap v = true) ∧
    ∀ p, s'.g p < CostType.top → Tried E nb s'.g s'.edges p ∨ (E.cut (s'.g p) (s'.g start) = true ∧ s'.edges p = true) := by
  induction h with
  | @done s o' ed' hf =>
    intro inv
    obtain ⟨c1, c2⟩ := fetch_cover hf
    have ho := fetch_nil hf S.tasks
    subst ho
    refine ⟨inv.top, inv.pos, inv.goalV, ?_, inv.ins, ?_⟩
    · intro v hv
      rcases fetch_flags hf v hv with h | ⟨e, he, rfl⟩
      · exact inv.flags v h
      · exact inv.entsIn e he
    intro v hv
    rcases inv.todo v hv with ⟨e, he, e1, e2⟩ | h | h | h
    · rcases c1 e he with h | h | h | h
      · simp at h
      · simp at h
      · rw [e1, e2] at h; exact absurd h (lt_irrefl _)
      · exact .inr ⟨by rw [← e2]; exact h.1, by rw [← e1]; exact h.2⟩
    · exact .inl (tried_mono (fun _ => le_refl _) c2 h)
    · exact .inr ⟨h.1, c2 v h.2⟩
    · exact absurd h id
  | more hr _ ih => exact fun inv => ih (invR_round hz L S inv hr)

/-! ### The erasing flood leaves a marked border -/

/-- What the flood leaves besides `Flooded`. -/
structure Border (E : Env V C) (g : V → C) (o : List (C × V)) (ed : V → Bool) (g' : V → C) (o' : List (C × V)) (ed' : V → Bool) : Prop where
  keep : ∀ e ∈ o, e ∈ o'
  opened : ∀ v x, g v ≠ CostType.top → g' v = CostType.top → x ∈ E.neigh4 v → g' x ≠ CostType.top → (g' x, x) ∈ o'
  flags : ∀ v, g' v ≠ CostType.top → ed' v = ed v
  fewer : ∀ v, ed' v = true → ed v = true
  ins : ∀ e ∈ o', e ∈ o ∨ ∃ v, e.2 ∈ E.neigh4 v

theorem erase_border {E : Env V C} {cmin : C} (hct : cmin ≤ CostType.top) {st r : (V → C) × List V × List (C × V) × (V → Bool)}
    (h : Erase E cmin st r) : Border E st.1 st.2.2.1 st.2.2.2 r.1 r.2.2.1 r.2.2.2 := by
  induction h with
  | nil => exact ⟨fun e he => he, fun v x h1 h2 => absurd h2 h1, fun v _ => rfl, fun v h => h, fun e he => .inl he⟩
  | @skip g q p rest o ed r hp h hr ih => exact ih
  | @erase g q p rest o ed r hp h hr ih =>
    have fl := erase_flooded hct hr
    have gp : setF g p CostType.top p = CostType.top := by simp [setF]
    have gv : ∀ v, v ≠ p → setF g p CostType.top v = g v := fun v hv => by simp [setF, hv]
    dsimp only at ih fl
    have hmem : ∀ x, x ∈ E.neigh4 p → r.1 x ≠ CostType.top → x ≠ p ∧ r.1 x = g x ∧ g x < cmin ∧
        x ∈ (E.neigh4 p).filter (fun x => decide (setF g p CostType.top x ≠ CostType.top)) := by
      intro x hx hxt
      have hxp : x ≠ p := by
        rintro rfl
        rcases fl.keeps x with h' | h'
        · exact hxt (h'.trans gp)
        · exact hxt h'
      have hrx : r.1 x = g x := by
        have := (fl.keeps x).resolve_right hxt
        rwa [gv x hxp] at this
      have hin : x ∈ (E.neigh4 p).filter (fun x => decide (setF g p CostType.top x ≠ CostType.top)) := by
        rw [List.mem_filter, decide_eq_true_eq, gv x hxp]
        exact ⟨hx, hrx ▸ hxt⟩
      refine ⟨hxp, hrx, ?_, hin⟩
      by_contra hnc
      refine hxt (fl.seeds x (List.mem_append_left _ (List.mem_filter.2 ⟨hin, ?_⟩)))
      rw [gv x hxp]
      simpa using hnc
    refine ⟨fun e he => ih.keep e (List.mem_append_right _ he), ?_, ?_, ?_, ?_⟩
    · intro v x h1 h2 hx hxt
      by_cases hv : v = p
      · subst hv
        obtain ⟨hxp, hrx, hc, hin⟩ := hmem x hx hxt
        refine ih.keep _ (List.mem_append_left _ (List.mem_map.2 ⟨x, List.mem_filter.2 ⟨hin, ?_⟩, ?_⟩))
        · rw [gv x hxp]; simpa using hc
        · rw [gv x hxp, hrx]
      · exact ih.opened v x (by rwa [gv v hv]) h2 hx hxt
    · intro v hv
      rw [ih.flags v hv, if_neg]
      rintro ⟨h1, h2⟩
      obtain ⟨hxp, _, hc, _⟩ := hmem v (List.mem_filter.1 h1).1 hv
      rw [gv v hxp] at h2
      exact h2 hc
    · intro v hv
      have := ih.fewer v hv
      split at this
      · cases this
      · exact this
    · intro e he
      rcases ih.ins e he with h | h
      · rcases List.mem_append.1 h with h | h
        · obtain ⟨x, hx, rfl⟩ := List.mem_map.1 h
          exact .inr ⟨p, (List.mem_filter.1 (List.mem_filter.1 hx).1).1⟩
        · exact .inl h
      · exact .inr h

theorem goodR_fill {E : Env V C} {nb : V → List V} {cells : List V} {goal start : V} {z : C} (hz : z ≤ 0) (L : Laws2 E goal) (S : Sides E nb cells)
    {s f : FSt V C} (hf : Fill E start s f) (inv : InvR E nb goal start z s (fun _ _ => False)) :
    GoodR E nb goal ⟨setF f.g goal 0, f.edges, some goal⟩ ∧ Reaches E nb start f.g := by
  obtain ⟨h1, h2, h3, h4, h6, h5⟩ := invR_fill hz L S hf inv
  have hlt : ∀ v, f.g v < CostType.top → setF f.g goal 0 v < CostType.top := by
    intro v hv
    simp only [setF]
    split
    · exact L.top0
    · exact hv
  have hlt' : ∀ v, setF f.g goal 0 v < CostType.top → f.g v < CostType.top := by
    intro v hv
    simp only [setF] at hv
    split at hv
    · rename_i h; rw [h, h3]; exact lt_of_le_of_lt hz L.top0
    · exact hv
  refine ⟨⟨rfl, ?_, ?_, by simp [setF], fun v hv => h6 v (hlt' v hv), h4, ?_⟩, ?_⟩
  · intro v
    simp only [setF]
    split
    · exact le_of_lt L.top0
    · exact h1 v
  · intro v
    simp only [setF]
    split
    · exact le_refl _
    · rename_i h; exact h2 v h
  · intro p x hp hx
    rcases h5 p (hlt' p hp) with h | h
    · obtain ⟨d, hd, rfl⟩ := S.offered p x hx
      exact (h d hd hx).imp (hlt _) fun h => h.2
    · exact .inr h.2
  · intro hst p x w hp hx ⟨eu, hw⟩
    rcases h5 p hp with h | h
    · rcases h _ hw hx with h | h
      · exact h
      · cases h.1
    · rw [hst, L.cut_self _ _ (h1 p)] at h
      cases h.1

theorem goodR_create {E : Env V C} {nb : V → List V} {cells : List V} {s e : V} {m m' : DM V C} (L : Laws2 E e) (S : Sides E nb cells)
    (hs : E.inMap s = true) (he : E.inMap e = true) (h : Create E s e m m') :
    GoodR E nb e m' ∧ (m'.g s = CostType.top → ∀ p x w, m'.g p < CostType.top → x ∈ nb p → Step E p x w → m'.g x < CostType.top) := by
  cases h with
  | out h => rcases h with h | h <;> simp_all
  | @fill f _ _ hf =>
    have inv : InvR E nb e s E.base ⟨setF (fun _ => CostType.top) e E.base, [(E.base, e)], fun _ => false⟩ (fun _ _ => False) := by
      refine ⟨?_, ?_, by simp [setF], ?_, ?_, ?_, by simp, ?_, ?_⟩
      · intro v
        simp only [setF]
        split
        · exact le_trans L.base_le (le_of_lt L.top0)
        · exact le_refl _
      · intro v hv
        simp only [setF, if_neg hv]
        exact le_of_lt L.top0
      · intro x hx
        simp only [List.mem_singleton] at hx
        subst hx
        exact .inr rfl
      · intro x hx
        simp only [List.mem_singleton] at hx
        subst hx
        exact .inr rfl
      · intro v hv
        by_cases h : v = e
        · rw [h]; exact he
        · simp only [setF, if_neg h] at hv
          exact absurd hv (lt_irrefl _)
      · intro x hx
        simp only [List.mem_singleton] at hx
        subst hx
        exact he
      · intro p hp
        by_cases h : p = e
        · subst h
          exact .inl ⟨_, List.mem_singleton_self _, rfl, by simp [setF]⟩
        · simp only [setF, if_neg h] at hp
          exact absurd hp (lt_irrefl _)
    obtain ⟨a1, a2⟩ := goodR_fill L.base_le L S hf inv
    refine ⟨a1, ?_⟩
    intro hst p x w hp hx hw
    have h3 : f.g e = E.base := (invR_fill L.base_le L S hf inv).2.2.1
    have hse : s ≠ e := by
      rintro rfl
      simp only [setF, if_true] at hst
      exact ne_of_lt L.top0 hst
    simp only [setF, if_neg hse] at hst hp ⊢
    split
    · exact L.top0
    · refine a2 hst p x w ?_ hx hw
      split at hp
      · rename_i h; rw [h, h3]; exact lt_of_le_of_lt L.base_le L.top0
      · exact hp

theorem goodR_update {E E' : Env V C} {nb : V → List V} {cells : List V} {s e e0 : V} {rect : List V} {m m' : DM V C} (L : Laws2 E' e)
    (S : Sides E' nb cells) (hs : E'.inMap s = true ∨ e = e0) (he : E'.inMap e = true) (hg : GoodR E nb e0 m) (hm : E'.inMap = E.inMap)
    (h : Update E' cells s e rect m m') :
    GoodR E' nb e m' ∧ (E'.inMap s = true → m'.g s = CostType.top → ∀ p x w, m'.g p < CostType.top → x ∈ nb p → Step E' p x w → m'.g x < CostType.top) := by
  have hkeep : m.goal = some e → GoodR E' nb e m := by
    intro h
    rw [hg.goalIs] at h
    cases h
    exact ⟨hg.goalIs, hg.top, hg.pos, hg.zero, fun v hv => by rw [hm]; exact hg.ins v hv, fun v hv => by rw [hm]; exact hg.flags v hv, hg.side⟩
  cases h with
  | newGoal hne hcr =>
    have hs' : E'.inMap s = true := by
      rcases hs with h | rfl
      · exact h
      · exact absurd hg.goalIs hne
    exact ⟨(goodR_create L S hs' he hcr).1, fun _ => (goodR_create L S hs' he hcr).2⟩
  | goalInRect hge _ hcr =>
    by_cases hs' : E'.inMap s = true
    · exact ⟨(goodR_create L S hs' he hcr).1, fun _ => (goodR_create L S hs' he hcr).2⟩
    · refine ⟨?_, fun h => absurd h hs'⟩
      cases hcr with
      | out _ =>
        have := hkeep hge
        exact ⟨rfl, this.top, this.pos, this.zero, this.ins, this.flags, this.side⟩
      | fill h => exact absurd h hs'
  | out hge _ ho =>
    refine ⟨hkeep hge, fun h => ?_⟩
    rcases ho with h' | h' <;> simp_all
  | @run g q o ed f hge h0 hs' _ her hf =>
    have hg := hkeep hge
    obtain ⟨hr1, hr2, hr3⟩ := rectMin_spec m.g rect (e, CostType.top)
    generalize rectMin m.g rect (e, CostType.top) = rm at *
    have fl := erase_flooded hr1 her
    have bo := erase_border hr1 her
    dsimp only at fl bo
    have hcm : (0 : C) < rm.2 := by
      refine lt_of_le_of_ne ?_ (Ne.symm h0)
      rcases hr3 with h | ⟨_, h⟩
      · rw [h]; exact le_of_lt L.top0
      · rw [h]; exact hg.pos _
    have hseed : ∀ v ∈ (if m.g s > rm.2 then [s] else []) ++ (if rm.2 ≠ CostType.top then [rm.1] else []), ¬ m.g v < rm.2 := by
      intro v hv
      rcases List.mem_append.1 hv with hv | hv
      · split at hv
        · rename_i hgt
          simp only [List.mem_singleton] at hv
          subst hv
          exact not_lt.2 (le_of_lt hgt)
        · simp at hv
      · split at hv
        · rename_i hne
          simp only [List.mem_singleton] at hv
          subst hv
          rcases hr3 with hr3 | ⟨_, hr4⟩
          · rw [hr3] at hne; exact absurd rfl hne
          · rw [hr4]; exact lt_irrefl _
        · simp at hv
    have hge0 : g e = 0 := (fl.below hseed e (by rw [hg.zero]; exact hcm)).trans hg.zero
    have hpos : ∀ v, (0 : C) ≤ g v := by
      intro v
      rcases fl.keeps v with h | h
      · rw [h]; exact hg.pos v
      · rw [h]; exact le_of_lt L.top0
    have htop : ∀ v, g v ≤ CostType.top := by
      intro v
      rcases fl.keeps v with h | h
      · rw [h]; exact hg.top v
      · rw [h]
    generalize ho1 : (cells.filter (fun v => ed v)).map (fun v => (g v, v)) ++ o = o1 at hf
    have hsub : ∀ x ∈ o1, x ∈ (if o1 = [] then [(E'.base, e)] else o1) := by
      intro x hx
      rw [if_neg (List.ne_nil_of_mem hx)]
      exact hx
    have inv : InvR E' nb e s 0 ⟨g, (if o1 = [] then [(E'.base, e)] else o1), fun _ => false⟩ (fun _ _ => False) := by
      have hents : ∀ x ∈ (if o1 = [] then [(E'.base, e)] else o1), ((0 : C) ≤ x.1 ∨ x.1 = E'.base) ∧
          E'.inMap x.2 = true ∧ (g x.2 ≤ x.1 ∨ x.2 = e) := by
        intro x hx
        split at hx
        · simp only [List.mem_singleton] at hx
          subst hx
          exact ⟨.inr rfl, he, .inr rfl⟩
        · rw [← ho1] at hx
          rcases List.mem_append.1 hx with hx | hx
          · obtain ⟨v, hv, rfl⟩ := List.mem_map.1 hx
            exact ⟨.inl (hpos v), hg.flags v (bo.fewer v (List.mem_filter.1 hv).2), .inl (le_refl _)⟩
          · rcases fl.opened x hx with h' | ⟨h1, h2⟩
            · simp at h'
            · refine ⟨.inl (h1 ▸ hg.pos _), ?_, .inl ?_⟩
              · rcases bo.ins x hx with h' | ⟨v, hv⟩
                · simp at h'
                · rw [S.neigh] at hv
                  obtain ⟨d, hd, hdx⟩ := S.offered v _ hv
                  rw [← hdx]
                  exact L.inMap _ _ hd
              · rw [fl.below hseed x.2 (h1 ▸ h2), h1]
      refine ⟨htop, fun v _ => hpos v, hge0, fun x hx => (hents x hx).1, fun x hx => (hents x hx).2.2, ?_, by simp, fun x hx => (hents x hx).2.1, ?_⟩
      · intro v hv
        refine hg.ins v ?_
        rw [← (fl.keeps v).resolve_right (ne_of_lt hv)]
        exact hv
      intro p hp
      have hpm : g p = m.g p := (fl.keeps p).resolve_right (ne_of_lt hp)
      by_cases hfl : m.edges p = true
      · refine .inl ⟨(g p, p), hsub _ ?_, rfl, rfl⟩
        rw [← ho1]
        refine List.mem_append_left _ (List.mem_map.2 ⟨p, List.mem_filter.2 ⟨S.cells p (hg.flags p hfl), ?_⟩, rfl⟩)
        rw [bo.flags p (ne_of_lt hp)]
        exact hfl
      by_cases hall : ∀ x ∈ nb p, g x < CostType.top
      · exact .inr (.inl fun d _ hn => .inl (hall _ hn))
      · push Not at hall
        obtain ⟨x, hx, hxt⟩ := hall
        have hxt : g x = CostType.top := le_antisymm (htop x) hxt
        have hmx : m.g x ≠ CostType.top := by
          rcases hg.side p x (by rw [← hpm]; exact hp) hx with h | h
          · exact ne_of_lt h
          · exact absurd h hfl
        refine .inl ⟨(g p, p), hsub _ ?_, rfl, rfl⟩
        rw [← ho1]
        refine List.mem_append_right _ (bo.opened x p hmx hxt ?_ (ne_of_lt hp))
        rw [S.neigh]
        exact S.symm _ _ (hg.ins p (by rw [← hpm]; exact hp)) hx
    obtain ⟨a1, a2⟩ := goodR_fill (le_refl _) L S hf inv
    have h3 : f.g e = 0 := (invR_fill (le_refl _) L S hf inv).2.2.1
    have hset : setF f.g e 0 = f.g := by
      funext v
      simp only [setF]
      split
      · rename_i h; rw [h, h3]
      · rfl
    rw [hset] at a1
    rw [hge]
    exact ⟨a1, fun _ => a2⟩

/-- **What can be reached has a distance.**  After a `create` and any number of changes of the map, each followed by an `update` with any rectangle, the
last start has a value if side steps through the current map connect it with the goal. -/
theorem reached {nb : V → List V} {cells : List V} {E : Env V C} {s e : V} {m : DM V C} (h : Uses nb cells E s e m)
    (hs : E.inMap s = true) (hc : SideConnected E e s) : m.g s < CostType.top := by
  have key : ∀ {E : Env V C} {s e : V} {m : DM V C}, Uses nb cells E s e m → Laws2 E e ∧ Sides E nb cells ∧ GoodR E nb e m ∧
      (E.inMap s = true → m.g s = CostType.top → ∀ p x w, m.g p < CostType.top → x ∈ nb p → Step E p x w → m.g x < CostType.top) := by
    intro E s e m h
    induction h with
    | create L S hs he h => exact ⟨L, S, (goodR_create L S hs he h).1, fun _ => (goodR_create L S hs he h).2⟩
    | update hh L S hs he hm h ih => exact ⟨L, S, goodR_update L S hs he ih.2.2.1 hm h⟩
  obtain ⟨L, S, hg, hr⟩ := key h
  by_contra hn
  have htop : m.g s = CostType.top := le_antisymm (hg.top s) (not_lt.1 hn)
  have : ∀ v, SideConnected E e v → m.g v < CostType.top := by
    intro v hv
    induction hv with
    | goal => rw [hg.zero]; exact L.top0
    | step _ hx hst ih => exact hr hs htop _ _ _ ih (by rwa [S.neigh] at hx) hst
  exact hn (this s hc)

end Verif.DistMap
