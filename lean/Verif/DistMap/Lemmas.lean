import Verif.DistMap.Spec
import Verif.Astar.Lemmas

set_option linter.unusedSectionVars false
set_option linter.unusedVariables false
namespace Verif.DistMap
open Spec
open Verif.Astar (CostType setF setF_le)

variable {V C : Type} [DecidableEq V] [CostType C]

/-- Soundness invariant: entries and stored values are route costs. -/
structure InvS (E : Env V C) (goal : V) (s : FSt V C) : Prop where
  ents : ∀ e ∈ s.open_, Route E goal e.2 e.1
  vals : ∀ v, s.g v = CostType.top ∨ Route E goal v (s.g v)

def ActS (E : Env V C) (goal : V) : Act V C → Prop
  | .upd x c => Route E goal x c
  | .edge _ => True

theorem invS_act {E : Env V C} {goal : V} {s : FSt V C} {a : Act V C} (inv : InvS E goal s)
    (ha : ActS E goal a) : InvS E goal (applyAct s a) := by
  cases a with
  | edge p => exact ⟨inv.ents, inv.vals⟩
  | upd x c =>
    unfold applyAct
    simp only
    split
    · refine ⟨?_, ?_⟩
      · intro e he
        rcases List.mem_cons.mp he with rfl | he
        · exact ha
        · exact inv.ents e he
      · intro v
        by_cases h : v = x
        · subst h; simp only [setF, if_true]; exact .inr ha
        · simp only [setF, if_neg h]; exact inv.vals v
    · exact inv

theorem invS_acts {E : Env V C} {goal : V} : ∀ (as : List (Act V C)) {s : FSt V C}, InvS E goal s →
    (∀ a ∈ as, ActS E goal a) → InvS E goal (as.foldl applyAct s)
  | [], _, h, _ => h
  | a :: as, s, h, ha => invS_acts as (invS_act h (ha a (by simp))) (fun b hb => ha b (by simp [hb]))

theorem fetch_mem {E : Env V C} {g : V → C} {sc : C} {n : Nat} {o cs o' : List (C × V)} {ed ed' : V → Bool}
    (h : Fetch E g sc n o ed cs o' ed') :
    (∀ e ∈ cs, e ∈ o ∧ ¬ e.1 > g e.2) ∧ (∀ e ∈ o', e ∈ o) := by
  induction h with
  | full => simp
  | empty => simp
  | stale hp _ _ _ ih =>
    have hsub : ∀ x ∈ _, x ∈ _ := fun x hx => hp.symm.subset (List.mem_cons_of_mem _ hx)
    exact ⟨fun e he => ⟨hsub e (ih.1 e he).1, (ih.1 e he).2⟩, fun e he => hsub e (ih.2 e he)⟩
  | cut hp _ _ _ _ ih =>
    have hsub : ∀ x ∈ _, x ∈ _ := fun x hx => hp.symm.subset (List.mem_cons_of_mem _ hx)
    exact ⟨fun e he => ⟨hsub e (ih.1 e he).1, (ih.1 e he).2⟩, fun e he => hsub e (ih.2 e he)⟩
  | @take n o ed e rest cs o' ed' hp _ h _ _ ih =>
    have hsub : ∀ x ∈ rest, x ∈ o := fun x hx => hp.symm.subset (List.mem_cons_of_mem _ hx)
    refine ⟨?_, fun e he => hsub e (ih.2 e he)⟩
    intro x hx
    rcases List.mem_cons.mp hx with rfl | hx
    · exact ⟨hp.symm.subset (by simp), h⟩
    · exact ⟨hsub x (ih.1 x hx).1, (ih.1 x hx).2⟩

/-- Every entry is kept, taken, stale, or beyond the range and marked. -/
theorem fetch_cover {E : Env V C} {g : V → C} {sc : C} {n : Nat} {o cs o' : List (C × V)} {ed ed' : V → Bool}
    (h : Fetch E g sc n o ed cs o' ed') :
    (∀ e ∈ o, e ∈ o' ∨ e ∈ cs ∨ e.1 > g e.2 ∨ (E.cut e.1 sc = true ∧ ed' e.2 = true)) ∧
    (∀ v, ed v = true → ed' v = true) := by
  induction h with
  | full => exact ⟨fun e he => .inl he, fun v h => h⟩
  | empty => simp
  | @stale n o ed e rest cs o' ed' hp _ h hc ih =>
    refine ⟨fun x hx => ?_, ih.2⟩
    rcases List.mem_cons.mp (hp.subset hx) with rfl | hx
    · exact .inr (.inr (.inl h))
    · exact ih.1 x hx
  | @cut n o ed e rest cs o' ed' hp _ h hcut hc ih =>
    refine ⟨fun x hx => ?_, ?_⟩
    · rcases List.mem_cons.mp (hp.subset hx) with rfl | hx
      · exact .inr (.inr (.inr ⟨hcut, ih.2 _ (by simp [setF])⟩))
      · exact ih.1 x hx
    · intro v hv
      apply ih.2
      simp only [setF]; split
      · rfl
      · exact hv
  | @take n o ed e rest cs o' ed' hp _ h hcut hc ih =>
    refine ⟨fun x hx => ?_, ih.2⟩
    rcases List.mem_cons.mp (hp.subset hx) with rfl | hx
    · exact .inr (.inl (by simp))
    · rcases ih.1 x hx with h | h | h
      · exact .inl h
      · exact .inr (.inl (List.mem_cons_of_mem _ h))
      · exact .inr (.inr h)

theorem fetch_nil {E : Env V C} {g : V → C} {sc : C} {n : Nat} {o o' : List (C × V)} {ed ed' : V → Bool}
    (h : Fetch E g sc n o ed [] o' ed') (hn : 0 < n) : o' = [] := by
  generalize hcs : ([] : List (C × V)) = cs at h
  induction h with
  | full => omega
  | empty => rfl
  | stale _ _ _ _ ih => exact ih hn hcs
  | cut _ _ _ _ _ ih => exact ih hn hcs
  | take => cases hcs

theorem expand_upd {E : Env V C} {g : V → C} {e : C × V} {x : V} {c : C}
    (h : Act.upd x c ∈ expand E g e) : ∃ w, Step E e.2 x w ∧ c = e.1 + w := by
  simp only [expand, List.mem_filterMap] at h
  obtain ⟨d, hd, h⟩ := h
  unfold expandOne at h
  split at h
  · cases h
  · split at h
    · cases h
    · rename_i w hw
      split at h
      · cases h
        refine ⟨w, ⟨d.euclid, ?_⟩, rfl⟩
        obtain ⟨a, b, c⟩ := d
        simp only at hw
        subst hw
        exact hd
      · cases h

theorem invS_round {E : Env V C} {goal start : V} {s s' : FSt V C} (inv : InvS E goal s)
    (h : Round E start s s') : InvS E goal s' := by
  cases h with
  | mk hf hne hp =>
    rename_i cs o' ed' acts
    obtain ⟨h1, h2⟩ := fetch_mem hf
    refine invS_acts acts ⟨fun e he => inv.ents e (h2 e he), inv.vals⟩ ?_
    intro a ha
    have := hp.subset ha
    rw [List.mem_flatMap] at this
    obtain ⟨e, he, hae⟩ := this
    cases a with
    | edge => trivial
    | upd x c =>
      obtain ⟨w, hw, rfl⟩ := expand_upd hae
      exact .step (inv.ents e (h1 e he).1) hw

theorem invS_fill {E : Env V C} {goal start : V} {s s' : FSt V C} (h : Fill E start s s') :
    InvS E goal s → InvS E goal s' := by
  induction h with
  | done hf => intro inv; exact ⟨fun e he => inv.ents e ((fetch_mem hf).2 e he), inv.vals⟩
  | more hr _ ih => intro inv; exact ih (invS_round inv hr)

/-! ### Exactness -/

/-- All permitted steps out of `v` are accounted for. -/
def Relaxed (E : Env V C) (g : V → C) (v : V) : Prop := ∀ x w, Step E v x w → g x ≤ g v + w

/-- Exactness invariant; `Q v r` says `v` is being expanded with raw value `r`. -/
structure InvX (E : Env V C) (start : V) (s : FSt V C) (Q : V → C → Prop) : Prop where
  top : ∀ v, s.g v ≤ CostType.top
  ents : ∀ e ∈ s.open_, s.g e.2 ≤ e.1
  todo : ∀ v, s.g v < CostType.top →
    (∃ e ∈ s.open_, e.2 = v ∧ e.1 = s.g v) ∨ Relaxed E s.g v ∨
    (E.cut (s.g v) (s.g start) = true ∧ s.edges v = true) ∨ Q v (s.g v)

theorem relaxed_mono {E : Env V C} {g g' : V → C} (hm : ∀ v, g' v ≤ g v) {v : V} (hv : g' v = g v)
    (h : Relaxed E g v) : Relaxed E g' v := by
  intro x w hs; rw [hv]; exact le_trans (hm x) (h x w hs)

theorem invX_act {E : Env V C} (L : Laws E) {start : V} {s : FSt V C} {a : Act V C} {Q : V → C → Prop}
    (inv : InvX E start s Q) :
    InvX E start (applyAct s a) Q ∧ (∀ v, (applyAct s a).g v ≤ s.g v) ∧
    (∀ x c, a = .upd x c → (applyAct s a).g x ≤ c) := by
  cases a with
  | edge p =>
    refine ⟨⟨inv.top, inv.ents, ?_⟩, fun v => le_refl _, by simp⟩
    intro v hv
    rcases inv.todo v hv with h | h | h | h
    · exact .inl h
    · exact .inr (.inl h)
    · refine .inr (.inr (.inl ⟨h.1, ?_⟩))
      simp only [applyAct, setF]; split
      · rfl
      · exact h.2
    · exact .inr (.inr (.inr h))
  | upd x c =>
    unfold applyAct
    simp only
    split
    · rename_i hgt
      have hm : ∀ v, setF s.g x c v ≤ s.g v := setF_le (le_of_lt hgt)
      refine ⟨⟨fun v => le_trans (hm v) (inv.top v), ?_, ?_⟩, hm, ?_⟩
      · intro e he
        rcases List.mem_cons.mp he with rfl | he
        · simp [setF]
        · exact le_trans (hm _) (inv.ents e he)
      · intro v hv
        by_cases hvx : v = x
        · subst hvx
          exact .inl ⟨_, List.mem_cons_self, rfl, by simp [setF]⟩
        · have hgv : setF s.g x c v = s.g v := by simp [setF, hvx]
          simp only at hv
          rw [hgv] at hv
          rcases inv.todo v hv with ⟨e, he, h1, h2⟩ | h | h | h
          · exact .inl ⟨e, List.mem_cons_of_mem _ he, h1, by simp only; rw [hgv]; exact h2⟩
          · exact .inr (.inl (relaxed_mono hm hgv h))
          · refine .inr (.inr (.inl ⟨?_, h.2⟩))
            simp only; rw [hgv]
            exact L.cut_mono _ _ _ _ (le_refl _) (hm start) h.1
          · refine .inr (.inr (.inr ?_))
            simp only; rw [hgv]; exact h
      · intro y c' h; cases h; simp [setF]
    · rename_i hgt
      exact ⟨inv, fun v => le_refl _, fun y c' h => by cases h; exact not_lt.mp hgt⟩

theorem invX_acts {E : Env V C} (L : Laws E) {start : V} {Q : V → C → Prop} :
    ∀ (as : List (Act V C)) {s : FSt V C}, InvX E start s Q →
    InvX E start (as.foldl applyAct s) Q ∧ (∀ v, (as.foldl applyAct s).g v ≤ s.g v) ∧
    (∀ x c, Act.upd x c ∈ as → (as.foldl applyAct s).g x ≤ c)
  | [], s, h => ⟨h, fun v => le_refl _, by simp⟩
  | a :: as, s, h => by
    obtain ⟨h1, h2, h3⟩ := invX_act (a := a) L h
    obtain ⟨r1, r2, r3⟩ := invX_acts L as h1
    refine ⟨r1, fun v => le_trans (r2 v) (h2 v), ?_⟩
    intro x c hx
    rcases List.mem_cons.mp hx with hx | hx
    · exact le_trans (r2 x) (h3 x c hx.symm)
    · exact r3 x c hx

theorem invX_round {E : Env V C} (L : Laws E) {start : V} {s s' : FSt V C}
    (inv : InvX E start s (fun _ _ => False)) (h : Round E start s s') :
    InvX E start s' (fun _ _ => False) := by
  cases h with
  | mk hf hne hp =>
    rename_i cs o' ed' acts
    obtain ⟨h1, h2⟩ := fetch_mem hf
    obtain ⟨c1, c2⟩ := fetch_cover hf
    have inv0 : InvX E start { s with open_ := o', edges := ed' }
        (fun v r => (r, v) ∈ cs) := by
      refine ⟨inv.top, fun e he => inv.ents e (h2 e he), ?_⟩
      intro v hv
      rcases inv.todo v hv with ⟨e, he, e1, e2⟩ | h | h | h
      · rcases c1 e he with h | h | h | h
        · exact .inl ⟨e, h, e1, e2⟩
        · refine .inr (.inr (.inr ?_))
          simp only
          rw [← e2, ← e1]; exact h
        · rw [e1, e2] at h; exact absurd h (lt_irrefl _)
        · refine .inr (.inr (.inl ⟨?_, ?_⟩))
          · simp only; rw [← e2]; exact h.1
          · simp only; rw [← e1]; exact h.2
      · exact .inr (.inl h)
      · exact .inr (.inr (.inl ⟨h.1, c2 v h.2⟩))
      · exact absurd h id
    obtain ⟨r1, r2, r3⟩ := invX_acts L acts inv0
    refine ⟨r1.top, r1.ents, ?_⟩
    intro v hv
    rcases r1.todo v hv with h | h | h | h
    · exact .inl h
    · exact .inr (.inl h)
    · exact .inr (.inr (.inl h))
    · -- expanded with its final value
      refine .inr (.inl ?_)
      generalize hs' : acts.foldl applyAct { s with open_ := o', edges := ed' } = s' at *
      intro x w hst
      obtain ⟨eu, hd⟩ := hst
      have hgv : s.g v = s'.g v := by
        have a1 := inv.ents _ (h1 _ h).1
        exact le_antisymm a1 (r2 v)
      cases ho : expandOne s.g (s'.g v, v) ⟨x, eu, some w⟩ with
      | none =>
        unfold expandOne at ho
        simp only at ho
        split at ho
        · rename_i hle
          refine le_trans (r2 x) (le_trans hle ?_)
          rw [hgv]
          exact L.mono_right _ _ _ (L.nonneg _ _ w hd rfl).2
        · split at ho
          · cases ho
          · rename_i hng
            exact le_trans (r2 x) (not_lt.mp hng)
      | some a =>
        have ha : a = .upd x (s'.g v + w) := by
          unfold expandOne at ho
          simp only at ho
          split at ho
          · cases ho
          · split at ho
            · cases ho; rfl
            · cases ho
        subst ha
        refine r3 x _ ?_
        refine hp.symm.subset ?_
        rw [List.mem_flatMap]
        exact ⟨_, h, List.mem_filterMap.mpr ⟨_, hd, ho⟩⟩

theorem invX_fill {E : Env V C} (L : Laws E) (ht : 0 < E.tasks) {start : V} {s s' : FSt V C}
    (h : Fill E start s s') :
    InvX E start s (fun _ _ => False) → InvX E start s' (fun _ _ => False) ∧ s'.open_ = [] := by
  induction h with
  | @done s o' ed' hf =>
    intro inv
    obtain ⟨c1, c2⟩ := fetch_cover hf
    have ho := fetch_nil hf ht
    subst ho
    refine ⟨⟨inv.top, by simp, ?_⟩, rfl⟩
    intro v hv
    rcases inv.todo v hv with ⟨e, he, e1, e2⟩ | h | h | h
    · rcases c1 e he with h | h | h | h
      · simp at h
      · simp at h
      · rw [e1, e2] at h; exact absurd h (lt_irrefl _)
      · refine .inr (.inr (.inl ⟨?_, ?_⟩))
        · simp only; rw [← e2]; exact h.1
        · simp only; rw [← e1]; exact h.2
    · exact .inr (.inl h)
    · exact .inr (.inr (.inl ⟨h.1, c2 v h.2⟩))
    · exact absurd h id
  | more hr _ ih => intro inv; exact ih (invX_round L inv hr)

/-- Values never grow and the goal's value is kept when nothing is below it. -/
theorem fill_mono {E : Env V C} {start : V} {s s' : FSt V C} (h : Fill E start s s') :
    ∀ v, s'.g v ≤ s.g v := by
  have hact : ∀ (as : List (Act V C)) (s : FSt V C) v, (as.foldl applyAct s).g v ≤ s.g v := by
    intro as
    induction as with
    | nil => intro s v; exact le_refl _
    | cons a as ih =>
      intro s v
      refine le_trans (ih _ v) ?_
      cases a with
      | edge => exact le_refl _
      | upd x c =>
        simp only [applyAct]
        split
        · rename_i h; exact setF_le (le_of_lt h) v
        · exact le_refl _
  induction h with
  | done => intro v; exact le_refl _
  | more hr _ ih =>
    intro v
    refine le_trans (ih v) ?_
    cases hr with
    | mk hf hne hp => exact hact _ _ v

/-- Exactness of a terminated fill for every route value within range. -/
theorem exact_of_inv {E : Env V C} (L : Laws E) {start goal : V} {s : FSt V C}
    (inv : InvX E start s (fun _ _ => False)) (ho : s.open_ = []) (hgoal : s.g goal ≤ E.base) {v : V} {c : C} (hr : Route E goal v c)
    (hcut : E.cut c (s.g start) = false) (hc : c < CostType.top) : s.g v ≤ c := by
  induction hr with
  | goal => exact hgoal
  | @step p x c w hr hst ih =>
    obtain ⟨eu, hd⟩ := hst
    have hcw : c ≤ c + w := CostType.le_add _ _ (L.nonneg _ _ w hd rfl).1
    have hcut' : E.cut c (s.g start) = false := by
      by_contra h
      have h : E.cut c (s.g start) = true := by simpa using h
      rw [L.cut_mono _ _ _ _ hcw (le_refl _) h] at hcut; cases hcut
    have ih := ih hcut' (lt_of_le_of_lt hcw hc)
    rcases inv.todo p (lt_of_le_of_lt ih (lt_of_le_of_lt hcw hc)) with ⟨e, he, _⟩ | h | h | h
    · rw [ho] at he; simp at he
    · exact le_trans (h x w ⟨eu, hd⟩) (L.mono_left _ _ _ ih)
    · rw [L.cut_mono _ _ _ _ ih (le_refl _) h.1] at hcut'; cases hcut'
    · exact absurd h id

end Verif.DistMap
