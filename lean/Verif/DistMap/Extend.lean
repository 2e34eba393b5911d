import Verif.DistMap.Lemmas

set_option linter.unusedSectionVars false
set_option linter.unusedVariables false

/-! Helper lemmas: extending a distance map toward a new start (`update` with nothing changed). -/
namespace Verif.DistMap
open Spec
open Verif.Astar (CostType setF setF_le)

variable {V C : Type} [DecidableEq V] [CostType C]

/-- The stored map with the goal's value put back to the one used during the expansion. -/
def gb (E : Env V C) (goal : V) (g : V → C) : V → C := setF g goal E.base

/-- State of the object between calls. -/
structure Good (E : Env V C) (goal : V) (g : V → C) (edges : V → Bool) : Prop where
  top : ∀ v, g v ≤ CostType.top
  zero : g goal = 0
  pos : ∀ v, (0 : C) ≤ g v
  sound : ∀ v, v ≠ goal → g v = CostType.top ∨ Route E goal v (g v)
  inMap : ∀ v, g v < CostType.top → E.inMap v = true
  goalR : ∀ x w, Step E goal x w → x ≠ goal → g x ≤ E.base + w
  todo : ∀ v, v ≠ goal → g v < CostType.top → Relaxed E g v ∨ edges v = true

/-- Invariant of the fill during an extension. -/
structure InvU (E : Env V C) (goal start : V) (s : FSt V C) (Q : V → C → Prop) : Prop where
  top : ∀ v, s.g v ≤ CostType.top
  zero : s.g goal = 0
  pos : ∀ v, (0 : C) ≤ s.g v
  sound : ∀ v, v ≠ goal → s.g v = CostType.top ∨ Route E goal v (s.g v)
  inMap : ∀ v, s.g v < CostType.top → E.inMap v = true
  goalR : ∀ x w, Step E goal x w → x ≠ goal → s.g x ≤ E.base + w
  ents : ∀ e ∈ s.open_, e.2 = goal ∨ (e.2 ≠ goal ∧ s.g e.2 ≤ e.1 ∧ (0 : C) ≤ e.1 ∧
    (Route E goal e.2 e.1 ∨ e.1 = CostType.top))
  goalE : ∀ e ∈ s.open_, e.2 = goal → e.1 = 0 ∨ e.1 = E.base
  todo : ∀ v, v ≠ goal → s.g v < CostType.top →
    (∃ e ∈ s.open_, e.2 = v ∧ e.1 = s.g v) ∨ Relaxed E s.g v ∨
    (E.cut (s.g v) (s.g start) = true ∧ s.edges v = true) ∨ Q v (s.g v)

def ActU (E : Env V C) (goal : V) (s : FSt V C) : Act V C → Prop
  | .upd x c => x ≠ goal → (s.g x > c → Route E goal x c) ∧ (0 : C) ≤ c ∧ E.inMap x = true
  | .edge _ => True

theorem route_pos {E : Env V C} {goal : V} (L : Laws2 E goal) {v : V} {c : C} (h : Route E goal v c) :
    (v = goal ∧ c = E.base) ∨ (0 : C) ≤ c := by
  induction h with
  | goal => exact .inl ⟨rfl, rfl⟩
  | @step p x c w _ hs ih =>
    right
    rcases ih with ⟨_, rfl⟩ | h
    · exact L.back _ _ _ hs
    · obtain ⟨eu, hd⟩ := hs
      exact le_trans h (CostType.le_add _ _ (L.nonneg _ _ w hd rfl).1)

theorem invU_act {E : Env V C} {goal start : V} (L : Laws2 E goal) {s : FSt V C} {a : Act V C}
    {Q : V → C → Prop} (inv : InvU E goal start s Q) (ha : ActU E goal s a)
    (hz : ∀ c, a = .upd goal c → (0 : C) ≤ c) :
    InvU E goal start (applyAct s a) Q ∧ (∀ v, (applyAct s a).g v ≤ s.g v) ∧
    (∀ x c, a = .upd x c → (applyAct s a).g x ≤ c) := by
  cases a with
  | edge p =>
    refine ⟨⟨inv.top, inv.zero, inv.pos, inv.sound, inv.inMap, inv.goalR, inv.ents, inv.goalE, ?_⟩,
      fun v => le_refl _, by simp⟩
    intro v hg hv
    rcases inv.todo v hg hv with h | h | h | h
    · exact .inl h
    · exact .inr (.inl h)
    · refine .inr (.inr (.inl ⟨h.1, ?_⟩))
      simp only [applyAct, setF]; split
      · rfl
      · exact h.2
    · exact .inr (.inr (.inr h))
  | upd x c =>
    unfold applyAct
    simp only
    split
    · rename_i hgt
      have hxg : x ≠ goal := by
        intro h
        have h0 := hz c (by rw [h])
        rw [h, inv.zero] at hgt
        exact absurd hgt (not_lt.mpr h0)
      obtain ⟨a1, a2, a3⟩ := ha hxg
      have a1 := a1 hgt
      have hm : ∀ v, setF s.g x c v ≤ s.g v := setF_le (le_of_lt hgt)
      have hgg : setF s.g x c goal = s.g goal := by simp [setF, Ne.symm hxg]
      refine ⟨⟨fun v => le_trans (hm v) (inv.top v), by simp only; rw [hgg]; exact inv.zero, ?_, ?_, ?_,
        fun y w hs hy => le_trans (hm y) (inv.goalR y w hs hy), ?_, ?_, ?_⟩, hm, ?_⟩
      · intro v; simp only [setF]; split
        · exact a2
        · exact inv.pos v
      · intro v hv
        by_cases h : v = x
        · subst h; simp only [setF, if_true]; exact .inr a1
        · simp only [setF, if_neg h]; exact inv.sound v hv
      · intro v hv
        by_cases h : v = x
        · rw [h]; exact a3
        · simp only [setF, if_neg h] at hv; exact inv.inMap v hv
      · intro e he
        rcases List.mem_cons.mp he with rfl | he
        · exact .inr ⟨hxg, by simp [setF], a2, .inl a1⟩
        · rcases inv.ents e he with h | ⟨h1, h2, h3, h4⟩
          · exact .inl h
          · exact .inr ⟨h1, le_trans (hm _) h2, h3, h4⟩
      · intro e he hge
        rcases List.mem_cons.mp he with rfl | he
        · exact absurd hge hxg
        · exact inv.goalE e he hge
      · intro v hvg hv
        by_cases hvx : v = x
        · subst hvx
          exact .inl ⟨_, List.mem_cons_self, rfl, by simp [setF]⟩
        · have hgv : setF s.g x c v = s.g v := by simp [setF, hvx]
          simp only at hv
          rw [hgv] at hv
          rcases inv.todo v hvg hv with ⟨e, he, h1, h2⟩ | h | h | h
          · exact .inl ⟨e, List.mem_cons_of_mem _ he, h1, by simp only; rw [hgv]; exact h2⟩
          · exact .inr (.inl (relaxed_mono hm hgv h))
          · refine .inr (.inr (.inl ⟨?_, h.2⟩))
            simp only; rw [hgv]
            exact L.cut_mono _ _ _ _ (le_refl _) (hm start) h.1
          · refine .inr (.inr (.inr ?_))
            simp only; rw [hgv]; exact h
      · intro y c' h; cases h; simp [setF]
    · rename_i hgt
      exact ⟨inv, fun v => le_refl _, fun y c' h => by cases h; exact not_lt.mp hgt⟩

theorem invU_acts {E : Env V C} {goal start : V} (L : Laws2 E goal) {Q : V → C → Prop} :
    ∀ (as : List (Act V C)) {s : FSt V C}, InvU E goal start s Q →
    (∀ a ∈ as, ActU E goal s a) → (∀ c, Act.upd goal c ∈ as → (0 : C) ≤ c) →
    InvU E goal start (as.foldl applyAct s) Q ∧ (∀ v, (as.foldl applyAct s).g v ≤ s.g v) ∧
    (∀ x c, Act.upd x c ∈ as → (as.foldl applyAct s).g x ≤ c)
  | [], s, h, _, _ => ⟨h, fun v => le_refl _, by simp⟩
  | a :: as, s, h, ha, hz => by
    obtain ⟨h1, h2, h3⟩ := invU_act (a := a) L h (ha a (by simp)) (fun c hc => hz c (by simp [hc]))
    obtain ⟨r1, r2, r3⟩ := invU_acts L as h1 (fun b hb => by
      have := ha b (by simp [hb])
      cases b with
      | edge => trivial
      | upd x c =>
        intro hx
        obtain ⟨p1, p2⟩ := this hx
        exact ⟨fun hgt => p1 (lt_of_lt_of_le hgt (h2 x)), p2⟩) (fun c hc => hz c (by simp [hc]))
    refine ⟨r1, fun v => le_trans (r2 v) (h2 v), ?_⟩
    intro x c hx
    rcases List.mem_cons.mp hx with hx | hx
    · exact le_trans (r2 x) (h3 x c hx.symm)
    · exact r3 x c hx

theorem invU_round {E : Env V C} {goal start : V} (L : Laws2 E goal) {s s' : FSt V C}
    (inv : InvU E goal start s (fun _ _ => False)) (h : Round E start s s') :
    InvU E goal start s' (fun _ _ => False) := by
  cases h with
  | mk hf hne hp =>
    rename_i cs o' ed' acts
    obtain ⟨h1, h2⟩ := fetch_mem hf
    obtain ⟨c1, c2⟩ := fetch_cover hf
    have inv0 : InvU E goal start { s with open_ := o', edges := ed' }
        (fun v r => (r, v) ∈ cs) := by
      refine ⟨inv.top, inv.zero, inv.pos, inv.sound, inv.inMap, inv.goalR,
        fun e he => inv.ents e (h2 e he), fun e he => inv.goalE e (h2 e he), ?_⟩
      intro v hvg hv
      rcases inv.todo v hvg hv with ⟨e, he, e1, e2⟩ | h | h | h
      · rcases c1 e he with h | h | h | h
        · exact .inl ⟨e, h, e1, e2⟩
        · refine .inr (.inr (.inr ?_))
          simp only
          rw [← e2, ← e1]; exact h
        · rw [e1, e2] at h; exact absurd h (lt_irrefl _)
        · refine .inr (.inr (.inl ⟨?_, ?_⟩))
          · simp only; rw [← e2]; exact h.1
          · simp only; rw [← e1]; exact h.2
      · exact .inr (.inl h)
      · exact .inr (.inr (.inl ⟨h.1, c2 v h.2⟩))
      · exact absurd h id
    have hactU : ∀ a ∈ acts, ActU E goal { s with open_ := o', edges := ed' } a ∧
        (∀ c, a = .upd goal c → (0 : C) ≤ c) := by
      intro a ha
      have := hp.subset ha
      rw [List.mem_flatMap] at this
      obtain ⟨e, he, hae⟩ := this
      cases a with
      | edge => exact ⟨trivial, by simp⟩
      | upd x c =>
        obtain ⟨w, hst, rfl⟩ := expand_upd hae
        have hst' := hst
        obtain ⟨eu, hd⟩ := hst
        have hw := (L.nonneg _ _ w hd rfl).1
        have heo := (h1 e he).1
        have hc0 : (0 : C) ≤ e.1 + w := by
          rcases inv.ents e heo with h | ⟨_, _, h3, _⟩
          · rcases inv.goalE e heo h with h' | h'
            · rw [h']; exact CostType.le_add _ _ hw
            · rw [h']; exact L.back _ _ _ hst'
          · exact le_trans h3 (CostType.le_add _ _ hw)
        refine ⟨fun hx => ⟨fun hgt => ?_, hc0, L.inMap _ _ hd⟩, fun c hc => by cases hc; exact hc0⟩
        rcases inv.ents e heo with h | ⟨h1', h2', h3, h4⟩
        · have hgr := inv.goalR x w (h ▸ hst') hx
          rcases inv.goalE e heo h with h' | h'
          · rw [h'] at hgt
            have : E.base + w ≤ 0 + w := L.mono_left _ _ _ L.base_le
            exact absurd (lt_of_lt_of_le hgt (le_trans hgr this)) (lt_irrefl _)
          · rw [h'] at hgt
            exact absurd (lt_of_lt_of_le hgt hgr) (lt_irrefl _)
        · rcases h4 with h4 | h4
          · exact .step h4 hst'
          · rw [h4] at hgt
            exact absurd (lt_of_lt_of_le hgt (le_trans (inv.top x) (CostType.le_add _ _ hw)))
              (lt_irrefl _)
    obtain ⟨r1, r2, r3⟩ := invU_acts L acts inv0 (fun a ha => (hactU a ha).1)
      (fun c hc => (hactU _ hc).2 c rfl)
    refine ⟨r1.top, r1.zero, r1.pos, r1.sound, r1.inMap, r1.goalR, r1.ents, r1.goalE, ?_⟩
    intro v hvg hv
    rcases r1.todo v hvg hv with h | h | h | h
    · exact .inl h
    · exact .inr (.inl h)
    · exact .inr (.inr (.inl h))
    · refine .inr (.inl ?_)
      generalize hs' : acts.foldl applyAct { s with open_ := o', edges := ed' } = s' at *
      intro x w hst
      obtain ⟨eu, hd⟩ := hst
      have hgv : s.g v = s'.g v := by
        rcases inv.ents _ (h1 _ h).1 with h' | h'
        · exact absurd h' hvg
        · exact le_antisymm h'.2.1 (r2 v)
      cases ho : expandOne s.g (s'.g v, v) ⟨x, eu, some w⟩ with
      | none =>
        unfold expandOne at ho
        simp only at ho
        split at ho
        · rename_i hle
          refine le_trans (r2 x) (le_trans hle ?_)
          rw [hgv]
          exact L.mono_right _ _ _ (L.nonneg _ _ w hd rfl).2
        · split at ho
          · cases ho
          · rename_i hng
            exact le_trans (r2 x) (not_lt.mp hng)
      | some a =>
        have ha : a = .upd x (s'.g v + w) := by
          unfold expandOne at ho
          simp only at ho
          split at ho
          · cases ho
          · split at ho
            · cases ho; rfl
            · cases ho
        subst ha
        refine r3 x _ ?_
        refine hp.symm.subset ?_
        rw [List.mem_flatMap]
        exact ⟨_, h, List.mem_filterMap.mpr ⟨_, hd, ho⟩⟩

/-- What holds of the object after an expansion for `start`. -/
def CoveredFor (E : Env V C) (goal start : V) (g : V → C) (edges : V → Bool) : Prop :=
  ∀ v, v ≠ goal → g v < CostType.top →
    Relaxed E g v ∨ (E.cut (g v) (g start) = true ∧ edges v = true)

theorem invU_fill {E : Env V C} {goal start : V} (L : Laws2 E goal) (ht : 0 < E.tasks)
    {s s' : FSt V C} (h : Fill E start s s') :
    InvU E goal start s (fun _ _ => False) → Good E goal s'.g s'.edges ∧ CoveredFor E goal start s'.g s'.edges := by
  induction h with
  | @done s o' ed' hf =>
    intro inv
    obtain ⟨c1, c2⟩ := fetch_cover hf
    have ho := fetch_nil hf ht
    subst ho
    have hcov : CoveredFor E goal start s.g ed' := by
      intro v hvg hv
      rcases inv.todo v hvg hv with ⟨e, he, e1, e2⟩ | h | h | h
      · rcases c1 e he with h | h | h | h
        · simp at h
        · simp at h
        · rw [e1, e2] at h; exact absurd h (lt_irrefl _)
        · exact .inr ⟨by rw [← e2]; exact h.1, by rw [← e1]; exact h.2⟩
      · exact .inl h
      · exact .inr ⟨h.1, c2 v h.2⟩
      · exact absurd h id
    refine ⟨⟨inv.top, inv.zero, inv.pos, inv.sound, inv.inMap, inv.goalR, ?_⟩, hcov⟩
    intro v hvg hv
    rcases hcov v hvg hv with h | h
    · exact .inl h
    · exact .inr h.2
  | more hr _ ih => intro inv; exact ih (invU_round L inv hr)

/-- Exactness from a good, covered state. -/
theorem exact_of_good {E : Env V C} {goal start : V} (L : Laws2 E goal) {g : V → C} {edges : V → Bool}
    (hg : Good E goal g edges) (hcov : CoveredFor E goal start g edges) {v : V} {c : C}
    (hr : Route E goal v c) (hcut : E.cut c (g start) = false) (hc : c < CostType.top) :
    v ≠ goal → g v ≤ c := by
  induction hr with
  | goal => intro h; exact absurd rfl h
  | @step p x c w hr hst ih =>
    intro hx
    obtain ⟨eu, hd⟩ := hst
    have hw := (L.nonneg _ _ w hd rfl).1
    have hcw : c ≤ c + w := CostType.le_add _ _ hw
    have hcut' : E.cut c (g start) = false := by
      by_contra h
      have h : E.cut c (g start) = true := by simpa using h
      rw [L.cut_mono _ _ _ _ hcw (le_refl _) h] at hcut; cases hcut
    by_cases hp : p = goal
    · subst hp
      have hbase : E.base ≤ c := by
        rcases route_pos L hr with ⟨_, h⟩ | h
        · rw [h]
        · exact le_trans L.base_le h
      exact le_trans (hg.goalR x w ⟨eu, hd⟩ hx) (L.mono_left _ _ _ hbase)
    · have ih := ih hcut' (lt_of_le_of_lt hcw hc) hp
      rcases hcov p hp (lt_of_le_of_lt ih (lt_of_le_of_lt hcw hc)) with h | h
      · exact le_trans (h x w ⟨eu, hd⟩) (L.mono_left _ _ _ ih)
      · rw [L.cut_mono _ _ _ _ ih (le_refl _) h.1] at hcut'; cases hcut'

end Verif.DistMap
