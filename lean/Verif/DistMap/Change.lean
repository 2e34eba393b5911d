import Verif.DistMap.Extend

set_option linter.unusedSectionVars false
set_option linter.unusedVariables false

/-! Helper lemmas: updates after changes of the map. -/
namespace Verif.DistMap
open Spec
open Verif.Astar (CostType setF setF_le)

variable {V C : Type} [DecidableEq V] [CostType C]

/-- A chain of steps from the goal whose partial costs are not below the stored values. -/
inductive Chain (E : Env V C) (goal : V) (g : V → C) : V → C → Prop
  | start {c} (h : c = 0 ∨ c = E.base) : Chain E goal g goal c
  | step {p x c w} (h : Chain E goal g p c) (hs : Step E p x w) (hg : x = goal ∨ g x ≤ c + w) : Chain E goal g x (c + w)

theorem chain_mono {E : Env V C} {goal : V} {g g' : V → C} (h : ∀ v, g' v ≤ g v) {v : V} {c : C} (hc : Chain E goal g v c) :
    Chain E goal g' v c := by
  induction hc with
  | start h => exact .start h
  | step _ hs hg ih => exact .step ih hs (hg.imp id fun hg => le_trans (h _) hg)

theorem chain_route {E : Env V C} {goal : V} (L : Laws2 E goal) {g : V → C} {v : V} {c : C} (hc : Chain E goal g v c) :
    ∃ c', Route E goal v c' ∧ c' ≤ c := by
  induction hc with
  | start h => exact ⟨_, .goal, by rcases h with rfl | rfl; exacts [L.base_le, le_refl _]⟩
  | step _ hs _ ih =>
    obtain ⟨c', h1, h2⟩ := ih
    exact ⟨_, .step h1 hs, L.mono_left _ _ _ h2⟩

/-- Invariant of an expansion after a change. -/
structure InvC (E : Env V C) (goal : V) (s : FSt V C) : Prop where
  top : ∀ v, s.g v ≤ CostType.top
  ents : ∀ e ∈ s.open_, e.1 = CostType.top ∨ Chain E goal s.g e.2 e.1
  vals : ∀ v, s.g v = CostType.top ∨ Chain E goal s.g v (s.g v)

def ActC (E : Env V C) (goal : V) (g : V → C) : Act V C → Prop
  | .upd x c => CostType.top ≤ c ∨ ∃ p c0 w, Chain E goal g p c0 ∧ Step E p x w ∧ c = c0 + w
  | .edge _ => True

theorem invC_acts {E : Env V C} {goal : V} : ∀ (as : List (Act V C)) {s : FSt V C}, InvC E goal s →
    (∀ a ∈ as, ActC E goal s.g a) → InvC E goal (as.foldl applyAct s)
  | [], _, h, _ => h
  | a :: as, s, inv, ha => by
    rw [List.foldl_cons]
    cases a with
    | edge p => exact invC_acts as ⟨inv.top, inv.ents, inv.vals⟩ fun b hb => ha b (by simp [hb])
    | upd x c =>
      unfold applyAct
      simp only
      split
      · rename_i hlt
        have hle : ∀ v, setF s.g x c v ≤ s.g v := by
          intro v
          unfold setF
          split
          · rename_i h; rw [h]; exact le_of_lt hlt
          · exact le_refl _
        have hx : Chain E goal (setF s.g x c) x c := by
          rcases ha _ List.mem_cons_self with h | ⟨p, c0, w, h1, h2, rfl⟩
          · exact absurd (lt_of_lt_of_le hlt (inv.top x)) (not_lt.2 h)
          · exact .step (chain_mono hle h1) h2 (Or.inr (by simp [setF]))
        refine invC_acts as ⟨fun v => le_trans (hle v) (inv.top v), ?_, ?_⟩ ?_
        · intro e he
          rcases List.mem_cons.1 he with rfl | he
          · exact Or.inr hx
          · exact (inv.ents e he).imp id (chain_mono hle)
        · intro v
          by_cases hv : v = x
          · subst hv
            right
            have : setF s.g v c v = c := by simp [setF]
            simp only [this]
            exact hx
          · have : setF s.g x c v = s.g v := by simp [setF, hv]
            simp only [this]
            exact (inv.vals v).imp id (chain_mono hle)
        · intro b hb
          have := ha b (by simp [hb])
          cases b with
          | edge => trivial
          | upd y d =>
            rcases this with h | ⟨p, c0, w, h1, h2⟩
            · exact Or.inl h
            · exact Or.inr ⟨p, c0, w, chain_mono hle h1, h2⟩
      · exact invC_acts as inv fun b hb => ha b (by simp [hb])

theorem invC_round {E : Env V C} {goal start : V} (L : Laws E) {s s' : FSt V C} (inv : InvC E goal s) (h : Round E start s s') :
    InvC E goal s' := by
  cases h with
  | mk hf hne hp =>
    rename_i cs o' ed' acts
    obtain ⟨h1, h2⟩ := fetch_mem hf
    refine invC_acts acts ⟨inv.top, fun e he => inv.ents e (h2 e he), inv.vals⟩ ?_
    intro a ha
    have := hp.subset ha
    rw [List.mem_flatMap] at this
    obtain ⟨e, he, hae⟩ := this
    cases a with
    | edge => trivial
    | upd x c =>
      obtain ⟨w, hw, rfl⟩ := expand_upd hae
      rcases inv.ents e (h1 e he).1 with h | h
      · left
        rw [h]
        obtain ⟨eu, hd⟩ := hw
        exact CostType.le_add _ _ (L.nonneg _ _ w hd rfl).1
      · exact Or.inr ⟨_, _, _, h, hw, rfl⟩

theorem invC_fill {E : Env V C} {goal start : V} (L : Laws E) {s s' : FSt V C} (h : Fill E start s s') :
    InvC E goal s → InvC E goal s' := by
  induction h with
  | done hf => intro inv; exact ⟨inv.top, fun e he => inv.ents e ((fetch_mem hf).2 e he), inv.vals⟩
  | more hr _ ih => intro inv; exact ih (invC_round L inv hr)

/-! ### The erasing flood -/

/-- What the flood leaves. -/
structure Flooded (E : Env V C) (cmin : C) (g : V → C) (q : List V) (o : List (C × V)) (g' : V → C) (o' : List (C × V)) : Prop where
  keeps : ∀ v, g' v = g v ∨ g' v = CostType.top
  seeds : ∀ v ∈ q, g' v = CostType.top
  closed : ∀ v, g v ≠ CostType.top → g' v = CostType.top → ∀ x ∈ E.neigh4 v, g x ≠ CostType.top → ¬ g x < cmin →
    g' x = CostType.top
  below : (∀ v ∈ q, ¬ g v < cmin) → ∀ v, g v < cmin → g' v = g v
  opened : ∀ e ∈ o', e ∈ o ∨ (e.1 = g e.2 ∧ e.1 < cmin)

theorem erase_flooded {E : Env V C} {cmin : C} (hct : cmin ≤ CostType.top) {st r : (V → C) × List V × List (C × V) × (V → Bool)}
    (h : Erase E cmin st r) : Flooded E cmin st.1 st.2.1 st.2.2.1 r.1 r.2.2.1 := by
  induction h with
  | nil => exact ⟨fun v => Or.inl rfl, fun v hv => by simp at hv, fun v h1 h2 => absurd h2 h1, fun _ v _ => rfl, fun e he => Or.inl he⟩
  | @skip g q p rest o ed r hp h hr ih =>
    refine ⟨ih.keeps, ?_, ih.closed, ?_, ih.opened⟩
    · intro v hv
      rcases List.mem_cons.1 (hp.subset hv) with rfl | hv
      · rcases ih.keeps v with h' | h'
        · exact h'.trans h
        · exact h'
      · exact ih.seeds v hv
    · exact fun hq => ih.below fun v hv => hq v (hp.symm.subset (List.mem_cons_of_mem _ hv))
  | @erase g q p rest o ed r hp h hr ih =>
    have gp : setF g p CostType.top p = CostType.top := by simp [setF]
    have gv : ∀ v, v ≠ p → setF g p CostType.top v = g v := fun v hv => by simp [setF, hv]
    have rp : r.1 p = CostType.top := by
      rcases ih.keeps p with h' | h'
      · exact h'.trans gp
      · exact h'
    have mem : ∀ x, x ∈ (E.neigh4 p).filter (fun x => decide (setF g p CostType.top x ≠ CostType.top)) ↔
        x ∈ E.neigh4 p ∧ x ≠ p ∧ g x ≠ CostType.top := by
      intro x
      rw [List.mem_filter, decide_eq_true_eq]
      by_cases hx : x = p
      · subst hx; simp [gp]
      · rw [gv x hx]; simp [hx]
    dsimp only at ih
    refine ⟨?_, ?_, ?_, ?_, ?_⟩
    · intro v
      by_cases hv : v = p
      · subst hv; exact Or.inr rp
      · have := ih.keeps v
        rwa [gv v hv] at this
    · intro v hv
      rcases List.mem_cons.1 (hp.subset hv) with rfl | hv
      · exact rp
      · exact ih.seeds v (List.mem_append_right _ hv)
    · intro v h1 h2 x hx hxt hxc
      by_cases hxp : x = p
      · subst hxp; exact rp
      by_cases hv : v = p
      · subst hv
        refine ih.seeds x (List.mem_append_left _ (List.mem_filter.2 ⟨(mem x).2 ⟨hx, hxp, hxt⟩, ?_⟩))
        rw [gv x hxp]
        simpa using hxc
      · exact ih.closed v (by rwa [gv v hv]) h2 x hx (by rwa [gv x hxp]) (by rwa [gv x hxp])
    · intro hq v hv
      have hvp : v ≠ p := by
        rintro rfl
        exact hq v (hp.symm.subset List.mem_cons_self) hv
      refine (ih.below ?_ v (by rwa [gv v hvp])).trans (gv v hvp)
      intro y hy
      by_cases hyp : y = p
      · subst hyp; rw [gp]; exact not_lt.2 hct
      rw [gv y hyp]
      rcases List.mem_append.1 hy with hy | hy
      · have := (List.mem_filter.1 hy).2
        rw [gv y hyp] at this
        simpa using this
      · exact hq y (hp.symm.subset (List.mem_cons_of_mem _ hy))
    · intro e he
      rcases ih.opened e he with h' | ⟨h1, h2⟩
      · rcases List.mem_append.1 h' with h' | h'
        · right
          obtain ⟨x, hx, rfl⟩ := List.mem_map.1 h'
          obtain ⟨hx1, hx2⟩ := List.mem_filter.1 hx
          have hxp := ((mem x).1 hx1).2.1
          exact ⟨gv x hxp, by simpa using hx2⟩
        · exact Or.inl h'
      · right
        by_cases hep : e.2 = p
        · rw [hep, gp] at h1
          rw [h1] at h2
          exact absurd h2 (not_lt.2 hct)
        · exact ⟨h1.trans (gv _ hep), h2⟩

/-! ### The least value of the rectangle -/

theorem rectMin_spec (g : V → C) : ∀ (rect : List V) (r : V × C),
    ((rectMin g rect r).2 ≤ r.2) ∧ (∀ x ∈ rect, (rectMin g rect r).2 ≤ g x) ∧
    (rectMin g rect r = r ∨ ((rectMin g rect r).1 ∈ rect ∧ (rectMin g rect r).2 = g (rectMin g rect r).1))
  | [], r => ⟨le_refl _, by simp, Or.inl rfl⟩
  | p :: ps, r => by
    unfold rectMin
    split
    · rename_i h
      obtain ⟨h1, h2, h3⟩ := rectMin_spec g ps (p, g p)
      refine ⟨le_trans h1 (le_of_lt h), ?_, ?_⟩
      · intro x hx
        rcases List.mem_cons.1 hx with rfl | hx
        · exact h1
        · exact h2 x hx
      · right
        rcases h3 with h3 | h3
        · rw [h3]; exact ⟨List.mem_cons_self, rfl⟩
        · exact ⟨List.mem_cons_of_mem _ h3.1, h3.2⟩
    · rename_i h
      obtain ⟨h1, h2, h3⟩ := rectMin_spec g ps r
      refine ⟨h1, ?_, h3.imp id fun h3 => ⟨List.mem_cons_of_mem _ h3.1, h3.2⟩⟩
      intro x hx
      rcases List.mem_cons.1 hx with rfl | hx
      · exact le_trans h1 (not_lt.1 h)
      · exact h2 x hx

theorem below_iff (m : DM V C) (rect : List V) (e v : V) :
    Below m rect v ↔ m.g v < (rectMin m.g rect (e, CostType.top)).2 := by
  obtain ⟨h1, h2, h3⟩ := rectMin_spec m.g rect (e, CostType.top)
  constructor
  · rintro ⟨h4, h5⟩
    rcases h3 with h3 | h3
    · rw [h3]; exact h4
    · rw [h3.2]; exact h5 _ h3.1
  · intro h
    exact ⟨lt_of_lt_of_le h h1, fun r hr => lt_of_lt_of_le h (h2 r hr)⟩

/-- The state between calls. -/
structure GoodC (E : Env V C) (goal : V) (m : DM V C) : Prop where
  top : ∀ v, m.g v ≤ CostType.top
  vals : ∀ v, m.g v = CostType.top ∨ Chain E goal m.g v (m.g v)

theorem goodC_create {E : Env V C} {s e : V} {m m' : DM V C} (L : Laws2 E e) (hs : E.inMap s = true) (he : E.inMap e = true)
    (h : Create E s e m m') : GoodC E e m' := by
  cases h with
  | out h => rcases h with h | h <;> simp_all
  | @fill f _ _ hf =>
    have inv := invC_fill (goal := e) L.toLaws hf ⟨?_, ?_, ?_⟩
    · have hch : ∀ v c, Chain E e f.g v c → Chain E e (setF f.g e 0) v c := by
        intro v c h
        induction h with
        | start h => exact .start h
        | @step p x c w _ hst hg ih =>
          refine .step ih hst ?_
          by_cases hx : x = e
          · exact Or.inl hx
          · right
            rw [show setF f.g e 0 x = f.g x by simp [setF, hx]]
            exact hg.resolve_left hx
      refine ⟨fun v => ?_, fun v => ?_⟩
      · by_cases hv : v = e
        · subst hv; simp only [setF, if_true]; exact le_of_lt L.top0
        · simp only [setF, if_neg hv]; exact inv.top v
      · by_cases hv : v = e
        · subst hv
          right
          dsimp only
          rw [show setF f.g v 0 v = (0 : C) by simp [setF]]
          exact .start (Or.inl rfl)
        · simp only [show setF f.g e 0 v = f.g v by simp [setF, hv]]
          exact (inv.vals v).imp id (hch v _)
    · intro v
      by_cases hv : v = e
      · subst hv; simp only [setF, if_true]; exact le_trans L.base_le (le_of_lt L.top0)
      · simp only [setF, if_neg hv]; exact le_refl _
    · intro x hx
      simp only [List.mem_singleton] at hx
      subst hx
      exact Or.inr (.start (Or.inr rfl))
    · intro v
      by_cases hv : v = e
      · subst hv
        right
        dsimp only
        rw [show setF (fun _ => CostType.top) v E.base v = E.base by simp [setF]]
        exact .start (Or.inr rfl)
      · left; simp [setF, hv]

theorem goodC_update {E E' : Env V C} {cells : List V} {s e : V} {rect : List V} {m m' : DM V C} (L0 : Laws E) (L : Laws2 E' e)
    (hs : E'.inMap s = true) (he : E'.inMap e = true) (hg : GoodC E e m) (hc : Confined E E' m s e rect)
    (h : Update E' cells s e rect m m') : GoodC E' e m' := by
  cases h with
  | newGoal _ hcr => exact goodC_create L hs he hcr
  | goalInRect _ _ hcr => exact goodC_create L hs he hcr
  | out _ _ ho => rcases ho with h | h <;> simp_all
  | @run g q o ed f h h0 _ _ her hf =>
    obtain ⟨hr1, hr2, hr3⟩ := rectMin_spec m.g rect (e, CostType.top)
    have hbel := below_iff m rect e
    generalize rectMin m.g rect (e, CostType.top) = rm at *
    have fl := erase_flooded hr1 her
    dsimp only at fl
    -- what is left is below the rectangle
    have hlink : ∀ a v, m.g a < CostType.top → g a = CostType.top → Linked E' m rect a v → g v = CostType.top := by
      intro a v h1 h2 h3
      have : m.g v < CostType.top ∧ g v = CostType.top := by
        induction h3 with
        | refl => exact ⟨h1, h2⟩
        | @tail b c _ hbc ih =>
          exact ⟨hbc.2.1, fl.closed b (ne_of_lt ih.1) ih.2 c hbc.1 (ne_of_lt hbc.2.1) fun hlt => hbc.2.2 ((hbel c).2 hlt)⟩
      exact this.2
    have hleft : ∀ v, g v ≠ CostType.top → g v = m.g v ∧ Below m rect v := by
      intro v hv
      have h1 : g v = m.g v := (fl.keeps v).resolve_right hv
      refine ⟨h1, ?_⟩
      by_contra hb
      have hlt : m.g v < CostType.top := lt_of_le_of_ne (hg.top v) (h1 ▸ hv)
      rcases hc.linked v hlt hb with h2 | ⟨h2, ⟨r, hr, h3⟩, h4⟩
      · have hcm : rm.2 < CostType.top := lt_of_le_of_lt (not_lt.1 fun hh => hb ((hbel v).2 hh)) hlt
        rcases hr3 with hr3 | ⟨hr3, hr4⟩
        · rw [hr3] at hcm; exact absurd hcm (lt_irrefl _)
        · refine hv (hlink rm.1 v (by rw [← hr4]; exact hcm) (fl.seeds _ ?_) (h2 rm.1 hr3 fun r' hr' => by rw [← hr4]; exact hr2 r' hr'))
          rw [if_pos (ne_of_lt hcm)]
          exact List.mem_append_right _ List.mem_cons_self
      · refine hv (hlink s v h2 (fl.seeds s ?_) h4)
        rw [if_pos (lt_of_le_of_lt (hr2 r hr) h3)]
        exact List.mem_append_left _ List.mem_cons_self
    have hseed : ∀ v ∈ (if m.g s > rm.2 then [s] else []) ++ (if rm.2 ≠ CostType.top then [rm.1] else []), ¬ m.g v < rm.2 := by
      intro v hv
      rcases List.mem_append.1 hv with hv | hv
      · split at hv
        · rename_i hgt
          simp only [List.mem_singleton] at hv
          subst hv
          exact not_lt.2 (le_of_lt hgt)
        · simp at hv
      · split at hv
        · rename_i hne
          simp only [List.mem_singleton] at hv
          subst hv
          rcases hr3 with hr3 | ⟨_, hr4⟩
          · rw [hr3] at hne; exact absurd rfl hne
          · rw [hr4]; exact lt_irrefl _
        · simp at hv
    have hkeep : ∀ v, Below m rect v → g v = m.g v := fun v hv => fl.below hseed v ((hbel v).1 hv)
    -- chains among the cells below the rectangle survive
    have hchain : ∀ v c, Chain E e m.g v c → c < rm.2 → Chain E' e g v c ∧ (v = e ∨ Below m rect v) := by
      intro v c hch
      induction hch with
      | start h' =>
        intro _
        exact ⟨.start (by rw [hc.base]; exact h'), Or.inl rfl⟩
      | @step p x c w hp hst hgx ih =>
        intro hlt
        have hle : c ≤ c + w := by
          obtain ⟨eu, hd⟩ := hst
          exact CostType.le_add _ _ (L0.nonneg _ _ w hd rfl).1
        obtain ⟨i1, i2⟩ := ih (lt_of_le_of_lt hle hlt)
        have hx : x = e ∨ Below m rect x := hgx.imp id fun hgx => (hbel x).2 (lt_of_le_of_lt hgx hlt)
        refine ⟨.step i1 (hc.clear p x w i2 hx hst) ?_, hx⟩
        rcases hx with hx | hx
        · exact Or.inl hx
        · exact hgx.imp id fun hgx => (hkeep x hx).le.trans hgx
    have hvals : ∀ v, g v = CostType.top ∨ Chain E' e g v (g v) := by
      intro v
      by_cases hv : g v = CostType.top
      · exact Or.inl hv
      · obtain ⟨h1, h2⟩ := hleft v hv
        right
        rw [h1]
        exact (hchain v _ ((hg.vals v).resolve_left (ne_of_lt h2.1)) ((hbel v).1 h2)).1
    have inv := invC_fill (goal := e) L.toLaws hf ⟨?_, ?_, hvals⟩
    · exact ⟨inv.top, inv.vals⟩
    · intro v
      change g v ≤ CostType.top
      rcases fl.keeps v with h' | h'
      · rw [h']; exact hg.top v
      · rw [h']
    · intro x hx
      simp only at hx
      split at hx
      · simp only [List.mem_singleton] at hx
        subst hx
        exact Or.inr (.start (Or.inr rfl))
      · rcases List.mem_append.1 hx with hx | hx
        · obtain ⟨v, _, rfl⟩ := List.mem_map.1 hx
          exact hvals v
        · rcases fl.opened x hx with h' | ⟨h1, h2⟩
          · simp at h'
          · right
            have hb : Below m rect x.2 := (hbel x.2).2 (h1 ▸ h2)
            rw [h1]
            exact (hchain x.2 _ ((hg.vals x.2).resolve_left (ne_of_lt hb.1)) (h1 ▸ h2)).1

end Verif.DistMap
