import Verif.Astar.Lemmas

set_option linter.unusedSectionVars false
set_option linter.unusedVariables false

/-! Completeness of the search: invariant and preservation (helper lemmas for C07). -/
namespace Verif.Astar
open Spec

variable {V C : Type} [DecidableEq V] [CostType C]

/-- Every entry's raw cost, and every recorded value, is the cost of a real route. -/
structure InvR (P : Prob V C) (s : St V C) : Prop where
  ents : ∀ e ∈ s.open_, Route P e.v e.raw
  vals : ∀ v, s.gh v = CostType.top ∨ Route P v (s.gh v)

def ActR (P : Prob V C) : Act V C → Prop
  | .upd u => Route P u.p1 u.cost
  | .dont _ => True

theorem invR_act {P : Prob V C} {s s' : St V C} {a : Act V C} (inv : InvR P s) (ha : ActR P a)
    (h : ActRel P.limit s a s') : InvR P s' := by
  have key : ∀ u : Upd V C, Route P u.p1 u.cost →
      (∀ e ∈ ((⟨u.estim, u.cost, u.p1⟩ : Ent V C) :: s.open_), Route P e.v e.raw) ∧
      ∀ v, setF s.gh u.p1 u.cost v = CostType.top ∨ Route P v (setF s.gh u.p1 u.cost v) := by
    intro u hu
    constructor
    · intro e he
      rcases List.mem_cons.mp he with rfl | he
      · exact hu
      · exact inv.ents e he
    · intro v
      unfold setF
      split
      · rename_i h; subst h; exact .inr hu
      · exact inv.vals v
  cases h with
  | skip => exact inv
  | push u h hl => exact ⟨(key u ha).1, (key u ha).2⟩
  | pushDrop u x rest h hl hx =>
    exact ⟨fun e he => (key u ha).1 e (hx.symm.subset (List.mem_cons_of_mem _ he)), (key u ha).2⟩
  | dont p => exact ⟨inv.ents, inv.vals⟩

theorem invR_acts {P : Prob V C} {s s' : St V C} {as : List (Act V C)} (inv : InvR P s)
    (ha : ∀ a ∈ as, ActR P a) (h : ActsRel P.limit s as s') : InvR P s' := by
  induction h with
  | nil => exact inv
  | cons h1 h2 ih => exact ih (invR_act inv (ha _ (by simp)) h1) (fun b hb => ha b (by simp [hb]))

theorem actR_expand {P : Prob V C} {g : V → C} {e : Ent V C} (hr : Route P e.v e.raw)
    {a : Act V C} (ha : a ∈ expand P g e) : ActR P a := by
  cases a with
  | dont => trivial
  | upd u =>
    obtain ⟨h0, hm, hc, hes, _⟩ := expand_upd ha
    show Route P u.p1 u.cost
    rw [hc]
    exact .move (by rw [h0]; exact hr) hm

theorem invR_round {P : Prob V C} {s s' : St V C} (inv : InvR P s) (h : Round P s s') : InvR P s' := by
  cases h with
  | mk hc hne hp hb ha =>
    rename_i cs o' b acts
    obtain ⟨h1, h2, h3⟩ := collect_mem hc
    refine invR_acts (s := { s with open_ := o', better := b })
      ⟨fun e he => inv.ents e (h2 e he), inv.vals⟩ ?_ ha
    intro a hmem
    have hmem := hp.subset hmem
    simp only [List.mem_flatMap] at hmem
    obtain ⟨e, he, hmem⟩ := hmem
    exact actR_expand (inv.ents e (h1 e he)) hmem

theorem foldl_setF_cases (l : List (V × C)) (f : V → C) (v : V) :
    (l.foldl (fun g s => setF g s.1 s.2) f) v = f v ∨
      (v, (l.foldl (fun g s => setF g s.1 s.2) f) v) ∈ l := by
  induction l generalizing f with
  | nil => exact .inl rfl
  | cons x t ih =>
    simp only [List.foldl_cons]
    rcases ih (setF f x.1 x.2) with h | h
    · rw [h]
      unfold setF
      split
      · rename_i hv; subst hv; right; simp
      · exact .inl rfl
    · exact .inr (List.mem_cons_of_mem _ h)

theorem foldl_setF_mem (l : List (V × C)) (f : V → C) (v : V) (h : v ∈ l.map Prod.fst) :
    (v, (l.foldl (fun g s => setF g s.1 s.2) f) v) ∈ l := by
  induction l generalizing f with
  | nil => simp at h
  | cons x t ih =>
    simp only [List.foldl_cons]
    by_cases ht : v ∈ t.map Prod.fst
    · exact List.mem_cons_of_mem _ (ih _ ht)
    · simp only [List.map_cons, List.mem_cons] at h
      have hv : v = x.1 := h.resolve_right ht
      have : (t.foldl (fun g s => setF g s.1 s.2) (setF f x.1 x.2)) v = x.2 := by
        rcases foldl_setF_cases t (setF f x.1 x.2) v with h' | h'
        · rw [h', hv]; simp [setF]
        · exact absurd (List.mem_map_of_mem h') ht
      rw [this, hv]; simp

theorem invR_init {P : Prob V C} (b : V) : InvR P (init P b) := by
  constructor
  · intro e he
    simp only [init, List.mem_map] at he
    obtain ⟨x, hx, rfl⟩ := he
    exact .start hx
  · intro v
    rcases foldl_setF_cases P.starts (fun _ => CostType.top) v with h | h
    · exact .inl h
    · exact .inr (.start h)

theorem invR_reach {P : Prob V C} {s : St V C} (h : Reach P s) : InvR P s := by
  induction h with
  | init b hb => exact invR_init b
  | round _ h ih => exact invR_round ih h

theorem collect_perm {P : Prob V C} {n : Nat} {o cs o' : List (Ent V C)} {r : Option (Ent V C)}
    (h : Collect P n o cs o' r) : r = none → List.Perm o (cs ++ o') ∧ ∀ e ∈ cs, ¬ hits P e := by
  induction h with
  | full => intro; simp
  | empty => intro; simp
  | hit => intro h; cases h
  | take hp hmin hh hc ih =>
    intro hr
    obtain ⟨h1, h2⟩ := ih hr
    refine ⟨hp.trans (List.Perm.cons _ h1), ?_⟩
    intro x hx
    rcases List.mem_cons.mp hx with rfl | hx
    · exact hh
    · exact h2 x hx

/-- All admissible successors have a value. -/
def Expanded (P : Prob V C) (s : St V C) (v : V) : Prop := ∀ x, Move P v x → s.gh x ≠ CostType.top

/-- Completeness invariant; `Q` are cells whose expansion is being applied. -/
structure InvC (P : Prob V C) (s : St V C) (Q : V → Prop) : Prop where
  top : ∀ v, s.gh v ≤ CostType.top
  ents : ∀ e ∈ s.open_, s.gh e.v ≠ CostType.top
  todo : ∀ v, s.gh v ≠ CostType.top →
    (∃ e ∈ s.open_, e.v = v ∧ e.raw = s.gh v) ∨ Expanded P s v ∨ Q v
  closed : ∀ v, s.g v ≠ s.gh v → s.gh v ≠ CostType.top ∧ Expanded P s v
  goal : s.gh P.goal ≠ CostType.top → ∃ e ∈ s.open_, e.v = P.goal
  starts : ∀ x ∈ P.starts, s.gh x.1 ≠ CostType.top

def ActC (P : Prob V C) (s : St V C) : Act V C → Prop
  | .upd u => u.cost < CostType.top
  | .dont p => s.gh p ≠ CostType.top ∧ Expanded P s p

theorem gh_mono {P : Prob V C} {s s' : St V C} {a : Act V C} {Q : V → Prop}
    (ic : InvC P s Q) (inv : Inv P s) (hok : ActOk P s a)
    (h : ActRel P.limit s a s') : ∀ v, s'.gh v ≤ s.gh v := by
  intro v
  cases h with
  | skip => exact le_refl _
  | push u h hl => exact setF_le (le_of_lt (inv_push inv hok h).1) v
  | pushDrop u x rest h hl hx => exact setF_le (le_of_lt (inv_push inv hok h).1) v
  | dont p => exact le_refl _

theorem ne_top_mono {P : Prob V C} {s s' : St V C} {Q : V → Prop} (ic : InvC P s Q)
    (hm : ∀ v, s'.gh v ≤ s.gh v) {v : V} (h : s.gh v ≠ CostType.top) : s'.gh v ≠ CostType.top := by
  intro h'
  have := hm v
  rw [h'] at this
  exact h (le_antisymm (ic.top v) this)

theorem invC_act {P : Prob V C} (hl0 : P.limit = 0) {s s' : St V C} {a : Act V C} {Q : V → Prop}
    (ic : InvC P s Q) (inv : Inv P s) (hok : ActOk P s a) (hc : ActC P s a)
    (h : ActRel P.limit s a s') : InvC P s' Q := by
  have hm := gh_mono ic inv hok h
  have hne : ∀ v, s.gh v ≠ CostType.top → s'.gh v ≠ CostType.top := fun v hv => ne_top_mono ic hm hv
  have hexp : ∀ v, Expanded P s v → Expanded P s' v := fun v hv x hx => hne x (hv x hx)
  cases h with
  | skip => exact ic
  | push u h hl =>
    have hcost : u.cost ≠ CostType.top := ne_of_lt hc
    refine ⟨fun v => le_trans (hm v) (ic.top v), ?_, ?_, ?_, ?_, fun x hx => hne _ (ic.starts x hx)⟩
    · intro e he
      rcases List.mem_cons.mp he with rfl | he
      · simp [setF, hcost]
      · exact hne _ (ic.ents e he)
    · intro v hv
      by_cases hvx : v = u.p1
      · subst hvx
        exact .inl ⟨_, List.mem_cons_self, rfl, by simp [setF]⟩
      · have hv' : s.gh v ≠ CostType.top := by simpa [setF, hvx] using hv
        rcases ic.todo v hv' with ⟨e, he, h1, h2⟩ | h | h
        · exact .inl ⟨e, List.mem_cons_of_mem _ he, h1, by simp only [setF, if_neg hvx]; exact h2⟩
        · exact .inr (.inl (hexp v h))
        · exact .inr (.inr h)
    · intro v hv
      by_cases hvx : v = u.p1
      · subst hvx; simp [setF] at hv
      · simp only [setF, if_neg hvx] at hv ⊢
        exact ⟨(ic.closed v hv).1, hexp v (ic.closed v hv).2⟩
    · intro hg
      by_cases hvx : P.goal = u.p1
      · exact ⟨_, List.mem_cons_self, hvx.symm⟩
      · simp only [setF, if_neg hvx] at hg
        obtain ⟨e, he, h1⟩ := ic.goal hg
        exact ⟨e, List.mem_cons_of_mem _ he, h1⟩
  | pushDrop u x rest h hl hx => rw [hl0] at hl; exact absurd hl.1 (lt_irrefl _)
  | dont p =>
    refine ⟨ic.top, ic.ents, ?_, ?_, ic.goal, ic.starts⟩
    · intro v hv; exact ic.todo v hv
    · intro v hv
      simp only [setF] at hv ⊢
      by_cases hvp : v = p
      · subst hvp; exact hc
      · simp only [if_neg hvp] at hv; exact ic.closed v hv

/-- Sequence version; also: updated cells end up recorded. -/
theorem invC_acts {P : Prob V C} (hl0 : P.limit = 0) {s s' : St V C} {as : List (Act V C)}
    {Q : V → Prop} (ic : InvC P s Q) (inv : Inv P s) (hok : ∀ a ∈ as, ActOk P s a)
    (hc : ∀ a ∈ as, ActC P s a) (h : ActsRel P.limit s as s') :
    InvC P s' Q ∧ (∀ v, s.gh v ≠ CostType.top → s'.gh v ≠ CostType.top) ∧
    ∀ u, Act.upd u ∈ as → s'.gh u.p1 ≠ CostType.top := by
  induction h with
  | nil => exact ⟨ic, fun v h => h, by simp⟩
  | @cons s s1 s2 a as h1 h2 ih =>
    have ic1 := invC_act hl0 ic inv (hok a (by simp)) (hc a (by simp)) h1
    have inv1 := inv_act inv (hok a (by simp)) h1
    have hm := gh_mono ic inv (hok a (by simp)) h1
    have hne : ∀ v, s.gh v ≠ CostType.top → s1.gh v ≠ CostType.top :=
      fun v hv => ne_top_mono ic hm hv
    obtain ⟨r1, r2, r3⟩ := ih ic1 inv1
      (fun b hb => actOk_mono inv (hok _ (by simp)) (hok b (by simp [hb])) h1)
      (fun b hb => by
        have := hc b (by simp [hb])
        cases b with
        | upd u => exact this
        | dont p => exact ⟨hne _ this.1, fun x hx => hne _ (this.2 x hx)⟩)
    refine ⟨r1, fun v hv => r2 v (hne v hv), ?_⟩
    intro u hu
    rcases List.mem_cons.mp hu with rfl | hu
    · have hcu : u.cost < CostType.top := hc (.upd u) (by simp)
      apply r2
      cases h1 with
      | skip _ hns =>
        by_cases hgg : s.g u.p1 = s.gh u.p1
        · rw [hgg] at hns
          exact ne_of_lt (lt_of_le_of_lt (not_lt.mp hns) hcu)
        · exact (ic.closed _ hgg).1
      | push _ h hl => simp only [setF, if_true]; exact ne_of_lt hcu
      | pushDrop _ x rest h hl hx => simp only [setF, if_true]; exact ne_of_lt hcu
    · exact r3 u hu

/-- When a fresh center is expanded every admissible successor is recorded or gets an update. -/
theorem expand_cover {P : Prob V C} {s : St V C} {Q : V → Prop} (ic : InvC P s Q)
    {e : Ent V C} (hst : ¬ e.raw > s.g e.v) (hnt : s.gh e.v ≠ CostType.top)
    (hno : ∀ x, Move P e.v x → e.raw + P.cost e.v x < CostType.top) (hgle : s.g e.v ≤ s.gh e.v)
    {x : V} (hx : Move P e.v x) :
    s.gh x ≠ CostType.top ∨ ∃ u, Act.upd u ∈ expand P s.g e ∧ u.p1 = x := by
  by_cases hrec : s.gh x = CostType.top
  · right
    have hgx : s.g x = CostType.top := by
      by_contra h
      exact (ic.closed x (by rw [hrec]; exact h)).1 hrec
    have hone : expandOne P s.g e.v e.raw x =
        some ⟨e.v, x, e.raw + P.cost e.v x + P.estim x, e.raw + P.cost e.v x⟩ := by
      unfold expandOne
      rw [if_neg, if_neg (not_rejected.mpr hx.2.1), if_neg (not_rejected.mpr hx.2.2), if_pos]
      · rw [hgx]; exact hno x hx
      · rw [hgx]
        exact not_lt.mpr (le_trans hgle (ic.top _))
    have hmem : (⟨e.v, x, e.raw + P.cost e.v x + P.estim x, e.raw + P.cost e.v x⟩ : Upd V C) ∈
        (P.nexts e.v).filterMap (expandOne P s.g e.v e.raw) :=
      List.mem_filterMap.mpr ⟨x, hx.1, hone⟩
    refine ⟨⟨e.v, x, e.raw + P.cost e.v x + P.estim x, e.raw + P.cost e.v x⟩, ?_, rfl⟩
    unfold expand
    rw [if_neg hst]
    simp only
    rw [if_neg]
    · exact List.mem_map_of_mem hmem
    · intro h
      rw [List.isEmpty_iff] at h
      rw [h] at hmem; simp at hmem
  · exact .inl hrec

theorem mem_expand_dont {P : Prob V C} {g : V → C} {e : Ent V C} {p : V}
    (h : Act.dont p ∈ expand P g e) :
    p = e.v ∧ ¬ e.raw > g e.v ∧ ∀ u, Act.upd u ∉ expand P g e := by
  unfold expand at h ⊢
  split at h
  · simp at h
  · rename_i hst
    simp only at h ⊢
    rw [if_neg hst]
    split at h
    · rename_i hemp
      simp only [List.mem_singleton, Act.dont.injEq] at h
      refine ⟨h, hst, ?_⟩
      intro u
      rw [if_pos hemp]; simp
    · simp at h

theorem invC_round {P : Prob V C} (hl0 : P.limit = 0)
    (hno : ∀ p c x, Route P p c → c < CostType.top → Move P p x → c + P.cost p x < CostType.top)
    {s s' : St V C} (inv : Inv P s) (ir : InvR P s) (ic : InvC P s (fun _ => False))
    (hent : ∀ e ∈ s.open_, e.raw < CostType.top)
    (hghost : ∀ v, s.g v ≤ s.gh v)
    (h : Round P s s') : InvC P s' (fun _ => False) := by
  cases h with
  | mk hc hne hp hb ha =>
    rename_i cs o' b acts
    obtain ⟨h1, h2, h3⟩ := collect_mem hc
    obtain ⟨hperm, hnh⟩ := collect_perm hc rfl
    set s0 : St V C := { s with open_ := o', better := b } with hs0
    let Q : V → Prop := fun v => ∃ e ∈ cs, e.v = v ∧ ¬ e.raw > s.g v
    have inv0 : Inv P s0 := by
      refine ⟨fun e he => inv.ents e (h2 e he), inv.ghost, inv.par, inv.reach, ?_⟩
      rcases hb with rfl | ⟨e, he, rfl⟩
      · exact inv.better
      · exact (inv.ents e (h1 e he)).2.2.1
    have ic0 : InvC P s0 Q := by
      refine ⟨ic.top, fun e he => ic.ents e (h2 e he), ?_, ic.closed, ?_, ic.starts⟩
      · intro v hv
        rcases ic.todo v hv with ⟨e, he, hev, her⟩ | h | h
        · rcases List.mem_append.mp (hperm.subset he) with he' | he'
          · by_cases hg : s.g v = s.gh v
            · refine .inr (.inr ⟨e, he', hev, ?_⟩)
              rw [her, hg]; exact lt_irrefl _
            · exact .inr (.inl (ic.closed v hg).2)
          · exact .inl ⟨e, he', hev, her⟩
        · exact .inr (.inl h)
        · exact absurd h id
      · intro hg
        obtain ⟨e, he, hev⟩ := ic.goal hg
        rcases List.mem_append.mp (hperm.subset he) with he' | he'
        · exact absurd (.inl hev) (hnh e he')
        · exact ⟨e, he', hev⟩
    have hcov : ∀ e ∈ cs, ¬ e.raw > s.g e.v → ∀ x, Move P e.v x →
        s.gh x ≠ CostType.top ∨ ∃ u, Act.upd u ∈ expand P s.g e ∧ u.p1 = x := by
      intro e he hst x hx
      exact expand_cover ic hst (ic.ents e (h1 e he))
        (fun x hx => hno _ _ _ (ir.ents e (h1 e he)) (hent e (h1 e he)) hx) (hghost _) hx
    have hact : ∀ a ∈ acts, ActOk P s0 a ∧ ActC P s0 a := by
      intro a hmem
      have hmem := hp.subset hmem
      simp only [List.mem_flatMap] at hmem
      obtain ⟨e, he, hmem⟩ := hmem
      have hok := actOk_expand inv (h1 e he) hmem
      cases a with
      | upd u =>
        refine ⟨hok, ?_⟩
        obtain ⟨e0, hm, hcost, _⟩ := expand_upd hmem
        show u.cost < CostType.top
        rw [hcost]
        exact hno _ _ _ (by rw [e0]; exact ir.ents e (h1 e he)) (hent e (h1 e he)) hm
      | dont p =>
        obtain ⟨rfl, hst, hnu⟩ := mem_expand_dont hmem
        refine ⟨trivial, ic.ents e (h1 e he), ?_⟩
        intro x hx
        rcases hcov e he hst x hx with h | ⟨u, hu, _⟩
        · exact h
        · exact absurd hu (hnu u)
    obtain ⟨r1, r2, r3⟩ := invC_acts hl0 ic0 inv0 (fun a h => (hact a h).1) (fun a h => (hact a h).2) ha
    refine ⟨r1.top, r1.ents, ?_, r1.closed, r1.goal, r1.starts⟩
    intro v hv
    rcases r1.todo v hv with h | h | ⟨e, he, hev, hst⟩
    · exact .inl h
    · exact .inr (.inl h)
    · subst hev
      refine .inr (.inl ?_)
      intro x hx
      rcases hcov e he hst x hx with h | ⟨u, hu, hux⟩
      · exact r2 x h
      · rw [← hux]
        exact r3 u (hp.symm.subset (List.mem_flatMap.mpr ⟨e, he, hu⟩))

/-- Ghost values are non-negative, entries are below `top`. -/
structure InvN (P : Prob V C) (s : St V C) : Prop where
  ents : ∀ e ∈ s.open_, e.raw < CostType.top
  gh0 : ∀ v, 0 ≤ s.gh v

theorem invN_acts {P : Prob V C} {s s' : St V C} {as : List (Act V C)} (h : ActsRel P.limit s as s')
    (inn : InvN P s) (hc : ∀ u, Act.upd u ∈ as → u.cost < CostType.top ∧ 0 ≤ u.cost) : InvN P s' := by
  induction h with
  | nil => exact inn
  | @cons s s1 s2 a as h1 h2 ih =>
    refine ih ?_ (fun u hu => hc u (by simp [hu]))
    have key : ∀ u : Upd V C, u.cost < CostType.top ∧ 0 ≤ u.cost →
        (∀ e ∈ ((⟨u.estim, u.cost, u.p1⟩ : Ent V C) :: s.open_), e.raw < CostType.top) ∧
        ∀ v, 0 ≤ setF s.gh u.p1 u.cost v := by
      intro u hu
      constructor
      · intro e he
        rcases List.mem_cons.mp he with rfl | he
        · exact hu.1
        · exact inn.ents e he
      · intro v; unfold setF; split
        · exact hu.2
        · exact inn.gh0 v
    cases h1 with
    | skip => exact inn
    | push u h hl => exact ⟨(key u (hc u (by simp))).1, (key u (hc u (by simp))).2⟩
    | pushDrop u x rest h hl hx =>
      exact ⟨fun e he => (key u (hc u (by simp))).1 e (hx.symm.subset (List.mem_cons_of_mem _ he)),
        (key u (hc u (by simp))).2⟩
    | dont p => exact ⟨inn.ents, inn.gh0⟩

theorem invN_round {P : Prob V C}
    (hno : ∀ p c x, Route P p c → c < CostType.top → Move P p x → c + P.cost p x < CostType.top)
    {s s' : St V C} (inv : Inv P s) (ir : InvR P s) (inn : InvN P s)
    (h : Round P s s') : InvN P s' := by
  cases h with
  | mk hc hne hp hb ha =>
    rename_i cs o' b acts
    obtain ⟨h1, h2, h3⟩ := collect_mem hc
    refine invN_acts ha ⟨fun e he => inn.ents e (h2 e he), inn.gh0⟩ ?_
    intro u hmem
    have hmem := hp.subset hmem
    simp only [List.mem_flatMap] at hmem
    obtain ⟨e, he, hmem⟩ := hmem
    obtain ⟨e0, hm, hcost, _⟩ := expand_upd hmem
    rw [hcost]
    refine ⟨hno _ _ _ (by rw [e0]; exact ir.ents e (h1 e he)) (inn.ents e (h1 e he)) hm, ?_⟩
    exact le_trans (inv.ents e (h1 e he)).1 (CostType.le_add _ _ hm.2.2.1)

theorem ghost_le {P : Prob V C} {s : St V C} (inv : Inv P s) (inn : InvN P s) (v : V) :
    s.g v ≤ s.gh v := by
  rcases inv.ghost v with h | h
  · exact le_of_eq h
  · rw [h]; exact le_trans (le_of_lt CostType.neg1_lt_zero) (inn.gh0 v)

theorem invC_reach {P : Prob V C} (hl0 : P.limit = 0)
    (hs : ∀ x ∈ P.starts, (0 : C) ≤ x.2 ∧ x.2 < CostType.top) (ht : (0 : C) ≤ CostType.top)
    (hno : ∀ p c x, Route P p c → c < CostType.top → Move P p x → c + P.cost p x < CostType.top)
    {s : St V C} (h : Reach P s) : InvC P s (fun _ => False) ∧ InvN P s := by
  induction h with
  | init b hb =>
    have hinit : ∀ v, (init P b).gh v = CostType.top ∨ (v, (init P b).gh v) ∈ P.starts := by
      intro v; exact foldl_setF_cases P.starts _ v
    have hrec : ∀ v ∈ SS P, (v, (init P b).gh v) ∈ P.starts := by
      intro v hv; exact foldl_setF_mem P.starts _ v hv
    have hent : ∀ v, (v, (init P b).gh v) ∈ P.starts →
        ∃ e ∈ (init P b).open_, e.v = v ∧ e.raw = (init P b).gh v := by
      intro v hv
      exact ⟨_, List.mem_map_of_mem (f := fun s : V × C => (⟨P.startEstim s.1 + s.2, s.2, s.1⟩ : Ent V C)) hv,
        rfl, rfl⟩
    refine ⟨⟨?_, ?_, ?_, ?_, ?_, ?_⟩, ?_, ?_⟩
    · intro v
      rcases hinit v with h | h
      · exact le_of_eq h
      · exact le_of_lt (hs _ h).2
    · intro e he
      simp only [init, List.mem_map] at he
      obtain ⟨x, hx, rfl⟩ := he
      exact ne_of_lt (hs _ (hrec x.1 (List.mem_map_of_mem hx))).2
    · intro v hv
      rcases hinit v with h | h
      · exact absurd h hv
      · exact .inl (hent v h)
    · intro v hv; exact absurd rfl hv
    · intro hv
      rcases hinit P.goal with h | h
      · exact absurd h hv
      · obtain ⟨e, he, h1, _⟩ := hent _ h
        exact ⟨e, he, h1⟩
    · intro x hx
      exact ne_of_lt (hs _ (hrec x.1 (List.mem_map_of_mem hx))).2
    · intro e he
      simp only [init, List.mem_map] at he
      obtain ⟨x, hx, rfl⟩ := he
      exact (hs x hx).2
    · intro v
      rcases hinit v with h | h
      · rw [h]; exact ht
      · exact (hs _ h).1
  | round hr h ih =>
    have inv := inv_reach (fun x hx => (hs x hx).1) hr
    have ir := invR_reach hr
    exact ⟨invC_round hl0 hno inv ir ih.1 ih.2.ents (ghost_le inv ih.2) h,
      invN_round hno inv ir ih.2 h⟩

end Verif.Astar
