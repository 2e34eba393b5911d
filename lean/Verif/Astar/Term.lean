import Verif.Astar.Opt
import Mathlib.Data.DFinsupp.WellFounded

set_option linter.unusedSectionVars false
set_option linter.unusedVariables false

/-! Termination, progress and queue bound (helper lemmas for C08, C10). -/
namespace Verif.Astar
open Spec

variable {V C : Type} [DecidableEq V] [CostType C]

/-! ### Everything stays inside a finite set of cells -/

structure InvL (L : List V) (s : St V C) : Prop where
  ents : ∀ e ∈ s.open_, e.v ∈ L

theorem gh_pos {P : Prob V C} (hs : ∀ x ∈ P.starts, (0 : C) ≤ x.2)
    (ht : (0 : C) ≤ CostType.top) {s : St V C} (h : Reach P s) (v : V) : (0 : C) ≤ s.gh v := by
  have hr := (invR_reach h).vals v
  rcases hr with h | h
  · rw [h]; exact ht
  · have : ∀ {x c}, Route P x c → (0 : C) ≤ c := by
      intro x c hr
      induction hr with
      | start h => exact hs _ h
      | move _ hm ih => exact le_trans ih (CostType.le_add _ _ hm.2.2.1)
    exact this h

theorem g_ge {P : Prob V C} (hs : ∀ x ∈ P.starts, (0 : C) ≤ x.2)
    (ht : (0 : C) ≤ CostType.top) {s : St V C} (h : Reach P s) (v : V) : (CostType.neg1 : C) ≤ s.g v := by
  rcases (inv_reach hs h).ghost v with h1 | h1
  · rw [h1]; exact le_of_lt (lt_of_lt_of_le CostType.neg1_lt_zero (gh_pos hs ht h v))
  · rw [h1]

/-- Effect of a sequence of actions on `g` and the open list. -/
theorem acts_effect {P : Prob V C} {L : List V} {s s' : St V C} {as : List (Act V C)}
    (h : ActsRel P.limit s as s') (hL : ∀ u, Act.upd u ∈ as → u.p1 ∈ L)
    (hn : ∀ v, (CostType.neg1 : C) ≤ s.g v) (hc : ∀ u, Act.upd u ∈ as → (0 : C) ≤ u.cost)
    (ho : ∀ e ∈ s.open_, e.v ∈ L) :
    (∀ v, s'.g v ≤ s.g v) ∧ (∀ v, (CostType.neg1 : C) ≤ s'.g v) ∧ (∀ e ∈ s'.open_, e.v ∈ L) ∧
    ((∃ v ∈ L, s'.g v < s.g v) ∨ s'.open_ = s.open_) := by
  induction h with
  | nil => exact ⟨fun v => le_refl _, hn, ho, .inr rfl⟩
  | @cons s s1 s2 a as h1 h2 ih =>
    have hL' : ∀ u, Act.upd u ∈ as → u.p1 ∈ L := fun u hu => hL u (by simp [hu])
    have hc' : ∀ u, Act.upd u ∈ as → (0 : C) ≤ u.cost := fun u hu => hc u (by simp [hu])
    have hneg : ∀ (f : V → C) k b, (CostType.neg1 : C) ≤ b → (∀ v, CostType.neg1 ≤ f v) →
        ∀ v, (CostType.neg1 : C) ≤ setF f k b v := by
      intro f k b hb hf v
      simp only [setF]; split
      · exact hb
      · exact hf v
    cases h1 with
    | skip u h => exact ih hL' hn hc' ho
    | push u h hl =>
      have hu0 : (0 : C) ≤ u.cost := hc u (by simp)
      have huL : u.p1 ∈ L := hL u (by simp)
      obtain ⟨r1, r2, r3, r4⟩ := ih hL'
        (hneg _ _ _ (le_of_lt (lt_of_lt_of_le CostType.neg1_lt_zero hu0)) hn) hc'
        (by
          intro e he
          rcases List.mem_cons.mp he with rfl | he
          · exact huL
          · exact ho e he)
      have hm := setF_le (f := s.g) (k := u.p1) (b := u.cost) (le_of_lt h)
      refine ⟨fun v => le_trans (r1 v) (hm v), r2, r3, .inl ⟨u.p1, huL, ?_⟩⟩
      have := r1 u.p1
      simp only [setF, if_true] at this
      exact lt_of_le_of_lt this h
    | pushDrop u x rest h hl hx =>
      have hu0 : (0 : C) ≤ u.cost := hc u (by simp)
      have huL : u.p1 ∈ L := hL u (by simp)
      obtain ⟨r1, r2, r3, r4⟩ := ih hL'
        (hneg _ _ _ (le_of_lt (lt_of_lt_of_le CostType.neg1_lt_zero hu0)) hn) hc'
        (by
          intro e he
          have := hx.symm.subset (List.mem_cons_of_mem x he)
          rcases List.mem_cons.mp this with rfl | he
          · exact huL
          · exact ho e he)
      have hm := setF_le (f := s.g) (k := u.p1) (b := u.cost) (le_of_lt h)
      refine ⟨fun v => le_trans (r1 v) (hm v), r2, r3, .inl ⟨u.p1, huL, ?_⟩⟩
      have := r1 u.p1
      simp only [setF, if_true] at this
      exact lt_of_le_of_lt this h
    | dont p =>
      obtain ⟨r1, r2, r3, r4⟩ := ih hL' (hneg _ _ _ (le_refl _) hn) hc' ho
      have hm := setF_le (f := s.g) (k := p) (b := CostType.neg1) (hn p)
      refine ⟨fun v => le_trans (r1 v) (hm v), r2, r3, ?_⟩
      rcases r4 with ⟨v, hv, h⟩ | h
      · exact .inl ⟨v, hv, lt_of_lt_of_le h (hm v)⟩
      · exact .inr h

/-- A set of cells containing the starts and closed under the offered moves. -/
def Closed (P : Prob V C) (L : List V) : Prop :=
  (∀ x ∈ P.starts, x.1 ∈ L) ∧ ∀ p ∈ L, ∀ x ∈ P.nexts p, x ∈ L

theorem round_effect {P : Prob V C} {L : List V} (hL : Closed P L)
    (hs : ∀ x ∈ P.starts, (0 : C) ≤ x.2) (ht : (0 : C) ≤ CostType.top)
    {s s' : St V C} (hr : Reach P s) (ho : ∀ e ∈ s.open_, e.v ∈ L) (h : Round P s s') :
    (∀ e ∈ s'.open_, e.v ∈ L) ∧ (∀ v, s'.g v ≤ s.g v) ∧
    ((∃ v ∈ L, s'.g v < s.g v) ∨ s'.open_.length < s.open_.length) := by
  have inv := inv_reach hs hr
  cases h with
  | mk hc hne hp hb ha =>
    rename_i cs o' b acts
    have hperm := (collect_perm hc rfl).1
    have hcsm : ∀ e ∈ cs, e ∈ s.open_ := fun e he => hperm.symm.subset (by simp [he])
    have hom : ∀ e ∈ o', e ∈ s.open_ := fun e he => hperm.symm.subset (by simp [he])
    have hupd : ∀ u, Act.upd u ∈ acts → u.p1 ∈ L ∧ (0 : C) ≤ u.cost := by
      intro u hu
      have := hp.subset hu
      rw [List.mem_flatMap] at this
      obtain ⟨e, he, hue⟩ := this
      obtain ⟨e0, hm, hcost, _⟩ := expand_upd hue
      rw [e0] at hm
      refine ⟨hL.2 e.v (ho e (hcsm e he)) u.p1 hm.1, ?_⟩
      rw [hcost]
      exact le_trans (inv.ents e (hcsm e he)).1 (CostType.le_add _ _ (by rw [e0] at *; exact hm.2.2.1))
    obtain ⟨r1, r2, r3, r4⟩ := acts_effect (P := P) (L := L) ha (fun u hu => (hupd u hu).1)
      (fun v => g_ge hs ht hr v) (fun u hu => (hupd u hu).2) (fun e he => ho e (hom e he))
    refine ⟨r3, r1, ?_⟩
    rcases r4 with h | h
    · exact .inl h
    · refine .inr ?_
      rw [h, hperm.length_eq]
      simp only [List.length_append]
      have : 0 < cs.length := List.length_pos_iff.mpr hne
      simp
      omega

theorem reach_in {P : Prob V C} {L : List V} (hL : Closed P L)
    (hs : ∀ x ∈ P.starts, (0 : C) ≤ x.2) (ht : (0 : C) ≤ CostType.top)
    {s : St V C} (hr : Reach P s) : ∀ e ∈ s.open_, e.v ∈ L := by
  induction hr with
  | init b hb =>
    intro e he
    simp only [init, List.mem_map] at he
    obtain ⟨x, hx, rfl⟩ := he
    exact hL.1 x hx
  | round hr h ih => exact (round_effect hL hs ht hr ih h).1

theorem wf_rounds [WellFoundedLT C] {P : Prob V C} {L : List V} (hL : Closed P L)
    (hs : ∀ x ∈ P.starts, (0 : C) ≤ x.2) (ht : (0 : C) ≤ CostType.top) :
    WellFounded (fun s' s : St V C => Reach P s ∧ Round P s s') := by
  have hwf : WellFounded (Prod.Lex (α := {v // v ∈ L} → C) (β := ℕ) (· < ·) (· < ·)) :=
    (wellFounded_lt (α := {v // v ∈ L} → C)).prod_lex wellFounded_lt
  refine Subrelation.wf ?_ (InvImage.wf
    (fun s : St V C => ((fun v : {v // v ∈ L} => s.g v.1), s.open_.length)) hwf)
  intro s' s ⟨hr, h⟩
  obtain ⟨_, h1, h2⟩ := round_effect hL hs ht hr (reach_in hL hs ht hr) h
  show Prod.Lex _ _ _ _
  rw [Prod.lex_def]
  have hle : (fun v : {v // v ∈ L} => s'.g v.1) ≤ (fun v : {v // v ∈ L} => s.g v.1) := fun v => h1 v.1
  rcases h2 with ⟨v, hv, hlt⟩ | h2
  · exact .inl (lt_of_le_not_ge hle (fun hge => absurd (hge ⟨v, hv⟩) (not_le.mpr hlt)))
  · rcases lt_or_eq_of_le hle with h | h
    · exact .inl h
    · exact .inr ⟨h, h2⟩

/-! ### Progress -/

theorem exists_min {α : Type} (f : α → C) : ∀ (l : List α), l ≠ [] → ∃ e ∈ l, ∀ x ∈ l, f e ≤ f x
  | [a], _ => ⟨a, by simp, by simp⟩
  | a :: b :: t, _ => by
    obtain ⟨e, he, hm⟩ := exists_min f (b :: t) (by simp)
    rcases le_total (f a) (f e) with h | h
    · exact ⟨a, by simp, fun x hx => by
        rcases List.mem_cons.mp hx with rfl | hx
        · exact le_refl _
        · exact le_trans h (hm x hx)⟩
    · exact ⟨e, List.mem_cons_of_mem _ he, fun x hx => by
        rcases List.mem_cons.mp hx with rfl | hx
        · exact h
        · exact hm x hx⟩

theorem mem_perm {α : Type} {e : α} {o : List α} (he : e ∈ o) : ∃ rest, o.Perm (e :: rest) := by
  obtain ⟨a, b, rfl⟩ := List.append_of_mem he
  exact ⟨a ++ b, List.perm_middle⟩

theorem collect_total (P : Prob V C) : ∀ n (o : List (Ent V C)), ∃ cs o' r, Collect P n o cs o' r
  | 0, o => ⟨_, _, _, .full o⟩
  | n + 1, [] => ⟨_, _, _, .empty n⟩
  | n + 1, a :: t => by
    obtain ⟨e, he, hm⟩ := exists_min (fun e : Ent V C => e.p) (a :: t) (by simp)
    obtain ⟨rest, hp⟩ := mem_perm he
    by_cases hh : hits P e
    · exact ⟨_, _, _, .hit n _ e rest hp hm hh⟩
    · obtain ⟨cs, o', r, hc⟩ := collect_total P n rest
      exact ⟨_, _, _, .take hp hm hh hc⟩

theorem acts_total (limit : Nat) : ∀ (as : List (Act V C)) (s : St V C), ∃ s', ActsRel limit s as s'
  | [], s => ⟨s, .nil s⟩
  | a :: as, s => by
    have : ∃ s1, ActRel limit s a s1 := by
      cases a with
      | dont p => exact ⟨_, .dont s p⟩
      | upd u =>
        by_cases h : s.g u.p1 > u.cost
        · by_cases hl : limit = 0 ∨ s.open_.length + 1 ≤ limit
          · exact ⟨_, .push s u h hl⟩
          · exact ⟨_, .pushDrop s u _ _ h (by omega) (List.Perm.refl _)⟩
        · exact ⟨_, .skip s u h⟩
    obtain ⟨s1, h1⟩ := this
    obtain ⟨s2, h2⟩ := acts_total limit as s1
    exact ⟨s2, .cons h1 h2⟩

/-! ### Queue bound -/

theorem collect_length {P : Prob V C} {n : Nat} {o cs o' : List (Ent V C)} {r : Option (Ent V C)}
    (h : Collect P n o cs o' r) : o'.length ≤ o.length := by
  induction h with
  | full => exact le_refl _
  | empty => exact le_refl _
  | hit n o e rest hp => rw [hp.length_eq]; simp
  | take hp _ _ _ ih => rw [hp.length_eq]; simp; omega

theorem acts_bound {limit : Nat} (h0 : 0 < limit) {s s' : St V C} {as : List (Act V C)} {m : Nat}
    (h : ActsRel limit s as s') (hm : limit ≤ m) (hs : s.open_.length ≤ m) : s'.open_.length ≤ m := by
  induction h with
  | nil => exact hs
  | cons h1 _ ih =>
    apply ih
    cases h1 with
    | skip => exact hs
    | push u h hl => simp only [List.length_cons]; omega
    | pushDrop u x rest h hl hx =>
      have := hx.length_eq
      simp only [List.length_cons] at this ⊢
      omega
    | dont => exact hs

end Verif.Astar
