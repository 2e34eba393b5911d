import Verif.DistMap.Lemmas
import Verif.DistMap.Exec
import Mathlib.Data.DFinsupp.WellFounded

set_option linter.unusedSectionVars false
set_option linter.unusedVariables false

/-! Helper lemmas: termination of the expansion. -/
namespace Verif.DistMap
open Verif.Astar (CostType setF setF_le)

variable {V C : Type} [DecidableEq V] [CostType C]

theorem fetch_length {E : Env V C} {g : V → C} {sc : C} {n : Nat} {o cs o' : List (C × V)} {ed ed' : V → Bool}
    (h : Fetch E g sc n o ed cs o' ed') : cs.length + o'.length ≤ o.length := by
  induction h with
  | full => simp
  | empty => simp
  | stale hp _ _ _ ih => have := hp.length_eq; simp at this; omega
  | cut hp _ _ _ _ ih => have := hp.length_eq; simp at this; omega
  | take hp _ _ _ _ ih => have := hp.length_eq; simp at this ⊢; omega

theorem acts_effect : ∀ (as : List (Act V C)) (s : FSt V C),
    (∀ v, (as.foldl applyAct s).g v ≤ s.g v) ∧
    ((∃ v, (as.foldl applyAct s).g v < s.g v) ∨
      ((as.foldl applyAct s).g = s.g ∧ (as.foldl applyAct s).open_ = s.open_))
  | [], s => ⟨fun v => le_refl _, .inr ⟨rfl, rfl⟩⟩
  | a :: as, s => by
    obtain ⟨h1, h2⟩ := acts_effect as (applyAct s a)
    simp only [List.foldl_cons]
    cases a with
    | edge p => exact ⟨h1, h2⟩
    | upd x c =>
      by_cases hx : s.g x > c
      · have he : applyAct s (.upd x c) = { s with g := setF s.g x c, open_ := (c, x) :: s.open_ } := by
          simp [applyAct, hx]
        rw [he] at h1 h2 ⊢
        have hm := setF_le (f := s.g) (k := x) (b := c) (le_of_lt hx)
        refine ⟨fun v => le_trans (h1 v) (hm v), .inl ⟨x, ?_⟩⟩
        have := h1 x
        simp only [setF, if_true] at this
        exact lt_of_le_of_lt this hx
      · have he : applyAct s (.upd x c) = s := by simp [applyAct, hx]
        rw [he] at h1 h2 ⊢
        exact ⟨h1, h2⟩

theorem round_decreases {E : Env V C} {start : V} {s s' : FSt V C} (h : Round E start s s') :
    s'.g < s.g ∨ (s'.g = s.g ∧ s'.open_.length < s.open_.length) := by
  cases h with
  | mk hf hne hp =>
    rename_i cs o' ed' acts
    obtain ⟨h1, h2⟩ := acts_effect acts { s with open_ := o', edges := ed' }
    rcases h2 with ⟨v, hv⟩ | ⟨hg, ho⟩
    · exact .inl (Pi.lt_def.mpr ⟨h1, v, hv⟩)
    · refine .inr ⟨hg, ?_⟩
      rw [ho]
      have := fetch_length hf
      have : 0 < cs.length := List.length_pos_iff.mpr hne
      simp only
      omega

theorem wf_rounds [Finite V] [WellFoundedLT C] (E : Env V C) (start : V) :
    WellFounded (fun a b : FSt V C => Round E start b a) := by
  have hw : WellFounded (Prod.Lex (α := V → C) (β := Nat) (· < ·) (· < ·)) :=
    WellFounded.prod_lex (IsWellFounded.wf) Nat.lt_wfRel.wf
  refine Subrelation.wf (r := InvImage (Prod.Lex (α := V → C) (β := Nat) (· < ·) (· < ·))
    (fun s : FSt V C => (s.g, s.open_.length))) ?_ (InvImage.wf _ hw)
  intro a b h
  rcases round_decreases h with h | ⟨h1, h2⟩
  · exact Prod.Lex.left _ _ h
  · show Prod.Lex _ _ (a.g, a.open_.length) (b.g, b.open_.length)
    rw [h1]
    exact Prod.Lex.right _ h2

theorem popMin_length {l : List (C × V)} {e r} (h : popMin l = some (e, r)) : r.length + 1 = l.length := by
  have := (popMin_some h).1.length_eq
  simp at this; omega

theorem fetchD_total (E : Env V C) (g : V → C) (sc : C) : ∀ k n (o : List (C × V)) ed, o.length < k →
    ∃ r, fetchD E g sc k n o ed = some r
  | 0, _, _, _, h => by simp at h
  | k + 1, 0, o, ed, h => by unfold fetchD; exact ⟨_, rfl⟩
  | k + 1, n + 1, o, ed, h => by
    unfold fetchD
    split
    · exact ⟨_, rfl⟩
    · rename_i e rest hs
      have hl := popMin_length hs
      split
      · exact fetchD_total E g sc k _ _ _ (by omega)
      · split
        · exact fetchD_total E g sc k _ _ _ (by omega)
        · obtain ⟨r, hr⟩ := fetchD_total E g sc k n rest ed (by omega)
          rw [hr]; exact ⟨_, rfl⟩

theorem round_or_done (E : Env V C) (start : V) (s : FSt V C) :
    (∃ s', Round E start s s') ∨ ∃ o' ed', Fetch E s.g (s.g start) E.tasks s.open_ s.edges [] o' ed' := by
  obtain ⟨⟨cs, o', ed'⟩, h⟩ := fetchD_total E s.g (s.g start) (s.open_.length + 1) E.tasks s.open_ s.edges (by omega)
  have hf := fetchD_fetch E _ _ _ _ _ _ h
  cases cs with
  | nil => exact .inr ⟨o', ed', hf⟩
  | cons c cs => exact .inl ⟨_, .mk hf (by simp) (List.Perm.refl _)⟩

theorem fill_exists [Finite V] [WellFoundedLT C] (E : Env V C) (start : V) (s : FSt V C) :
    ∃ s', Fill E start s s' := by
  induction s using (wf_rounds E start).induction with
  | _ s ih =>
    rcases round_or_done E start s with ⟨s', h⟩ | ⟨o', ed', h⟩
    · obtain ⟨s'', h'⟩ := ih s' h
      exact ⟨s'', .more h h'⟩
    · exact ⟨_, .done h⟩

end Verif.DistMap
