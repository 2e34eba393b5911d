import Verif.Astar.VecLemmas
import Verif.Astar.Exec

set_option linter.unusedSectionVars false
set_option linter.unusedVariables false

/-!
Helper lemmas about final states of the search.
-/
namespace Verif.Astar
open Spec

section Abstract
variable {V C : Type} [DecidableEq V] [CostType C]

/-- How the priority of an open entry relates to its raw cost (helper for the leave threshold). -/
def PrioOk (P : Prob V C) (e : Ent V C) : Prop :=
  e.p = e.raw + P.estim e.v ∨ ((e.v, e.raw) ∈ P.starts ∧ e.p = P.startEstim e.v + e.raw)

theorem prio_reach {P : Prob V C} {s : St V C} (h : Reach P s) : ∀ e ∈ s.open_, PrioOk P e := by
  induction h with
  | init b hb =>
    intro e he
    simp only [init, List.mem_map] at he
    obtain ⟨x, hx, rfl⟩ := he
    exact .inr ⟨hx, rfl⟩
  | round hr h ih =>
    cases h with
    | mk hc hne hp hb ha =>
      rename_i s s' cs o' b acts
      have hperm := (collect_perm hc rfl).1
      have hacts : ∀ a ∈ acts, ∀ u, a = .upd u → u.estim = u.cost + P.estim u.p1 := by
        rintro a ha' u rfl
        have := hp.subset ha'
        rw [List.mem_flatMap] at this
        obtain ⟨e, he, hue⟩ := this
        exact (expand_upd hue).2.2.2.1
      have h0 : ∀ e ∈ ({ s with open_ := o', better := b } : St V C).open_, PrioOk P e :=
        fun e he => ih e (hperm.symm.subset (by simp only at he; simp [he]))
      clear hb hp hne hc hperm ih
      generalize ({ s with open_ := o', better := b } : St V C) = s0 at ha h0
      induction ha with
      | nil => exact h0
      | @cons s1 s2 s3 a as h1 _ ih2 =>
        refine ih2 (fun b hb => hacts b (by simp [hb])) ?_
        cases h1 with
        | skip => exact h0
        | push u hg hl =>
          intro e he
          rcases List.mem_cons.mp he with rfl | he
          · exact .inl (hacts (.upd u) (by simp) u rfl)
          · exact h0 e he
        | pushDrop u x rest hg hl hx =>
          intro e he
          have := hx.symm.subset (List.mem_cons_of_mem x he)
          rcases List.mem_cons.mp this with rfl | he
          · exact .inl (hacts (.upd u) (by simp) u rfl)
          · exact h0 e he
        | dont => exact h0

/-- `v` is acceptable as the end of a successful search: it is the goal, or the leave test accepted it
(raw cost `raw`, priority `p` = raw cost plus the model's estimate at `v`). -/
def EndOk (P : Prob V C) (v : V) : Prop :=
  v = P.goal ∨ ∃ p raw, P.leave p raw = true ∧
    (p = raw + P.estim v ∨ ((v, raw) ∈ P.starts ∧ p = P.startEstim v + raw))

theorem collect_hit {P : Prob V C} {n : Nat} {o cs o' : List (Ent V C)} {r : Option (Ent V C)}
    (h : Collect P n o cs o' r) : ∀ e, r = some e → hits P e := by
  induction h with
  | full => simp
  | empty => simp
  | hit n o e rest hp hmin hh => intro x hx; cases hx; exact hh
  | take _ _ _ _ ih => exact ih

/-- A successful search: the result is `true` with a legal, repetition-free path. -/
theorem found_spec {P : Prob V C} (hs : ∀ x ∈ P.starts, (0 : C) ≤ x.2) {s : St V C} {e : V} {rb : Bool}
    (h : Final P s (.found e)) :
    EndOk P e ∧ ∃ l, result P s (.found e) rb = (true, l) ∧ LegalPath P l e ∧ l.Nodup := by
  generalize hf : Fin.found e = f at h
  cases h with
  | exhausted => cases hf
  | aborted => cases hf
  | @found s cs o' e' hr hc =>
    cases hf
    have inv := inv_reach hs hr
    have hmem := (collect_mem hc).2.2 e' rfl
    obtain ⟨l, h1, h2, h3, _⟩ := findPath_known inv (inv.ents e' hmem).2.2.1
    refine ⟨?_, l, h1, h2, h3⟩
    rcases collect_hit hc e' rfl with h | h
    · exact .inl h
    · exact .inr ⟨e'.p, e'.raw, h, prio_reach hr e' hmem⟩

/-- `LegalPath` of the loop's problem in terms of grid vectors. -/
theorem better_known {P : Prob V C} (hs : ∀ x ∈ P.starts, (0 : C) ≤ x.2) {s : St V C} {f : Fin V}
    (h : Final P s f) : ∃ l, findPath (SS P) s.par s.better [] = (true, l) ∧ LegalPath P l s.better ∧
      l.Nodup := by
  have key : ∀ s0 : St V C, Reach P s0 → ∃ l, findPath (SS P) s0.par s0.better [] = (true, l) ∧
      LegalPath P l s0.better ∧ l.Nodup := by
    intro s0 hr
    have inv := inv_reach hs hr
    obtain ⟨l, h1, h2, h3, _⟩ := findPath_known inv inv.better
    exact ⟨l, h1, h2, h3⟩
  cases h with
  | found hr hc => have := key _ hr; exact this
  | exhausted hr hc => have := key _ hr; exact this
  | aborted hr hc => have := key _ hr; exact this

theorem exhausted_open {P : Prob V C} (ht : 0 < P.tasks) {o o' : List (Ent V C)}
    (h : Collect P P.tasks o [] o' none) : o = [] := by
  generalize hn : P.tasks = n at h ht
  cases h with
  | full => omega
  | empty => rfl

end Abstract
end Verif.Astar
