import Verif.Astar.Term

/-!
# One concrete schedule of the search

An executable single-threaded schedule (first minimal entry is taken, `pop_back` drops the last entry
of the list), proved to be one of the runs of the nondeterministic model.  Used to show that the
hypotheses of the theorems are met by concrete searches, and for counterexamples.
-/
namespace Verif.Astar

variable {V C : Type} [DecidableEq V] [CostType C]

instance (P : Prob V C) (e : Ent V C) : Decidable (hits P e) := by unfold hits; infer_instance

def extractMin : List (Ent V C) → Option (Ent V C × List (Ent V C))
  | [] => none
  | a :: t =>
    match extractMin t with
    | none => some (a, t)
    | some (m, r) => if a.p ≤ m.p then some (a, t) else some (m, a :: r)

omit [DecidableEq V] in
theorem extractMin_none : ∀ {l : List (Ent V C)}, extractMin l = none → l = []
  | [], _ => rfl
  | a :: t, h => by
    unfold extractMin at h
    split at h
    · cases h
    · split at h <;> cases h

omit [DecidableEq V] in
theorem extractMin_some : ∀ {l : List (Ent V C)} {e r}, extractMin l = some (e, r) →
    l.Perm (e :: r) ∧ ∀ x ∈ l, e.p ≤ x.p
  | a :: t, e, r, h => by
    unfold extractMin at h
    split at h
    · rename_i hn
      cases h
      have := extractMin_none hn
      subst this
      simp
    · rename_i m r' hs
      obtain ⟨hp, hm⟩ := extractMin_some hs
      split at h
      · rename_i hle
        cases h
        refine ⟨List.Perm.refl _, fun x hx => ?_⟩
        rcases List.mem_cons.mp hx with rfl | hx
        · exact le_refl _
        · exact le_trans hle (hm x hx)
      · rename_i hle
        cases h
        refine ⟨(hp.cons a).trans (List.Perm.swap _ _ _), fun x hx => ?_⟩
        rcases List.mem_cons.mp hx with rfl | hx
        · exact le_of_lt (not_le.mp hle)
        · exact hm x hx

def collectD (P : Prob V C) : Nat → List (Ent V C) → List (Ent V C) × List (Ent V C) × Option (Ent V C)
  | 0, o => ([], o, none)
  | n + 1, o =>
    match extractMin o with
    | none => ([], [], none)
    | some (e, rest) =>
      if hits P e then ([], rest, some e)
      else let r := collectD P n rest; (e :: r.1, r.2.1, r.2.2)

theorem collectD_collect (P : Prob V C) : ∀ n (o : List (Ent V C)),
    Collect P n o (collectD P n o).1 (collectD P n o).2.1 (collectD P n o).2.2
  | 0, o => .full o
  | n + 1, o => by
    unfold collectD
    split
    · rename_i h
      have := extractMin_none h
      subst this
      exact .empty n
    · rename_i e rest h
      obtain ⟨hp, hm⟩ := extractMin_some h
      split
      · rename_i hh; exact .hit n o e rest hp hm hh
      · rename_i hh; exact .take hp hm hh (collectD_collect P n rest)

def actD (limit : Nat) (s : St V C) : Act V C → St V C
  | .dont p => { s with g := setF s.g p CostType.neg1 }
  | .upd u =>
    if s.g u.p1 > u.cost then
      let o : List (Ent V C) := ⟨u.estim, u.cost, u.p1⟩ :: s.open_
      { s with g := setF s.g u.p1 u.cost, gh := setF s.gh u.p1 u.cost,
               par := pinsert s.par u.p1 u.p0,
               open_ := if 0 < limit ∧ limit < o.length then o.dropLast else o }
    else s

theorem actD_rel (limit : Nat) (s : St V C) (a : Act V C) : ActRel limit s a (actD limit s a) := by
  cases a with
  | dont p => exact .dont s p
  | upd u =>
    unfold actD
    simp only
    split
    · rename_i h
      by_cases hl : 0 < limit ∧ limit < (⟨u.estim, u.cost, u.p1⟩ :: s.open_ : List (Ent V C)).length
      · rw [if_pos hl]
        refine .pushDrop s u (List.getLast (⟨u.estim, u.cost, u.p1⟩ :: s.open_) (by simp)) _ h
          (by simpa using hl) ?_
        have h1 := List.dropLast_append_getLast
          (l := (⟨u.estim, u.cost, u.p1⟩ :: s.open_ : List (Ent V C))) (by simp)
        conv => lhs; rw [← h1]
        exact List.perm_append_singleton _ _
      · rw [if_neg hl]
        refine .push s u h ?_
        simp only [List.length_cons] at hl
        omega
    · rename_i h; exact .skip s u h

theorem actsD_rel (limit : Nat) : ∀ (as : List (Act V C)) (s : St V C),
    ActsRel limit s as (as.foldl (actD limit) s)
  | [], s => .nil s
  | a :: as, s => .cons (actD_rel limit s a) (actsD_rel limit as _)

/-- `fuel` rounds of the schedule. -/
def exec (P : Prob V C) : Nat → St V C → Option (St V C × Fin V)
  | 0, _ => none
  | n + 1, s =>
    match collectD P P.tasks s.open_ with
    | (_, o', some e) => some ({ s with open_ := o' }, .found e.v)
    | ([], o', none) => some ({ s with open_ := o' }, .exhausted)
    | (c :: cs, o', none) =>
      exec P n (((c :: cs).flatMap (expand P s.g)).foldl (actD P.limit) { s with open_ := o' })

theorem exec_final (P : Prob V C) : ∀ (n : Nat) (s : St V C) {s' f}, Reach P s →
    exec P n s = some (s', f) → Final P s' f
  | 0, _, _, _, _, h => by cases h
  | n + 1, s, s', f, hr, h => by
    have hc := collectD_collect P P.tasks s.open_
    unfold exec at h
    split at h
    · rename_i heq
      rw [heq] at hc
      cases h
      exact .found hr hc
    · rename_i heq
      rw [heq] at hc
      cases h
      exact .exhausted hr hc
    · rename_i c cs o' heq
      rw [heq] at hc
      refine exec_final P n _ (.round hr ?_) h
      exact .mk hc (by simp) (List.Perm.refl _) (.inl rfl) (actsD_rel P.limit _ _)

end Verif.Astar
