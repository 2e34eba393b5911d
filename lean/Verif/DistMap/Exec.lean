import Verif.DistMap.Model

/-!
# One concrete schedule of the expansion

Executable single-threaded schedule, proved to be one of the runs of the nondeterministic model; used
for examples and counterexamples.
-/
namespace Verif.DistMap
open Verif.Astar (CostType setF)

variable {V C : Type} [DecidableEq V] [CostType C]

def popMin : List (C × V) → Option ((C × V) × List (C × V))
  | [] => none
  | a :: t =>
    match popMin t with
    | none => some (a, t)
    | some (m, r) => if a.1 ≤ m.1 then some (a, t) else some (m, a :: r)

omit [DecidableEq V] in
theorem popMin_none : ∀ {l : List (C × V)}, popMin l = none → l = []
  | [], _ => rfl
  | a :: t, h => by
    unfold popMin at h
    split at h
    · cases h
    · split at h <;> cases h

omit [DecidableEq V] in
theorem popMin_some : ∀ {l : List (C × V)} {e r}, popMin l = some (e, r) →
    l.Perm (e :: r) ∧ ∀ x ∈ l, e.1 ≤ x.1
  | a :: t, e, r, h => by
    unfold popMin at h
    split at h
    · rename_i hn
      cases h
      have := popMin_none hn
      subst this
      simp
    · rename_i m r' hs
      obtain ⟨hp, hm⟩ := popMin_some hs
      split at h
      · rename_i hle
        cases h
        refine ⟨List.Perm.refl _, fun x hx => ?_⟩
        rcases List.mem_cons.mp hx with rfl | hx
        · exact le_refl _
        · exact le_trans hle (hm x hx)
      · rename_i hle
        cases h
        refine ⟨(hp.cons a).trans (List.Perm.swap _ _ _), fun x hx => ?_⟩
        rcases List.mem_cons.mp hx with rfl | hx
        · exact le_of_lt (not_le.mp hle)
        · exact hm x hx

def fetchD (E : Env V C) (g : V → C) (sc : C) : Nat → Nat → List (C × V) → (V → Bool) →
    Option (List (C × V) × List (C × V) × (V → Bool))
  | _, 0, o, ed => some ([], o, ed)
  | 0, _ + 1, _, _ => none
  | k + 1, n + 1, o, ed =>
    match popMin o with
    | none => some ([], [], ed)
    | some (e, rest) =>
      if e.1 > g e.2 then fetchD E g sc k (n + 1) rest ed
      else if E.cut e.1 sc = true then fetchD E g sc k (n + 1) rest (setF ed e.2 true)
      else match fetchD E g sc k n rest ed with
        | none => none
        | some (cs, o', ed') => some (e :: cs, o', ed')

theorem fetchD_fetch (E : Env V C) (g : V → C) (sc : C) : ∀ k n o ed {cs o' ed'},
    fetchD E g sc k n o ed = some (cs, o', ed') → Fetch E g sc n o ed cs o' ed'
  | k, 0, o, ed, cs, o', ed', h => by
    cases k <;> (unfold fetchD at h; cases h; exact .full _ _)
  | 0, n + 1, o, ed, _, _, _, h => by unfold fetchD at h; cases h
  | k + 1, n + 1, o, ed, cs, o', ed', h => by
    unfold fetchD at h
    split at h
    · rename_i hn
      cases h
      rw [popMin_none hn]; exact .empty _ _
    · rename_i e rest hs
      obtain ⟨hp, hm⟩ := popMin_some hs
      split at h
      · rename_i h1; exact .stale hp hm h1 (fetchD_fetch E g sc k _ _ _ h)
      · rename_i h1
        split at h
        · rename_i h2; exact .cut hp hm h1 h2 (fetchD_fetch E g sc k _ _ _ h)
        · rename_i h2
          split at h
          · cases h
          · rename_i hf
            cases h
            exact .take hp hm h1 (by simpa using h2) (fetchD_fetch E g sc k _ _ _ hf)

def fillD (E : Env V C) (start : V) : Nat → FSt V C → Option (FSt V C)
  | 0, _ => none
  | n + 1, s =>
    match fetchD E s.g (s.g start) (s.open_.length + 1) E.tasks s.open_ s.edges with
    | none => none
    | some ([], o', ed') => some { s with open_ := o', edges := ed' }
    | some (c :: cs, o', ed') =>
      fillD E start n (((c :: cs).flatMap (expand E s.g)).foldl applyAct { s with open_ := o', edges := ed' })

theorem fillD_fill (E : Env V C) (start : V) : ∀ n s {s'}, fillD E start n s = some s' → Fill E start s s'
  | 0, _, _, h => by cases h
  | n + 1, s, s', h => by
    unfold fillD at h
    split at h
    · cases h
    · rename_i hf
      cases h
      exact .done (fetchD_fetch E _ _ _ _ _ _ hf)
    · rename_i c cs o' ed' hf
      exact .more (.mk (fetchD_fetch E _ _ _ _ _ _ hf) (by simp) (List.Perm.refl _)) (fillD_fill E start n _ h)

def createD (E : Env V C) (n : Nat) (s e : V) (m : DM V C) : Option (DM V C) :=
  if E.inMap s = true ∧ E.inMap e = true then
    match fillD E s n ⟨setF (fun _ => CostType.top) e E.base, [(E.base, e)], fun _ => false⟩ with
    | none => none
    | some f => some ⟨setF f.g e 0, f.edges, some e⟩
  else some { m with goal := some e }

theorem createD_create (E : Env V C) (n : Nat) (s e : V) (m : DM V C) {m'}
    (h : createD E n s e m = some m') : Create E s e m m' := by
  unfold createD at h
  split at h
  · rename_i hin
    split at h
    · cases h
    · rename_i hf
      cases h
      exact .fill hin.1 hin.2 (fillD_fill E s n _ hf)
  · rename_i hin
    cases h
    refine .out ?_
    cases h1 : E.inMap s <;> cases h2 : E.inMap e <;> simp_all

def eraseD (E : Env V C) (cmin : C) : Nat → (V → C) × List V × List (C × V) × (V → Bool) →
    Option ((V → C) × List V × List (C × V) × (V → Bool))
  | _, (g, [], o, ed) => some (g, [], o, ed)
  | 0, (_, _ :: _, _, _) => none
  | k + 1, (g, p :: rest, o, ed) =>
    if g p = CostType.top then eraseD E cmin k (g, rest, o, ed)
    else eraseD E cmin k
        (let g' := setF g p CostType.top
         let ns := (E.neigh4 p).filter (fun x => decide (g' x ≠ CostType.top))
         (g', (ns.filter (fun x => decide (¬ g' x < cmin))) ++ rest,
          (ns.filter (fun x => decide (g' x < cmin))).map (fun x => (g' x, x)) ++ o,
          fun x => if x ∈ ns ∧ ¬ g' x < cmin then false else ed x))

theorem eraseD_erase (E : Env V C) (cmin : C) : ∀ k st {r}, eraseD E cmin k st = some r → Erase E cmin st r
  | k, (g, [], o, ed), r, h => by cases k <;> (unfold eraseD at h; cases h; exact .nil)
  | 0, (_, _ :: _, _, _), r, h => by unfold eraseD at h; cases h
  | k + 1, (g, p :: rest, o, ed), r, h => by
    unfold eraseD at h
    split at h
    · rename_i h1; exact .skip (List.Perm.refl _) h1 (eraseD_erase E cmin k _ h)
    · rename_i h1; exact .erase (List.Perm.refl _) h1 (eraseD_erase E cmin k _ h)

/-- `update` for an unchanged goal away from the rectangle. -/
def updateD (E : Env V C) (cells : List V) (n : Nat) (s e : V) (rect : List V) (m : DM V C) : Option (DM V C) :=
  let cm := rectMin m.g rect (e, CostType.top)
  if m.goal = some e ∧ cm.2 ≠ 0 ∧ E.inMap s = true ∧ E.inMap e = true then
    match eraseD E cm.2 n (m.g, (if m.g s > cm.2 then [s] else []) ++
         (if cm.2 ≠ CostType.top then [cm.1] else []), [], m.edges) with
    | none => none
    | some (g, _, o, ed) =>
      match fillD E s n ⟨g,
        (let o1 := (cells.filter (fun v => ed v)).map (fun v => (g v, v)) ++ o
         if o1 = [] then [(E.base, e)] else o1), fun _ => false⟩ with
      | none => none
      | some f => some ⟨f.g, f.edges, m.goal⟩
  else none

theorem updateD_update (E : Env V C) (cells : List V) (n : Nat) (s e : V) (rect : List V) (m : DM V C) {m'}
    (h : updateD E cells n s e rect m = some m') : Update E cells s e rect m m' := by
  unfold updateD at h
  simp only at h
  split at h
  · rename_i hin
    split at h
    · cases h
    · rename_i he
      split at h
      · cases h
      · rename_i hf
        cases h
        exact .run hin.1 hin.2.1 hin.2.2.1 hin.2.2.2 (eraseD_erase E _ _ _ he) (fillD_fill E s n _ hf)
  · cases h

end Verif.DistMap
