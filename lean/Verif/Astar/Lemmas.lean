import Verif.Astar.Spec

set_option linter.unusedSectionVars false

namespace Verif.Astar
open Spec

variable {V C : Type} [DecidableEq V]

/-! ## parents map -/

theorem plookup_erase_ne {l : List (V × V)} {k x : V} (h : x ≠ k) :
    plookup (perase l k) x = plookup l x := by
  induction l with
  | nil => rfl
  | cons e t ih =>
    obtain ⟨a, b⟩ := e
    simp only [perase, ne_eq, decide_not] at ih ⊢
    by_cases ha : a = k
    · subst ha
      simp [plookup, ih, Ne.symm h]
    · simp [plookup, ha, ih]

theorem plookup_erase_self {l : List (V × V)} {k : V} : plookup (perase l k) k = none := by
  induction l with
  | nil => rfl
  | cons e t ih =>
    obtain ⟨a, b⟩ := e
    simp only [perase, ne_eq, decide_not] at ih ⊢
    by_cases ha : a = k
    · subst ha; simp [ih]
    · simp [plookup, ha, ih]

theorem plookup_insert_self {l : List (V × V)} {k v : V} : plookup (pinsert l k v) k = some v := by
  simp [pinsert, plookup]

theorem plookup_insert_ne {l : List (V × V)} {k v x : V} (h : x ≠ k) :
    plookup (pinsert l k v) x = plookup l x := by
  simp [pinsert, plookup, Ne.symm h, plookup_erase_ne h]

/-- Walking the parents from `v` ends at a start after `n` steps. -/
inductive ToStart (S : List V) (par : List (V × V)) : V → Nat → Prop
  | start {v} (h : v ∈ S) : ToStart S par v 0
  | step {v p n} (h : v ∉ S) (hp : plookup par v = some p) (ht : ToStart S par p n) :
      ToStart S par v (n + 1)

theorem ToStart.unique {S : List V} {par : List (V × V)} {v : V} {n m : Nat}
    (h : ToStart S par v n) (h' : ToStart S par v m) : n = m := by
  induction h generalizing m with
  | start h => cases h' with
    | start => rfl
    | step h2 => exact absurd h h2
  | step h hp ht ih => cases h' with
    | start h2 => exact absurd h2 h
    | step h2 hp2 ht2 =>
      rw [hp] at hp2
      obtain rfl := Option.some.inj hp2
      rw [ih ht2]

/-- Erasing a deeper cell does not affect the walk. -/
theorem ToStart.erase {S : List V} {par : List (V × V)} {v w : V} {n m : Nat}
    (hv : ToStart S par v n) (h : ToStart S par w m) (hmn : m < n) :
    ToStart S (perase par v) w m := by
  induction h with
  | start h => exact .start h
  | @step w p m h hp ht ih =>
    refine .step h ?_ (ih (by omega))
    rw [plookup_erase_ne]
    · exact hp
    · rintro rfl
      have := hv.unique (.step h hp ht)
      omega

theorem findPath_eq_start {S : List V} {par : List (V × V)} {v : V} {acc : List V} (h : v ∈ S) :
    findPath S par v acc = (true, v :: acc) := by
  rw [findPath]; simp [h]

theorem findPath_eq_step {S : List V} {par : List (V × V)} {v p : V} {acc : List V} (h : v ∉ S)
    (hp : plookup par v = some p) :
    findPath S par v acc = findPath S (perase par v) p (v :: acc) := by
  rw [findPath]; simp only [h, if_false]
  split
  · rename_i h'; rw [hp] at h'; cases h'
  · rename_i m h'; rw [hp] at h'; cases h'; rfl

theorem findPath_spec {S : List V} {par : List (V × V)} {v : V} {n : Nat} (h : ToStart S par v n)
    (acc : List V) :
    ∃ l : List V, ∃ hne : l ≠ [], findPath S par v acc = (true, l ++ acc) ∧ l.head hne ∈ S ∧
      l.getLast hne = v ∧ l.IsChain (fun a b => b ∉ S ∧ plookup par b = some a) ∧ l.Nodup ∧
      (∀ x ∈ l, ∃ k, k ≤ n ∧ ToStart S par x k) := by
  induction n generalizing v par acc with
  | zero =>
    cases h with
    | start h => exact ⟨[v], by simp, by simp [findPath_eq_start h], by simpa, by simp, by simp,
        by simp, fun x hx => ⟨0, by omega, by simp at hx; subst hx; exact ToStart.start h⟩⟩
  | succ n ih =>
    cases h with
    | step h hp ht =>
      rename_i p
      have hv : ToStart S par v (n + 1) := .step h hp ht
      obtain ⟨l, hne, he, h1, h2, h3, h4, h5⟩ := ih (hv.erase ht (by omega)) (v :: acc)
      have hnv : ∀ x ∈ l, x ≠ v := by
        rintro x hx rfl
        obtain ⟨k, hk, hx⟩ := h5 x hx
        cases hx with
        | start h' => exact h h'
        | step h' hp' => rw [plookup_erase_self] at hp'; cases hp'
      have hconv : ∀ x k, ToStart S (perase par v) x k → k ≤ n → ToStart S par x k := by
        intro x k hx hk
        induction hx with
        | start h' => exact .start h'
        | @step x q k h' hp' ht' ih' =>
          refine .step h' ?_ (ih' (by omega))
          by_cases hxv : x = v
          · subst hxv; rw [plookup_erase_self] at hp'; cases hp'
          · rwa [plookup_erase_ne hxv] at hp'
      refine ⟨l ++ [v], by simp, by rw [findPath_eq_step h hp, he]; simp, ?_, by simp, ?_, ?_, ?_⟩
      · rw [List.head_append_of_ne_nil hne]; exact h1
      · rw [List.isChain_append]
        refine ⟨?_, by simp, ?_⟩
        · refine h3.imp ?_
          rintro a b ⟨hb, hab⟩
          refine ⟨hb, ?_⟩
          by_cases hbv : b = v
          · subst hbv; rw [plookup_erase_self] at hab; cases hab
          · rwa [plookup_erase_ne hbv] at hab
        · intro a ha b hb
          simp at hb; subst hb
          rw [List.getLast?_eq_getLast_of_ne_nil hne] at ha
          simp at ha; subst ha
          exact ⟨h, by rw [h2]; exact hp⟩
      · rw [List.nodup_append]
        refine ⟨h4, by simp, ?_⟩
        intro a ha b hb
        simp at hb; subst hb
        exact hnv a ha
      · intro x hx
        rcases List.mem_append.mp hx with hx | hx
        · obtain ⟨k, hk, hx⟩ := h5 x hx
          exact ⟨k, by omega, hconv x k hx hk⟩
        · simp at hx; subst hx; exact ⟨n + 1, by omega, hv⟩

/-! ## soundness invariant -/

variable [CostType C]

theorem not_rejected {c : C} : ¬ rejected c ↔ Accepted c := by
  unfold rejected Accepted
  constructor
  · intro h
    exact ⟨not_lt.mp fun h' => h (.inl h'), fun h' => h (.inr h')⟩
  · rintro ⟨h1, h2⟩ (h | h)
    · exact absurd h1 (not_le.mpr h)
    · exact h2 h

/-- Start cells. -/
def SS (P : Prob V C) : List V := P.starts.map Prod.fst

/-- The cell is a start or has a recorded parent. -/
def Known (P : Prob V C) (par : List (V × V)) (v : V) : Prop := v ∈ SS P ∨ ∃ p, plookup par v = some p

structure Inv (P : Prob V C) (s : St V C) : Prop where
  ents : ∀ e ∈ s.open_, 0 ≤ e.raw ∧ (e.v ∉ SS P → s.gh e.v ≤ e.raw) ∧ Known P s.par e.v ∧
    Route P e.v e.raw
  ghost : ∀ v, s.g v = s.gh v ∨ s.g v = CostType.neg1
  par : ∀ x p, plookup s.par x = some p → Move P p x ∧
    (∃ c, Route P p c ∧ (p ∉ SS P → s.gh p ≤ c) ∧ s.gh x = c + P.cost p x)
  reach : ∀ v, Known P s.par v → ∃ n, ToStart (SS P) s.par v n
  better : Known P s.par s.better

/-- What is known about an update waiting to be applied. -/
def UpdOk (P : Prob V C) (s : St V C) (u : Upd V C) : Prop :=
  ∃ c, 0 ≤ c ∧ Route P u.p0 c ∧ (u.p0 ∉ SS P → s.gh u.p0 ≤ c) ∧ Known P s.par u.p0 ∧
    Move P u.p0 u.p1 ∧
    u.cost = c + P.cost u.p0 u.p1 ∧ u.estim = u.cost + P.estim u.p1

def ActOk (P : Prob V C) (s : St V C) : Act V C → Prop
  | .upd u => UpdOk P s u
  | .dont _ => True

theorem ToStart.insert {P : Prob V C} {s : St V C} (inv : Inv P s) {u : Upd V C}
    (hu : UpdOk P s u) (hg : s.gh u.p1 > u.cost) :
    ∀ v n, ToStart (SS P) s.par v n → ∃ m, ToStart (SS P) (pinsert s.par u.p1 u.p0) v m := by
  obtain ⟨c, hc0, hrt, hcp, hk, hm, hcost, _⟩ := hu
  have hcc : c ≤ u.cost := by rw [hcost]; exact CostType.le_add _ _ hm.2.2.1
  have hlow : ∀ v n, ToStart (SS P) s.par v n → u.p1 ∉ SS P → (v ∉ SS P → s.gh v ≤ c) →
      ToStart (SS P) (pinsert s.par u.p1 u.p0) v n := by
    intro v n h hx hv
    induction h with
    | start h => exact .start h
    | @step v p n h hp ht ih =>
      have hvx : v ≠ u.p1 := by
        rintro rfl
        exact absurd (lt_of_lt_of_le hg (le_trans (hv h) hcc)) (lt_irrefl _)
      refine .step h (by rw [plookup_insert_ne hvx]; exact hp) (ih ?_)
      intro hps
      obtain ⟨hmv, c0, _, hc1, hc2⟩ := inv.par v p hp
      calc s.gh p ≤ c0 := hc1 hps
        _ ≤ c0 + P.cost p v := CostType.le_add _ _ hmv.2.2.1
        _ = s.gh v := hc2.symm
        _ ≤ c := hv h
  intro v n h
  by_cases hx : u.p1 ∈ SS P
  · refine ⟨n, ?_⟩
    induction h with
    | start h => exact .start h
    | @step v p n h hp ht ih =>
      have hvx : v ≠ u.p1 := by rintro rfl; exact h hx
      exact .step h (by rw [plookup_insert_ne hvx]; exact hp) ih
  · obtain ⟨n0, h0⟩ := inv.reach _ hk
    have hp0 := hlow _ _ h0 hx hcp
    induction h with
    | start h => exact ⟨0, .start h⟩
    | @step v p n h hp ht ih =>
      by_cases hvx : v = u.p1
      · subst hvx; exact ⟨_, .step h plookup_insert_self hp0⟩
      · obtain ⟨m, hm⟩ := ih
        exact ⟨_, .step h (by rw [plookup_insert_ne hvx]; exact hp) hm⟩

theorem Known.insert {P : Prob V C} {par : List (V × V)} {v x y : V} (h : Known P par v) :
    Known P (pinsert par x y) v := by
  rcases h with h | ⟨p, h⟩
  · exact .inl h
  · by_cases hv : v = x
    · subst hv; exact .inr ⟨y, plookup_insert_self⟩
    · exact .inr ⟨p, by rw [plookup_insert_ne hv]; exact h⟩

theorem setF_le {f : V → C} {k : V} {b : C} (h : f k ≥ b) (x : V) : setF f k b x ≤ f x := by
  unfold setF; split
  · rename_i h'; subst h'; exact h
  · exact le_refl _

/-- Applying one update (before choosing which entries stay in the open list). -/
theorem inv_push {P : Prob V C} {s : St V C} (inv : Inv P s) {u : Upd V C} (hu : UpdOk P s u)
    (hgt : s.g u.p1 > u.cost) :
    s.gh u.p1 > u.cost ∧
    Inv P { s with g := setF s.g u.p1 u.cost, gh := setF s.gh u.p1 u.cost,
                   par := pinsert s.par u.p1 u.p0, open_ := ⟨u.estim, u.cost, u.p1⟩ :: s.open_ } := by
  have hu' := hu
  obtain ⟨c, hc0, hrt, hcp, hk, hm, hcost, hest⟩ := hu
  have hcc : c ≤ u.cost := by rw [hcost]; exact CostType.le_add _ _ hm.2.2.1
  have hpos : 0 ≤ u.cost := le_trans hc0 hcc
  have hgh : s.g u.p1 = s.gh u.p1 := by
    rcases inv.ghost u.p1 with h | h
    · exact h
    · rw [h] at hgt
      exact absurd (lt_trans hgt CostType.neg1_lt_zero) (not_lt.mpr hpos)
  have hg : s.gh u.p1 > u.cost := by rw [← hgh]; exact hgt
  have hne : u.p0 ≠ u.p1 ∨ u.p1 ∈ SS P := by
    by_cases hx : u.p1 ∈ SS P
    · exact .inr hx
    · left; intro h
      have := hcp (by rw [h]; exact hx)
      rw [h] at this
      exact absurd (lt_of_lt_of_le hg (le_trans this hcc)) (lt_irrefl _)
  have hle := setF_le (f := s.gh) (k := u.p1) (b := u.cost) (le_of_lt hg)
  refine ⟨hg, ?_, ?_, ?_, ?_, ?_⟩
  · intro e he
    simp only [List.mem_cons] at he
    rcases he with rfl | he
    · exact ⟨hpos, fun _ => by simp [setF], .inr ⟨_, plookup_insert_self⟩,
        by show Route P u.p1 u.cost; rw [hcost]; exact .move hrt hm⟩
    · obtain ⟨h1, h2, h3, h4⟩ := inv.ents e he
      exact ⟨h1, fun h => le_trans (hle _) (h2 h), h3.insert, h4⟩
  · intro v
    simp only [setF]
    split
    · exact .inl rfl
    · exact inv.ghost v
  · intro x p hp
    simp only at hp ⊢
    by_cases hx : x = u.p1
    · subst hx
      rw [plookup_insert_self] at hp
      obtain rfl := Option.some.inj hp
      refine ⟨hm, c, hrt, fun h => le_trans (hle _) (hcp h), ?_⟩
      simp only [setF, if_true]; exact hcost
    · rw [plookup_insert_ne hx] at hp
      obtain ⟨h1, c0, h0, h2, h3⟩ := inv.par x p hp
      refine ⟨h1, c0, h0, fun h => le_trans (hle _) (h2 h), ?_⟩
      simp only [setF, if_neg hx]; exact h3
  · intro v hv
    by_cases hvx : v = u.p1
    · subst hvx
      by_cases hx : u.p1 ∈ SS P
      · exact ⟨0, .start hx⟩
      · obtain ⟨n0, h0⟩ := inv.reach _ hk
        obtain ⟨m, h⟩ := ToStart.insert inv hu' hg _ _ h0
        exact ⟨_, .step hx plookup_insert_self h⟩
    · obtain ⟨n, h⟩ := inv.reach v (by
        rcases hv with h | ⟨p, h⟩
        · exact .inl h
        · simp only at h
          rw [plookup_insert_ne hvx] at h
          exact .inr ⟨p, h⟩)
      exact ToStart.insert inv hu' hg _ _ h
  · exact inv.better.insert

theorem inv_open {P : Prob V C} {s : St V C} (inv : Inv P s) {o : List (Ent V C)}
    (ho : ∀ e ∈ o, e ∈ s.open_) : Inv P { s with open_ := o } :=
  ⟨fun e he => inv.ents e (ho e he), inv.ghost, inv.par, inv.reach, inv.better⟩

theorem inv_act {P : Prob V C} {s s' : St V C} {a : Act V C} (inv : Inv P s) (ha : ActOk P s a)
    (h : ActRel P.limit s a s') : Inv P s' := by
  cases h with
  | skip => exact inv
  | push u h hl => exact (inv_push inv ha h).2
  | pushDrop u x rest h hl hx =>
    have := (inv_push inv ha h).2
    exact inv_open this (o := rest) fun e he => hx.symm.subset (List.mem_cons_of_mem _ he)
  | dont p =>
    refine ⟨inv.ents, fun v => ?_, inv.par, inv.reach, inv.better⟩
    simp only [setF]
    split
    · exact .inr rfl
    · exact inv.ghost v

/-- Pending actions stay fine while others are applied. -/
theorem actOk_mono {P : Prob V C} {s s' : St V C} {a b : Act V C} (inv : Inv P s) (ha : ActOk P s a)
    (hb : ActOk P s b) (h : ActRel P.limit s a s') : ActOk P s' b := by
  cases b with
  | dont => trivial
  | upd w =>
    obtain ⟨c, hc0, hrt, hcp, hk, hrest⟩ := hb
    cases h with
    | skip => exact ⟨c, hc0, hrt, hcp, hk, hrest⟩
    | dont => exact ⟨c, hc0, hrt, hcp, hk, hrest⟩
    | push u h hl =>
      have hg := (inv_push inv ha h).1
      exact ⟨c, hc0, hrt, fun h' => le_trans (setF_le (le_of_lt hg) _) (hcp h'), hk.insert, hrest⟩
    | pushDrop u x rest h hl hx =>
      have hg := (inv_push inv ha h).1
      exact ⟨c, hc0, hrt, fun h' => le_trans (setF_le (le_of_lt hg) _) (hcp h'), hk.insert, hrest⟩

theorem inv_acts {P : Prob V C} {s s' : St V C} {as : List (Act V C)} (inv : Inv P s)
    (ha : ∀ a ∈ as, ActOk P s a) (h : ActsRel P.limit s as s') : Inv P s' := by
  induction h with
  | nil => exact inv
  | cons h1 h2 ih =>
    exact ih (inv_act inv (ha _ (by simp)) h1)
      (fun b hb => actOk_mono inv (ha _ (by simp)) (ha b (by simp [hb])) h1)

theorem collect_mem {P : Prob V C} {n : Nat} {o cs o' : List (Ent V C)} {r : Option (Ent V C)}
    (h : Collect P n o cs o' r) :
    (∀ e ∈ cs, e ∈ o) ∧ (∀ e ∈ o', e ∈ o) ∧ (∀ e, r = some e → e ∈ o) := by
  induction h with
  | full => simp
  | empty => simp
  | hit n o e rest hp hmin hh =>
    refine ⟨by simp, fun x hx => hp.symm.subset (List.mem_cons_of_mem _ hx), ?_⟩
    intro x hx
    simp at hx; subst hx
    exact hp.symm.subset (by simp)
  | take hp hmin hh hc ih =>
    obtain ⟨h1, h2, h3⟩ := ih
    have hsub : ∀ x ∈ _, x ∈ _ := fun x hx => hp.symm.subset (List.mem_cons_of_mem _ hx)
    refine ⟨?_, fun x hx => hsub x (h2 x hx), fun x hx => hsub x (h3 x hx)⟩
    intro x hx
    rcases List.mem_cons.mp hx with rfl | hx
    · exact hp.symm.subset (by simp)
    · exact hsub x (h1 x hx)

theorem expandOne_some {P : Prob V C} {g : V → C} {p next : V} {c : C} {u : Upd V C}
    (h : expandOne P g p c next = some u) :
    u = ⟨p, next, c + P.cost p next + P.estim next, c + P.cost p next⟩ ∧
    Accepted (P.estim next) ∧ Accepted (P.cost p next) ∧ ¬ g next < g p ∧
    g next > c + P.cost p next := by
  unfold expandOne at h
  split at h
  · cases h
  · split at h
    · cases h
    · split at h
      · cases h
      · split at h
        · rename_i h1 h2 h3 h4
          exact ⟨(Option.some.inj h).symm, not_rejected.mp h2, not_rejected.mp h3, h1, h4⟩
        · cases h

theorem expand_upd {P : Prob V C} {g : V → C} {e : Ent V C} {u : Upd V C}
    (h : Act.upd u ∈ expand P g e) :
    u.p0 = e.v ∧ Move P u.p0 u.p1 ∧ u.cost = e.raw + P.cost u.p0 u.p1 ∧
      u.estim = u.cost + P.estim u.p1 ∧ e.raw ≤ g e.v ∧ g u.p1 > u.cost ∧ ¬ g u.p1 < g e.v := by
  unfold expand at h
  split at h
  · simp at h
  · rename_i hst
    simp only at h
    split at h
    · simp at h
    · simp only [List.mem_map, List.mem_filterMap, Act.upd.injEq, exists_eq_right] at h
      obtain ⟨next, hn, h⟩ := h
      obtain ⟨rfl, h1, h2, h3, h4⟩ := expandOne_some h
      exact ⟨rfl, ⟨hn, h1, h2⟩, rfl, rfl, not_lt.mp hst, h4, h3⟩

theorem actOk_expand {P : Prob V C} {s : St V C} (inv : Inv P s) {e : Ent V C} (he : e ∈ s.open_)
    {a : Act V C} (ha : a ∈ expand P s.g e) : ActOk P s a := by
  cases a with
  | dont => trivial
  | upd u =>
    obtain ⟨h0, hm, hc, hes, _⟩ := expand_upd ha
    obtain ⟨h1, h2, h3, h4⟩ := inv.ents e he
    exact ⟨e.raw, h1, by rw [h0]; exact h4, by rw [h0]; exact h2, by rw [h0]; exact h3, hm, hc, hes⟩

theorem inv_round {P : Prob V C} {s s' : St V C} (inv : Inv P s) (h : Round P s s') : Inv P s' := by
  cases h with
  | mk hc hne hp hb ha =>
    rename_i cs o' b acts
    obtain ⟨h1, h2, h3⟩ := collect_mem hc
    have inv' : Inv P { s with open_ := o', better := b } := by
      refine ⟨fun e he => inv.ents e (h2 e he), inv.ghost, inv.par, inv.reach, ?_⟩
      rcases hb with rfl | ⟨e, he, rfl⟩
      · exact inv.better
      · exact (inv.ents e (h1 e he)).2.2.1
    refine inv_acts inv' ?_ ha
    intro a hmem
    have hmem := hp.subset hmem
    simp only [List.mem_flatMap] at hmem
    obtain ⟨e, he, hmem⟩ := hmem
    have := actOk_expand inv (h1 e he) hmem
    cases a with
    | dont => trivial
    | upd u => exact this

theorem inv_init {P : Prob V C} (hs : ∀ x ∈ P.starts, (0 : C) ≤ x.2) {b : V} (hb : b ∈ SS P) :
    Inv P (init P b) := by
  refine ⟨?_, fun v => .inl rfl, ?_, ?_, .inl hb⟩
  · intro e he
    simp only [init, List.mem_map] at he
    obtain ⟨x, hx, rfl⟩ := he
    have : x.1 ∈ SS P := List.mem_map_of_mem hx
    exact ⟨hs x hx, fun h => absurd this h, .inl this, .start hx⟩
  · intro x p hp; simp [init, plookup] at hp
  · rintro v (h | ⟨p, h⟩)
    · exact ⟨0, .start h⟩
    · simp [init, plookup] at h

theorem inv_reach {P : Prob V C} (hs : ∀ x ∈ P.starts, (0 : C) ≤ x.2) {s : St V C} (h : Reach P s) :
    Inv P s := by
  induction h with
  | init b hb => exact inv_init hs hb
  | round _ h ih => exact inv_round ih h

/-- Reconstruction from any known cell succeeds with a legal, repetition-free path. -/
theorem findPath_known {P : Prob V C} {s : St V C} (inv : Inv P s) {v : V} (hv : Known P s.par v) :
    ∃ l, findPath (SS P) s.par v [] = (true, l) ∧ LegalPath P l v ∧ l.Nodup ∧
      l.IsChain (fun a b => b ∉ SS P ∧ plookup s.par b = some a) := by
  obtain ⟨n, hn⟩ := inv.reach v hv
  obtain ⟨l, hne, he, h1, h2, h3, h4, _⟩ := findPath_spec hn []
  refine ⟨l, by rw [he]; simp, ⟨hne, h1, h2, ?_⟩, h4, h3⟩
  exact h3.imp fun a b h => (inv.par b a h.2).1

end Verif.Astar
