import Verif.PlannerNode.Spec
import Mathlib.Data.List.Nodup
/-! # Invariants of the planner node -/
namespace Verif.PlannerNode
variable {P : Type}

/-! ### Accounting of action goals -/

/-- The output says nothing about action goals. -/
def Mute : Out P → Prop
  | .path _ | .status _ _ => True
  | _ => False

theorem answersTo_append (l1 l2 : List (Out P)) (i : Nat) : answersTo (l1 ++ l2) i = answersTo l1 i ++ answersTo l2 i := by
  unfold answersTo; rw [List.filterMap_append]

theorem answersTo_mute (l : List (Out P)) (h : ∀ o ∈ l, Mute o) (i : Nat) : answersTo l i = [] := by
  unfold answersTo
  rw [List.filterMap_eq_nil_iff]
  intro o ho
  have := h o ho
  cases o <;> simp_all [Mute]

theorem answersTo_answer (j : Nat) (a : Answer) (i : Nat) :
    answersTo [(Out.answer j a : Out P)] i = if j = i then [a] else [] := by
  by_cases h : j = i <;> simp [answersTo, h]

theorem answersTo_accepted (k : Which) (j : Nat) (p : P) (i : Nat) : answersTo [Out.accepted k j p] i = [] := by
  simp [answersTo]

/-- Goals in the hands of a server. -/
def held (v : Server) : List Nat := if v.active then v.current.toList else []

/-- Goals that still wait for their answer. -/
def slots (b t : Server) : List Nat := (held b ++ b.pending.toList) ++ (held t ++ t.pending.toList)

/-- The books are in order. -/
structure Acc (b t : Server) (n : Nat) (log : List (Out P)) : Prop where
  nodup : (slots b t).Nodup
  bound : ∀ i ∈ slots b t, i < n
  openL : ∀ i ∈ slots b t, answersTo log i = []
  closed : ∀ i, i < n → i ∉ slots b t → ∃ a, answersTo log i = [a]
  future : ∀ i, n ≤ i → answersTo log i = [] ∧ ¬ Accepted log i
  took : ∀ i, i ∈ held b ∨ i ∈ held t → Accepted log i
  wait : ∀ i, i ∈ b.pending.toList ∨ i ∈ t.pending.toList → ¬ Accepted log i
  fair : ∀ i a, Accepted log i → a ∈ answersTo log i → a ≠ .recalled

theorem slots_perm (b t : Server) : (slots b t).Perm (slots t b) := List.perm_append_comm

theorem mem_slots_comm (b t : Server) (i : Nat) : i ∈ slots b t ↔ i ∈ slots t b := (slots_perm b t).mem_iff

theorem Acc.swap {b t : Server} {n : Nat} {log : List (Out P)} (h : Acc b t n log) : Acc t b n log :=
  { nodup := (slots_perm b t).nodup_iff.mp h.nodup
    bound := fun i hi => h.bound i ((mem_slots_comm b t i).mpr hi)
    openL := fun i hi => h.openL i ((mem_slots_comm b t i).mpr hi)
    closed := fun i hi hn => h.closed i hi (fun hm => hn ((mem_slots_comm b t i).mp hm))
    future := h.future
    took := fun i hi => h.took i hi.symm
    wait := fun i hi => h.wait i hi.symm
    fair := h.fair }

theorem accepted_append (l1 l2 : List (Out P)) (i : Nat) : Accepted (l1 ++ l2) i ↔ Accepted l1 i ∨ Accepted l2 i := by
  unfold Accepted AcceptedAs
  constructor
  · rintro ⟨p, k, h⟩
    rcases List.mem_append.mp h with h | h
    · exact .inl ⟨p, k, h⟩
    · exact .inr ⟨p, k, h⟩
  · rintro (⟨p, k, h⟩ | ⟨p, k, h⟩)
    · exact ⟨p, k, List.mem_append_left _ h⟩
    · exact ⟨p, k, List.mem_append_right _ h⟩

theorem not_accepted_mute (l : List (Out P)) (h : ∀ o ∈ l, Mute o) (i : Nat) : ¬ Accepted l i := by
  rintro ⟨p, k, hm⟩
  exact h _ hm

theorem not_accepted_answer (j : Nat) (a : Answer) (i : Nat) : ¬ Accepted [(Out.answer j a : Out P)] i := by
  rintro ⟨p, k, hm⟩
  simp at hm

theorem Acc.mute {b t : Server} {n : Nat} {log : List (Out P)} (h : Acc b t n log) (l : List (Out P))
    (hl : ∀ o ∈ l, Mute o) : Acc b t n (log ++ l) := by
  have e : ∀ i, answersTo (log ++ l) i = answersTo log i := fun i => by
    rw [answersTo_append, answersTo_mute l hl, List.append_nil]
  have a : ∀ i, Accepted (log ++ l) i ↔ Accepted log i := fun i => by
    rw [accepted_append]; exact or_iff_left (not_accepted_mute l hl i)
  exact
    { nodup := h.nodup, bound := h.bound
      openL := fun i hi => by rw [e]; exact h.openL i hi
      closed := fun i hi hn => by rw [e]; exact h.closed i hi hn
      future := fun i hi => by rw [e, a]; exact h.future i hi
      took := fun i hi => (a i).mpr (h.took i hi)
      wait := fun i hi => fun hh => h.wait i hi ((a i).mp hh)
      fair := fun i x hi hx => h.fair i x ((a i).mp hi) (by rwa [e] at hx) }

/-- The current goal of a server gets its answer. -/
theorem Acc.finish {b t : Server} {n : Nat} {log : List (Out P)} (h : Acc b t n log) (j : Nat) (a : Answer)
    (ha : a ≠ .recalled) (hb : b.active = true) (hc : b.current = some j) :
    Acc { b with active := false } t n (log ++ [.answer j a]) := by
  have hs : slots b t = j :: slots { b with active := false } t := by
    simp [slots, held, hb, hc]
  have hn := h.nodup
  rw [hs, List.nodup_cons] at hn
  have e : ∀ i, answersTo (log ++ [.answer j a]) i = answersTo log i ++ if j = i then [a] else [] := fun i => by
    rw [answersTo_append, answersTo_answer]
  have ac : ∀ i, Accepted (log ++ [.answer j a]) i ↔ Accepted log i := fun i => by
    rw [accepted_append]; exact or_iff_left (not_accepted_answer j a i)
  have hj : j ∈ slots b t := by rw [hs]; exact List.mem_cons_self ..
  refine { nodup := hn.2, bound := ?_, openL := ?_, closed := ?_, future := ?_, took := ?_, wait := ?_, fair := ?_ }
  · intro i hi
    exact h.bound i (by rw [hs]; exact List.mem_cons_of_mem _ hi)
  · intro i hi
    have hij : j ≠ i := fun hh => hn.1 (hh ▸ hi)
    rw [e, if_neg hij, List.append_nil]
    exact h.openL i (by rw [hs]; exact List.mem_cons_of_mem _ hi)
  · intro i hi hni
    rw [e]
    by_cases hij : j = i
    · subst hij
      exact ⟨a, by rw [if_pos rfl, h.openL j hj]; rfl⟩
    · rw [if_neg hij, List.append_nil]
      apply h.closed i hi
      rw [hs, List.mem_cons]
      rintro (hh | hh)
      · exact hij hh.symm
      · exact hni hh
  · intro i hi
    have hij : j ≠ i := by have := h.bound j hj; omega
    rw [e, if_neg hij, List.append_nil, ac]
    exact h.future i hi
  · intro i hi
    rw [ac]
    apply h.took i
    rcases hi with hi | hi
    · simp [held] at hi
    · exact .inr hi
  · intro i hi
    rw [ac]
    exact h.wait i hi
  · intro i x hi hx
    rw [e] at hx
    rcases List.mem_append.mp hx with hx | hx
    · exact h.fair i x ((ac i).mp hi) hx
    · split at hx
      · simp at hx; rw [hx]; exact ha
      · simp at hx

/-- A waiting goal is recalled. -/
theorem Acc.recall {b t : Server} {n : Nat} {log : List (Out P)} (h : Acc b t n log) (j : Nat)
    (hp : b.pending = some j) : Acc { b with pending := none } t n (log ++ [.answer j .recalled]) := by
  have hs : (slots b t).Perm (j :: slots { b with pending := none } t) := by
    have : slots b t = held b ++ j :: (held t ++ t.pending.toList) := by simp [slots, hp]
    rw [this]
    have h2 : slots { b with pending := none } t = held b ++ (held t ++ t.pending.toList) := by simp [slots, held]
    rw [h2]
    exact List.perm_middle
  have hn := hs.nodup_iff.mp h.nodup
  rw [List.nodup_cons] at hn
  have mem : ∀ i, i ∈ slots b t ↔ i = j ∨ i ∈ slots { b with pending := none } t := fun i => by
    rw [hs.mem_iff, List.mem_cons]
  have e : ∀ i, answersTo (log ++ [.answer j .recalled]) i = answersTo log i ++ if j = i then [.recalled] else [] := fun i => by
    rw [answersTo_append, answersTo_answer]
  have ac : ∀ i, Accepted (log ++ [.answer j .recalled]) i ↔ Accepted log i := fun i => by
    rw [accepted_append]; exact or_iff_left (not_accepted_answer j .recalled i)
  have hj : j ∈ slots b t := (mem j).mpr (.inl rfl)
  have hw : ¬ Accepted log j := h.wait j (.inl (by simp [hp]))
  refine { nodup := hn.2, bound := ?_, openL := ?_, closed := ?_, future := ?_, took := ?_, wait := ?_, fair := ?_ }
  · intro i hi
    exact h.bound i ((mem i).mpr (.inr hi))
  · intro i hi
    have hij : j ≠ i := fun hh => hn.1 (hh ▸ hi)
    rw [e, if_neg hij, List.append_nil]
    exact h.openL i ((mem i).mpr (.inr hi))
  · intro i hi hni
    rw [e]
    by_cases hij : j = i
    · subst hij
      exact ⟨.recalled, by rw [if_pos rfl, h.openL j hj]; rfl⟩
    · rw [if_neg hij, List.append_nil]
      apply h.closed i hi
      rw [mem]
      rintro (hh | hh)
      · exact hij hh.symm
      · exact hni hh
  · intro i hi
    have hij : j ≠ i := by have := h.bound j hj; omega
    rw [e, if_neg hij, List.append_nil, ac]
    exact h.future i hi
  · intro i hi
    rw [ac]
    exact h.took i hi
  · intro i hi
    rw [ac]
    apply h.wait i
    rcases hi with hi | hi
    · simp at hi
    · exact .inr hi
  · intro i x hi hx
    rw [e] at hx
    rw [ac] at hi
    rcases List.mem_append.mp hx with hx | hx
    · exact h.fair i x hi hx
    · split at hx
      · rename_i hij; subst hij; exact absurd hi hw
      · simp at hx

/-- A new goal waits. -/
theorem Acc.arrive {b t : Server} {n : Nat} {log : List (Out P)} (h : Acc b t n log) (hp : b.pending = none) :
    Acc { b with pending := some n } t (n + 1) log := by
  have hs : (slots { b with pending := some n } t).Perm (n :: slots b t) := by
    have h1 : slots { b with pending := some n } t = held b ++ n :: (held t ++ t.pending.toList) := by simp [slots, held]
    have h2 : slots b t = held b ++ (held t ++ t.pending.toList) := by simp [slots, held, hp]
    rw [h1, h2]
    exact List.perm_middle
  have mem : ∀ i, i ∈ slots { b with pending := some n } t ↔ i = n ∨ i ∈ slots b t := fun i => by
    rw [hs.mem_iff, List.mem_cons]
  have hnn : n ∉ slots b t := fun hh => absurd (h.bound n hh) (lt_irrefl n)
  refine { nodup := hs.nodup_iff.mpr (List.nodup_cons.mpr ⟨hnn, h.nodup⟩), bound := ?_, openL := ?_, closed := ?_,
           future := ?_, took := ?_, wait := ?_, fair := h.fair }
  · intro i hi
    rcases (mem i).mp hi with rfl | hi
    · omega
    · have := h.bound i hi; omega
  · intro i hi
    rcases (mem i).mp hi with rfl | hi
    · exact (h.future i (le_refl i)).1
    · exact h.openL i hi
  · intro i hi hni
    rw [mem] at hni
    push Not at hni
    exact h.closed i (by omega) hni.2
  · intro i hi
    exact h.future i (by omega)
  · intro i hi
    exact h.took i hi
  · intro i hi
    rcases hi with hi | hi
    · simp at hi
      subst hi
      exact (h.future _ (le_refl _)).2
    · exact h.wait i (.inr hi)

/-- A goal that is recalled at once. -/
theorem Acc.late {b t : Server} {n : Nat} {log : List (Out P)} (h : Acc b t n log) :
    Acc b t (n + 1) (log ++ [.answer n .recalled]) := by
  have e : ∀ i, answersTo (log ++ [.answer n .recalled]) i = answersTo log i ++ if n = i then [.recalled] else [] := fun i => by
    rw [answersTo_append, answersTo_answer]
  have ac : ∀ i, Accepted (log ++ [.answer n .recalled]) i ↔ Accepted log i := fun i => by
    rw [accepted_append]; exact or_iff_left (not_accepted_answer n .recalled i)
  have hnn : n ∉ slots b t := fun hh => absurd (h.bound n hh) (lt_irrefl n)
  refine { nodup := h.nodup, bound := ?_, openL := ?_, closed := ?_, future := ?_, took := ?_, wait := ?_, fair := ?_ }
  · intro i hi
    have := h.bound i hi; omega
  · intro i hi
    have hij : n ≠ i := fun hh => hnn (hh ▸ hi)
    rw [e, if_neg hij, List.append_nil]
    exact h.openL i hi
  · intro i hi hni
    rw [e]
    by_cases hij : n = i
    · subst hij
      exact ⟨.recalled, by rw [if_pos rfl, (h.future n (le_refl n)).1]; rfl⟩
    · rw [if_neg hij, List.append_nil]
      exact h.closed i (by omega) hni
  · intro i hi
    have hij : n ≠ i := by omega
    rw [e, if_neg hij, List.append_nil, ac]
    exact h.future i (by omega)
  · intro i hi
    rw [ac]; exact h.took i hi
  · intro i hi
    rw [ac]; exact h.wait i hi
  · intro i x hi hx
    rw [e] at hx
    rw [ac] at hi
    rcases List.mem_append.mp hx with hx | hx
    · exact h.fair i x hi hx
    · split at hx
      · rename_i hij; subst hij; exact absurd hi (h.future n (le_refl n)).2
      · simp at hx

/-- The waiting goal is accepted. -/
theorem Acc.accept {b t : Server} {n : Nat} {log : List (Out P)} (h : Acc b t n log) (k : Which) (p : P) (j : Nat)
    (hb : b.active = false) (hp : b.pending = some j) : Acc ⟨some j, true, none⟩ t n (log ++ [.accepted k j p]) := by
  have hs : slots b t = slots ⟨some j, true, none⟩ t := by simp [slots, held, hb, hp]
  have hj : j ∈ slots b t := by simp [slots, hp]
  have e : ∀ i, answersTo (log ++ [.accepted k j p]) i = answersTo log i := fun i => by
    rw [answersTo_append, answersTo_accepted, List.append_nil]
  have ac : ∀ i, Accepted (log ++ [.accepted k j p]) i ↔ Accepted log i ∨ i = j := fun i => by
    rw [accepted_append]
    refine or_congr Iff.rfl ?_
    constructor
    · rintro ⟨p', k', hm⟩
      simp at hm
      exact hm.2.1
    · rintro rfl
      exact ⟨p, k, List.mem_cons_self ..⟩
  refine { nodup := hs ▸ h.nodup, bound := hs ▸ h.bound, openL := ?_, closed := ?_, future := ?_, took := ?_, wait := ?_,
           fair := ?_ }
  · intro i hi
    rw [e]; exact h.openL i (hs ▸ hi)
  · intro i hi hni
    rw [e]; exact h.closed i hi (hs ▸ hni)
  · intro i hi
    rw [e, ac]
    refine ⟨(h.future i hi).1, ?_⟩
    rintro (hh | rfl)
    · exact (h.future i hi).2 hh
    · have := h.bound i hj; omega
  · intro i hi
    rw [ac]
    rcases hi with hi | hi
    · simp [held] at hi
      exact .inr hi
    · exact .inl (h.took i (.inr hi))
  · intro i hi
    rw [ac]
    rcases hi with hi | hi
    · simp at hi
    · rintro (hh | rfl)
      · exact h.wait i (.inr hi) hh
      · have hd := h.nodup
        have h1 : i ∈ held b ++ b.pending.toList := by simp [hp]
        have h2 : i ∈ held t ++ t.pending.toList := List.mem_append_right _ hi
        exact (List.disjoint_of_nodup_append (show ((held b ++ b.pending.toList) ++ (held t ++ t.pending.toList)).Nodup from hd))
          h1 h2
  · intro i x hi hx
    rw [e] at hx
    rcases (ac i).mp hi with hi | rfl
    · exact h.fair i x hi hx
    · rw [h.openL i hj] at hx
      simp at hx

/-! ### The state invariant -/

/-- What holds between events, except that a goal in a server's hands is being pursued. -/
structure Pre (s : St P) : Prop where
  acc : Acc s.base s.tol s.count s.log
  one : ¬ (s.base.active = true ∧ s.tol.active = true)
  cb : s.base.active = true → s.base.current ≠ none
  ct : s.tol.active = true → s.tol.current ≠ none
  tolGoal : s.tol.active = true → s.tolGoal ≠ none
  esc : s.hasGoal = true → s.escaping = .no → s.goalRaw = s.goalOriginal
  fin : s.hasGoal = true → s.phase = .finishing → s.escaping = .no

/-- A goal in a server's hands is being pursued. -/
structure Pursued (s : St P) : Prop where
  goal : s.base.active = true ∨ s.tol.active = true → s.hasGoal = true
  asked : ∀ i, Open s i → AcceptedAs s.log i s.goalOriginal

/-- What holds between events. -/
def Inv (s : St P) : Prop := Pre s ∧ Pursued s

/-- The parts that the search for a reachable goal may change. -/
def SameCore (s s' : St P) : Prop := ∃ a b c d e f g md, s' = { s with
  cacheReady := a, startOccupied := b, stuck := c, escaping := d, goal := e, goalRaw := f, phase := g, made := md }

theorem SameCore.refl (s : St P) : SameCore s s := ⟨_, _, _, _, _, _, _, _, rfl⟩

theorem SameCore.trans {s s' s'' : St P} (h : SameCore s s') (h' : SameCore s' s'') : SameCore s s'' := by
  obtain ⟨a, b, c, d, e, f, g, md, rfl⟩ := h
  obtain ⟨a', b', c', d', e', f', g', md', rfl⟩ := h'
  exact ⟨a', b', c', d', e', f', g', md', rfl⟩

/-- Goal bookkeeping. -/
def EscOk (s : St P) : Prop :=
  (s.escaping = .no → s.goalRaw = s.goalOriginal) ∧ (s.phase = .finishing → s.escaping = .no)

/-- A change by the search for a reachable goal. -/
def Moves (s s' : St P) : Prop :=
  SameCore s s' ∧ (s'.phase = s.phase ∨ (s.phase = .finishing ∧ s'.phase = .doing)) ∧ (EscOk s → EscOk s')

theorem Moves.refl (s : St P) : Moves s s := ⟨SameCore.refl s, .inl rfl, id⟩

theorem Moves.trans {s s' s'' : St P} (h : Moves s s') (h' : Moves s' s'') : Moves s s'' := by
  refine ⟨h.1.trans h'.1, ?_, fun e => h'.2.2 (h.2.2 e)⟩
  rcases h.2.1 with h1 | ⟨h1, h2⟩ <;> rcases h'.2.1 with h3 | ⟨h3, h4⟩
  · exact .inl (h3.trans h1)
  · exact .inr ⟨h1 ▸ h3, h4⟩
  · exact .inr ⟨h1, h3.trans h2⟩
  · exact .inr ⟨h1, h4⟩

theorem moves_takeEscape (p : P) (b : Bool) (s : St P) : Moves s (takeEscape p b s) := by
  refine ⟨⟨_, _, _, _, _, _, _, _, rfl⟩, ?_, fun _ => ⟨?_, ?_⟩⟩
  · unfold takeEscape
    by_cases h : s.phase = .finishing
    · exact .inr ⟨h, by simp [h]⟩
    · exact .inl (by simp [h])
  · unfold takeEscape
    cases b <;> simp
  · unfold takeEscape
    by_cases h : s.phase = .finishing <;> simp [h]

theorem moves_back (s : St P) : Moves s (backToOriginal s) :=
  ⟨⟨_, _, _, _, _, _, _, _, rfl⟩, .inl rfl, fun _ => ⟨fun _ => rfl, fun _ => rfl⟩⟩

theorem moves_flags (s : St P) (a b : Bool) (c : Int) (g : P) (m : Option P) :
    Moves s { s with cacheReady := a, startOccupied := b, stuck := c, goal := g, made := m } :=
  ⟨⟨_, _, _, _, _, _, _, _, rfl⟩, .inl rfl, fun h => h⟩

theorem moves_escapeGoal (w : World P) (c : St P → Option (St P × Bool)) (who : Caller)
    (hc : ∀ s s' b, c s = some (s', b) → Moves s s') (s s' : St P) (h : escapeGoal w c who s = some s') : Moves s s' := by
  unfold escapeGoal at h
  split at h
  · cases h; exact Moves.refl s
  split at h
  · cases h; exact Moves.refl s
  split at h
  · split at h
    · cases h; exact Moves.refl s
    · rw [Option.map_eq_some_iff] at h
      obtain ⟨⟨a, b⟩, h1, rfl⟩ := h
      exact (moves_takeEscape _ _ s).trans (hc _ _ _ h1)
  · split at h
    · cases h; exact Moves.refl s
    · rw [Option.map_eq_some_iff] at h
      obtain ⟨⟨a, b⟩, h1, rfl⟩ := h
      exact (moves_back s).trans (hc _ _ _ h1)
    · rw [Option.map_eq_some_iff] at h
      obtain ⟨⟨a, b⟩, h1, rfl⟩ := h
      exact (moves_takeEscape _ _ s).trans (hc _ _ _ h1)

theorem moves_cache (w : World P) : ∀ (n : Nat) (s s' : St P) (b : Bool), cache w n s = some (s', b) → Moves s s' := by
  intro n
  induction n with
  | zero => intro s s' b h; cases h
  | succ n ih =>
    intro s s' b h
    unfold cache at h
    split at h
    · cases h; exact Moves.refl s
    split at h
    · cases h; exact Moves.refl s
    dsimp only at h
    split at h
    · cases h; exact moves_flags s _ _ _ _ _
    · cases h; exact moves_flags s _ _ _ _ _
    split at h
    · cases h; exact moves_flags s _ _ _ _ _
    · split at h
      · cases h
        exact (moves_flags s false false s.stuck s.goal s.made).trans (moves_back _)
      split at h
      · rw [Option.map_eq_some_iff] at h
        obtain ⟨s1, h1, h2⟩ := h
        cases h2
        exact (moves_flags s false false (s.stuck + 1) s.goal s.made).trans (moves_escapeGoal w _ _ (fun _ _ _ => ih _ _ _) _ _ h1)
      · cases h; exact moves_flags s _ _ _ _ _
    · cases h; exact moves_flags s _ _ _ _ _
    · cases h; exact moves_flags s _ _ _ _ _

theorem moves_escapeNow (w : World P) (s s' : St P) (h : escapeNow w s = some s') : Moves s s' :=
  moves_escapeGoal w _ _ (fun _ _ _ => moves_cache w _ _ _ _) s s' h

theorem Pre.moves {s s' : St P} (h : Pre s) (hg : s.hasGoal = true → EscOk s → EscOk s') (hm : SameCore s s') : Pre s' := by
  obtain ⟨a, b, c, d, e, f, g, md, rfl⟩ := hm
  exact
    { acc := h.acc, one := h.one, cb := h.cb, ct := h.ct, tolGoal := h.tolGoal
      esc := fun hh => (hg hh ⟨h.esc hh, h.fin hh⟩).1
      fin := fun hh => (hg hh ⟨h.esc hh, h.fin hh⟩).2 }

theorem Pursued.core {s s' : St P} (h : Pursued s) (hm : SameCore s s') : Pursued s' := by
  obtain ⟨a, b, c, d, e, f, g, md, rfl⟩ := hm
  exact ⟨h.goal, h.asked⟩

theorem Inv.moves {s s' : St P} (h : Inv s) (hm : Moves s s') : Inv s' :=
  ⟨h.1.moves (fun _ => hm.2.2) hm.1, h.2.core hm.1⟩

theorem Pre.mute {s : St P} (h : Pre s) (l : List (Out P)) (hl : ∀ o ∈ l, Mute o) : Pre { s with log := s.log ++ l } :=
  { acc := h.acc.mute l hl, one := h.one, cb := h.cb, ct := h.ct, tolGoal := h.tolGoal, esc := h.esc, fin := h.fin }

theorem AcceptedAs.append {l : List (Out P)} {i : Nat} {p : P} (h : AcceptedAs l i p) (l' : List (Out P)) :
    AcceptedAs (l ++ l') i p := by
  obtain ⟨k, hk⟩ := h
  exact ⟨k, List.mem_append_left _ hk⟩

theorem Pursued.append {s : St P} (h : Pursued s) (l : List (Out P)) : Pursued { s with log := s.log ++ l } :=
  ⟨h.goal, fun i hi => (h.asked i hi).append l⟩

theorem Inv.mute {s : St P} (h : Inv s) (l : List (Out P)) (hl : ∀ o ∈ l, Mute o) : Inv { s with log := s.log ++ l } :=
  ⟨h.1.mute l hl, h.2.append l⟩

theorem Inv.emit {s : St P} (h : Inv s) (o : Out P) (ho : Mute o) : Inv (emit o s) :=
  h.mute [o] (fun x hx => by rw [List.mem_singleton.mp hx]; exact ho)

theorem Pre.emit {s : St P} (h : Pre s) (o : Out P) (ho : Mute o) : Pre (emit o s) :=
  h.mute [o] (fun x hx => by rw [List.mem_singleton.mp hx]; exact ho)

theorem Inv.publish {s : St P} (h : Inv s) : Inv (publishStatus s) := h.emit _ trivial

/-! ### Ending goals -/

/-- What `finish` can do. -/
theorem finish_cases (k : Which) (a : Answer) (s : St P) (h : Pre s) :
    (k = .base ∧ s.base.active = true ∧ ∃ i, s.base.current = some i ∧
      finish k a s = { s with base := { s.base with active := false }, log := s.log ++ [.answer i a] }) ∨
    (k = .tolerant ∧ s.tol.active = true ∧ ∃ i, s.tol.current = some i ∧
      finish k a s = { s with tol := { s.tol with active := false }, log := s.log ++ [.answer i a] }) ∨
    (finish k a s = s ∧ (k = .base → s.base.active = false) ∧ (k = .tolerant → s.tol.active = false)) := by
  cases k with
  | base =>
    unfold finish
    dsimp only
    split
    · rename_i ha
      cases hc : s.base.current with
      | none => exact absurd hc (h.cb ha)
      | some i => exact .inl ⟨rfl, ha, i, rfl, rfl⟩
    · rename_i ha
      exact .inr (.inr ⟨rfl, fun _ => by simpa using ha, fun hh => by cases hh⟩)
  | tolerant =>
    unfold finish
    dsimp only
    split
    · rename_i ha
      cases hc : s.tol.current with
      | none => exact absurd hc (h.ct ha)
      | some i => exact .inr (.inl ⟨rfl, ha, i, rfl, rfl⟩)
    · rename_i ha
      exact .inr (.inr ⟨rfl, (fun hh => by cases hh), fun _ => by simpa using ha⟩)

theorem Pre.finish {s : St P} (h : Pre s) (k : Which) (a : Answer) (ha : a ≠ .recalled) : Pre (finish k a s) := by
  rcases finish_cases k a s h with ⟨-, hb, i, hc, he⟩ | ⟨-, hb, i, hc, he⟩ | ⟨he, -⟩
  · rw [he]
    exact { acc := h.acc.finish i a ha hb hc, one := (fun hh => by simp at hh), cb := (fun hh => by simp at hh),
            ct := h.ct, tolGoal := h.tolGoal, esc := h.esc, fin := h.fin }
  · rw [he]
    exact { acc := (h.acc.swap.finish i a ha hb hc).swap, one := (fun hh => by simp at hh), cb := h.cb,
            ct := (fun hh => by simp at hh), tolGoal := (fun hh => by simp at hh), esc := h.esc, fin := h.fin }
  · rw [he]; exact h

/-- The parts `finish` leaves alone: all but the servers and the log. -/
def SameRest (s s' : St P) : Prop := ∃ b t l, s' = { s with base := b, tol := t, log := s.log ++ l } ∧
  (b.active = true → b = s.base) ∧ (t.active = true → t = s.tol) ∧ b.pending = s.base.pending ∧ t.pending = s.tol.pending

theorem SameRest.refl (s : St P) : SameRest s s := ⟨s.base, s.tol, [], by simp, fun _ => rfl, fun _ => rfl, rfl, rfl⟩

theorem SameRest.trans {s s' s'' : St P} (h : SameRest s s') (h' : SameRest s' s'') : SameRest s s'' := by
  obtain ⟨b, t, l, rfl, h1, h2, h3, h4⟩ := h
  obtain ⟨b', t', l', rfl, h1', h2', h3', h4'⟩ := h'
  refine ⟨b', t', l ++ l', by simp, fun hh => ?_, fun hh => ?_, h3'.trans h3, h4'.trans h4⟩
  · have := h1' hh; rw [this] at hh ⊢; exact h1 hh
  · have := h2' hh; rw [this] at hh ⊢; exact h2 hh

theorem finish_rest (k : Which) (a : Answer) (s : St P) : SameRest s (finish k a s) := by
  cases k with
  | base =>
    unfold finish
    dsimp only
    split
    · split
      · exact ⟨_, s.tol, _, rfl, (fun hh => by simp at hh), fun _ => rfl, rfl, rfl⟩
      · exact SameRest.refl s
    · exact SameRest.refl s
  | tolerant =>
    unfold finish
    dsimp only
    split
    · split
      · exact ⟨s.base, _, _, rfl, fun _ => rfl, (fun hh => by simp at hh), rfl, rfl⟩
      · exact SameRest.refl s
    · exact SameRest.refl s

theorem finish_off (k : Which) (a : Answer) (s : St P) (h : Pre s) :
    (k = .base → (finish k a s).base.active = false) ∧ (k = .tolerant → (finish k a s).tol.active = false) := by
  rcases finish_cases k a s h with ⟨rfl, hb, i, hc, he⟩ | ⟨rfl, hb, i, hc, he⟩ | ⟨he, h1, h2⟩
  · rw [he]; exact ⟨fun _ => rfl, fun hh => by cases hh⟩
  · rw [he]; exact ⟨(fun hh => by cases hh), fun _ => rfl⟩
  · rw [he]; exact ⟨h1, h2⟩

theorem finishBoth_rest (a : Answer) (s : St P) : SameRest s (finishBoth a s) :=
  (finish_rest .base a s).trans (finish_rest .tolerant a _)

theorem Pre.finishBoth {s : St P} (h : Pre s) (a : Answer) (ha : a ≠ .recalled) : Pre (finishBoth a s) :=
  (h.finish .base a ha).finish .tolerant a ha

theorem finishBoth_off (a : Answer) (ha : a ≠ .recalled) (s : St P) (h : Pre s) :
    (finishBoth a s).base.active = false ∧ (finishBoth a s).tol.active = false := by
  refine ⟨?_, (finish_off .tolerant a _ (h.finish .base a ha)).2 rfl⟩
  have h1 := (finish_off .base a s h).1 rfl
  obtain ⟨b, t, l, he, hb, -⟩ := finish_rest .tolerant a (finish .base a s)
  unfold PlannerNode.finishBoth
  rw [he]
  cases hba : b.active with
  | false => rfl
  | true => rw [hb hba] at hba; rw [h1] at hba; cases hba

theorem Pursued.of_off {s : St P} (h1 : s.base.active = false) (h2 : s.tol.active = false) : Pursued s := by
  constructor
  · rintro (h | h)
    · rw [h1] at h; cases h
    · rw [h2] at h; cases h
  · rintro i (h | h)
    · rw [h.1] at h1; cases h1
    · rw [h.1] at h2; cases h2

theorem Inv.finish {s : St P} (h : Inv s) (k : Which) (a : Answer) (ha : a ≠ .recalled) : Inv (PlannerNode.finish k a s) := by
  refine ⟨h.1.finish k a ha, ?_⟩
  obtain ⟨b, t, l, he, hb, ht, -⟩ := finish_rest k a s
  rw [he]
  constructor
  · rintro (hh | hh)
    · exact h.2.goal (.inl (by rw [← hb hh]; exact hh))
    · exact h.2.goal (.inr (by rw [← ht hh]; exact hh))
  · rintro i (hh | hh)
    · exact (h.2.asked i (.inl (by rw [← hb hh.1]; exact hh))).append l
    · exact (h.2.asked i (.inr (by rw [← ht hh.1]; exact hh))).append l

theorem Pre.noGoal {s : St P} (h : Pre s) (e : Escaping) (p : Phase) (er : Err) :
    Pre { s with hasGoal := false, escaping := e, phase := p, error := er } :=
  { acc := h.acc, one := h.one, cb := h.cb, ct := h.ct, tolGoal := h.tolGoal,
    esc := (fun hh => by cases hh), fin := (fun hh => by cases hh) }

theorem Inv.preempt {s : St P} (h : Pre s) : Inv (cbPreempt s) := by
  have h1 := h.finishBoth .preempted (by decide)
  have h2 := finishBoth_off .preempted (by decide) s h
  exact ⟨h1.noGoal .no .done _, Pursued.of_off h2.1 h2.2⟩

end Verif.PlannerNode
