import Verif.FloorSel.Spec
/-! # Properties of the floor selection (C53) -/
set_option linter.unusedSectionVars false
namespace Verif.FloorSel
open Spec
variable [Zero Z]

theorem mapOf_some {ms : List (M × Z)} {f : Int} (h : f ≥ 0 ∧ f < (ms.length : Int)) :
    ∃ m, ms[f.toNat]? = some m ∧ mapOf ms f = some m := by
  have : f.toNat < ms.length := by omega
  exact ⟨ms[f.toNat], by simp [this], by simp [mapOf, h.1, this]⟩

theorem mapOf_none {ms : List (M × Z)} {f : Int} (h : ¬ (f ≥ 0 ∧ f < (ms.length : Int))) : mapOf ms f = none := by
  unfold mapOf
  split
  · rw [List.getElem?_eq_none_iff]; omega
  · rfl

theorem run_spec (h : List (Event M Z)) : (run h).maps = lastMaps h ∧ (run h).floorCur = wanted h := by
  induction h with
  | nil => exact ⟨rfl, rfl⟩
  | cons e h ih =>
    cases e with
    | maps ms => exact ⟨rfl, ih.2⟩
    | floor f => exact ⟨ih.1, rfl⟩
    | tick =>
      simp only [run, step, lastMaps, wanted, tick]
      repeat' split
      all_goals exact ih

/-- **C53** (only the requested floor).  Whatever is published, by whatever event after whatever history, is the map of
the floor requested last in the newest map array, with altitude 0, and its altitude is broadcast at the same time. -/
theorem published_is_wanted (h : List (Event M Z)) (e : Event M Z) {m : M × Z} (hp : (output h e).map = some m) :
    ∃ z, mapOf (lastMaps h) (wanted h) = some (m.1, z) ∧ m.2 = 0 ∧ (output h e).trans = some z := by
  obtain ⟨h1, h2⟩ := run_spec h
  cases e with
  | maps ms => cases hp
  | floor f => cases hp
  | tick =>
    simp only [output, step, tick] at hp ⊢
    split at hp
    · cases hp
    · rename_i hl
      simp only [hl, if_false]
      split at hp
      · rename_i hne
        split at hp
        · rename_i hin
          obtain ⟨q, hq, hm⟩ := mapOf_some hin
          rw [hq] at hp
          cases hp
          rw [if_pos hne, if_pos hin, hq]
          exact ⟨q.2, by rw [← h1, ← h2]; exact hm, rfl, rfl⟩
        · cases hp
      · cases hp

/-- **C53** (out of range).  While the requested floor does not exist nothing is published. -/
theorem out_of_range_silent (h : List (Event M Z)) (hn : mapOf (lastMaps h) (wanted h) = none) (e : Event M Z) :
    (output h e).map = none := by
  cases hp : (output h e).map with
  | none => rfl
  | some m =>
    obtain ⟨z, hz, _⟩ := published_is_wanted h e hp
    rw [hn] at hz; cases hz

/-- The turn of the loop ends with the requested floor handled. -/
theorem tick_handles (h : List (Event M Z)) (hm : lastMaps h ≠ []) :
    (run (.tick :: h)).floorPrev = wanted h := by
  obtain ⟨h1, h2⟩ := run_spec h
  have hl : ¬ (run h).maps.length = 0 := by rw [h1]; simpa using hm
  simp only [run, step, tick, hl, if_false]
  split
  · rename_i hne
    split
    · rename_i hin
      obtain ⟨q, hq, _⟩ := mapOf_some hin
      rw [hq]; exact h2
    · exact h2
  · rename_i he
    rw [← h2]; exact (Classical.not_not.mp he).symm

theorem lastMaps_single (ms : List (M × Z)) (h h' : List (Event M Z)) (hh : ∀ e ∈ h, NoMaps e) :
    lastMaps (h ++ .maps ms :: h') = ms := by
  induction h with
  | nil => rfl
  | cons e h ih =>
    have hsub : ∀ e ∈ h, NoMaps e := fun e he => hh e (List.mem_cons_of_mem _ he)
    cases e with
    | maps _ => exact absurd (hh _ List.mem_cons_self) id
    | floor f => exact ih hsub
    | tick => exact ih hsub

/-- Invariant while only one map array has arrived: the subscriber holds the map of the floor handled last, if that floor
exists; the handled floor is `-1` or the subscriber's. -/
theorem single_inv (ms : List (M × Z)) (h h' : List (Event M Z)) (hh : ∀ e ∈ h, NoMaps e) (hh' : ∀ e ∈ h', NoMaps e)
    {m : M × Z} (hm : mapOf ms (run (h ++ .maps ms :: h')).floorPrev = some m) :
    latched (h ++ .maps ms :: h') = some (m.1, 0) ∧
      broadcast (h ++ .maps ms :: h') = some m.2 ∧ (run (h ++ .maps ms :: h')).transZ = m.2 := by
  have nothing : ∀ h' : List (Event M Z), (∀ e ∈ h', NoMaps e) → (run h').floorPrev = -1 ∧ (run h').maps = [] := by
    intro h'
    induction h' with
    | nil => intro _; exact ⟨rfl, rfl⟩
    | cons e h' ih =>
      intro hn
      have := ih (fun e he => hn e (List.mem_cons_of_mem _ he))
      cases e with
      | maps _ => exact absurd (hn _ List.mem_cons_self) id
      | floor f => exact this
      | tick => simpa [run, step, tick, this.2] using this.1
  induction h generalizing m with
  | nil =>
    have := (nothing h' hh').1
    simp only [List.nil_append, run, step] at hm
    rw [this] at hm
    exact absurd hm (by simp [mapOf])
  | cons e h ih =>
    have hsub : ∀ e ∈ h, NoMaps e := fun e he => hh e (List.mem_cons_of_mem _ he)
    have hlm : lastMaps (h ++ .maps ms :: h') = ms := by
      exact lastMaps_single ms h h' hsub
    simp only [List.cons_append] at hm ⊢
    generalize hk : h ++ Event.maps ms :: h' = k at hm ih hlm ⊢
    obtain ⟨h1, h2⟩ := run_spec k
    cases e with
    | maps _ => exact absurd (hh _ List.mem_cons_self) id
    | floor f => exact ih hsub hm
    | tick =>
      have hms : ms ≠ [] := by
        rintro rfl
        simp [mapOf] at hm
      have hl : ¬ (run k).maps.length = 0 := by rw [h1, hlm]; simpa using hms
      by_cases hc : (run k).floorCur ≠ (run k).floorPrev
      · by_cases hin : (run k).floorCur ≥ 0 ∧ (run k).floorCur < ((run k).maps.length : Int)
        · obtain ⟨q, hq, hqm⟩ := mapOf_some hin
          have ht : tick (run k) = ({ run k with floorPrev := (run k).floorCur, transZ := q.2 },
              ⟨some (q.1, 0), some q.2⟩) := by
            simp only [tick, hl, if_false, if_pos hc, if_pos hin, hq]
          have hfp : (run (.tick :: k)).floorPrev = (run k).floorCur := by simp [run, step, ht]
          rw [hfp, ← hlm, ← h1, hqm] at hm
          cases hm
          refine ⟨by simp [latched, output, step, ht], by simp [broadcast, output, step, ht], by simp [run, step, ht]⟩
        · exfalso
          have ht : tick (run k) = ({ run k with floorPrev := (run k).floorCur }, ⟨none, some (run k).transZ⟩) := by
            simp only [tick, hl, if_false, if_pos hc, if_neg hin]
          have hfp : (run (.tick :: k)).floorPrev = (run k).floorCur := by simp [run, step, ht]
          rw [hfp, ← hlm, ← h1, mapOf_none hin] at hm
          cases hm
      · have ht : tick (run k) = (run k, ⟨none, some (run k).transZ⟩) := by
          simp only [tick, hl, if_false, if_neg hc]
        have hfp : (run (.tick :: k)).floorPrev = (run k).floorPrev := by simp [run, step, ht]
        rw [hfp] at hm
        obtain ⟨i1, i2, i3⟩ := ih hsub hm
        refine ⟨by simp [latched, output, step, ht, i1], by simp [broadcast, output, step, ht, i3], by simp [run, step, ht, i3]⟩

/-- **C53** (subscribers hold the requested floor; proved when a single map array is received).  In every history with one
map array, right after a turn of the loop the subscriber of the map topic holds the map of the floor requested last and
its altitude is the one broadcast, if that floor exists.  Missing: later map arrays (`stale_maps`). -/
theorem selected_latched_partial (ms : List (M × Z)) (h h' : List (Event M Z)) (hh : ∀ e ∈ h, NoMaps e)
    (hh' : ∀ e ∈ h', NoMaps e) {m : M × Z} (hm : mapOf ms (wanted (h ++ .maps ms :: h')) = some m) :
    latched (.tick :: h ++ .maps ms :: h') = some (m.1, 0) ∧ broadcast (.tick :: h ++ .maps ms :: h') = some m.2 := by
  have hms : ms ≠ [] := by
    rintro rfl
    simp [mapOf] at hm
  have hlm : lastMaps (h ++ .maps ms :: h') = ms := by
    exact lastMaps_single ms h h' hh
  have hfp := tick_handles (h ++ .maps ms :: h') (by rw [hlm]; exact hms)
  have := single_inv ms (.tick :: h) h' (by
    intro e he
    rcases List.mem_cons.mp he with rfl | he
    · trivial
    · exact hh e he) hh' (m := m) (by rw [List.cons_append, hfp]; exact hm)
  exact ⟨this.1, this.2.1⟩

/-- **C53** refutation of the unrestricted claim: a new map array for the floor already selected is not published,
however many turns follow, and neither is a floor that only exists in a later array. -/
theorem stale_maps (n : Nat) :
    latched (List.replicate n .tick ++ [.maps [("new", (0 : Int))], .tick, .maps [("old", 0)]]) = some ("old", 0) ∧
    latched (List.replicate n .tick ++ [.maps [("a", (0 : Int)), ("b", 1)], .tick, .floor 1, .maps [("a", 0)]]) = none := by
  have key : ∀ (k : List (Event String Int)), (run k).floorCur = (run k).floorPrev → ∀ n,
      latched (List.replicate n .tick ++ k) = latched k := by
    intro k hk n
    have : run (List.replicate n .tick ++ k) = run k ∧ latched (List.replicate n .tick ++ k) = latched k := by
      induction n with
      | zero => exact ⟨rfl, rfl⟩
      | succ n ih =>
        rw [List.replicate_succ, List.cons_append]
        have ht : (tick (run k)).1 = run k ∧ (tick (run k)).2.map = none := by
          unfold tick
          split
          · exact ⟨rfl, rfl⟩
          · rw [if_neg (Classical.not_not.mpr hk)]; exact ⟨rfl, rfl⟩
        exact ⟨by simp only [run, step, ih.1, ht.1], by simp only [latched, output, step, ih.1, ht.2, ih.2]⟩
    exact this.2
  constructor
  · rw [key _ (by decide)]; decide
  · rw [key _ (by decide)]; decide

/-! ## Concrete cases -/

example : latched [.tick, .floor 1, .tick, .maps [("a", (3 : Int)), ("b", 5)], .floor 0] = some ("b", 0) ∧
    broadcast [.tick, .floor 1, .tick, .maps [("a", (3 : Int)), ("b", 5)], .floor 0] = some 5 := by decide
example : mapOf [("a", (3 : Int)), ("b", 5)] (wanted ([.floor 1, .tick] ++ .maps [("a", (3 : Int)), ("b", 5)] :: [.floor 0])) =
    some ("b", 5) := by decide

end Verif.FloorSel
