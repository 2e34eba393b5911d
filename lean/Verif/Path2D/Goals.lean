import Verif.Path2D.Lemmas
/-!
# Lemmas on the search for local goals and for the nearest part of a path
-/
namespace Verif.Path2D
open Verif.Num

theorem turnsAt_iff {P : List Pose} {eps : ℝ} {i : Nat} {a b : Pose} (hi : 0 < i) (ha : P[i - 1]? = some a)
    (hb : P[i]? = some b) : TurnsAt P eps i ↔ Complex.normSq (b.pos - a.pos) < eps := by
  rw [Complex.normSq_eq_norm_sq]
  constructor
  · rintro ⟨_, a', b', ha', hb', h⟩
    rw [ha] at ha'; rw [hb] at hb'
    cases ha'; cases hb'; exact h
  · intro h; exact ⟨hi, a, b, ha, hb, h⟩

theorem ne_of_not_turn {eps : ℝ} (he : 0 < eps) {a b : Pose} (h : ¬ Complex.normSq (b.pos - a.pos) < eps) :
    b.pos ≠ a.pos := by
  intro h'
  apply h
  rw [h', sub_self, map_zero]; exact he

/-- What the remembered direction says about the stretch so far. -/
def SignInv (P : List Pose) (eps : ℝ) (s it : Nat) (sign : ℝ) : Prop :=
  (s + 2 ≤ it → ¬ TurnsAt P eps (it - 1) →
    ∀ a b, P[it - 2]? = some a → P[it - 1]? = some b → sign = signReq a b) ∧
  (¬ (s + 2 ≤ it ∧ ¬ TurnsAt P eps (it - 1)) → sign = 0)

theorem localGoalLoop_spec {P : List Pose} {e : Nat} {sw tn : Bool} {eps : ℝ} (he : 0 < eps) (hP : e ≤ P.length)
    {s : Nat} : ∀ n it sign, e - it = n → s < it → it ≤ e → (sw = true → SignInv P eps s it sign) →
    ∃ g, localGoalLoop P e sw tn eps it (it - 1) sign = some g ∧ it ≤ g ∧ g ≤ e ∧
      (∀ i, it ≤ i → i < g → ¬ CutAt P sw tn eps s i) ∧ (g < e → CutAt P sw tn eps s g) := by
  intro n
  induction n with
  | zero =>
    intro it sign hn hs hi _
    refine ⟨e, ?_, hi, le_refl _, fun i h1 h2 => by omega, fun h => absurd h (lt_irrefl _)⟩
    rw [localGoalLoop, if_neg (by omega)]
  | succ n ih =>
    intro it sign hn hs hi hsign
    have hlt : it < e := by omega
    have ha : P[it - 1]? = some (P[it - 1]'(by omega)) := List.getElem?_eq_getElem _
    have hb : P[it]? = some (P[it]'(by omega)) := List.getElem?_eq_getElem _
    generalize (P[it - 1]'(by omega)) = a at ha
    generalize (P[it]'(by omega)) = b at hb
    rw [localGoalLoop, if_pos hlt, ha, hb]
    simp only
    have hturn := turnsAt_iff (eps := eps) (by omega : 0 < it) ha hb
    have cont : ∀ sign', (¬ CutAt P sw tn eps s it) → (sw = true → SignInv P eps s (it + 1) sign') →
        ∃ g, localGoalLoop P e sw tn eps (it + 1) it sign' = some g ∧ it ≤ g ∧ g ≤ e ∧
          (∀ i, it ≤ i → i < g → ¬ CutAt P sw tn eps s i) ∧ (g < e → CutAt P sw tn eps s g) := by
      intro sign' hnc hinv
      obtain ⟨g, h1, h2, h3, h4, h5⟩ := ih (it + 1) sign' (by omega) (by omega) (by omega) hinv
      refine ⟨g, h1, by omega, h3, ?_, h5⟩
      intro i hi1 hi2
      rcases Nat.eq_or_lt_of_le hi1 with rfl | hi1
      · exact hnc
      · exact h4 i (by omega) hi2
    by_cases hT : Complex.normSq (b.pos - a.pos) < eps
    · rw [if_pos hT]
      have hT' := hturn.mpr hT
      cases tn with
      | true =>
        exact ⟨it, if_pos rfl, le_refl _, hlt.le, fun i h1 h2 => by omega, fun _ => .inl ⟨rfl, hT'⟩⟩
      | false =>
        rw [if_neg (by decide)]
        refine cont 0 ?_ ?_
        · rintro (⟨h, _⟩ | ⟨_, _, _, h, _⟩)
          · cases h
          · exact h hT'
        · intro _
          refine ⟨fun _ h => ?_, fun _ => rfl⟩
          simp only [Nat.add_sub_cancel] at h
          exact absurd hT' h
    · rw [if_neg hT]
      have hT' : ¬ TurnsAt P eps it := fun h => hT (hturn.mp h)
      have hne := ne_of_not_turn he hT
      cases sw with
      | false =>
        rw [if_neg (by decide)]
        refine cont sign ?_ (by intro h; cases h)
        rintro (⟨_, h⟩ | ⟨h, _⟩)
        · exact hT' h
        · cases h
      | true =>
        rw [if_pos rfl]
        have hinv := hsign rfl
        have hcut : sign * signReq a b < 0 ↔ CutAt P true tn eps s it := by
          constructor
          · intro hneg
            have hnz : sign ≠ 0 := by intro h0; rw [h0] at hneg; simp at hneg
            have hcond : s + 2 ≤ it ∧ ¬ TurnsAt P eps (it - 1) := by
              by_contra hc
              exact hnz (hinv.2 hc)
            have hz : P[it - 2]? = some (P[it - 2]'(by omega)) := List.getElem?_eq_getElem _
            generalize (P[it - 2]'(by omega)) = z at hz
            have hsz := hinv.1 hcond.1 hcond.2 z a hz ha
            have hza := turnsAt_iff (eps := eps) (P := P) (i := it - 1) (a := z) (b := a) (by omega)
              (by rw [← hz]; congr 1) ha
            have hnz' := ne_of_not_turn he (fun h => hcond.2 (hza.mpr h))
            refine .inr ⟨rfl, hcond.1, hcond.2, hT', by omega, z, a, b, hz, ha, hb, ?_⟩
            rw [← signReq_mul z a b hnz' hne, ← hsz]; exact hneg
          · rintro (⟨_, h⟩ | ⟨_, h1, h2, _, _, z, a', b', hz, ha', hb', hneg⟩)
            · exact absurd h hT'
            · rw [ha] at ha'; rw [hb] at hb'
              cases ha'; cases hb'
              rw [hinv.1 h1 h2 z a hz ha]
              have hza := turnsAt_iff (eps := eps) (P := P) (i := it - 1) (a := z) (b := a) (by omega)
                (by rw [← hz]; congr 1) ha
              have hnz' := ne_of_not_turn he (fun h => h2 (hza.mpr h))
              rw [signReq_mul z a b hnz' hne]; exact hneg
        by_cases hneg : sign * signReq a b < 0
        · rw [if_pos hneg]
          exact ⟨it, rfl, le_refl _, hlt.le, fun i h1 h2 => by omega, fun _ => hcut.mp hneg⟩
        · rw [if_neg hneg]
          refine cont _ (fun h => hneg (hcut.mpr h)) ?_
          intro _
          refine ⟨?_, ?_⟩
          · intro _ _ a' b' ha' hb'
            have e1 : it + 1 - 2 = it - 1 := by omega
            rw [e1, ha] at ha'
            rw [Nat.add_sub_cancel, hb] at hb'
            cases ha'; cases hb'; rfl
          · intro h
            exact absurd ⟨by omega, by rw [Nat.add_sub_cancel]; exact hT'⟩ h

theorem findLocalGoal_past {P : List Pose} {b e : Nat} {sw tn : Bool} {eps : ℝ} (h : e ≤ b + 1) :
    findLocalGoal P b e sw tn eps = some e := by
  unfold findLocalGoal
  rw [localGoalLoop, if_neg (by omega)]

theorem findLocalGoal_spec {P : List Pose} {b e : Nat} {sw tn : Bool} {eps : ℝ} (he : 0 < eps) (hP : e ≤ P.length)
    (hb : b < e) : ∃ g, findLocalGoal P b e sw tn eps = some g ∧ b < g ∧ g ≤ e ∧
      (∀ i, b < i → i < g → ¬ CutAt P sw tn eps b i) ∧ (g < e → CutAt P sw tn eps b g) := by
  have := localGoalLoop_spec (sw := sw) (tn := tn) he hP (s := b) (e - (b + 1)) (b + 1) 0 rfl (by omega) (by omega)
    (by intro _; exact ⟨fun h => absurd h (by omega), fun _ => rfl⟩)
  simpa [findLocalGoal, Nat.succ_le_iff] using this

/-- The whole loop. -/
theorem goals_spec {P : List Pose} {e : Nat} {sw tn : Bool} {eps : ℝ} (he : 0 < eps) (hP : e ≤ P.length) :
    ∀ n b, e - b = n → b < e → ∃ gs, Goals P e sw tn eps b gs ∧
      ∀ k, k < gs.length + 1 → ∃ s g, (b :: gs)[k]? = some s ∧ (gs ++ [e])[k]? = some g ∧ s < g ∧ g ≤ e ∧
        (∀ i, s < i → i < g → ¬ CutAt P sw tn eps s i) ∧ (k < gs.length → g < e ∧ CutAt P sw tn eps s g) := by
  intro n
  induction n using Nat.strong_induction_on with
  | _ n ih =>
    intro b hn hb
    obtain ⟨g, h1, h2, h3, h4, h5⟩ := findLocalGoal_spec (sw := sw) (tn := tn) he hP hb
    by_cases hg : g = e
    · subst hg
      refine ⟨[], .stop h1, ?_⟩
      intro k hk
      have : k = 0 := by simpa using hk
      subst this
      exact ⟨b, g, rfl, rfl, h2, h3, h4, fun h => by simp at h⟩
    · have hlt : g < e := by omega
      obtain ⟨gs, r1, r2⟩ := ih (e - g) (by omega) g rfl hlt
      refine ⟨g :: gs, .go h1 hg r1, ?_⟩
      intro k hk
      cases k with
      | zero => exact ⟨b, g, rfl, rfl, h2, h3, h4, fun _ => ⟨hlt, h5 hlt⟩⟩
      | succ k =>
        obtain ⟨s, g', q1, q2, q3, q4, q5, q6⟩ := r2 k (by simpa using hk)
        exact ⟨s, g', by simpa using q1, by simpa using q2, q3, q4, q5, fun h => q6 (by simpa using h)⟩

theorem goals_unique {P : List Pose} {e : Nat} {sw tn : Bool} {eps : ℝ} {b : Nat} {gs gs' : List Nat}
    (h : Goals P e sw tn eps b gs) (h' : Goals P e sw tn eps b gs') : gs = gs' := by
  induction h generalizing gs' with
  | stop h =>
    cases h' with
    | stop _ => rfl
    | go h2 hg _ => rw [h] at h2; cases h2; exact absurd rfl hg
  | go h hg _ ih =>
    cases h' with
    | stop h2 => rw [h] at h2; cases h2; exact absurd rfl hg
    | go h2 _ r2 => rw [h] at h2; cases h2; rw [ih r2]

/-! ## Lengths -/

theorem length_nonneg (ps : List Pose) : 0 ≤ length ps := by
  induction ps with
  | nil => exact le_refl _
  | cons p ps ih =>
    cases ps with
    | nil => exact le_refl _
    | cons q ps => simp only [length]; have := norm_nonneg (p.pos - q.pos); linarith

theorem length_append_two (a b : Pose) (ps : List Pose) :
    length (ps ++ [a, b]) = length (ps ++ [a]) + ‖a.pos - b.pos‖ := by
  induction ps with
  | nil => simp [length]
  | cons p ps ih =>
    cases ps with
    | nil => simp [length]
    | cons q ps =>
      simp only [List.cons_append, length] at ih ⊢
      rw [ih]; ring

theorem lengthFromTo_self (P : List Pose) (b : Nat) : lengthFromTo P b b = 0 := by
  unfold lengthFromTo
  have : b + 1 - b = 1 := by omega
  rw [this]
  cases P.drop b <;> simp [length]

theorem lengthFromTo_succ {P : List Pose} {b i : Nat} (hb : b ≤ i) {p q : Pose} (hp : P[i]? = some p)
    (hq : P[i + 1]? = some q) : lengthFromTo P b (i + 1) = lengthFromTo P b i + ‖p.pos - q.pos‖ := by
  unfold lengthFromTo
  have e1 : i + 1 + 1 - b = (i - b) + 1 + 1 := by omega
  have e2 : i + 1 - b = (i - b) + 1 := by omega
  have d1 : (P.drop b)[i - b]? = some p := by rw [List.getElem?_drop, ← hp]; congr 1; omega
  have d2 : (P.drop b)[i - b + 1]? = some q := by rw [List.getElem?_drop, ← hq]; congr 1; omega
  rw [e1, e2, List.take_add_one (i := i - b + 1), List.take_add_one (i := i - b), d1, d2]
  simp only [Option.toList_some, List.append_assoc, List.cons_append, List.nil_append]
  exact length_append_two p q _

theorem lengthFromTo_mono {P : List Pose} {b i : Nat} (hb : b ≤ i) (hi : i + 1 < P.length) :
    lengthFromTo P b i ≤ lengthFromTo P b (i + 1) := by
  rw [lengthFromTo_succ hb (List.getElem?_eq_getElem (by omega : i < P.length)) (List.getElem?_eq_getElem hi)]
  have := norm_nonneg (P[i].pos - P[i + 1].pos)
  linarith

theorem lengthFromTo_mono' {P : List Pose} {b i j : Nat} (hb : b ≤ i) (hij : i ≤ j) (hj : j < P.length) :
    lengthFromTo P b i ≤ lengthFromTo P b j := by
  induction j, hij using Nat.le_induction with
  | base => exact le_refl _
  | succ j hij ih => exact le_trans (ih (by omega)) (lengthFromTo_mono (by omega) hj)

/-- A stretch from its second pose on. -/
theorem lengthFromTo_cons {P : List Pose} {b i : Nat} (hb : b < i) {p q : Pose} (hp : P[b]? = some p)
    (hq : P[b + 1]? = some q) : lengthFromTo P b i = ‖p.pos - q.pos‖ + lengthFromTo P (b + 1) i := by
  unfold lengthFromTo
  have hlt : b < P.length := by
    by_contra h
    rw [List.getElem?_eq_none (by omega)] at hp; cases hp
  have hlt2 : b + 1 < P.length := by
    by_contra h
    rw [List.getElem?_eq_none (by omega)] at hq; cases hq
  rw [List.getElem?_eq_getElem hlt] at hp
  rw [List.getElem?_eq_getElem hlt2] at hq
  have e1 : i + 1 - b = (i - (b + 1)) + 1 + 1 := by omega
  have e2 : i + 1 - (b + 1) = (i - (b + 1)) + 1 := by omega
  rw [List.drop_eq_getElem_cons hlt, e1, List.take_succ_cons, e2, List.drop_eq_getElem_cons hlt2, List.take_succ_cons]
  simp only [length]
  cases hp; cases hq
  rfl

/-! ## The nearest part of the path -/

theorem segDist_eq {P : List Pose} {i : Nat} {a b : Pose} (t : ℂ) (ha : P[i - 1]? = some a) (hb : P[i]? = some b) :
    segDist P t i = |stripDistance a.pos b.pos t| := by
  unfold segDist
  rw [ha, hb, strip_abs]

theorem segDist_nonneg (P : List Pose) (t : ℂ) (i : Nat) : 0 ≤ segDist P t i := by
  unfold segDist
  split
  · exact Metric.infDist_nonneg
  · exact le_refl _

theorem nearestLoop_spec {P : List Pose} {e : Nat} {t : ℂ} {range eps : ℝ} (he : 0 ≤ eps) (hP : e ≤ P.length) {b : Nat} :
    ∀ n it best minD, e - it = n → b < it → it ≤ e → best < it →
    ∃ k d m, nearestLoop P e t range eps it (it - 1) (lengthFromTo P b (it - 1)) best minD = some (k, d) ∧
      it ≤ m ∧ m ≤ e ∧ (∀ i, it ≤ i → i < e → (i < m ↔ InRange P range b i)) ∧
      ((k = best ∧ d = minD) ∨ (it ≤ k ∧ k < m ∧ d = segDist P t k)) ∧
      d ≤ minD + ((m - it : Nat) : ℝ) * eps ∧
      (∀ i, it ≤ i → i < m → d ≤ segDist P t i + ((m - 1 - i : Nat) : ℝ) * eps) ∧
      (b + 1 = it → it < m → segDist P t it ≤ minD → it ≤ k) := by
  intro n
  induction n with
  | zero =>
    intro it best minD hn hb hi hbest
    refine ⟨best, minD, e, ?_, hi, le_refl _, fun i h1 h2 => by omega, .inl ⟨rfl, rfl⟩, ?_, fun i h1 h2 => by omega,
      fun _ h => by omega⟩
    · rw [nearestLoop, if_neg (by omega)]
    · have : (e - it : Nat) = 0 := by omega
      rw [this]; simp
  | succ n ih =>
    intro it best minD hn hb hi hbest
    have hlt : it < e := by omega
    have ha : P[it - 1]? = some (P[it - 1]'(by omega)) := List.getElem?_eq_getElem _
    have hbb : P[it]? = some (P[it]'(by omega)) := List.getElem?_eq_getElem _
    generalize (P[it - 1]'(by omega)) = a at ha
    generalize (P[it]'(by omega)) = c at hbb
    have hseg := segDist_eq t ha hbb
    have hlen : lengthFromTo P b (it - 1) + ‖c.pos - a.pos‖ = lengthFromTo P b it := by
      have h1 : P[it - 1 + 1]? = some c := by rw [← hbb]; congr 1; omega
      have := lengthFromTo_succ (b := b) (i := it - 1) (by omega) ha h1
      rw [show it - 1 + 1 = it by omega] at this
      rw [this, norm_sub_rev]
    rw [nearestLoop, if_pos hlt, ha, hbb]
    simp only
    rw [hlen]
    by_cases hout : range > 0 ∧ lengthFromTo P b it > range
    · rw [if_pos hout]
      have hno : ∀ i, it ≤ i → i < e → ¬ InRange P range b i := by
        intro i h1 h2 h
        rcases h with h | h
        · linarith [hout.1]
        · have := lengthFromTo_mono' (P := P) (b := b) (by omega) h1 (by omega)
          linarith [hout.2]
      refine ⟨best, minD, it, rfl, le_refl _, hi, fun i h1 h2 => ⟨fun h => by omega, fun h => absurd h (hno i h1 h2)⟩,
        .inl ⟨rfl, rfl⟩, by simp, fun i h1 h2 => by omega, fun _ h => by omega⟩
    · rw [if_neg hout]
      have hin : InRange P range b it := by
        unfold InRange
        by_contra hc
        push Not at hc
        exact hout hc
      -- both continuations
      have cont : ∀ best' minD', best' < it + 1 → (b + 1 = it → segDist P t it ≤ minD → best' = it) →
          ((best' = best ∧ minD' = minD) ∨ (best' = it ∧ minD' = segDist P t it)) →
          minD' ≤ minD + eps → minD' ≤ segDist P t it →
          ∃ k d m, nearestLoop P e t range eps (it + 1) it (lengthFromTo P b it) best' minD' = some (k, d) ∧
            it ≤ m ∧ m ≤ e ∧ (∀ i, it ≤ i → i < e → (i < m ↔ InRange P range b i)) ∧
            ((k = best ∧ d = minD) ∨ (it ≤ k ∧ k < m ∧ d = segDist P t k)) ∧
            d ≤ minD + ((m - it : Nat) : ℝ) * eps ∧
            (∀ i, it ≤ i → i < m → d ≤ segDist P t i + ((m - 1 - i : Nat) : ℝ) * eps) ∧
            (b + 1 = it → it < m → segDist P t it ≤ minD → it ≤ k) := by
        intro best' minD' hb' hfirst hor hle hseg'
        obtain ⟨k, d, m, h1, h2, h3, h4, h5, h6, h7, h8⟩ := ih (it + 1) best' minD' (by omega) (by omega) (by omega) hb'
        refine ⟨k, d, m, h1, by omega, h3, ?_, ?_, ?_, ?_, ?_⟩
        · intro i hi1 hi2
          rcases Nat.eq_or_lt_of_le hi1 with rfl | hi1
          · exact ⟨fun _ => hin, fun _ => by omega⟩
          · exact h4 i (by omega) hi2
        · rcases h5 with ⟨rfl, rfl⟩ | h5
          · rcases hor with h | ⟨rfl, rfl⟩
            · exact .inl h
            · exact .inr ⟨le_refl _, by omega, rfl⟩
          · exact .inr ⟨by omega, h5.2.1, h5.2.2⟩
        · have : ((m - it : Nat) : ℝ) = ((m - (it + 1) : Nat) : ℝ) + 1 := by
            rw [show m - it = m - (it + 1) + 1 by omega]; push_cast; ring
          rw [this]; linarith
        · intro i hi1 hi2
          rcases Nat.eq_or_lt_of_le hi1 with rfl | hi1
          · have : m - 1 - it = m - (it + 1) := by omega
            rw [this]; linarith
          · exact h7 i (by omega) hi2
        · intro hb1 _ hle'
          rcases h5 with ⟨rfl, _⟩ | h5
          · rw [hfirst hb1 hle']
          · omega
      have habs : |stripDistance a.pos c.pos t| = segDist P t it := hseg.symm
      generalize hdc : (if stripDistance a.pos c.pos t > 0 then stripDistance a.pos c.pos t
        else -stripDistance a.pos c.pos t - eps) = dc
      by_cases hacc : dc ≤ minD ∨ (it + 1 = e ∧ |stripDistance a.pos c.pos t| ≤ minD + eps)
      · rw [if_pos hacc, habs]
        refine cont it _ (by omega) (fun _ _ => rfl) (.inr ⟨rfl, rfl⟩) ?_ (le_refl _)
        rw [← habs]
        rcases hacc with h | ⟨_, h⟩
        · rw [← hdc] at h
          split at h
          · next hp => rw [abs_of_pos hp]; linarith
          · next hp => rw [abs_of_nonpos (not_lt.mp hp)]; linarith
        · exact h
      · rw [if_neg hacc]
        push Not at hacc
        have hrej1 := hacc.1
        have hgt : minD < segDist P t it := by
          rw [← habs]
          rw [← hdc] at hrej1
          split at hrej1
          · next hp => rw [abs_of_pos hp]; exact hrej1
          · next hp => rw [abs_of_nonpos (not_lt.mp hp)]; linarith
        refine cont best minD (by omega) ?_ (.inl ⟨rfl, rfl⟩) (by linarith) hgt.le
        intro _ h
        exact absurd h (not_le.mpr hgt)

theorem infDist_start (a b t : ℂ) : Metric.infDist t (segment ℝ a b) ≤ ‖a - t‖ := by
  have := Metric.infDist_le_dist_of_mem (x := t) (left_mem_segment ℝ a b)
  rwa [Complex.dist_eq, norm_sub_rev] at this

end Verif.Path2D
