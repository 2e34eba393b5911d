import Verif.Tracker.Turn
/-! # What the tracker reads from a path which ends with a turn on the spot -/
namespace Verif.Tracker
open Verif.Path2D Verif.Num Spec

theorem get_append {P : List Pose} (Q : List Pose) {i : Nat} (h : i < P.length) : (P ++ Q)[i]? = P[i]? := List.getElem?_append_left h

theorem nearestLoop_append (P Q : List Pose) {e : Nat} (he : e ≤ P.length) (t : ℂ) (range eps : ℝ) :
    ∀ (n it prev : Nat) (s : ℝ) (b : Nat) (d : ℝ), e - it = n → prev ≤ it →
      nearestLoop (P ++ Q) e t range eps it prev s b d = nearestLoop P e t range eps it prev s b d := by
  intro n
  induction n with
  | zero =>
    intro it prev s b d h1 h2
    rw [nearestLoop, nearestLoop, if_neg (by omega), if_neg (by omega)]
  | succ n ih =>
    intro it prev s b d h1 h2
    rw [nearestLoop, nearestLoop, if_pos (by omega), if_pos (by omega), get_append Q (by omega), get_append Q (by omega)]
    split
    · simp only
      rw [ih _ _ _ _ _ (by omega) (by omega), ih _ _ _ _ _ (by omega) (by omega)]
    · rfl

theorem findNearest_append (P Q : List Pose) {b e : Nat} (hb : b < e) (he : e ≤ P.length) (t : ℂ) (range eps : ℝ) :
    findNearest (P ++ Q) b e t range eps = findNearest P b e t range eps := by
  unfold findNearest
  rw [if_neg (by omega), if_neg (by omega), get_append Q (by omega)]
  split
  · rw [nearestLoop_append P Q he _ _ _ _ _ _ _ _ _ rfl (by omega)]
  · rfl

theorem localGoal_append {P : List Pose} {q l : Pose} (hl : P[P.length - 1]? = some l) (hq : l.pos = q.pos) {sw : Bool} {eps : ℝ} (he : 0 < eps) :
    ∀ (n it : Nat) (s : ℝ), P.length - it = n → 0 < it → it ≤ P.length → localGoalLoop P P.length sw true eps it (it - 1) s = some P.length →
      localGoalLoop (P ++ [q]) (P.length + 1) sw true eps it (it - 1) s = some P.length := by
  intro n
  induction n with
  | zero =>
    intro it s h1 h2 h3 _
    have : it = P.length := by omega
    subst this
    rw [localGoalLoop, if_pos (by omega), get_append _ (by omega), hl, List.getElem?_append_right (by omega), Nat.sub_self]
    simp only [List.getElem?_cons_zero]
    rw [if_pos (by rw [hq, sub_self, map_zero]; exact he)]
    rfl
  | succ n ih =>
    intro it s h1 h2 h3 h4
    rw [localGoalLoop, if_pos (by omega)] at h4
    rw [localGoalLoop, if_pos (by omega), get_append _ (by omega), get_append _ (by omega)]
    have hne : some it ≠ some P.length := fun h => by have := Option.some.inj h; omega
    have ih' : ∀ s, localGoalLoop P P.length sw true eps (it + 1) it s = some P.length →
        localGoalLoop (P ++ [q]) (P.length + 1) sw true eps (it + 1) it s = some P.length :=
      fun s hs => ih (it + 1) s (by omega) (by omega) (by omega) hs
    split at h4
    · rename_i a b ha hb
      simp only at h4 ⊢
      split at h4
      · rename_i hc
        rw [if_pos trivial] at h4
        exact absurd h4 hne
      · rename_i hc
        rw [if_neg hc]
        split at h4
        · split at h4
          · exact absurd h4 hne
          · rename_i hs hsg
            rw [if_pos hs, if_neg hsg]
            exact ih' _ h4
        · rename_i hs
          rw [if_neg hs]
          exact ih' _ h4
    · cases h4

theorem remainLoop_append {P : List Pose} {q l : Pose} (hl : P[P.length - 1]? = some l) (hq : l.pos = q.pos) :
    ∀ (n it : Nat) (r : ℝ), P.length - it = n → 0 < it → it ≤ P.length →
      remainLoop (P ++ [q]) (P.length + 1) it (it - 1) r = remainLoop P P.length it (it - 1) r := by
  intro n
  induction n with
  | zero =>
    intro it r h1 h2 h3
    have : it = P.length := by omega
    subst this
    rw [remainLoop, if_pos (by omega), get_append _ (by omega), hl, List.getElem?_append_right (by omega), Nat.sub_self]
    simp only [List.getElem?_cons_zero]
    rw [remainLoop, if_neg (by omega), remainLoop, if_neg (by omega), hq, sub_self, norm_zero, add_zero]
  | succ n ih =>
    intro it r h1 h2 h3
    rw [remainLoop, if_pos (by omega), get_append _ (by omega), get_append _ (by omega)]
    conv_rhs => rw [remainLoop, if_pos (by omega)]
    split
    · exact ih (it + 1) _ (by omega) (by omega) (by omega)
    · rfl

theorem remained_local (P Q : List Pose) {n e : Nat} (t : ℂ) (hn : n < e) (he : e ≤ P.length) :
    remainedDistance (P ++ Q) 0 n e t = remainedDistance P 0 n e t := by
  have loop : ∀ (k it prev : Nat) (r : ℝ), e - it = k → prev ≤ it → remainLoop (P ++ Q) e it prev r = remainLoop P e it prev r := by
    intro k
    induction k with
    | zero =>
      intro it prev r h1 h2
      rw [remainLoop, remainLoop, if_neg (by omega), if_neg (by omega)]
    | succ k ih =>
      intro it prev r h1 h2
      rw [remainLoop, remainLoop, if_pos (by omega), if_pos (by omega), get_append Q (by omega), get_append Q (by omega)]
      split
      · exact ih _ _ _ (by omega) (by omega)
      · rfl
  unfold remainedDistance
  rw [get_append Q (by omega)]
  split
  · rfl
  · simp only
    rw [get_append Q (i := e - 1) (by omega), get_append Q (i := e - 2) (by omega), loop _ _ _ _ rfl (by omega)]

/-- The remaining distance, up to its sign. -/
theorem remained_append {P : List Pose} {q l : Pose} (hl : P[P.length - 1]? = some l) (hq : l.pos = q.pos) {n : Nat} (hn : n < P.length)
    (h2 : 2 ≤ P.length) (t : ℂ) {d : ℝ} (hd : remainedDistance P 0 n P.length t = some d) :
    ∃ d', remainedDistance (P ++ [q]) 0 n (P.length + 1) t = some d' ∧ |d'| = |d| := by
  unfold remainedDistance at hd ⊢
  rw [get_append _ hn]
  split at hd
  · cases hd
  · rename_i a ha
    simp only at hd ⊢
    rw [if_neg (by omega)]
    have := remainLoop_append hl hq _ (n + 1) ‖a.pos - t‖ rfl (by omega) (by omega)
    rw [Nat.add_sub_cancel] at this
    rw [this]
    by_cases hc : n + 1 ≥ P.length
    · rw [if_pos hc, if_neg (by omega)] at hd
      rw [remainLoop, if_neg (by omega)]
      refine ⟨_, rfl, ?_⟩
      split at hd
      · split at hd <;> cases hd
        · rfl
        · rw [abs_neg]
      · cases hd
    · rw [if_neg hc] at hd
      exact ⟨d, hd, rfl⟩

/-- What the tracker reads before the turn: the same as from the path without it, except for the sign of the remaining distance. -/
theorem geometry_append {cfg : Config} {done : Nat} {P : List Pose} {q l : Pose} (hl : P[P.length - 1]? = some l) (hq : l.pos = q.pos)
    (h2 : 2 ≤ P.length) {o o' : ℂ} {geo : Geo} (hg : geometry cfg done P o o' = some (some geo)) (hgl : geo.localGoal = P.length)
    (hgn : geo.nearest < P.length) :
    ∃ r1 r2, geometry cfg done (P ++ [q]) o o' = some (some { geo with remain := r1, remainRaw := r2 }) ∧ |r1| = |geo.remain| ∧
      |r2| = |geo.remainRaw| := by
  have hlen : (P ++ [q]).length = P.length + 1 := by simp
  unfold geometry at hg ⊢
  split at hg
  · cases hg
  · rename_i hdone
    rw [hlen, if_neg (by omega)]
    simp only [Option.bind_eq_bind] at hg ⊢
    rw [Option.bind_eq_some_iff] at hg
    obtain ⟨g, hg1, hg⟩ := hg
    rw [Option.bind_eq_some_iff] at hg
    obtain ⟨⟨n, d⟩, hn1, hg⟩ := hg
    simp only at hg
    split at hg
    · cases hg
    · rename_i hne
      rw [Option.bind_eq_some_iff] at hg
      obtain ⟨a, ha, hg⟩ := hg
      rw [Option.bind_eq_some_iff] at hg
      obtain ⟨b, hb, hg⟩ := hg
      rw [Option.bind_eq_some_iff] at hg
      obtain ⟨c, hc, hg⟩ := hg
      rw [Option.bind_eq_some_iff] at hg
      obtain ⟨e1, he1, hg⟩ := hg
      rw [Option.bind_eq_some_iff] at hg
      obtain ⟨e2, he2, hg⟩ := hg
      rw [Option.bind_eq_some_iff] at hg
      obtain ⟨e3, he3, hg⟩ := hg
      have hgeo := (Option.some.inj (Option.some.inj hg)).symm
      have hgP : g = P.length := by rw [hgeo] at hgl; exact hgl
      have hnP : n < P.length := by rw [hgeo] at hgn; exact hgn
      subst hgP
      have k1 : findLocalGoal (P ++ [q]) done (P.length + 1) cfg.allowBackward true microEps = some P.length :=
        localGoal_append hl hq micro_pos _ (done + 1) 0 rfl (by omega) (by omega) hg1
      obtain ⟨r1, k2, k3⟩ := remained_append hl hq hnP h2 _ he2
      obtain ⟨r2, k4, k5⟩ := remained_append hl hq hnP h2 _ he3
      rw [k1]
      simp only [Option.bind_some]
      rw [findNearest_append P [q] (by omega) le_rfl, hn1]
      simp only [Option.bind_some]
      rw [if_neg (by omega), get_append _ (by omega), get_append _ hnP, get_append _ (by omega), ha, hb, hc]
      simp only [Option.bind_some]
      rw [remained_local P [q] _ hnP le_rfl, he1, k2, k4]
      simp only [Option.bind_some]
      refine ⟨r1, r2, ?_, by rw [hgeo]; exact k3, by rw [hgeo]; exact k5⟩
      rw [hgeo]
      have hcurv : ((P ++ [q]).drop n).take (P.length - n) = (P.drop n).take (P.length - n) := by
        rw [List.drop_append_of_le_length (by omega), List.take_append_of_le_length (by rw [List.length_drop])]
      rw [hcurv]

/-- What it reads during the turn. -/
theorem geometry_turn (cfg : Config) {P : List Pose} {q l : Pose} (hl : P[P.length - 1]? = some l) (hq : l.pos = q.pos) (h2 : 1 ≤ P.length) (o o' : ℂ) :
    ∃ geo, geometry cfg P.length (P ++ [q]) o o' = some (some geo) ∧ geo.nearest = P.length ∧ geo.localGoal = P.length + 1 ∧
      geo.prevPose.pos = geo.nearPose.pos ∧ geo.nearPose = q ∧ geo.goalYaw = q.yaw := by
  have hlen : (P ++ [q]).length = P.length + 1 := by simp
  have g0 : (P ++ [q])[P.length - 1]? = some l := by rw [get_append _ (by omega)]; exact hl
  have g1 : (P ++ [q])[P.length]? = some q := by rw [List.getElem?_append_right le_rfl]; simp
  have h1 : findLocalGoal (P ++ [q]) P.length (P.length + 1) cfg.allowBackward true microEps = some (P.length + 1) := by
    unfold findLocalGoal localGoalLoop
    rw [if_neg (by omega)]
  have hn : ∃ d, findNearest (P ++ [q]) P.length (P.length + 1) o (if P.length > 0 then 1 else 0) cfg.epsilon = some (P.length, d) := by
    unfold findNearest
    rw [if_neg (by omega), g1]
    simp only
    unfold nearestLoop
    rw [if_neg (by omega)]
    exact ⟨_, rfl⟩
  have h3 : ∀ t, ∃ d, remainedDistance (P ++ [q]) 0 P.length (P.length + 1) t = some d := by
    intro t
    unfold remainedDistance
    rw [g1]
    simp only
    rw [if_pos (by omega), if_neg (by omega), show P.length + 1 - 1 = P.length by omega, show P.length + 1 - 2 = P.length - 1 by omega, g1, g0]
    simp only
    split <;> exact ⟨_, rfl⟩
  obtain ⟨d, hn⟩ := hn
  obtain ⟨d1, h3a⟩ := h3 (projection l.pos q.pos o)
  obtain ⟨d2, h3b⟩ := h3 (projection l.pos q.pos o')
  unfold geometry
  rw [hlen, if_neg (by omega), h1]
  simp only [Option.bind_eq_bind, Option.bind_some, hn]
  rw [if_neg (by omega), g0, g1, show P.length + 1 - 1 = P.length by omega, g1]
  simp only [Option.bind_some, h3a, h3b]
  exact ⟨_, rfl, rfl, rfl, hq, rfl, rfl⟩

theorem length_append {P : List Pose} {q l : Pose} (hl : P[P.length - 1]? = some l) (hq : l.pos = q.pos) : length (P ++ [q]) = length P := by
  induction P with
  | nil => simp at hl
  | cons a P ih =>
    cases P with
    | nil =>
      simp only [List.length_cons, List.length_nil, Nat.zero_add, Nat.sub_self, List.getElem?_cons_zero, Option.some.injEq] at hl
      subst hl
      simp [length, hq]
    | cons b P =>
      have : (b :: P)[(b :: P).length - 1]? = some l := by simpa using hl
      have := ih this
      simp only [List.cons_append, length] at this ⊢
      rw [this]

end Verif.Tracker
