import Verif.Tracker.ArriveSpec
import Verif.Tracker.Props
/-! # What the tracker reads from a straight path -/
namespace Verif.Tracker
open Verif.Path2D Verif.Num Spec

/-- The straight path as seen from the robot at `X`. -/
noncomputable def ahead (x : Nat → ℝ) (X : ℝ) (n : Nat) : List Pose :=
  (List.range n).map fun i => { pos := ((x i - X : ℝ) : ℂ), yaw := 0, vel := .nan }

theorem every_single (P : List Pose) : every 1 P = P := by
  unfold every
  apply List.ext_getElem?
  intro i
  have h : ∀ n, ((List.range n).filterMap fun i => P[i * 1]?) = P.take n := by
    intro n
    induction n with
    | zero => simp
    | succ n ih =>
      rw [List.range_succ, List.filterMap_append, ih, List.take_add_one]
      congr 1
      simp only [mul_one]
      cases h : P[n]? <;> simp [h]
  rw [h]
  simp

theorem rotate_dir (z φ : ℝ) : rotatePos ((z : ℂ) * dir φ) (-φ) = z := by
  unfold rotatePos dir
  have := Real.sin_sq_add_cos_sq φ
  apply Complex.ext
  · simp
    linear_combination z * this
  · simp
    ring

theorem localPath_line (p : ℂ) (φ : ℝ) (x : Nat → ℝ) (n : Nat) (X : ℝ) : localPath 1 (line p φ x n) (on p φ X) = ahead x X n := by
  unfold localPath
  rw [every_single]
  unfold line ahead on
  rw [List.map_map]
  refine List.map_congr_left fun i _ => ?_
  simp only [Function.comp]
  have : p + x i * dir φ - (p + X * dir φ) = ((x i - X : ℝ) : ℂ) * dir φ := by push_cast; ring
  rw [this, rotate_dir]
  congr 1
  ring

theorem ahead_length (x : Nat → ℝ) (X : ℝ) (n : Nat) : (ahead x X n).length = n := by simp [ahead]

theorem ahead_get (x : Nat → ℝ) (X : ℝ) (n i : Nat) (h : i < n) :
    (ahead x X n)[i]? = some { pos := ((x i - X : ℝ) : ℂ), yaw := 0, vel := .nan } := by
  simp [ahead, h]

theorem dot_real (a b : ℝ) : dot (a : ℂ) (b : ℂ) = a * b := by simp [dot]

theorem norm_real (a : ℝ) : ‖(a : ℂ)‖ = |a| := by rw [Complex.norm_real, Real.norm_eq_abs]

/-- The distance to a part of a straight path. -/
theorem strip_behind {a b c : ℝ} (hab : a < b) (h : c ≤ a) : stripDistance (a : ℂ) b c = -(a - c) := by
  unfold stripDistance
  have e1 : (b : ℂ) - a = ((b - a : ℝ) : ℂ) := by push_cast; ring
  have e2 : (c : ℂ) - a = ((c - a : ℝ) : ℂ) := by push_cast; ring
  rw [e1, e2, dot_real, if_pos (by nlinarith), norm_real, abs_of_nonpos (by linarith)]
  ring

theorem strip_past {a b c : ℝ} (hab : a < b) (h : b ≤ c) : stripDistance (a : ℂ) b c = c - b := by
  unfold stripDistance
  have e1 : (b : ℂ) - a = ((b - a : ℝ) : ℂ) := by push_cast; ring
  have e2 : (c : ℂ) - a = ((c - a : ℝ) : ℂ) := by push_cast; ring
  have e3 : (a : ℂ) - b = ((a - b : ℝ) : ℂ) := by push_cast; ring
  have e4 : (c : ℂ) - b = ((c - b : ℝ) : ℂ) := by push_cast; ring
  rw [e1, e2, e3, e4, dot_real, dot_real, if_neg (by nlinarith), if_pos (by nlinarith), norm_real, abs_of_nonneg (by linarith)]

theorem strip_within {a b c : ℝ} (h1 : a < c) (h2 : c < b) : stripDistance (a : ℂ) b c = 0 := by
  unfold stripDistance
  have e1 : (b : ℂ) - a = ((b - a : ℝ) : ℂ) := by push_cast; ring
  have e2 : (c : ℂ) - a = ((c - a : ℝ) : ℂ) := by push_cast; ring
  have e3 : (a : ℂ) - b = ((a - b : ℝ) : ℂ) := by push_cast; ring
  have e4 : (c : ℂ) - b = ((c - b : ℝ) : ℂ) := by push_cast; ring
  rw [e1, e2, e3, e4, dot_real, dot_real, if_neg (by nlinarith), if_neg (by nlinarith)]
  unfold lineDistance
  rw [e1, e2]
  simp [cross2]

theorem spaced_lt {x : Nat → ℝ} {m : Nat} {lo hi : ℝ} (hlo : 0 ≤ lo) (hx : Spaced x m lo hi) {i j : Nat} (hij : i < j) (hj : j ≤ m) :
    lo < x j - x i := by
  induction j with
  | zero => omega
  | succ j ih =>
    have h1 := (hx j (by omega)).1
    rcases Nat.lt_or_ge i j with h | h
    · have := ih h (by omega); linarith
    · have : i = j := by omega
      subst this; exact h1

/-- The rest of the search for the nearest part, once a part has been found that does not end before the look-ahead point. -/
theorem nearest_found {x : Nat → ℝ} {m : Nat} {eps hi : ℝ} (he : 0 ≤ eps) (hx : Spaced x m eps hi) (X c : ℝ) (range : ℝ) :
    ∀ (n it : Nat) (searched : ℝ) (best : Nat), m + 1 - it = n → 0 < best → best < it → it ≤ m + 1 → c ≤ x best - X →
      ∃ k d, nearestLoop (ahead x X (m + 1)) (m + 1) c range eps it (it - 1) searched best (max 0 (x (best - 1) - X - c)) = some (k, d) ∧
        best ≤ k ∧ k ≤ m ∧ c ≤ x k - X ∧ (k = best ∨ x (k - 1) - X ≤ c + eps) := by
  intro n
  induction n with
  | zero =>
    intro it s best hn hb hbi hit hc
    unfold nearestLoop
    rw [if_neg (by omega)]
    exact ⟨best, _, rfl, le_rfl, by omega, hc, .inl rfl⟩
  | succ n ih =>
    intro it s best hn hb hbi hit hc
    unfold nearestLoop
    rw [if_pos (by omega), ahead_get _ _ _ _ (by omega), ahead_get _ _ _ _ (by omega)]
    dsimp only
    split
    · exact ⟨best, _, rfl, le_rfl, by omega, hc, .inl rfl⟩
    · have hlt : x (it - 1) - X < x it - X := by
        have := spaced_lt he hx (i := it - 1) (j := it) (by omega) (by omega); linarith
      have hge : c ≤ x (it - 1) - X := by
        rcases Nat.lt_or_ge best (it - 1) with h | h
        · have := spaced_lt he hx h (by omega); linarith
        · have : best = it - 1 := by omega
          rw [← this]; exact hc
      rw [strip_behind hlt hge]
      have hd : ¬ (-(x (it - 1) - X - c) > 0) := by linarith
      have habs : |-(x (it - 1) - X - c)| = x (it - 1) - X - c := by rw [abs_neg, abs_of_nonneg (by linarith)]
      rw [if_neg hd, habs]
      split
      · rename_i hsel
        have hsel' : x (it - 1) - X - c ≤ max 0 (x (best - 1) - X - c) + eps := by
          rcases hsel with h | ⟨-, h⟩
          · linarith
          · exact h
        have hnear : x (it - 1) - X ≤ c + eps := by
          rcases le_total (x (best - 1) - X - c) 0 with h | h
          · rw [max_eq_left h] at hsel'; linarith
          · rw [max_eq_right h] at hsel'
            have := spaced_lt he hx (i := best - 1) (j := it - 1) (by omega) (by omega)
            linarith
        obtain ⟨k, d, h1, h2, h3, h4, h5⟩ := ih (it + 1) (s + ‖((x it - X : ℝ) : ℂ) - ((x (it - 1) - X : ℝ) : ℂ)‖) it (by omega) (by omega)
          (by omega) (by omega) (by linarith)
        rw [max_eq_right (by linarith), Nat.add_sub_cancel] at h1
        refine ⟨k, d, h1, by omega, h3, h4, ?_⟩
        rcases h5 with rfl | h5
        · exact .inr hnear
        · exact .inr h5
      · obtain ⟨k, d, h1, h2, h3, h4, h5⟩ := ih (it + 1) (s + ‖((x it - X : ℝ) : ℂ) - ((x (it - 1) - X : ℝ) : ℂ)‖) best (by omega) hb
          (by omega) (by omega) hc
        rw [Nat.add_sub_cancel] at h1
        exact ⟨k, d, h1, h2, h3, h4, h5⟩

/-- The search before such a part has been found. -/
theorem nearest_seek {x : Nat → ℝ} {m : Nat} {eps hi : ℝ} (he : 0 ≤ eps) (hx : Spaced x m eps hi) (X c : ℝ) (range : ℝ) (done : Nat)
    (hr : range ≤ 0 ∨ c + X + hi ≤ x done + range) :
    ∀ (n it : Nat) (d : ℝ), m + 1 - it = n → done + 1 < it → it ≤ m + 1 → x (it - 1) - X ≤ c → c - (x (it - 1) - X) ≤ d →
      ∃ k d', nearestLoop (ahead x X (m + 1)) (m + 1) c range eps it (it - 1) (x (it - 1) - x done) (it - 1) d = some (k, d') ∧
        it - 1 ≤ k ∧ k ≤ m ∧ (c ≤ x k - X ∨ k = m) ∧ (k = it - 1 ∨ x (k - 1) - X ≤ c + eps) := by
  intro n
  induction n with
  | zero =>
    intro it d hn hb hit hc hd
    unfold nearestLoop
    rw [if_neg (by omega)]
    exact ⟨it - 1, _, rfl, le_rfl, by omega, .inr (by omega), .inl rfl⟩
  | succ n ih =>
    intro it d hn hb hit hc hd
    unfold nearestLoop
    rw [if_pos (by omega), ahead_get _ _ _ _ (by omega), ahead_get _ _ _ _ (by omega)]
    dsimp only
    have hsp := hx (it - 1) (by omega)
    rw [show it - 1 + 1 = it by omega] at hsp
    have hnorm : x (it - 1) - x done + ‖((x it - X : ℝ) : ℂ) - ((x (it - 1) - X : ℝ) : ℂ)‖ = x it - x done := by
      rw [← Complex.ofReal_sub, norm_real, abs_of_nonneg (by linarith)]; ring
    rw [hnorm]
    have hin : ¬ (range > 0 ∧ x it - x done > range) := by
      rintro ⟨h1, h2⟩
      rcases hr with h | h <;> linarith
    rw [if_neg hin]
    have hlt : x (it - 1) - X < x it - X := by linarith
    rcases lt_or_ge c (x it - X) with h | h
    · -- this part holds the point
      have hdist : stripDistance (((x (it - 1) - X : ℝ)) : ℂ) ((x it - X : ℝ)) c = 0 := by
        rcases hc.lt_or_eq with h' | h'
        · exact strip_within h' h
        · rw [strip_behind hlt h'.ge, h']; ring
      rw [hdist, if_neg (lt_irrefl _), if_pos (.inl (by linarith)), abs_zero]
      obtain ⟨k, d', h1, h2, h3, h4, h5⟩ := nearest_found he hx X c range (m + 1 - (it + 1)) (it + 1) (x it - x done) it rfl (by omega)
        (by omega) (by omega) h.le
      rw [max_eq_left (by linarith), Nat.add_sub_cancel] at h1
      refine ⟨k, d', h1, by omega, h3, .inl h4, ?_⟩
      rcases h5 with rfl | h5
      · exact .inr (by linarith)
      · exact .inr h5
    · rw [strip_past hlt h]
      have hsel : (if c - (x it - X) > 0 then c - (x it - X) else -(c - (x it - X)) - eps) ≤ d := by
        split
        · linarith
        · linarith
      rw [if_pos (.inl hsel), abs_of_nonneg (by linarith)]
      obtain ⟨k, d', h1, h2, h3, h4, h5⟩ := ih (it + 1) (c - (x it - X)) (by omega) (by omega) (by omega) (by simpa using h) (by simp)
      rw [Nat.add_sub_cancel] at h1
      rw [Nat.add_sub_cancel] at h2 h5
      refine ⟨k, d', h1, by omega, h3, h4, ?_⟩
      rcases h5 with rfl | h5
      · exact .inr (by linarith)
      · exact .inr h5

/-- The search for the nearest part of a straight path: it finds a part that does not end before the look-ahead point `c` (seen from the robot), or
the last one; and one that does not begin after it, or the first one looked at. -/
theorem nearest_straight {x : Nat → ℝ} {m : Nat} {eps hi : ℝ} (he : 0 ≤ eps) (hx : Spaced x m eps hi) (X c : ℝ) (range : ℝ) {done : Nat}
    (hdone : done < m) (hhi : range ≤ 0 ∨ hi ≤ range) (hr : range ≤ 0 ∨ done + 1 = m ∨ c + X + hi ≤ x done + range) :
    ∃ k d, findNearest (ahead x X (m + 1)) done (m + 1) c range eps = some (k, d) ∧
      done < k ∧ k ≤ m ∧ (c ≤ x k - X ∨ k = m) ∧ (k = done + 1 ∨ x (k - 1) - X ≤ c + eps) := by
  have hsp := hx done hdone
  have hlt : x done - X < x (done + 1) - X := by linarith
  have hnorm : (0 : ℝ) + ‖((x (done + 1) - X : ℝ) : ℂ) - ((x done - X : ℝ) : ℂ)‖ = x (done + 1) - x done := by
    rw [← Complex.ofReal_sub, norm_real, abs_of_nonneg (by linarith)]; ring
  have hin : ¬ (range > 0 ∧ x (done + 1) - x done > range) := by
    rintro ⟨h1, h2⟩
    rcases hhi with h | h <;> linarith
  unfold findNearest
  rw [if_neg (by omega), ahead_get _ _ _ _ (by omega)]
  dsimp only
  unfold nearestLoop
  rw [if_pos (by omega), ahead_get _ _ _ _ (by omega), ahead_get _ _ _ _ (by omega)]
  dsimp only
  rw [hnorm, if_neg hin, ← Complex.ofReal_sub, norm_real]
  rcases le_total c (x (done + 1) - X) with h | h
  · -- the first part will do
    have hst : ∃ d, stripDistance (((x done - X : ℝ)) : ℂ) ((x (done + 1) - X : ℝ)) c = d ∧ d ≤ 0 ∧ |d| = max 0 (x done - X - c) := by
      rcases le_or_gt c (x done - X) with h' | h'
      · exact ⟨_, strip_behind hlt h', by linarith, by rw [abs_neg, abs_of_nonneg (by linarith), max_eq_right (by linarith)]⟩
      · rcases h.lt_or_eq with h'' | h''
        · exact ⟨_, strip_within h' h'', le_rfl, by rw [abs_zero, max_eq_left (by linarith)]⟩
        · exact ⟨_, strip_past hlt h''.ge, by linarith, by rw [h'', sub_self, abs_zero, max_eq_left (by linarith)]⟩
    obtain ⟨d, hd, hd0, hda⟩ := hst
    rw [hd, if_neg (not_lt.2 hd0)]
    have hsel : -d - eps ≤ |x done - X - c| + eps := by
      have : -d = |d| := (abs_of_nonpos hd0).symm
      rw [this, hda]
      have : max 0 (x done - X - c) ≤ |x done - X - c| := max_le (abs_nonneg _) (le_abs_self _)
      linarith
    rw [if_pos (.inl hsel), hda]
    obtain ⟨k, d', h1, h2, h3, h4, h5⟩ := nearest_found he hx X c range (m + 1 - (done + 2)) (done + 2) (x (done + 1) - x done) (done + 1) rfl
      (by omega) (by omega) (by omega) h
    rw [show done + 2 - 1 = done + 1 from rfl, show done + 1 - 1 = done from rfl] at h1
    rw [show done + 1 + 1 = done + 2 from rfl, h1]
    exact ⟨k, some d', rfl, by omega, h3, .inl h4, h5⟩
  · rw [strip_past hlt h]
    have hsel : (if c - (x (done + 1) - X) > 0 then c - (x (done + 1) - X) else -(c - (x (done + 1) - X)) - eps) ≤ |x done - X - c| + eps := by
      rw [abs_of_neg (by linarith)]
      split <;> linarith
    rw [if_pos (.inl hsel), abs_of_nonneg (by linarith)]
    rcases Nat.lt_or_ge (done + 1) m with hm | hm
    · obtain ⟨k, d', h1, h2, h3, h4, h5⟩ := nearest_seek he hx X c range done
        (by rcases hr with h | h | h
            · exact .inl h
            · omega
            · exact .inr h)
        (m + 1 - (done + 2)) (done + 2) (c - (x (done + 1) - X)) rfl (by omega) (by omega) h le_rfl
      rw [show done + 2 - 1 = done + 1 from rfl] at h1 h2 h5
      rw [show done + 1 + 1 = done + 2 from rfl, h1]
      exact ⟨k, some d', rfl, by omega, h3, h4, h5⟩
    · have hm' : done + 1 = m := by omega
      unfold nearestLoop
      rw [if_neg (by omega)]
      exact ⟨done + 1, _, rfl, by omega, by omega, .inr hm', .inl rfl⟩

theorem spaced_mono {x : Nat → ℝ} {m : Nat} {lo lo' hi : ℝ} (h : lo' ≤ lo) (hx : Spaced x m lo hi) : Spaced x m lo' hi :=
  fun i hi => ⟨lt_of_le_of_lt h (hx i hi).1, (hx i hi).2⟩

theorem straight_goal {x : Nat → ℝ} {m : Nat} {lo hi : ℝ} (hlo : 1 / 1000 ≤ lo) (hx : Spaced x m lo hi) (X : ℝ) {done : Nat} (hd : done < m)
    (sw : Bool) : findLocalGoal (ahead x X (m + 1)) done (m + 1) sw true microEps = some (m + 1) := by
  obtain ⟨g, h1, h2, h3, -, h5⟩ := findLocalGoal_spec (P := ahead x X (m + 1)) (sw := sw) (tn := true) micro_pos
    (by rw [ahead_length]) (show done < m + 1 by omega)
  rw [h1]
  rcases Nat.lt_or_ge g (m + 1) with hg | hg
  swap
  · rw [show g = m + 1 by omega]
  exfalso
  have hfw : ∀ i, 0 < i → i ≤ m → 0 < forward ({ pos := ((x (i - 1) - X : ℝ) : ℂ), yaw := 0, vel := .nan } : Pose)
      ({ pos := ((x i - X : ℝ) : ℂ), yaw := 0, vel := .nan } : Pose) := by
    intro i hi0 him
    have := hx (i - 1) (by omega)
    rw [show i - 1 + 1 = i by omega] at this
    unfold forward
    simp
    linarith
  rcases h5 hg with ⟨-, h0, a, b, ha, hb, hab⟩ | ⟨-, -, -, -, hr0, a, b, c, ha, hb, hc, hab⟩
  · rw [ahead_get _ _ _ _ (by omega)] at ha hb
    cases ha; cases hb
    simp only at hab
    have := hx (g - 1) (by omega)
    rw [show g - 1 + 1 = g by omega] at this
    rw [← Complex.ofReal_sub, norm_real, sq_abs] at hab
    unfold microEps at hab
    nlinarith
  · rw [ahead_get _ _ _ _ (by omega)] at ha hb hc
    cases ha; cases hb; cases hc
    have e1 := hfw g (by omega) (by omega)
    have e2 := hfw (g - 1) (by omega) (by omega)
    rw [show g - 1 - 1 = g - 2 by omega] at e2
    exact absurd hab (not_lt.2 (mul_pos e2 e1).le)

theorem straight_length {x : Nat → ℝ} {m : Nat} {lo hi : ℝ} (hlo : 0 ≤ lo) (hx : Spaced x m lo hi) (X : ℝ) {n k : Nat} (hn : n + k ≤ m) :
    lengthFromTo (ahead x X (m + 1)) n (n + k) = x (n + k) - x n := by
  induction k with
  | zero => simp only [Nat.add_zero, lengthFromTo_self, sub_self]
  | succ k ih =>
    have hsp := hx (n + k) (by omega)
    rw [show n + (k + 1) = (n + k) + 1 from rfl,
      lengthFromTo_succ (by omega) (ahead_get _ _ _ _ (by omega)) (ahead_get _ _ _ _ (by omega)), ih (by omega), ← Complex.ofReal_sub, norm_real]
    rw [abs_of_neg (by linarith)]
    ring

theorem projection_line {a b : ℝ} (hab : a < b) (c : ℝ) : projection (a : ℂ) b c = c := by
  unfold projection
  have h1 : (b : ℂ) - a = ((b - a : ℝ) : ℂ) := by push_cast; ring
  have h2 : (c : ℂ) - a = ((c - a : ℝ) : ℂ) := by push_cast; ring
  have hne : b - a ≠ 0 := by linarith
  rw [h1, h2, dot_real, Complex.normSq_ofReal]
  dsimp only
  have : (b - a) * (c - a) / ((b - a) * (b - a)) = (c - a) / (b - a) := by field_simp
  rw [this, ← Complex.ofReal_mul, ← Complex.ofReal_mul, ← Complex.ofReal_add]
  congr 1
  field_simp
  ring

theorem curvLoop_line (t : ℂ) (r : ℝ) : ∀ (ps : List Pose) (a b : Pose) (n : Nat), a.pos.im = 0 → b.pos.im = 0 → (∀ p ∈ ps, p.pos.im = 0) →
    (curvLoop t r a b ps 0 n).1 = 0 := by
  intro ps
  induction ps with
  | nil => intro a b n _ _ _; rfl
  | cons p ps ih =>
    intro a b n ha hb hp
    have hpi := hp p (by simp)
    have : curv3p a.pos b.pos p.pos = 0 := by
      unfold curv3p
      rw [ha, hb, hpi]
      simp
    unfold curvLoop
    dsimp only
    rw [this, add_zero]
    split
    · rfl
    · exact ih b p _ hb hpi (fun q hq => hp q (by simp [hq]))

/-- A straight path has no curvature. -/
theorem curvature_line {eps : ℝ} (he : 0 < eps) (ps : List Pose) (h : ∀ p ∈ ps, p.pos.im = 0 ∧ p.yaw = 0) (t : ℂ) (r : ℝ) :
    getCurvature eps ps t r = 0 := by
  unfold getCurvature
  match ps, h with
  | [], _ => rfl
  | [_], _ => rfl
  | [a, b], h =>
    simp only
    unfold curvature2
    rw [(h a (by simp)).2, (h b (by simp)).2]
    simp [he]
  | a :: b :: c :: rest, h =>
    simp only
    rw [curvLoop_line t (r * r) (c :: rest) a b 0 (h a (by simp)).1 (h b (by simp)).1 (fun p hp => (h p (by simp at hp ⊢; tauto)).1)]
    simp

/-- The remaining distance, measured from a point of the line which is not beyond the nearest part, unless this is the last one. -/
theorem straight_remain {x : Nat → ℝ} {m : Nat} {lo hi : ℝ} (hlo : 0 ≤ lo) (hx : Spaced x m lo hi) (X c : ℝ) {k : Nat} (h0 : 0 < k) (hk : k ≤ m)
    (hc : c ≤ x k - X ∨ k = m) :
    remainedDistance (ahead x X (m + 1)) 0 k (m + 1) (c : ℂ) = some (x m - X - c) := by
  have hsp := hx (k - 1) (by omega)
  rw [show k - 1 + 1 = k by omega] at hsp
  set a := x (k - 1) - X with ha
  set b := x k - X with hb
  have hab : 0 < b - a := by linarith
  set s := (c - a) / (b - a) with hs
  have hcs : (c : ℂ) = (a : ℂ) + s * ((b : ℂ) - a) := by
    rw [← Complex.ofReal_sub, ← Complex.ofReal_mul, ← Complex.ofReal_add]
    congr 1
    rw [hs, div_mul_cancel₀ _ hab.ne']
    ring
  have hn : ‖(b : ℂ) - a‖ = b - a := by rw [← Complex.ofReal_sub, norm_real, abs_of_pos hab]
  have h1s : (1 - s) * (b - a) = b - c := by rw [hs, sub_mul, div_mul_cancel₀ _ hab.ne']; ring
  rcases hc with hc | hc
  · have hs1 : s ≤ 1 := by rw [hs, div_le_one hab]; linarith
    rw [hcs, remained_on_path (p := { pos := (a : ℂ), yaw := 0, vel := .nan }) (q := { pos := (b : ℂ), yaw := 0, vel := .nan })
      (by rw [ahead_length]) (by omega) h0 (by omega) (ahead_get _ _ _ _ (by omega)) (ahead_get _ _ _ _ (by omega)) s hs1, hn, h1s]
    have := straight_length hlo hx X (n := k) (k := m - k) (by omega)
    rw [show k + (m - k) = m by omega] at this
    rw [Nat.add_sub_cancel, this]
    congr 1
    rw [hb]
    ring
  · subst hc
    have := remained_last (P := ahead x X (k + 1)) (b := 0) (e := k + 1) (p := { pos := (a : ℂ), yaw := 0, vel := .nan })
      (q := { pos := (b : ℂ), yaw := 0, vel := .nan }) (by omega) (ahead_get _ _ _ _ (by omega)) (ahead_get _ _ _ _ (by omega)) s
    rw [Nat.add_sub_cancel] at this
    rw [hcs, this, hn, h1s]

/-- What the tracker reads from a straight path, with a look-ahead point `c` metres before the robot. -/
theorem geometry_straight {cfg : Config} {x : Nat → ℝ} {m : Nat} {lo hi : ℝ} (he : 0 ≤ cfg.epsilon) (hel : cfg.epsilon ≤ lo)
    (hlo : 1 / 1000 ≤ lo) (hx : Spaced x m lo hi) (X c : ℝ) (hc0 : 0 ≤ c) {done : Nat} (hhi : done = 0 ∨ hi ≤ 1) (hdone : done < m)
    (hr : done = 0 ∨ done + 1 = m ∨ c + X + hi ≤ x done + 1) :
    ∃ k a b, geometry cfg done (ahead x X (m + 1)) c 0 = some (some
      { nearest := k, localGoal := m + 1, prevPose := { pos := (a : ℝ), yaw := 0, vel := .nan }, nearPose := { pos := (b : ℝ), yaw := 0, vel := .nan },
        goalYaw := 0, remainLocal := x m - X - c, remain := x m - X - c, remainRaw := x m - X, curv := 0 }) ∧
      a < b ∧ b = x k - X ∧ a = x (k - 1) - X ∧ done < k ∧ k ≤ m ∧ (c ≤ x k - X ∨ k = m) ∧ (k = done + 1 ∨ x (k - 1) - X ≤ c + cfg.epsilon) := by
  have hlo0 : 0 ≤ lo := by linarith
  have hxe := spaced_mono hel hx
  obtain ⟨k, d, h1, h2, h3, h4, h5⟩ := nearest_straight he hxe X c (if done > 0 then 1 else 0) hdone
    (by split
        · exact .inr (hhi.resolve_left (by omega))
        · exact .inl le_rfl)
    (by rcases hr with h | h | h
        · exact .inl (by rw [if_neg (by omega)])
        · exact .inr (.inl h)
        · split
          · exact .inr (.inr h)
          · exact .inl le_rfl)
  have hsp := hx (k - 1) (by omega)
  rw [show k - 1 + 1 = k by omega] at hsp
  have hab : x (k - 1) - X < x k - X := by linarith
  refine ⟨k, x (k - 1) - X, x k - X, ?_, hab, rfl, rfl, h2, h3, h4, h5⟩
  unfold geometry
  rw [ahead_length, if_neg (by omega), straight_goal hlo hx X hdone]
  have hraw : remainedDistance (ahead x X (m + 1)) 0 k (m + 1) (0 : ℂ) = some (x m - X) := by
    have := straight_remain hlo0 hx X 0 (k := k) (by omega) h3 (h4.imp (fun h => by linarith) id)
    rw [Complex.ofReal_zero, sub_zero] at this
    exact this
  have hp0 : projection (((x (k - 1) - X : ℝ)) : ℂ) ((x k - X : ℝ)) 0 = 0 := by
    have := projection_line hab 0
    rwa [Complex.ofReal_zero] at this
  have hcv : getCurvature microEps (((ahead x X (m + 1)).drop k).take (m + 1 - k)) c cfg.curvForward = 0 := by
    refine curvature_line micro_pos _ (fun p hp => ?_) _ _
    have hp' := List.mem_of_mem_drop (List.mem_of_mem_take hp)
    simp only [ahead, List.mem_map] at hp'
    obtain ⟨i, -, rfl⟩ := hp'
    simp
  simp only [Option.bind_eq_bind, Option.bind_some, h1]
  rw [if_neg (by omega), ahead_get _ _ _ _ (by omega), ahead_get _ _ _ _ (by omega), Nat.add_sub_cancel, ahead_get _ _ _ m (by omega)]
  simp only [Option.bind_some]
  rw [projection_line hab, hp0, straight_remain hlo0 hx X c (by omega) h3 h4, hraw, hcv]
  rfl

end Verif.Tracker
