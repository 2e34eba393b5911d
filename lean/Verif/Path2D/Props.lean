import Verif.Path2D.Goals
import Mathlib.Analysis.SpecialFunctions.Trigonometric.Bounds
/-!
# Theorems on the path operations of the tracker (C43, C44, C85)
-/
namespace Verif.Path2D
open Verif.Num

/-! ## C43: conversion and segmentation -/

/-- The converted path starts with the first pose of the message (and is empty only if the message is), ends with the
heading and speed of the last pose at its position up to the merging distance. -/
theorem convert_ends {eps : ℝ} (he : 0 ≤ eps) (v : Bool) (ms : List PoseMsg) :
    (fromMsg v eps ms).head? = ms.head?.map (readPose v) ∧
    ∀ m, ms.getLast? = some m → ∃ q, (fromMsg v eps ms).getLast? = some q ∧
      q.yaw = (readPose v m).yaw ∧ q.vel = (readPose v m).vel ∧ (q.pos = m.pos ∨ ‖q.pos - m.pos‖ < eps) := by
  unfold fromMsg
  cases ms with
  | nil => simp [fromPoses_nil]
  | cons p ps =>
    rw [List.map_cons, fromPoses_cons]
    refine ⟨by rw [go_head]; rfl, ?_⟩
    intro m hm
    obtain ⟨q, h1, h2, h3, h4⟩ := go_last he (ps.map (readPose v)) (readPose v p) none (readPose v p) (by simp) rfl rfl
      (.inl rfl)
    have hl : (readPose v p :: ps.map (readPose v)).getLast (by simp) = readPose v m := by
      have h5 : (readPose v p :: ps.map (readPose v)).getLast? = some (readPose v m) := by
        rw [← List.map_cons (f := readPose v), List.getLast?_map, hm]; rfl
      rw [List.getLast?_eq_some_getLast (by simp)] at h5
      exact Option.some.inj h5
    rw [hl] at h2 h3 h4
    exact ⟨q, h1, h2, h3, h4⟩

/-- The converted path is never longer. -/
theorem convert_length (eps : ℝ) (ps : List Pose) : length (fromPoses eps ps) ≤ length ps := by
  cases ps with
  | nil => exact le_refl _
  | cons p ps =>
    rw [fromPoses_cons]
    have := go_length eps ps p none p (by simp)
    simpa using this

/-- Every pose of the message is represented within the merging distance, and nothing is made up: each pose of the result
is a pose of the message, or stands at the place of one with the heading and speed of one nearby. -/
theorem convert_faithful {eps : ℝ} (he : 0 ≤ eps) (ps : List Pose) :
    (∀ p ∈ ps, ∃ q ∈ fromPoses eps ps, q.pos = p.pos ∨ ‖q.pos - p.pos‖ < eps) ∧
    ∀ q ∈ fromPoses eps ps, q ∈ ps ∨
      ((∃ p ∈ ps, q.pos = p.pos) ∧ ∃ p ∈ ps, ‖q.pos - p.pos‖ < eps ∧ q.yaw = p.yaw ∧ q.vel = p.vel) := by
  cases ps with
  | nil => simp [fromPoses_nil]
  | cons p ps =>
    rw [fromPoses_cons]
    constructor
    · intro x hx
      rcases List.mem_cons.mp hx with rfl | hx
      · obtain ⟨r, hr⟩ := go_eq_cons eps x none ps
        exact ⟨x, by simp [hr], .inl rfl⟩
      · exact go_cover he ps p none (by simp) x hx
    · intro q hq
      rcases go_from he ps p none (· ∈ p :: ps) (by simp) (by simp) (fun x hx => by simp [hx]) q hq with h | ⟨⟨a, h1, h2⟩, b, h3, h4⟩
      · exact .inl h
      · exact .inr ⟨⟨a, h1, h2⟩, b, h3, h4⟩

/-- In the converted path neighbours are at the same place or at least the merging distance apart, and no more than two
consecutive poses stand at the same place: a run of rotations in place becomes its start and its end. -/
theorem convert_merged {eps : ℝ} (he : 0 < eps) (ps : List Pose) (i : Nat) (a b : Pose)
    (ha : (fromPoses eps ps)[i]? = some a) (hb : (fromPoses eps ps)[i + 1]? = some b) :
    (b.pos = a.pos ∨ eps ≤ ‖a.pos - b.pos‖) ∧
    ∀ c, (fromPoses eps ps)[i + 2]? = some c → b.pos = a.pos → eps ≤ ‖b.pos - c.pos‖ := by
  obtain ⟨h1, h2⟩ := canon_pairs (fromPoses_canon eps ps)
  refine ⟨?_, ?_⟩
  · rcases h1 i a b ha hb with h | h
    · exact .inl h
    · exact .inr ((far_iff he.le a b).mp h)
  · intro c hc hab
    refine (far_iff he.le b c).mp (h2 i a b c ha hb hc ?_)
    rw [far_iff he.le, hab, sub_self, norm_zero, not_le]
    exact he

/-- With a zero merging distance the path is taken as it is. -/
theorem convert_exact (ps : List Pose) : fromPoses 0 ps = ps := by
  apply fromPoses_id
  induction ps with
  | nil => exact .nil
  | cons p ps ih =>
    cases ps with
    | nil => exact .one p
    | cons q ps => exact .far (by unfold Far; simpa using Complex.normSq_nonneg _) ih

/-- Writing a converted path to a message and converting that message again gives the same path. -/
theorem convert_round_trip (eps : ℝ) (v : Bool) (ms : List PoseMsg) :
    fromMsg v eps (toMsg v (fromMsg v eps ms)) = fromMsg v eps ms := by
  have hyaw : ∀ q ∈ fromMsg v eps ms, q.yaw ∈ Set.Ioc (-Real.pi) Real.pi ∧ (v = false → q.vel = .nan) := by
    unfold fromMsg
    have hread : ∀ p ∈ ms.map (readPose v), p.yaw ∈ Set.Ioc (-Real.pi) Real.pi ∧ (v = false → p.vel = .nan) := by
      intro p hp
      obtain ⟨m, _, rfl⟩ := List.mem_map.mp hp
      refine ⟨⟨Complex.neg_pi_lt_arg _, Complex.arg_le_pi _⟩, ?_⟩
      intro hv; simp [readPose, hv]
    intro q hq
    generalize ms.map (readPose v) = ps at hread hq
    cases ps with
    | nil => rw [fromPoses_nil] at hq; simp at hq
    | cons p ps =>
      rw [fromPoses_cons] at hq
      have : ∀ (l : List Pose) (back : Pose) (t : Option Pose) (S : Pose → Prop), S back → (∀ q, t = some q → S q) →
          (∀ p ∈ l, S p) → (∀ a b : Pose, S b → S { pos := a.pos, yaw := b.yaw, vel := b.vel }) →
          ∀ q ∈ go eps back t l, S q := by
        intro l
        induction l with
        | nil =>
          intro back t S h1 h2 _ _ q hq
          simp only [go, List.mem_cons, Option.mem_toList] at hq
          rcases hq with rfl | hq
          · exact h1
          · exact h2 q hq
        | cons n l ih =>
          intro back t S h1 h2 h3 h4 q hq
          rw [go] at hq
          split at hq
          · simp only [List.mem_cons, List.mem_append, Option.mem_toList] at hq
            rcases hq with rfl | hq | hq
            · exact h1
            · exact h2 q hq
            · exact ih n none S (h3 n (by simp)) (by simp) (fun p hp => h3 p (by simp [hp])) h4 q hq
          · refine ih back _ S h1 ?_ (fun p hp => h3 p (by simp [hp])) h4 q hq
            intro r hr; cases hr
            exact h4 back n (h3 n (by simp))
      exact this ps p none (fun q => q.yaw ∈ Set.Ioc (-Real.pi) Real.pi ∧ (v = false → q.vel = .nan))
        (hread p (by simp)) (by simp) (fun x hx => hread x (by simp [hx])) (fun a b h => h) q hq
  have hid : (toMsg v (fromMsg v eps ms)).map (readPose v) = fromMsg v eps ms := by
    unfold toMsg
    rw [List.map_map]
    conv_rhs => rw [← List.map_id (fromMsg v eps ms)]
    apply List.map_congr_left
    intro q hq
    obtain ⟨h1, h2⟩ := hyaw q hq
    simp only [Function.comp, id]
    unfold readPose writePose
    simp only
    rw [read_write_yaw q.yaw h1]
    cases v with
    | true => rfl
    | false =>
      have := h2 rfl
      cases q
      simp_all
  change fromPoses eps ((toMsg v (fromMsg v eps ms)).map (readPose v)) = _
  rw [hid]
  unfold fromMsg
  exact fromPoses_id (fromPoses_canon eps _)

/-- The local goal is the first pose which ends the stretch starting at `b`, or the end of the path. -/
theorem local_goal {P : List Pose} {b e : Nat} {sw tn : Bool} {eps : ℝ} (he : 0 < eps) (hP : e ≤ P.length)
    (hb : b < e) : ∃ g, findLocalGoal P b e sw tn eps = some g ∧ b < g ∧ g ≤ e ∧
      (∀ i, b < i → i < g → ¬ CutAt P sw tn eps b i) ∧ (g < e → CutAt P sw tn eps b g) :=
  findLocalGoal_spec he hP hb

/-- Enumerating the local goals ends, with one result: stretches which follow each other from `b` to `e`, each going
forward, containing no end of stretch inside and, but for the last, ending with one. -/
theorem local_goals {P : List Pose} {b e : Nat} {sw tn : Bool} {eps : ℝ} (he : 0 < eps) (hP : e ≤ P.length)
    (hb : b < e) : ∃ gs, Goals P e sw tn eps b gs ∧ (∀ gs', Goals P e sw tn eps b gs' → gs' = gs) ∧
      ∀ k, k < gs.length + 1 → ∃ s g, (b :: gs)[k]? = some s ∧ (gs ++ [e])[k]? = some g ∧ s < g ∧ g ≤ e ∧
        (∀ i, s < i → i < g → ¬ CutAt P sw tn eps s i) ∧ (k < gs.length → g < e ∧ CutAt P sw tn eps s g) := by
  obtain ⟨gs, h1, h2⟩ := goals_spec (sw := sw) (tn := tn) he hP (e - b) b rfl hb
  exact ⟨gs, h1, fun gs' h => goals_unique h h1, h2⟩

/-! ## C44: nearest part, remaining distance, arrival times -/

/-- The signed distance to a part of the path is, in magnitude, the distance to the segment. -/
theorem strip_distance (a b c : ℂ) : |stripDistance a b c| = Metric.infDist c (segment ℝ a b) := strip_abs a b c

/-- The search reads only the path and reports a part of it together with its distance; the distance exceeds that of any
part within the range by at most epsilon per later part. -/
theorem nearest_found {P : List Pose} {b e : Nat} {t : ℂ} {range eps : ℝ} (he : 0 ≤ eps) (hP : e ≤ P.length)
    (hb : b < e) : ∃ k d m, findNearest P b e t range eps = some (k, some d) ∧ b < m ∧ m ≤ e ∧
      (∀ i, b < i → i < e → (i < m ↔ InRange P range b i)) ∧
      (m = b + 1 → k = b) ∧ (b + 1 < m → b < k ∧ k < m ∧ d = segDist P t k) ∧
      ∀ i, b < i → i < m → d ≤ segDist P t i + ((m - 1 - i : Nat) : ℝ) * eps := by
  have hlt : b < P.length := by omega
  have hp : P[b]? = some P[b] := List.getElem?_eq_getElem hlt
  obtain ⟨k, d, m, h1, h2, h3, h4, h5, h6, h7, h8⟩ := nearestLoop_spec (t := t) (range := range) he hP (b := b)
    (e - (b + 1)) (b + 1) b (‖P[b].pos - t‖ + eps) rfl (by omega) (by omega) (by omega)
  rw [Nat.add_sub_cancel, lengthFromTo_self] at h1
  refine ⟨k, d, m, ?_, by omega, h3, fun i hi1 hi2 => h4 i (by omega) hi2, ?_, ?_, fun i hi1 hi2 => h7 i (by omega) hi2⟩
  · unfold findNearest
    rw [if_neg (by omega), hp]
    simp only
    rw [h1]; rfl
  · intro hm
    rcases h5 with h | h
    · exact h.1
    · omega
  · intro hm
    have hfirst : segDist P t (b + 1) ≤ ‖P[b].pos - t‖ + eps := by
      have hq : P[b + 1]? = some (P[b + 1]'(by omega)) := List.getElem?_eq_getElem _
      unfold segDist
      rw [Nat.add_sub_cancel, hp, hq]
      have := infDist_start P[b].pos (P[b + 1]'(by omega)).pos t
      simp only
      linarith
    have hk := h8 rfl hm hfirst
    rcases h5 with ⟨h, _⟩ | h
    · omega
    · exact ⟨by omega, h.2.1, h.2.2⟩

theorem remainLoop_spec {P : List Pose} {e n : Nat} (hP : e ≤ P.length) : ∀ m it r, e - it = m → n < it → it ≤ e →
    remainLoop P e it (it - 1) (r + lengthFromTo P n (it - 1)) = some (r + lengthFromTo P n (e - 1)) := by
  intro m
  induction m with
  | zero =>
    intro it r hm hn hi
    have : it = e := by omega
    subst this
    rw [remainLoop, if_neg (by omega)]
  | succ m ih =>
    intro it r hm hn hi
    have ha : P[it - 1]? = some (P[it - 1]'(by omega)) := List.getElem?_eq_getElem _
    have hb : P[it]? = some (P[it]'(by omega)) := List.getElem?_eq_getElem _
    rw [remainLoop, if_pos (by omega), ha, hb]
    simp only
    have h1 : P[it - 1 + 1]? = some (P[it]'(by omega)) := by rw [← hb]; congr 1; omega
    have := lengthFromTo_succ (b := n) (i := it - 1) (by omega) ha h1
    rw [show it - 1 + 1 = it by omega] at this
    rw [add_assoc, ← this]
    exact ih (it + 1) r (by omega) (by omega) (by omega)

/-- The remaining distance from a point `t` related to pose `n` is the distance to that pose plus the length of the rest
of the path. -/
theorem remained_ahead {P : List Pose} {b n e : Nat} {t : ℂ} (hP : e ≤ P.length) (hn : n + 1 < e) :
    ∃ p, P[n]? = some p ∧ remainedDistance P b n e t = some (‖p.pos - t‖ + lengthFromTo P n (e - 1)) := by
  have hp : P[n]? = some (P[n]'(by omega)) := List.getElem?_eq_getElem _
  refine ⟨_, hp, ?_⟩
  unfold remainedDistance
  rw [hp]
  simp only
  rw [if_neg (by omega)]
  have := remainLoop_spec hP (n := n) (e - (n + 1)) (n + 1) ‖(P[n]'(by omega)).pos - t‖ rfl (by omega) (by omega)
  rw [Nat.add_sub_cancel, lengthFromTo_self, add_zero] at this
  exact this

/-- For a point on the line through the last part, `s` being its position along it (0 at the start, 1 at the end), the
remaining distance is the signed way to the end: negative after overshooting. -/
theorem remained_last {P : List Pose} {b e : Nat} {p q : Pose} (hb : b + 2 ≤ e) (hp : P[e - 2]? = some p)
    (hq : P[e - 1]? = some q) (s : ℝ) :
    remainedDistance P b (e - 1) e (p.pos + s * (q.pos - p.pos)) = some ((1 - s) * ‖q.pos - p.pos‖) := by
  have hv : q.pos - (p.pos + s * (q.pos - p.pos)) = ((1 - s : ℝ) : ℂ) * (q.pos - p.pos) := by push_cast; ring
  have hd : dot (q.pos - p.pos) (q.pos - (p.pos + s * (q.pos - p.pos))) = (1 - s) * ‖q.pos - p.pos‖ ^ 2 := by
    rw [hv, ← dot_self]
    simp [dot]; ring
  have hnorm : ‖q.pos - (p.pos + s * (q.pos - p.pos))‖ = |1 - s| * ‖q.pos - p.pos‖ := by
    rw [hv, norm_mul, Complex.norm_real, Real.norm_eq_abs]
  unfold remainedDistance
  rw [hq]
  simp only
  rw [if_pos (by omega), if_neg (by omega), hp]
  simp only
  rw [hd, hnorm]
  split
  · next h =>
    by_cases hs : 0 ≤ 1 - s
    · rw [abs_of_nonneg hs]
    · rw [not_le] at hs
      have h0 : ‖q.pos - p.pos‖ = 0 := by
        by_contra hne
        have : 0 < ‖q.pos - p.pos‖ ^ 2 := by positivity
        nlinarith
      rw [h0]; simp
  · next h =>
    have hs : 1 - s < 0 := by
      by_contra hc
      exact h (mul_nonneg (not_lt.mp hc) (sq_nonneg _))
    rw [abs_of_neg hs]
    congr 1; ring

/-- A point on part `n` of the path (between poses `n - 1` and `n`): the remaining distance is the rest of that part plus
the following ones. -/
theorem remained_on_path {P : List Pose} {b n e : Nat} {p q : Pose} (hP : e ≤ P.length) (hb : b + 2 ≤ e) (hn0 : 0 < n)
    (hn : n < e) (hp : P[n - 1]? = some p) (hq : P[n]? = some q) (s : ℝ) (hs : s ≤ 1) :
    remainedDistance P b n e (p.pos + s * (q.pos - p.pos)) =
      some ((1 - s) * ‖q.pos - p.pos‖ + lengthFromTo P n (e - 1)) := by
  rcases Nat.lt_or_ge (n + 1) e with h | h
  · obtain ⟨q', hq', hr⟩ := remained_ahead (b := b) (t := p.pos + s * (q.pos - p.pos)) hP h
    rw [hq] at hq'; cases hq'
    have hv : q.pos - (p.pos + s * (q.pos - p.pos)) = ((1 - s : ℝ) : ℂ) * (q.pos - p.pos) := by push_cast; ring
    rw [hr, hv, norm_mul, Complex.norm_real, Real.norm_eq_abs, abs_of_nonneg (by linarith)]
  · have : n = e - 1 := by omega
    subst this
    rw [lengthFromTo_self, add_zero]
    exact remained_last hb (by rw [← hp]; congr 1) hq s

/-- The projection of a point on a part of the path is the foot of the perpendicular. -/
theorem projection_foot {a b : ℂ} (h : a ≠ b) (c : ℂ) :
    (∃ s : ℝ, projection a b c = a + s * (b - a)) ∧ dot (b - a) (c - projection a b c) = 0 := by
  have hn : Complex.normSq (b - a) ≠ 0 := by
    rw [Ne, Complex.normSq_eq_zero, sub_eq_zero]; exact fun h' => h h'.symm
  have hproj : ∀ r : ℝ, b * r + a * ((1 - r : ℝ) : ℂ) = a + r * (b - a) := by intro r; push_cast; ring
  refine ⟨⟨_, hproj _⟩, ?_⟩
  unfold projection
  simp only
  rw [hproj]
  have hd : dot (b - a) (b - a) = Complex.normSq (b - a) := by rw [Complex.normSq_apply]; rfl
  have : ∀ r : ℝ, dot (b - a) (c - (a + r * (b - a))) = dot (b - a) (c - a) - r * dot (b - a) (b - a) := by
    intro r; simp [dot]; ring
  rw [this, hd, div_mul_cancel₀ _ hn, sub_self]

theorem etaLoop_length (l w : ℝ) (ps : List Pose) : ∀ p t, (etaLoop l w p ps t).length = ps.length := by
  induction ps with
  | nil => intro p t; rfl
  | cons q ps ih => intro p t; simp [etaLoop, ih]

theorem etaLoop_sorted {l w : ℝ} (hl : 0 < l) (hw : 0 < w) (ps : List Pose) : ∀ p t,
    |p.yaw| ≤ Real.pi → (∀ q ∈ ps, |q.yaw| ≤ Real.pi) → (t :: etaLoop l w p ps t).Pairwise (· ≤ ·) := by
  induction ps with
  | nil => intro p t _ _; simp [etaLoop]
  | cons q ps ih =>
    intro p t hp hq
    simp only [etaLoop]
    have h1 := ih q (t + stepTime l w p q) (hq q (by simp)) (fun x hx => hq x (by simp [hx]))
    have h2 : 0 ≤ stepTime l w p q := by
      unfold stepTime
      simp only
      split
      · exact div_nonneg (norm_nonneg _) hl.le
      · apply div_nonneg _ hw.le
        have hqy := hq q (by simp)
        have : |p.yaw - q.yaw| ≤ 2 * Real.pi := by
          rw [abs_le] at hp hqy ⊢
          constructor <;> linarith [hp.1, hp.2, hqy.1, hqy.2]
        split
        · linarith
        · exact abs_nonneg _
    rw [List.pairwise_cons]
    refine ⟨?_, h1⟩
    intro x hx
    rcases List.mem_cons.mp hx with rfl | hx
    · linarith
    · have := (List.pairwise_cons.mp h1).1 x hx
      linarith

/-- One arrival time per pose, starting with the given time and never decreasing, when the headings are normalised (as
those of converted messages are) and the speeds positive. -/
theorem eta_monotone {l w : ℝ} (hl : 0 < l) (hw : 0 < w) (t : ℝ) (ps : List Pose) (hy : ∀ p ∈ ps, |p.yaw| ≤ Real.pi) :
    (etas l w t ps).length = ps.length ∧ (ps ≠ [] → (etas l w t ps).head? = some t) ∧
    (etas l w t ps).Pairwise (· ≤ ·) := by
  cases ps with
  | nil => simp [etas]
  | cons p ps =>
    refine ⟨by simp [etas, etaLoop_length], fun _ => rfl, ?_⟩
    exact etaLoop_sorted hl hw ps p t (hy p (by simp)) (fun q hq => hy q (by simp [hq]))

/-- The time between two poses more than a micrometre apart is the distance over the linear speed; for poses at the same
place it is the smaller angle between the headings over the angular speed. -/
theorem eta_step {l w : ℝ} (t : ℝ) (ps : List Pose) (i : Nat) (p q : Pose) (hp : ps[i]? = some p)
    (hq : ps[i + 1]? = some q) : ∃ x y, (etas l w t ps)[i]? = some x ∧ (etas l w t ps)[i + 1]? = some y ∧
      (1 / 1000000 < ‖p.pos - q.pos‖ → y = x + ‖p.pos - q.pos‖ / l) ∧
      (‖p.pos - q.pos‖ ≤ 1 / 1000000 → |p.yaw| ≤ Real.pi → |q.yaw| ≤ Real.pi →
        ∃ d, y = x + d / w ∧ 0 ≤ d ∧ d ≤ Real.pi ∧ Real.cos d = Real.cos (p.yaw - q.yaw)) := by
  have gen : ∀ (ps : List Pose) i a t, (a :: ps)[i]? = some p → (a :: ps)[i + 1]? = some q →
      ∃ x y, (t :: etaLoop l w a ps t)[i]? = some x ∧ (t :: etaLoop l w a ps t)[i + 1]? = some y ∧
        y = x + stepTime l w p q := by
    intro ps
    induction ps with
    | nil => intro i a t h1 h2; simp at h2
    | cons b ps ih =>
      intro i a t h1 h2
      cases i with
      | zero =>
        simp at h1 h2; subst h1 h2
        exact ⟨t, t + stepTime l w a b, by simp, by simp [etaLoop], rfl⟩
      | succ i =>
        obtain ⟨x, y, e1, e2, e3⟩ := ih i b (t + stepTime l w a b) (by simpa using h1) (by simpa using h2)
        exact ⟨x, y, by simpa [etaLoop] using e1, by simpa [etaLoop] using e2, e3⟩
  cases ps with
  | nil => simp at hp
  | cons a ps =>
    obtain ⟨x, y, e1, e2, e3⟩ := gen ps i a t hp hq
    refine ⟨x, y, e1, e2, ?_, ?_⟩
    · intro h
      rw [e3]; unfold stepTime
      simp only
      rw [if_pos h]
    · intro h hpy hqy
      refine ⟨_, by rw [e3]; unfold stepTime; simp only; rw [if_neg (not_lt.mpr h)], ?_⟩
      have hle : |p.yaw - q.yaw| ≤ 2 * Real.pi := by
        rw [abs_le] at hpy hqy ⊢
        constructor <;> linarith [hpy.1, hpy.2, hqy.1, hqy.2]
      split
      · next hgt => exact ⟨by linarith, by linarith, by rw [Real.cos_two_pi_sub, Real.cos_abs]⟩
      · next hgt => exact ⟨abs_nonneg _, not_lt.mp hgt, by rw [Real.cos_abs]⟩

/-! ## C85: curvature -/

/-- Two poses on a circular arc: the curvature is that of the circle. -/
theorem curvature_arc {eps r θ : ℝ} {a b : Pose} (h : IsArc r θ a b) (he : 0 < eps) (hs : eps ≤ |Real.sin θ|) (target : ℂ)
    (range : ℝ) : getCurvature eps [a, b] target range = 1 / r := by
  obtain ⟨hy, hx, hi⟩ := h
  simp only [getCurvature]
  unfold curvature2
  have hyaw : b.yaw - a.yaw = θ := by rw [hy]; ring
  have hc2 := Real.sin_sq_add_cos_sq a.yaw
  have hre : (rotatePos (b.pos - a.pos) (-a.yaw)).re = r * Real.sin θ := by
    simp only [rotatePos, Complex.sub_re, Complex.sub_im, hx, hi, Real.cos_neg, Real.sin_neg, Real.sin_add, Real.cos_add]
    linear_combination (r * Real.sin θ) * hc2
  have him : (rotatePos (b.pos - a.pos) (-a.yaw)).im = r * (1 - Real.cos θ) := by
    simp only [rotatePos, Complex.sub_re, Complex.sub_im, hx, hi, Real.cos_neg, Real.sin_neg, Real.sin_add, Real.cos_add]
    linear_combination (r * (1 - Real.cos θ)) * hc2
  have hs0 : Real.sin θ ≠ 0 := by
    intro h0; rw [h0, abs_zero] at hs; linarith
  simp only [hyaw, hre, him]
  rw [if_neg (not_lt.mpr hs)]
  have h1 : r * Real.sin θ * Real.cos θ / Real.sin θ = r * Real.cos θ := by field_simp
  rw [h1]
  have h2 : (r * Real.sin θ) ^ 2 + (r * Real.cos θ) ^ 2 = r ^ 2 := by
    have := Real.sin_sq_add_cos_sq θ
    linear_combination r ^ 2 * this
  rw [h2, Real.sqrt_sq_eq_abs]
  have h3 : copysign |r| (r * Real.sin θ * Real.sin θ) = r := by
    unfold copysign
    have hpos : 0 < Real.sin θ * Real.sin θ := mul_self_pos.mpr hs0
    rw [abs_abs]
    split
    · next h =>
      have : r < 0 := by
        by_contra hc
        have := mul_nonneg (not_lt.mp hc) hpos.le
        linarith
      rw [abs_of_neg this]; ring
    · next h =>
      have : 0 ≤ r := by
        by_contra hc
        have := mul_neg_of_neg_of_pos (not_le.mp hc) hpos
        exact h (by linarith)
      rw [abs_of_nonneg this]
  rw [h3]
  congr 1; ring

theorem circle_identity {ax ay bx by' cx cy S : ℝ} (ha : ax ^ 2 + ay ^ 2 = S) (hb : bx ^ 2 + by' ^ 2 = S)
    (hc : cx ^ 2 + cy ^ 2 = S) :
    ((bx - ax) ^ 2 + (by' - ay) ^ 2) * ((bx - cx) ^ 2 + (by' - cy) ^ 2) * ((cx - ax) ^ 2 + (cy - ay) ^ 2) =
      S * (2 * ((bx - ax) * (cy - ay) - (by' - ay) * (cx - ax))) ^ 2 := by
  have hab : (bx - ax) ^ 2 + (by' - ay) ^ 2 = 2 * S - 2 * (ax * bx + ay * by') := by linear_combination ha + hb
  have hbc : (bx - cx) ^ 2 + (by' - cy) ^ 2 = 2 * S - 2 * (bx * cx + by' * cy) := by linear_combination hb + hc
  have hca : (cx - ax) ^ 2 + (cy - ay) ^ 2 = 2 * S - 2 * (ax * cx + ay * cy) := by linear_combination ha + hc
  rw [hab, hbc, hca]
  have x1 : (ax * by' - ay * bx) ^ 2 = S ^ 2 - (ax * bx + ay * by') ^ 2 := by
    have : S ^ 2 = (ax ^ 2 + ay ^ 2) * (bx ^ 2 + by' ^ 2) := by rw [ha, hb]; ring
    rw [this]; ring
  have x2 : (bx * cy - by' * cx) ^ 2 = S ^ 2 - (bx * cx + by' * cy) ^ 2 := by
    have : S ^ 2 = (bx ^ 2 + by' ^ 2) * (cx ^ 2 + cy ^ 2) := by rw [hb, hc]; ring
    rw [this]; ring
  have x3 : (cx * ay - cy * ax) ^ 2 = S ^ 2 - (ax * cx + ay * cy) ^ 2 := by
    have : S ^ 2 = (ax ^ 2 + ay ^ 2) * (cx ^ 2 + cy ^ 2) := by rw [ha, hc]; ring
    rw [this]; ring
  have y1 : (ax * by' - ay * bx) * (bx * cy - by' * cx) =
      (ax * bx + ay * by') * (bx * cx + by' * cy) - S * (ax * cx + ay * cy) := by rw [← hb]; ring
  have y2 : (bx * cy - by' * cx) * (cx * ay - cy * ax) =
      (bx * cx + by' * cy) * (ax * cx + ay * cy) - S * (ax * bx + ay * by') := by rw [← hc]; ring
  have y3 : (cx * ay - cy * ax) * (ax * by' - ay * bx) =
      (ax * cx + ay * cy) * (ax * bx + ay * by') - S * (bx * cx + by' * cy) := by rw [← ha]; ring
  have gram : S ^ 3 + 2 * (ax * bx + ay * by') * (bx * cx + by' * cy) * (ax * cx + ay * cy) =
      S * ((ax * bx + ay * by') ^ 2 + (bx * cx + by' * cy) ^ 2 + (ax * cx + ay * cy) ^ 2) := by
    have h3 : S ^ 3 = (ax ^ 2 + ay ^ 2) * (bx ^ 2 + by' ^ 2) * (cx ^ 2 + cy ^ 2) := by rw [ha, hb, hc]; ring
    have e : S * ((ax * bx + ay * by') ^ 2 + (bx * cx + by' * cy) ^ 2 + (ax * cx + ay * cy) ^ 2) =
        (cx ^ 2 + cy ^ 2) * (ax * bx + ay * by') ^ 2 + (ax ^ 2 + ay ^ 2) * (bx * cx + by' * cy) ^ 2 +
          (bx ^ 2 + by' ^ 2) * (ax * cx + ay * cy) ^ 2 := by rw [ha, hb, hc]; ring
    rw [h3, e]; ring
  have hcross : (bx - ax) * (cy - ay) - (by' - ay) * (cx - ax) =
      (ax * by' - ay * bx) + (bx * cy - by' * cx) + (cx * ay - cy * ax) := by ring
  rw [hcross]
  have hsq : ((ax * by' - ay * bx) + (bx * cy - by' * cx) + (cx * ay - cy * ax)) ^ 2 =
      (ax * by' - ay * bx) ^ 2 + (bx * cy - by' * cx) ^ 2 + (cx * ay - cy * ax) ^ 2 +
      2 * ((ax * by' - ay * bx) * (bx * cy - by' * cx)) + 2 * ((bx * cy - by' * cx) * (cx * ay - cy * ax)) +
      2 * ((cx * ay - cy * ax) * (ax * by' - ay * bx)) := by ring
  rw [mul_pow, hsq, x1, x2, x3, y1, y2, y3]
  linear_combination (-4) * gram

/-- Three points of a circle of radius `r`, in anticlockwise order: the curvature is `1 / r`. -/
theorem curv3p_circle {r : ℝ} (hr : 0 < r) {o a b c : ℂ} (ha : ‖a - o‖ = r) (hb : ‖b - o‖ = r) (hc : ‖c - o‖ = r)
    (hl : TurnsLeft a b c) : curv3p a b c = 1 / r := by
  have sq : ∀ z : ℂ, ‖z - o‖ = r → (z.re - o.re) ^ 2 + (z.im - o.im) ^ 2 = r ^ 2 := by
    intro z hz
    rw [← hz, norm_sq']; simp
  have id := circle_identity (sq a ha) (sq b hb) (sq c hc)
  have hns : Complex.normSq (b - a) * Complex.normSq (b - c) * Complex.normSq (c - a) =
      (r * (2 * ((b.re - a.re) * (c.im - a.im) - (b.im - a.im) * (c.re - a.re)))) ^ 2 := by
    simp only [Complex.normSq_apply, Complex.sub_re, Complex.sub_im]
    linear_combination id
  unfold TurnsLeft at hl
  unfold curv3p
  rw [hns, Real.sqrt_sq (by positivity)]
  have hne : (b.re - a.re) * (c.im - a.im) - (b.im - a.im) * (c.re - a.re) ≠ 0 := ne_of_gt hl
  rw [div_eq_div_iff (by positivity) (ne_of_gt hr)]
  ring

/-- Three points on a circle in clockwise order. -/
theorem curv3p_circle_right {r : ℝ} (hr : 0 < r) {o a b c : ℂ} (ha : ‖a - o‖ = r) (hb : ‖b - o‖ = r) (hc : ‖c - o‖ = r)
    (hl : TurnsLeft c b a) : curv3p a b c = -(1 / r) := by
  rw [← curv3p_circle hr hc hb ha hl]
  unfold curv3p
  have : Complex.normSq (b - a) * Complex.normSq (b - c) * Complex.normSq (c - a) =
      Complex.normSq (b - c) * Complex.normSq (b - a) * Complex.normSq (a - c) := by
    rw [← Complex.normSq_neg (c - a), neg_sub]; ring
  rw [this]
  ring

theorem curvLoop_const {κ : ℝ} {target : ℂ} {R : ℝ} (ps : List Pose) : ∀ p2 p1 sum (num : Nat), sum = num * κ →
    (∀ i a b c, (p2 :: p1 :: ps)[i]? = some a → (p2 :: p1 :: ps)[i + 1]? = some b → (p2 :: p1 :: ps)[i + 2]? = some c →
      curv3p a.pos b.pos c.pos = κ) →
    (curvLoop target R p2 p1 ps sum num).1 = (curvLoop target R p2 p1 ps sum num).2 * κ ∧
      (ps ≠ [] → (curvLoop target R p2 p1 ps sum num).2 ≠ 0) ∧ num ≤ (curvLoop target R p2 p1 ps sum num).2 := by
  induction ps with
  | nil => intro p2 p1 sum num hs _; exact ⟨hs, fun h => absurd rfl h, le_refl _⟩
  | cons p ps ih =>
    intro p2 p1 sum num hs h
    have h0 := h 0 p2 p1 p (by simp) (by simp) (by simp)
    have hs' : sum + curv3p p2.pos p1.pos p.pos = ((num + 1 : Nat) : ℝ) * κ := by
      rw [h0, hs]; push_cast; ring
    simp only [curvLoop]
    split
    · exact ⟨hs', fun _ => Nat.succ_ne_zero _, Nat.le_succ _⟩
    · obtain ⟨r1, _, r3⟩ := ih p1 p (sum + curv3p p2.pos p1.pos p.pos) (num + 1) hs'
        (fun i a b c ha hb hc => h (i + 1) a b c (by simpa using ha) (by simpa using hb) (by simpa using hc))
      exact ⟨r1, fun _ => by omega, by omega⟩

/-- A path of three or more poses on a circle driven anticlockwise: the estimate is exactly the curvature of the circle,
whatever the range of the average. -/
theorem curvature_circle {eps r : ℝ} (hr : 0 < r) {o : ℂ} {ps : List Pose} (h3 : 3 ≤ ps.length)
    (hon : ∀ p ∈ ps, ‖p.pos - o‖ = r)
    (hl : ∀ i a b c, ps[i]? = some a → ps[i + 1]? = some b → ps[i + 2]? = some c → TurnsLeft a.pos b.pos c.pos)
    (target : ℂ) (range : ℝ) : getCurvature eps ps target range = 1 / r := by
  match ps, h3 with
  | a :: b :: c :: rest, _ =>
    have hk : ∀ i x y z, (a :: b :: c :: rest)[i]? = some x → (a :: b :: c :: rest)[i + 1]? = some y →
        (a :: b :: c :: rest)[i + 2]? = some z → curv3p x.pos y.pos z.pos = 1 / r := by
      intro i x y z hx hy hz
      exact curv3p_circle hr (hon x (List.mem_of_getElem? hx)) (hon y (List.mem_of_getElem? hy))
        (hon z (List.mem_of_getElem? hz)) (hl i x y z hx hy hz)
    obtain ⟨h1, h2, _⟩ := curvLoop_const (target := target) (R := range * range) (c :: rest) a b 0 0 (by simp) hk
    have hne := h2 (by simp)
    simp only [getCurvature]
    rw [if_neg hne, h1]
    rw [mul_comm, mul_div_assoc, div_self (by exact_mod_cast hne), mul_one]

/-- A path of three or more poses on a straight line has curvature zero.  (Neighbouring poses must be distinct: otherwise
the program divides by zero.) -/
theorem curvature_straight {eps : ℝ} {o d : ℂ} {ps : List Pose} (h3 : 3 ≤ ps.length)
    (hon : ∀ p ∈ ps, ∃ s : ℝ, p.pos = o + s * d)
    (_hd : ∀ i a b c, ps[i]? = some a → ps[i + 1]? = some b → ps[i + 2]? = some c →
      a.pos ≠ b.pos ∧ b.pos ≠ c.pos ∧ c.pos ≠ a.pos) (target : ℂ) (range : ℝ) : getCurvature eps ps target range = 0 := by
  match ps, h3 with
  | a :: b :: c :: rest, _ =>
    have hk : ∀ i x y z, (a :: b :: c :: rest)[i]? = some x → (a :: b :: c :: rest)[i + 1]? = some y →
        (a :: b :: c :: rest)[i + 2]? = some z → curv3p x.pos y.pos z.pos = 0 := by
      intro i x y z hx hy hz
      obtain ⟨s1, e1⟩ := hon x (List.mem_of_getElem? hx)
      obtain ⟨s2, e2⟩ := hon y (List.mem_of_getElem? hy)
      obtain ⟨s3, e3⟩ := hon z (List.mem_of_getElem? hz)
      unfold curv3p
      rw [e1, e2, e3]
      have : 2 * ((o + s1 * d).re * (o + s2 * d).im + (o + s2 * d).re * (o + s3 * d).im + (o + s3 * d).re * (o + s1 * d).im -
          (o + s1 * d).re * (o + s3 * d).im - (o + s2 * d).re * (o + s1 * d).im - (o + s3 * d).re * (o + s2 * d).im) = 0 := by
        simp; ring
      rw [this, zero_div]
    obtain ⟨h1, h2, _⟩ := curvLoop_const (target := target) (R := range * range) (c :: rest) a b 0 0 (by simp) hk
    have hne := h2 (by simp)
    simp only [getCurvature]
    rw [if_neg hne, h1]
    simp

theorem curv3p_menger (a b c : ℂ) : curv3p a b c = menger a b c := by
  unfold curv3p menger
  have h : Real.sqrt (Complex.normSq (b - a) * Complex.normSq (b - c) * Complex.normSq (c - a)) =
      ‖b - a‖ * ‖b - c‖ * ‖c - a‖ := by
    rw [Complex.normSq_eq_norm_sq, Complex.normSq_eq_norm_sq, Complex.normSq_eq_norm_sq, ← mul_pow, ← mul_pow]
    exact Real.sqrt_sq (by positivity)
  rw [h]
  congr 1
  ring

theorem curvLoop_mean {target : ℂ} {R : ℝ} (ps : List Pose) : ∀ p2 p1 sum (num : Nat), ps ≠ [] →
    ∃ n, 1 ≤ n ∧ n ≤ ps.length ∧
      curvLoop target R p2 p1 ps sum num = (sum + ((List.range n).map (bendAt (p2 :: p1 :: ps))).sum, num + n) ∧
      (∀ i p, i + 1 < n → ps[i]? = some p → Complex.normSq (p.pos - target) ≤ R) ∧
      (n < ps.length → ∃ p, ps[n - 1]? = some p ∧ R < Complex.normSq (p.pos - target)) := by
  induction ps with
  | nil => intro _ _ _ _ h; exact absurd rfl h
  | cons p ps ih =>
    intro p2 p1 sum num _
    have h0 : bendAt (p2 :: p1 :: p :: ps) 0 = curv3p p2.pos p1.pos p.pos := by
      rw [curv3p_menger]; simp [bendAt]
    simp only [curvLoop]
    by_cases hc : Complex.normSq (p.pos - target) > R
    · refine ⟨1, le_refl _, by simp, ?_, fun i _ hi => absurd hi (by omega), fun _ => ⟨p, by simp, hc⟩⟩
      rw [if_pos hc]
      simp [h0]
    · rw [if_neg hc]
      cases hps : ps with
      | nil =>
        refine ⟨1, le_refl _, by simp, ?_, fun i _ hi => absurd hi (by omega), fun h => absurd h (by simp)⟩
        subst hps
        simp [curvLoop, h0]
      | cons q qs =>
        rw [← hps]
        obtain ⟨n, n1, n2, e, hin, hout⟩ := ih p1 p (sum + curv3p p2.pos p1.pos p.pos) (num + 1) (by rw [hps]; simp)
        refine ⟨n + 1, by omega, by simp; omega, ?_, ?_, ?_⟩
        · rw [e, List.range_succ_eq_map, List.map_cons, List.sum_cons, h0, List.map_map]
          have : bendAt (p2 :: p1 :: p :: ps) ∘ Nat.succ = bendAt (p1 :: p :: ps) := by
            funext i; simp [bendAt]
          rw [this]
          refine Prod.ext ?_ ?_
          · simp only; ring
          · simp only; omega
        · intro i x hi hx
          cases i with
          | zero => simp at hx; subst hx; exact not_lt.mp hc
          | succ i => exact hin i x (by omega) (by simpa using hx)
        · intro h
          obtain ⟨x, hx, hr⟩ := hout (by simpa using h)
          refine ⟨x, ?_, hr⟩
          obtain ⟨k, rfl⟩ : ∃ k, n = k + 1 := ⟨n - 1, by omega⟩
          simpa using hx

/-- **C85** (average).  For every path of three or more poses, every place `target` and every range: the curvature is the mean of the
curvatures at the first poses of the path, up to and including the first pose (from the third on) that is farther from the place than the
range, or up to the end of the path if there is none. -/
theorem curvature_mean {eps : ℝ} {ps : List Pose} (h3 : 3 ≤ ps.length) (target : ℂ) {range : ℝ} (hr : 0 ≤ range) :
    ∃ n, 1 ≤ n ∧ n + 2 ≤ ps.length ∧
      getCurvature eps ps target range = ((List.range n).map (bendAt ps)).sum / n ∧
      (∀ i p, 2 ≤ i → i < n + 1 → ps[i]? = some p → ‖p.pos - target‖ ≤ range) ∧
      (n + 2 < ps.length → ∃ p, ps[n + 1]? = some p ∧ range < ‖p.pos - target‖) := by
  match ps, h3 with
  | a :: b :: c :: rest, _ =>
    obtain ⟨n, n1, n2, e, hin, hout⟩ := curvLoop_mean (target := target) (R := range * range) (c :: rest) a b 0 0 (by simp)
    have hsq : ∀ z : ℂ, Complex.normSq z ≤ range * range ↔ ‖z‖ ≤ range := by
      intro z
      rw [Complex.normSq_eq_norm_sq, ← sq]
      exact ⟨fun h => (abs_le_of_sq_le_sq' h hr).2, fun h => pow_le_pow_left₀ (norm_nonneg _) h 2⟩
    refine ⟨n, n1, by simp at n2 ⊢; omega, ?_, ?_, ?_⟩
    · simp only [getCurvature]
      rw [e]
      rw [if_neg (by simp; omega)]
      simp
    · intro i p h2 hi hp
      obtain ⟨k, rfl⟩ : ∃ k, i = k + 2 := ⟨i - 2, by omega⟩
      exact (hsq _).mp (hin k p (by omega) (by simpa using hp))
    · intro h
      obtain ⟨p, hp, hx⟩ := hout (by simp at h ⊢; omega)
      refine ⟨p, ?_, not_le.mp (fun h' => absurd ((hsq _).mpr h') (not_le.mpr hx))⟩
      obtain ⟨k, rfl⟩ : ∃ k, n = k + 1 := ⟨n - 1, by omega⟩
      simpa using hp

/-! ## Witnesses -/

/-- A pose on the x axis. -/
def at' (x yaw : ℝ) : Pose := { pos := (x : ℂ), yaw := yaw, vel := .nan }

/-- Three headings at one place followed by a move: the middle heading is merged away. -/
example : fromPoses (1 / 10) [at' 0 0, at' 0 1, at' 0 2, at' 1 2] = [at' 0 0, at' 0 2, at' 1 2] := by
  rw [fromPoses_cons]
  simp only [go, Far, at']
  norm_num

/-- A path going forward, back and forward again in single steps, always heading forward. -/
def zigzag : List Pose := [at' 0 0, at' 1 0, at' 0 0, at' 1 0]

theorem zigzag_cut : CutAt zigzag true true (1 / 10) 0 2 := by
  refine .inr ⟨rfl, by norm_num, ?_, ?_, by norm_num, at' 0 0, at' 1 0, at' 0 0, rfl, rfl, rfl, ?_⟩
  · rintro ⟨_, a, b, ha, hb, h⟩
    simp [zigzag] at ha hb; subst ha hb
    simp [at'] at h; norm_num at h
  · rintro ⟨_, a, b, ha, hb, h⟩
    simp [zigzag] at ha hb; subst ha hb
    simp [at'] at h; norm_num at h
  · simp [forward, at']

/-- A change of direction right after another one is not a local goal of its own: the move into the pose where a stretch
starts belongs to no stretch, so the second of two changes of direction one step apart is skipped. -/
theorem short_switch_missed :
    ReversesAt zigzag 3 ∧ ∃ gs, Goals zigzag 4 true true (1 / 10) 0 gs ∧ 3 ∉ gs := by
  refine ⟨⟨by norm_num, at' 1 0, at' 0 0, at' 1 0, rfl, rfl, rfl, by simp [forward, at']⟩, ?_⟩
  have hno : ∀ i, ¬ TurnsAt zigzag (1 / 10) i := by
    rintro i ⟨_, a, b, ha, hb, h⟩
    match i with
    | 0 => omega
    | 1 => simp [zigzag] at ha hb; subst ha hb; simp [at'] at h; norm_num at h
    | 2 => simp [zigzag] at ha hb; subst ha hb; simp [at'] at h; norm_num at h
    | 3 => simp [zigzag] at ha hb; subst ha hb; simp [at'] at h; norm_num at h
    | i + 4 => simp [zigzag] at hb
  have hp : (0:ℝ) < 1 / 10 := by norm_num
  obtain ⟨g, h1, h2, h3, h4, _⟩ := local_goal (P := zigzag) (b := 0) (e := 4) (sw := true) (tn := true) hp
    (by simp [zigzag]) (by omega)
  have hg2 : g = 2 := by
    have hle : g ≤ 2 := by
      by_contra hc
      exact h4 2 (by omega) (by omega) zigzag_cut
    have hne : g ≠ 1 := by
      rintro rfl
      obtain ⟨g', h1', _, _, _, h5'⟩ := local_goal (P := zigzag) (b := 0) (e := 4) (sw := true) (tn := true) hp
        (by simp [zigzag]) (by omega)
      rw [h1] at h1'; cases h1'
      rcases h5' (by omega) with ⟨_, h⟩ | ⟨_, h, _⟩
      · exact hno 1 h
      · omega
    omega
  subst hg2
  obtain ⟨g, k1, k2, k3, _, k5⟩ := local_goal (P := zigzag) (b := 2) (e := 4) (sw := true) (tn := true) hp
    (by simp [zigzag]) (by omega)
  have hg4 : g = 4 := by
    by_contra hne
    rcases k5 (by omega) with ⟨_, h⟩ | ⟨_, h, _⟩
    · exact hno _ h
    · omega
  subst hg4
  exact ⟨[2], .go h1 (by omega) (.stop k1), by simp⟩

/-- The search may report a part of the path which is farther than another by epsilon: on a path of three poses leading
away from the target it reports the second part. -/
theorem nearest_drift :
    findNearest [at' 0 0, at' 1 0, at' 2 0] 0 3 (-1) 0 1 = some (2, some 2) ∧
    segDist [at' 0 0, at' 1 0, at' 2 0] (-1) 1 = 1 := by
  have n2 : ‖(-1 - 1 : ℂ)‖ = 2 := by
    have : (-1 - 1 : ℂ) = ((-2 : ℝ) : ℂ) := by push_cast; ring
    rw [this, Complex.norm_real]; norm_num
  have s1 : stripDistance (at' 0 0).pos (at' 1 0).pos (-1) = -1 := by
    simp [stripDistance, dot, at']
  have s2 : stripDistance (at' 1 0).pos (at' 2 0).pos (-1) = -2 := by
    have : dot ((at' 2 0).pos - (at' 1 0).pos) (-1 - (at' 1 0).pos) ≤ 0 := by
      simp [dot, at']; norm_num
    unfold stripDistance
    rw [if_pos this]
    simp only [at', Complex.ofReal_one]
    rw [n2]
  constructor
  · unfold findNearest
    rw [if_neg (by omega)]
    simp only [List.getElem?_cons_zero]
    have n0 : ‖(at' 0 0).pos - -1‖ = 1 := by simp [at']
    rw [n0]
    rw [nearestLoop]
    simp only [List.getElem?_cons_zero, List.getElem?_cons_succ, s1]
    norm_num
    rw [nearestLoop]
    simp only [List.getElem?_cons_zero, List.getElem?_cons_succ, s2]
    norm_num
    rw [nearestLoop]
    norm_num
  · rw [segDist_eq (a := at' 0 0) (b := at' 1 0) (-1) rfl rfl, s1]
    norm_num

/-- The hypotheses of the nearest and remaining distance theorems are met by that path. -/
example : ∃ k d, findNearest [at' 0 0, at' 1 0, at' 2 0] 0 3 (1 / 2) 0 (1 / 1000) = some (k, some d) ∧ d ≤ 1 / 500 := by
  obtain ⟨k, d, m, h1, h2, h3, h4, _, _, h7⟩ := nearest_found (P := [at' 0 0, at' 1 0, at' 2 0]) (b := 0) (e := 3)
    (t := 1 / 2) (range := 0) (eps := 1 / 1000) (by norm_num) (by simp) (by omega)
  have hm : 2 < m := (h4 2 (by omega) (by omega)).mpr (.inl (le_refl _))
  have hd := h7 1 (by omega) (by omega)
  have hs : segDist [at' 0 0, at' 1 0, at' 2 0] (1 / 2) 1 = 0 := by
    have h0 : Metric.infDist (1 / 2 : ℂ) (segment ℝ (at' 0 0).pos (at' 1 0).pos) = 0 := by
      apply Metric.infDist_zero_of_mem
      rw [segment_eq_image']
      exact ⟨1 / 2, ⟨by norm_num, by norm_num⟩, by simp [at']⟩
    exact h0
  rw [hs] at hd
  have : m = 3 := by omega
  subst this
  exact ⟨k, d, h1, by norm_num at hd ⊢; linarith⟩

/-- A point half-way on the first part of that path has one and a half units to go. -/
example : remainedDistance [at' 0 0, at' 1 0, at' 2 0] 0 1 3 ((at' 0 0).pos + ((1 / 2 : ℝ) : ℂ) * ((at' 1 0).pos - (at' 0 0).pos)) =
    some (3 / 2) := by
  rw [remained_on_path (p := at' 0 0) (q := at' 1 0) (by simp) (by omega) (by omega) (by omega) rfl rfl (1 / 2)
    (by norm_num)]
  have h12 : ‖(1 - 2 : ℂ)‖ = 1 := by
    have : (1 - 2 : ℂ) = ((-1 : ℝ) : ℂ) := by push_cast; ring
    rw [this, Complex.norm_real]; norm_num
  simp [lengthFromTo, length, at', h12]
  norm_num

/-- A quarter of the unit circle, as a path of three poses. -/
example : getCurvature (1 / 1000000) [{ pos := 1, yaw := 0, vel := .nan }, { pos := ⟨3 / 5, 4 / 5⟩, yaw := 0, vel := .nan },
    { pos := Complex.I, yaw := 0, vel := .nan }] 0 1 = 1 / 1 := by
  apply curvature_circle (by norm_num : (0:ℝ) < 1) (o := 0) (by simp)
  · intro p hp
    simp only [List.mem_cons, List.not_mem_nil, or_false] at hp
    rcases hp with rfl | rfl | rfl
    · simp
    · simp only [sub_zero]
      rw [← sq_eq_sq₀ (norm_nonneg _) (by norm_num), norm_sq']
      norm_num
    · simp
  · intro i a b c ha hb hc
    match i with
    | 0 =>
      simp at ha hb hc; subst ha hb hc
      simp [TurnsLeft]; norm_num
    | i + 1 => simp at hc

/-- An arc of radius two through one radian. -/
example : getCurvature (1 / 1000000) [at' 0 0, { pos := ⟨2 * Real.sin 1, 2 * (1 - Real.cos 1)⟩, yaw := 1, vel := .nan }] 0 1 =
    1 / 2 := by
  have h1 : (1:ℝ) / 1000000 ≤ |Real.sin 1| := by
    have := Real.sin_gt_sub_cube (x := 1) (by norm_num)
    rw [abs_of_pos (by linarith)]
    linarith
  refine curvature_arc (r := 2) (θ := 1) ⟨by simp [at'], by simp [at'], by simp [at']⟩ (by norm_num) h1 _ _

/-- Four poses, looked at from the first: with range 1/2 the mean ends with the first bend, since the third pose is beyond the range. -/
example : getCurvature (1 / 1000000) [at' 0 0, at' 1 0, { pos := ⟨1, 1⟩, yaw := 0, vel := .nan }, at' 0 0] 0 (1 / 2) =
    bendAt [at' 0 0, at' 1 0, { pos := ⟨1, 1⟩, yaw := 0, vel := .nan }, at' 0 0] 0 := by
  obtain ⟨n, n1, n2, e, hin, _⟩ := curvature_mean (eps := 1 / 1000000)
    (ps := [at' 0 0, at' 1 0, { pos := ⟨1, 1⟩, yaw := 0, vel := .nan }, at' 0 0]) (by simp) 0 (range := 1 / 2) (by norm_num)
  have hn : n = 1 := by
    by_contra hne
    have h := hin 2 { pos := ⟨1, 1⟩, yaw := 0, vel := .nan } (le_refl _) (by omega) (by simp)
    have h1 := Complex.abs_re_le_norm ((⟨1, 1⟩ : ℂ) - 0)
    simp only [sub_zero, abs_one] at h h1
    linarith
  rw [e, hn]
  simp

end Verif.Path2D
