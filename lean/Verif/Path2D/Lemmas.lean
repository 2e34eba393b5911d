import Verif.Path2D.Spec
/-!
# Lemmas on the path operations
-/
namespace Verif.Path2D
open Verif.Num

/-! ## Conversion from a message -/

/-- Far enough apart not to be merged. -/
def Far (eps : ℝ) (a b : Pose) : Prop := Complex.normSq (a.pos - b.pos) ≥ eps ^ 2

theorem far_iff {eps : ℝ} (he : 0 ≤ eps) (a b : Pose) : Far eps a b ↔ eps ≤ ‖a.pos - b.pos‖ := by
  unfold Far
  rw [Complex.normSq_eq_norm_sq, ge_iff_le]
  exact pow_le_pow_iff_left₀ he (norm_nonneg _) (by norm_num)

open Classical in
/-- The conversion, oldest pose first. -/
noncomputable def go (eps : ℝ) : Pose → Option Pose → List Pose → List Pose
  | back, t, [] => back :: t.toList
  | back, t, n :: l =>
    if Far eps back n then back :: (t.toList ++ go eps n none l)
    else go eps back (some { pos := back.pos, yaw := n.yaw, vel := n.vel }) l

/-- What `fromMsg` does after its loop. -/
def finish (st : List Pose × Option Pose) : List Pose :=
  match st.2 with
  | some turnEnd => (turnEnd :: st.1).reverse
  | none => st.1.reverse

theorem foldl_go (eps : ℝ) (l : List Pose) : ∀ (back : Pose) (t : Option Pose) (acc : List Pose),
    finish (l.foldl (addPose eps) (back :: acc, t)) = acc.reverse ++ go eps back t l := by
  induction l with
  | nil => intro back t acc; cases t <;> simp [finish, go]
  | cons n l ih =>
    intro back t acc
    rw [List.foldl_cons, go]
    by_cases h : Far eps back n
    · have h' : Complex.normSq (back.pos - n.pos) ≥ eps ^ 2 := h
      rw [if_pos h]
      cases t <;> simp only [addPose, if_pos h'] <;> rw [ih] <;> simp
    · have h' : ¬ Complex.normSq (back.pos - n.pos) ≥ eps ^ 2 := h
      rw [if_neg h]
      simp only [addPose, if_neg h']
      rw [ih]

theorem fromPoses_cons (eps : ℝ) (p : Pose) (ps : List Pose) : fromPoses eps (p :: ps) = go eps p none ps := by
  exact foldl_go eps ps p none []

theorem fromPoses_nil (eps : ℝ) : fromPoses eps [] = [] := rfl

theorem go_head (eps : ℝ) (l : List Pose) : ∀ back t, (go eps back t l).head? = some back := by
  induction l with
  | nil => intro back t; simp [go]
  | cons n l ih =>
    intro back t
    rw [go]
    split
    · simp
    · exact ih _ _

theorem go_eq_cons (eps : ℝ) (back : Pose) (t : Option Pose) (l : List Pose) :
    ∃ r, go eps back t l = back :: r := by
  have := go_head eps l back t
  cases h : go eps back t l with
  | nil => rw [h] at this; simp at this
  | cons a r => rw [h] at this; simp at this; exact ⟨r, by rw [this]⟩

theorem go_last {eps : ℝ} (he : 0 ≤ eps) (l : List Pose) : ∀ back t x, (∀ q, t = some q → q.pos = back.pos) →
    (t.getD back).yaw = x.yaw → (t.getD back).vel = x.vel → (back.pos = x.pos ∨ ‖back.pos - x.pos‖ < eps) →
    ∃ q, (go eps back t l).getLast? = some q ∧ q.yaw = ((x :: l).getLast (by simp)).yaw ∧
      q.vel = ((x :: l).getLast (by simp)).vel ∧
      (q.pos = ((x :: l).getLast (by simp)).pos ∨ ‖q.pos - ((x :: l).getLast (by simp)).pos‖ < eps) := by
  induction l with
  | nil =>
    intro back t x ht hy hv hp
    refine ⟨t.getD back, ?_, hy, hv, ?_⟩
    · cases t <;> simp [go]
    · have : (t.getD back).pos = back.pos := by
        cases t with
        | none => rfl
        | some q => exact ht q rfl
      rw [this]; exact hp
  | cons n l ih =>
    intro back t x ht hy hv hp
    rw [go]
    have hlast : (x :: n :: l).getLast (by simp) = (n :: l).getLast (by simp) := by
      rw [List.getLast_cons]
    rw [hlast]
    split
    · next hf =>
      obtain ⟨q, h1, h2⟩ := ih n none n (by simp) rfl rfl (.inl rfl)
      refine ⟨q, ?_, h2⟩
      rw [← List.cons_append, List.getLast?_append, h1]; rfl
    · next hf =>
      rw [far_iff he] at hf
      exact ih back _ n (by intro q hq; cases hq; rfl) rfl rfl (.inr (not_le.mp hf))

theorem length_cons_append_none (back : Pose) (t : Option Pose) (ht : ∀ q, t = some q → q.pos = back.pos)
    (n : Pose) (r : List Pose) :
    length (back :: (t.toList ++ n :: r)) = ‖back.pos - n.pos‖ + length (n :: r) := by
  cases t with
  | none => simp [length]
  | some q =>
    have := ht q rfl
    simp [length, this]

theorem go_length (eps : ℝ) (l : List Pose) : ∀ back t (x : Pose), (∀ q, t = some q → q.pos = back.pos) →
    length (go eps back t l) ≤ ‖back.pos - x.pos‖ + length (x :: l) := by
  induction l with
  | nil =>
    intro back t x ht
    cases t with
    | none => simp [go, length]
    | some q => simp [go, length, ht q rfl]
  | cons n l ih =>
    intro back t x ht
    rw [go]
    have tri : ‖back.pos - n.pos‖ ≤ ‖back.pos - x.pos‖ + ‖x.pos - n.pos‖ := norm_sub_le_norm_sub_add_norm_sub _ _ _
    split
    · obtain ⟨r, hr⟩ := go_eq_cons eps n none l
      rw [hr, length_cons_append_none back t ht]
      have := ih n none n (by simp)
      rw [hr] at this
      simp only [sub_self, norm_zero, zero_add] at this
      simp only [length]
      linarith
    · have := ih back (some { pos := back.pos, yaw := n.yaw, vel := n.vel }) n (by intro q hq; cases hq; rfl)
      simp only [length]
      linarith

theorem go_cover {eps : ℝ} (he : 0 ≤ eps) (l : List Pose) : ∀ back t, (∀ q, t = some q → q.pos = back.pos) →
    ∀ p ∈ l, ∃ q ∈ go eps back t l, q.pos = p.pos ∨ ‖q.pos - p.pos‖ < eps := by
  induction l with
  | nil => intro _ _ _ p hp; simp at hp
  | cons n l ih =>
    intro back t ht p hp
    rw [go]
    split
    · rcases List.mem_cons.mp hp with rfl | hp
      · obtain ⟨r, hr⟩ := go_eq_cons eps p none l
        exact ⟨p, by simp [hr], .inl rfl⟩
      · obtain ⟨q, hq, h⟩ := ih n none (by simp) p hp
        exact ⟨q, by simp [hq], h⟩
    · next hf =>
      rw [far_iff he, not_le] at hf
      rcases List.mem_cons.mp hp with rfl | hp
      · obtain ⟨r, hr⟩ := go_eq_cons eps back (some { pos := back.pos, yaw := p.yaw, vel := p.vel }) l
        exact ⟨back, by simp [hr], .inr hf⟩
      · exact ih back _ (by intro q hq; cases hq; rfl) p hp

/-- Every pose of the result comes from the input: its place from one pose, its heading and speed from one at that place or
near it. -/
theorem go_from {eps : ℝ} (he : 0 ≤ eps) (l : List Pose) : ∀ (back : Pose) (t : Option Pose) (S : Pose → Prop), S back →
    (∀ q, t = some q → q.pos = back.pos ∧ ∃ p, S p ∧ ‖q.pos - p.pos‖ < eps ∧ q.yaw = p.yaw ∧ q.vel = p.vel) →
    (∀ p ∈ l, S p) →
    ∀ q ∈ go eps back t l, S q ∨
      ((∃ p, S p ∧ q.pos = p.pos) ∧ ∃ p, S p ∧ ‖q.pos - p.pos‖ < eps ∧ q.yaw = p.yaw ∧ q.vel = p.vel) := by
  induction l with
  | nil =>
    intro back t S hb ht _ q hq
    cases t with
    | none => simp [go] at hq; subst hq; exact .inl hb
    | some r =>
      simp [go] at hq
      rcases hq with rfl | rfl
      · exact .inl hb
      · exact .inr ⟨⟨back, hb, (ht _ rfl).1⟩, (ht _ rfl).2⟩
  | cons n l ih =>
    intro back t S hb ht hl q hq
    rw [go] at hq
    split at hq
    · simp only [List.mem_cons, List.mem_append, Option.mem_toList] at hq
      rcases hq with rfl | hq | hq
      · exact .inl hb
      · exact .inr ⟨⟨back, hb, (ht _ hq).1⟩, (ht _ hq).2⟩
      · exact ih n none S (hl n (by simp)) (by simp) (fun p hp => hl p (by simp [hp])) q hq
    · next hf =>
      rw [far_iff he, not_le] at hf
      refine ih back _ S hb ?_ (fun p hp => hl p (by simp [hp])) q hq
      intro r hr
      cases hr
      exact ⟨rfl, n, hl n (by simp), hf, rfl, rfl⟩

/-- Paths the conversion leaves alone. -/
inductive Canon (eps : ℝ) : List Pose → Prop
  | nil : Canon eps []
  | one (a) : Canon eps [a]
  | far {a b l} (h : Far eps a b) (r : Canon eps (b :: l)) : Canon eps (a :: b :: l)
  | turn {a b} (h : ¬ Far eps a b) (hp : b.pos = a.pos) : Canon eps [a, b]
  | turnFar {a b c l} (h : ¬ Far eps a b) (hp : b.pos = a.pos) (hc : Far eps a c) (r : Canon eps (c :: l)) :
      Canon eps (a :: b :: c :: l)

theorem go_canon (eps : ℝ) (l : List Pose) : ∀ (back : Pose) (t : Option Pose),
    (∀ q, t = some q → q.pos = back.pos ∧ ¬ Far eps back q) → Canon eps (go eps back t l) := by
  induction l with
  | nil =>
    intro back t ht
    cases t with
    | none => simpa [go] using Canon.one back
    | some q => simpa [go] using Canon.turn (ht q rfl).2 (ht q rfl).1
  | cons n l ih =>
    intro back t ht
    rw [go]
    split
    · next hf =>
      have hc := ih n none (by simp)
      obtain ⟨r, hr⟩ := go_eq_cons eps n none l
      rw [hr] at hc ⊢
      cases t with
      | none => simpa using Canon.far hf hc
      | some q => simpa using Canon.turnFar (ht q rfl).2 (ht q rfl).1 hf hc
    · next hf =>
      refine ih back _ ?_
      intro q hq
      cases hq
      refine ⟨rfl, fun hh => hf ?_⟩
      have h0 : Complex.normSq (back.pos - back.pos) ≥ eps ^ 2 := hh
      have : Complex.normSq (back.pos - n.pos) ≥ eps ^ 2 := by
        rw [sub_self, map_zero] at h0
        exact le_trans h0 (Complex.normSq_nonneg _)
      exact this

theorem pose_eta (a b : Pose) (h : b.pos = a.pos) : ({ pos := a.pos, yaw := b.yaw, vel := b.vel } : Pose) = b := by
  rw [← h]

theorem go_id {eps : ℝ} {l : List Pose} (h : Canon eps l) : ∀ a r, l = a :: r → go eps a none r = a :: r := by
  induction h with
  | nil => intro a r h; cases h
  | one a => intro a r h; cases h; simp [go]
  | far h r ih =>
    intro a' r' he; cases he
    rw [go, if_pos h, ih _ _ rfl]; simp
  | turn h hp =>
    intro a' r' he; cases he
    rw [go, if_neg h, go, pose_eta _ _ hp]; simp
  | turnFar h hp hc r ih =>
    intro a' r' he; cases he
    rw [go, if_neg h, go, if_pos hc, pose_eta _ _ hp, ih _ _ rfl]; simp

theorem fromPoses_canon (eps : ℝ) (ps : List Pose) : Canon eps (fromPoses eps ps) := by
  cases ps with
  | nil => exact Canon.nil
  | cons p ps => rw [fromPoses_cons]; exact go_canon eps ps p none (by simp)

theorem fromPoses_id {eps : ℝ} {ps : List Pose} (h : Canon eps ps) : fromPoses eps ps = ps := by
  cases ps with
  | nil => rfl
  | cons p ps => rw [fromPoses_cons]; exact go_id h p ps rfl

/-- Neighbours of a canonical path. -/
theorem canon_pairs {eps : ℝ} {l : List Pose} (h : Canon eps l) :
    (∀ i a b, l[i]? = some a → l[i + 1]? = some b → b.pos = a.pos ∨ Far eps a b) ∧
    (∀ i a b c, l[i]? = some a → l[i + 1]? = some b → l[i + 2]? = some c → ¬ Far eps a b → Far eps b c) := by
  induction h with
  | nil => constructor <;> intros <;> simp_all
  | one a => constructor <;> intros <;> simp_all
  | @far a b l h r ih =>
    constructor
    · intro i x y hx hy
      cases i with
      | zero => simp at hx hy; subst hx hy; exact .inr h
      | succ i => exact ih.1 i x y (by simpa using hx) (by simpa using hy)
    · intro i x y z hx hy hz hn
      cases i with
      | zero => simp at hx hy; subst hx hy; exact absurd h hn
      | succ i => exact ih.2 i x y z (by simpa using hx) (by simpa using hy) (by simpa using hz) hn
  | @turn a b h hp =>
    constructor
    · intro i x y hx hy
      cases i with
      | zero => simp at hx hy; subst hx hy; exact .inl hp
      | succ i => simp at hy
    · intro i x y z hx hy hz hn; simp at hz
  | @turnFar a b c l h hp hc r ih =>
    have hbc : Far eps b c := by unfold Far; rw [hp]; exact hc
    constructor
    · intro i x y hx hy
      match i with
      | 0 => simp at hx hy; subst hx hy; exact .inl hp
      | 1 => simp at hx hy; subst hx hy; exact .inr hbc
      | i + 2 => exact ih.1 i x y (by simpa using hx) (by simpa using hy)
    · intro i x y z hx hy hz hn
      match i with
      | 0 => simp at hx hy hz; subst hx hy hz; exact hbc
      | 1 => simp at hx hy hz; subst hx hy; exact absurd hbc hn
      | i + 2 => exact ih.2 i x y z (by simpa using hx) (by simpa using hy) (by simpa using hz) hn

/-! ## Headings through messages -/

theorem read_write_yaw (y : ℝ) (h : y ∈ Set.Ioc (-Real.pi) Real.pi) :
    Complex.arg ⟨Real.cos (y / 2) ^ 2 - Real.sin (y / 2) ^ 2, 2 * Real.cos (y / 2) * Real.sin (y / 2)⟩ = y := by
  have h1 : Real.cos (y / 2) ^ 2 - Real.sin (y / 2) ^ 2 = Real.cos y := by
    rw [← Real.cos_two_mul', mul_div_cancel₀ _ (two_ne_zero)]
  have h2 : 2 * Real.cos (y / 2) * Real.sin (y / 2) = Real.sin y := by
    have := Real.sin_two_mul (y / 2)
    rw [mul_div_cancel₀ _ (two_ne_zero)] at this
    rw [this]; ring
  rw [h1, h2]
  have h3 : (⟨Real.cos y, Real.sin y⟩ : ℂ) = Complex.cos y + Complex.sin y * Complex.I := by
    apply Complex.ext <;> simp [Complex.cos_ofReal_re, Complex.sin_ofReal_re]
  rw [h3]
  exact Complex.arg_cos_add_sin_mul_I h

/-! ## Direction of motion -/

theorem signReq_forward (a b : Pose) (h : b.pos ≠ a.pos) :
    signReq a b * ‖b.pos - a.pos‖ = forward a b := by
  unfold signReq forward
  have hn : b.pos - a.pos ≠ 0 := sub_ne_zero.mpr h
  have hn' : ‖b.pos - a.pos‖ ≠ 0 := norm_ne_zero_iff.mpr hn
  simp only
  rw [Complex.cos_arg hn, Complex.sin_arg]
  field_simp
  simp only [Complex.sub_re, Complex.sub_im]
  ring

theorem signReq_mul (a b c : Pose) (h1 : b.pos ≠ a.pos) (h2 : c.pos ≠ b.pos) :
    signReq a b * signReq b c < 0 ↔ forward a b * forward b c < 0 := by
  rw [← signReq_forward a b h1, ← signReq_forward b c h2]
  have p1 : 0 < ‖b.pos - a.pos‖ := norm_pos_iff.mpr (sub_ne_zero.mpr h1)
  have p2 : 0 < ‖c.pos - b.pos‖ := norm_pos_iff.mpr (sub_ne_zero.mpr h2)
  have : signReq a b * ‖b.pos - a.pos‖ * (signReq b c * ‖c.pos - b.pos‖) =
      (signReq a b * signReq b c) * (‖b.pos - a.pos‖ * ‖c.pos - b.pos‖) := by ring
  rw [this]
  constructor
  · intro h; exact mul_neg_of_neg_of_pos h (mul_pos p1 p2)
  · intro h
    by_contra hc
    exact absurd h (not_lt.mpr (mul_nonneg (not_lt.mp hc) (mul_pos p1 p2).le))

/-! ## Distance to a segment -/

theorem dot_self (a : ℂ) : dot a a = ‖a‖ ^ 2 := by
  rw [← Complex.normSq_eq_norm_sq, Complex.normSq_apply]; rfl

theorem norm_sq' (a : ℂ) : ‖a‖ ^ 2 = a.re ^ 2 + a.im ^ 2 := by
  rw [← dot_self]; unfold dot; ring

/-- The distance to a segment is the least distance to its points. -/
theorem infDist_eq {a b c : ℂ} {d : ℝ} (hle : ∀ s ∈ Set.Icc (0:ℝ) 1, d ≤ ‖c - (a + s * (b - a))‖)
    (hex : ∃ s ∈ Set.Icc (0:ℝ) 1, ‖c - (a + s * (b - a))‖ = d) :
    Metric.infDist c (segment ℝ a b) = d := by
  have hmem : ∀ s ∈ Set.Icc (0:ℝ) 1, a + s * (b - a) ∈ segment ℝ a b := by
    intro s hs
    rw [segment_eq_image']
    exact ⟨s, hs, by simp⟩
  have hne : (segment ℝ a b).Nonempty := ⟨a, left_mem_segment ℝ a b⟩
  apply le_antisymm
  · obtain ⟨s, hs, rfl⟩ := hex
    rw [← Complex.dist_eq]
    exact Metric.infDist_le_dist_of_mem (hmem s hs)
  · rw [Metric.le_infDist hne]
    intro y hy
    rw [segment_eq_image'] at hy
    obtain ⟨s, hs, rfl⟩ := hy
    have := hle s hs
    rw [Complex.dist_eq]
    simpa using this

theorem norm_le_iff_sq (a b : ℂ) : ‖a‖ ≤ ‖b‖ ↔ a.re ^ 2 + a.im ^ 2 ≤ b.re ^ 2 + b.im ^ 2 := by
  rw [← norm_sq', ← norm_sq']
  exact (pow_le_pow_iff_left₀ (norm_nonneg _) (norm_nonneg _) (by norm_num)).symm

theorem strip_abs (a b c : ℂ) : |stripDistance a b c| = Metric.infDist c (segment ℝ a b) := by
  symm
  unfold stripDistance
  split
  · next h =>
    rw [abs_neg, abs_of_nonneg (norm_nonneg _)]
    apply infDist_eq
    · intro s hs
      rw [norm_le_iff_sq]
      simp only [dot, Complex.sub_re, Complex.sub_im] at h
      simp only [Complex.sub_re, Complex.sub_im, Complex.add_re, Complex.add_im, Complex.mul_re, Complex.mul_im,
        Complex.ofReal_re, Complex.ofReal_im]
      nlinarith [mul_nonneg hs.1 (neg_nonneg.mpr h), sq_nonneg (s * (b.re - a.re)), sq_nonneg (s * (b.im - a.im))]
    · exact ⟨0, ⟨le_refl _, by norm_num⟩, by simp⟩
  · next h =>
    split
    · next h2 =>
      rw [abs_of_nonneg (norm_nonneg _)]
      apply infDist_eq
      · intro s hs
        rw [norm_le_iff_sq]
        simp only [dot, Complex.sub_re, Complex.sub_im] at h2
        simp only [Complex.sub_re, Complex.sub_im, Complex.add_re, Complex.add_im, Complex.mul_re, Complex.mul_im,
          Complex.ofReal_re, Complex.ofReal_im]
        nlinarith [mul_nonneg (sub_nonneg.mpr hs.2) (neg_nonneg.mpr h2), sq_nonneg ((1 - s) * (b.re - a.re)),
          sq_nonneg ((1 - s) * (b.im - a.im))]
      · exact ⟨1, ⟨by norm_num, le_refl _⟩, by simp⟩
    · next h2 =>
      rw [abs_abs]
      have hab : b - a ≠ 0 := by
        intro h0
        rw [h0] at h
        simp [dot] at h
      have hpos : 0 < ‖b - a‖ := norm_pos_iff.mpr hab
      have hsq : 0 < ‖b - a‖ ^ 2 := by positivity
      -- distance to the line squared
      have key : ∀ s : ℝ, ‖c - (a + s * (b - a))‖ ^ 2 * ‖b - a‖ ^ 2 =
          cross2 (b - a) (c - a) ^ 2 + (dot (b - a) (c - a) - s * ‖b - a‖ ^ 2) ^ 2 := by
        intro s
        simp only [norm_sq', cross2, dot, Complex.sub_re, Complex.sub_im, Complex.add_re, Complex.add_im,
          Complex.mul_re, Complex.mul_im, Complex.ofReal_re, Complex.ofReal_im]
        ring
      have hd2 : |lineDistance a b c| ^ 2 * ‖b - a‖ ^ 2 = cross2 (b - a) (c - a) ^ 2 := by
        unfold lineDistance
        rw [sq_abs, div_pow, div_mul_cancel₀ _ (ne_of_gt hsq)]
      apply infDist_eq
      · intro s _
        apply (pow_le_pow_iff_left₀ (abs_nonneg _) (norm_nonneg _) (by norm_num : (2:ℕ) ≠ 0)).mp
        have h3 := key s
        have h4 := sq_nonneg (dot (b - a) (c - a) - s * ‖b - a‖ ^ 2)
        by_contra hc
        have := mul_lt_mul_of_pos_right (not_le.mp hc) hsq
        linarith
      · refine ⟨dot (b - a) (c - a) / ‖b - a‖ ^ 2, ⟨by apply div_nonneg (le_of_lt (not_le.mp h)) hsq.le, ?_⟩, ?_⟩
        · rw [div_le_one hsq, norm_sq']
          rw [not_le] at h2
          simp only [dot, Complex.sub_re, Complex.sub_im] at h2 ⊢
          nlinarith
        · apply (pow_left_inj₀ (norm_nonneg _) (abs_nonneg _) (by norm_num : (2:ℕ) ≠ 0)).mp
          have h3 := key (dot (b - a) (c - a) / ‖b - a‖ ^ 2)
          rw [div_mul_cancel₀ _ (ne_of_gt hsq), sub_self] at h3
          apply mul_right_cancel₀ (ne_of_gt hsq)
          rw [h3, hd2]; ring

end Verif.Path2D
