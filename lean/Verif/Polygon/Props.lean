import Verif.Polygon.Spec
import Mathlib.Tactic.Ring
import Mathlib.Tactic.Linarith
import Mathlib.Tactic.FieldSimp
import Mathlib.Algebra.Order.Field.Rat
/-! # Properties of footprint polygons (C31) -/
set_option linter.unusedSectionVars false
namespace Verif.Polygon
open Spec

variable {K : Type} [Field K] [LinearOrder K] [IsStrictOrderedRing K]

theorem straddles_symm (a v1 v2 : Pt K) : straddles a v1 v2 = straddles a v2 v1 := by
  unfold straddles; rw [Bool.or_comm]

theorem lx_symm {a v1 v2 : Pt K} (h : straddles a v1 v2 = true) : lx a v1 v2 = lx a v2 v1 := by
  have hne : v2.2 - v1.2 ≠ 0 := by
    intro h0
    have : v2.2 = v1.2 := by linarith
    simp only [straddles, this, Bool.or_self, Bool.and_eq_true, decide_eq_true_eq] at h
    exact absurd h.2 (not_lt.mpr h.1)
  have hne' : v1.2 - v2.2 ≠ 0 := fun h0 => hne (by linarith)
  unfold lx
  rw [show v1.2 - v2.2 = -(v2.2 - v1.2) by ring]
  field_simp
  ring

/-- One edge's contribution. -/
def hit (a v1 v2 : Pt K) : Nat := if straddles a v1 v2 then if a.1 < lx a v1 v2 then 1 else 0 else 0

theorem hit_symm (a v1 v2 : Pt K) : hit a v1 v2 = hit a v2 v1 := by
  unfold hit
  rw [← straddles_symm a v1 v2]
  by_cases h : straddles a v1 v2 = true
  · simp only [h, if_true, lx_symm h]
  · simp only [h]; rfl

theorem crossings_cons (a v1 v2 : Pt K) (vs : List (Pt K)) :
    crossings a (v1 :: v2 :: vs) = hit a v1 v2 + crossings a (v2 :: vs) := rfl

theorem crossings_append (a m : Pt K) : ∀ (l r : List (Pt K)),
    crossings a (l ++ m :: r) = crossings a (l ++ [m]) + crossings a (m :: r)
  | [], r => by simp [crossings]
  | [x], r => by
    show crossings a (x :: m :: r) = crossings a (x :: [m]) + _
    rw [crossings_cons, crossings_cons]; simp [crossings]
  | x :: y :: l, r => by
    show crossings a (x :: y :: (l ++ m :: r)) = crossings a (x :: y :: (l ++ [m])) + _
    rw [crossings_cons, crossings_cons]
    have := crossings_append a m (y :: l) r
    simp only [List.cons_append] at this
    rw [this]; omega

theorem crossings_reverse (a : Pt K) : ∀ l : List (Pt K), crossings a l.reverse = crossings a l
  | [] => rfl
  | [_] => rfl
  | x :: y :: l => by
    have ih := crossings_reverse a (y :: l)
    rw [List.reverse_cons] at ih
    rw [List.reverse_cons, List.reverse_cons, List.append_assoc]
    show crossings a (l.reverse ++ y :: [x]) = _
    rw [crossings_append, ih, crossings_cons, crossings_cons, hit_symm a y x]
    simp [crossings]; omega

theorem crossings_rotate (a : Pt K) (xs ys : List (Pt K)) :
    crossings a (close (xs ++ ys)) = crossings a (close (ys ++ xs)) := by
  cases xs with
  | nil => simp
  | cons x xs =>
    cases ys with
    | nil => simp
    | cons y ys =>
      show crossings a ((x :: xs) ++ (y :: ys) ++ [x]) = crossings a ((y :: ys) ++ (x :: xs) ++ [y])
      have h1 : (x :: xs) ++ (y :: ys) ++ [x] = (x :: xs) ++ y :: (ys ++ [x]) := by simp
      have h2 : (y :: ys) ++ (x :: xs) ++ [y] = (y :: ys) ++ x :: (xs ++ [y]) := by simp
      rw [h1, h2, crossings_append, crossings_append a x]
      show crossings a ((x :: xs) ++ [y]) + crossings a ((y :: ys) ++ [x])
        = crossings a ((y :: ys) ++ [x]) + crossings a ((x :: xs) ++ [y])
      omega

/-- C31: the answer does not depend on which vertex the parameter starts with. -/
theorem inside_rotate (a : Pt K) (xs ys : List (Pt K)) :
    inside (close (xs ++ ys)) a = inside (close (ys ++ xs)) a := by
  unfold inside; rw [crossings_rotate]

/-- C31: nor on the orientation of the polygon. -/
theorem inside_reverse (a : Pt K) (pts : List (Pt K)) : inside (close pts.reverse) a = inside (close pts) a := by
  cases pts with
  | nil => rfl
  | cons p t =>
    have h1 : inside (close (p :: t).reverse) a = inside (close (p :: t.reverse)) a := by
      rw [List.reverse_cons]
      exact inside_rotate a t.reverse [p]
    rw [h1]
    unfold inside
    rw [← crossings_reverse a (close (p :: t))]
    congr 3
    simp [close]

/-! ### Everything inside lies between two points of the outline -/

/-- The edge point at the height of `a` on a straddling edge. -/
theorem edge_point {a v1 v2 : Pt K} (h : straddles a v1 v2 = true) :
    ∃ t : K, 0 ≤ t ∧ t ≤ 1 ∧ lx a v1 v2 = v1.1 + t * (v2.1 - v1.1) ∧ a.2 = v1.2 + t * (v2.2 - v1.2) := by
  simp only [straddles, Bool.or_eq_true, Bool.and_eq_true, decide_eq_true_eq] at h
  refine ⟨(a.2 - v1.2) / (v2.2 - v1.2), ?_, ?_, ?_, ?_⟩
  · rcases h with ⟨h1, h2⟩ | ⟨h1, h2⟩
    · exact div_nonneg (by linarith) (by linarith)
    · exact div_nonneg_of_nonpos (by linarith) (by linarith)
  · rcases h with ⟨h1, h2⟩ | ⟨h1, h2⟩
    · rw [div_le_one (by linarith)]; linarith
    · rw [div_le_one_of_neg (by linarith)]; linarith
  · unfold lx; ring
  · have hne : v2.2 - v1.2 ≠ 0 := by rcases h with ⟨h1, h2⟩ | ⟨h1, h2⟩ <;> intro h0 <;> linarith
    field_simp; ring

/-- Crossings to the left of (or at) the point. -/
def left (a : Pt K) : List (Pt K) → Nat
  | v1 :: v2 :: vs => (if straddles a v1 v2 then if a.1 < lx a v1 v2 then 0 else 1 else 0) + left a (v2 :: vs)
  | _ => 0

/-- The vertex is not above the point. -/
def low (a p : Pt K) : Bool := decide (p.2 ≤ a.2)

theorem straddles_low (a v1 v2 : Pt K) : straddles a v1 v2 = (low a v1 != low a v2) := by
  unfold straddles low
  by_cases h1 : v1.2 ≤ a.2 <;> by_cases h2 : v2.2 ≤ a.2 <;>
    simp [h1, h2, not_lt.mpr, not_le.mp]

theorem parity (a : Pt K) : ∀ (v : List (Pt K)) (h : v ≠ []),
    (crossings a v + left a v) % 2 = (low a (v.head h) != low a (v.getLast h)).toNat
  | [], h => absurd rfl h
  | [p], _ => by simp [crossings, left]
  | v1 :: v2 :: vs, h => by
    have ih := parity a (v2 :: vs) (by simp)
    rw [List.getLast_cons (by simp)]
    simp only [List.head_cons] at ih ⊢
    generalize ((v2 :: vs).getLast _) = e at ih ⊢
    have key : crossings a (v1 :: v2 :: vs) + left a (v1 :: v2 :: vs)
        = (straddles a v1 v2).toNat + (crossings a (v2 :: vs) + left a (v2 :: vs)) := by
      simp only [crossings, left]
      by_cases h1 : straddles a v1 v2 = true <;> by_cases h2 : a.1 < lx a v1 v2 <;> simp [h1, h2] <;> omega
    rw [key, straddles_low]
    generalize low a v1 = b1 at *
    generalize low a v2 = b2 at *
    generalize low a e = b3 at *
    cases b1 <;> cases b2 <;> cases b3 <;> simp at ih ⊢ <;> omega

theorem exists_right (a : Pt K) : ∀ v : List (Pt K), 0 < crossings a v →
    ∃ l v1 v2 r, v = l ++ v1 :: v2 :: r ∧ straddles a v1 v2 = true ∧ a.1 < lx a v1 v2
  | [], h => by simp [crossings] at h
  | [_], h => by simp [crossings] at h
  | v1 :: v2 :: vs, h => by
    by_cases hc : straddles a v1 v2 = true ∧ a.1 < lx a v1 v2
    · exact ⟨[], v1, v2, vs, rfl, hc.1, hc.2⟩
    · have : hit a v1 v2 = 0 := by
        unfold hit; by_cases h1 : straddles a v1 v2 = true
        · have : ¬ a.1 < lx a v1 v2 := fun h2 => hc ⟨h1, h2⟩
          simp [h1, this]
        · simp [h1]
      rw [crossings_cons, this] at h
      obtain ⟨l, p, q, r, e, h1, h2⟩ := exists_right a (v2 :: vs) (by omega)
      exact ⟨v1 :: l, p, q, r, by rw [e]; rfl, h1, h2⟩

theorem exists_left (a : Pt K) : ∀ v : List (Pt K), 0 < left a v →
    ∃ l v1 v2 r, v = l ++ v1 :: v2 :: r ∧ straddles a v1 v2 = true ∧ lx a v1 v2 ≤ a.1
  | [], h => by simp [left] at h
  | [_], h => by simp [left] at h
  | v1 :: v2 :: vs, h => by
    by_cases hc : straddles a v1 v2 = true ∧ lx a v1 v2 ≤ a.1
    · exact ⟨[], v1, v2, vs, rfl, hc.1, hc.2⟩
    · have : (if straddles a v1 v2 then if a.1 < lx a v1 v2 then 0 else 1 else 0) = 0 := by
        by_cases h1 : straddles a v1 v2 = true
        · have : a.1 < lx a v1 v2 := not_le.mp fun h2 => hc ⟨h1, h2⟩
          simp [h1, this]
        · simp [h1]
      unfold left at h
      rw [this] at h
      obtain ⟨l, p, q, r, e, h1, h2⟩ := exists_left a (v2 :: vs) (by omega)
      exact ⟨v1 :: l, p, q, r, by rw [e]; rfl, h1, h2⟩

theorem close_ne {p : Pt K} {ps : List (Pt K)} : close (p :: ps) ≠ [] := by simp [close]

/-- C31: a point reported inside has a point of the outline to its left (or at it) and one to its right, both at its
own height. -/
theorem inside_between (pts : List (Pt K)) (a : Pt K) (h : inside (close pts) a = true) :
    ∃ l r : K, l ≤ a.1 ∧ a.1 < r ∧ OnOutline (close pts) (l, a.2) ∧ OnOutline (close pts) (r, a.2) := by
  cases pts with
  | nil => simp [inside, close, crossings] at h
  | cons p ps =>
    have hp := parity a (close (p :: ps)) close_ne
    have hlast : (close (p :: ps)).getLast close_ne = p := by simp [close]
    have hhead : (close (p :: ps)).head close_ne = p := by simp [close]
    rw [hlast, hhead] at hp
    simp only [bne_self_eq_false, Bool.toNat_false] at hp
    have hodd : crossings a (close (p :: ps)) % 2 = 1 := by simpa [inside] using h
    obtain ⟨l1, v1, v2, r1, e1, s1, x1⟩ := exists_right a _ (show 0 < crossings a (close (p :: ps)) by omega)
    obtain ⟨l2, w1, w2, r2, e2, s2, x2⟩ := exists_left a _ (show 0 < left a (close (p :: ps)) by omega)
    obtain ⟨t, t0, t1, tx, ty⟩ := edge_point s1
    obtain ⟨u, u0, u1, ux, uy⟩ := edge_point s2
    exact ⟨_, _, x2, x1, ⟨l2, w1, w2, r2, e2, u, u0, u1, by rw [← ux, ← uy]⟩,
      ⟨l1, v1, v2, r1, e1, t, t0, t1, by rw [← tx, ← ty]⟩⟩

theorem mem_close {pts : List (Pt K)} {p : Pt K} (h : p ∈ close pts) : p ∈ pts := by
  cases pts with
  | nil => exact h
  | cons q qs => simp [close] at h ⊢; tauto

/-- C31: everything reported inside lies in the convex hull of the vertices. -/
theorem inside_in_hull (pts : List (Pt K)) (a : Pt K) (h : inside (close pts) a = true) : InHull pts a := by
  obtain ⟨l, r, hl, hr, ⟨l1, v1, v2, r1, e1, t, t0, t1, et⟩, ⟨l2, w1, w2, r2, e2, u, u0, u1, eu⟩⟩ :=
    inside_between pts a h
  intro α β γ hv
  have m1 := hv v1 (mem_close (by rw [e1]; simp))
  have m2 := hv v2 (mem_close (by rw [e1]; simp))
  have m3 := hv w1 (mem_close (by rw [e2]; simp))
  have m4 := hv w2 (mem_close (by rw [e2]; simp))
  simp only [Prod.mk.injEq] at et eu
  have g1 : α * l + β * a.2 ≤ γ := by
    rw [et.1]; nth_rewrite 1 [et.2]
    nlinarith [mul_nonneg t0 (sub_nonneg.mpr m2), mul_nonneg (sub_nonneg.mpr t1) (sub_nonneg.mpr m1)]
  have g2 : α * r + β * a.2 ≤ γ := by
    rw [eu.1]; nth_rewrite 1 [eu.2]
    nlinarith [mul_nonneg u0 (sub_nonneg.mpr m4), mul_nonneg (sub_nonneg.mpr u1) (sub_nonneg.mpr m3)]
  rcases le_total 0 α with hα | hα
  · nlinarith [mul_le_mul_of_nonneg_left hr.le hα]
  · nlinarith [mul_le_mul_of_nonpos_left hl hα]

/-- C31: in particular nothing outside the bounding box is inside. -/
theorem inside_in_box (pts : List (Pt K)) (a : Pt K) (x0 x1 y0 y1 : K)
    (hbox : ∀ p ∈ pts, x0 ≤ p.1 ∧ p.1 ≤ x1 ∧ y0 ≤ p.2 ∧ p.2 ≤ y1) (h : inside (close pts) a = true) :
    x0 ≤ a.1 ∧ a.1 ≤ x1 ∧ y0 ≤ a.2 ∧ a.2 ≤ y1 := by
  have hh := inside_in_hull pts a h
  have b1 := hh (-1) 0 (-x0) (fun p hp => by have := hbox p hp; linarith)
  have b2 := hh 1 0 x1 (fun p hp => by have := hbox p hp; linarith)
  have b3 := hh 0 (-1) (-y0) (fun p hp => by have := hbox p hp; linarith)
  have b4 := hh 0 1 y1 (fun p hp => by have := hbox p hp; linarith)
  refine ⟨by linarith, by linarith, by linarith, by linarith⟩

/-- C31: and nothing outside the circle through the farthest vertex. -/
theorem inside_in_disc (pts : List (Pt K)) (a : Pt K) (R2 : K) (hR : ∀ p ∈ pts, p.1 ^ 2 + p.2 ^ 2 ≤ R2)
    (h : inside (close pts) a = true) : a.1 ^ 2 + a.2 ^ 2 ≤ R2 := by
  have hh := inside_in_hull pts a h
  by_contra hc
  have hc := not_le.mp hc
  -- the half-plane whose normal is `a` itself
  have hγ := hh a.1 a.2 ((R2 + (a.1 ^ 2 + a.2 ^ 2)) / 2) (fun p hp => by
    have := hR p hp
    nlinarith [sq_nonneg (p.1 - a.1), sq_nonneg (p.2 - a.2)])
  nlinarith

/-- C31: for an axis-aligned rectangle the test is exact: the lower and left sides belong to it, the upper and right
ones do not. -/
theorem inside_rect (x0 x1 y0 y1 : K) (hx : x0 ≤ x1) (hy : y0 ≤ y1) (a : Pt K) :
    inside (close [(x0, y0), (x1, y0), (x1, y1), (x0, y1)]) a = true ↔
      (x0 ≤ a.1 ∧ a.1 < x1) ∧ (y0 ≤ a.2 ∧ a.2 < y1) := by
  have key : crossings a (close [(x0, y0), (x1, y0), (x1, y1), (x0, y1)])
      = hit a (x1, y0) (x1, y1) + hit a (x0, y1) (x0, y0) := by
    have h1 : hit a (x0, y0) (x1, y0) = 0 := by
      unfold hit straddles
      by_cases h : y0 ≤ a.2
      · simp [h, not_lt.mpr h]
      · simp [h]
    have h2 : hit a (x1, y1) (x0, y1) = 0 := by
      unfold hit straddles
      by_cases h : y1 ≤ a.2
      · simp [h, not_lt.mpr h]
      · simp [h]
    show crossings a [(x0, y0), (x1, y0), (x1, y1), (x0, y1), (x0, y0)] = _
    rw [crossings_cons, crossings_cons, crossings_cons, crossings_cons, h1, h2]
    simp [crossings]
  have e : ∀ x : K, hit a (x, y0) (x, y1) = if (y0 ≤ a.2 ∧ a.2 < y1) ∧ a.1 < x then 1 else 0 := by
    intro x
    unfold hit straddles lx
    have h4 : ¬ (y1 ≤ a.2 ∧ a.2 < y0) := fun h => absurd (lt_of_le_of_lt (le_trans hy h.1) h.2) (lt_irrefl _)
    by_cases h0 : y0 ≤ a.2 ∧ a.2 < y1
    · simp [h0.1, h0.2]
    · have : ((decide (y0 ≤ a.2) && decide (a.2 < y1)) || (decide (y1 ≤ a.2) && decide (a.2 < y0))) = false := by
        rw [Bool.or_eq_false_iff]
        constructor
        · rw [← Bool.not_eq_true, Bool.and_eq_true, decide_eq_true_eq, decide_eq_true_eq]; exact h0
        · rw [← Bool.not_eq_true, Bool.and_eq_true, decide_eq_true_eq, decide_eq_true_eq]; exact h4
      simp only [this, h0, false_and, if_false]
      rfl
  rw [hit_symm a (x0, y1) (x0, y0), e, e] at key
  unfold inside
  rw [key]
  by_cases h0 : y0 ≤ a.2 ∧ a.2 < y1
  · by_cases h1 : a.1 < x1 <;> by_cases h2 : a.1 < x0
    · simp [h0, h1, h2]
    · simp [h0, h1, h2, not_lt.mp h2]
    · exact absurd (lt_of_lt_of_le h2 hx) h1
    · simp [h0, h1, h2]
  · simp only [h0, false_and, if_false, and_false, iff_false]; simp

/-- C31: moving the polygon without turning it moves the answer. -/
theorem inside_translate (v : List (Pt K)) (a : Pt K) (x y : K) :
    inside (moveCS x y 1 0 v) (a.1 + x, a.2 + y) = inside v a := by
  have h1 : ∀ v1 v2 : Pt K, hit (a.1 + x, a.2 + y) (1 * v1.1 - 0 * v1.2 + x, 0 * v1.1 + 1 * v1.2 + y)
      (1 * v2.1 - 0 * v2.2 + x, 0 * v2.1 + 1 * v2.2 + y) = hit a v1 v2 := by
    intro v1 v2
    unfold hit straddles lx
    simp only [one_mul, zero_mul, sub_zero, zero_add, add_le_add_iff_right, add_lt_add_iff_right]
    have : v1.1 + x + (v2.1 + x - (v1.1 + x)) * (a.2 + y - (v1.2 + y)) / (v2.2 + y - (v1.2 + y))
        = v1.1 + (v2.1 - v1.1) * (a.2 - v1.2) / (v2.2 - v1.2) + x := by
      rw [show v2.1 + x - (v1.1 + x) = v2.1 - v1.1 by ring, show a.2 + y - (v1.2 + y) = a.2 - v1.2 by ring,
        show v2.2 + y - (v1.2 + y) = v2.2 - v1.2 by ring]; ring
    simp only [this, add_lt_add_iff_right]
  have : ∀ v, crossings (a.1 + x, a.2 + y) (moveCS x y 1 0 v) = crossings a v := by
    intro v
    induction v with
    | nil => rfl
    | cons p v ih =>
      cases v with
      | nil => rfl
      | cons q v =>
        show crossings _ (_ :: _ :: _) = _
        rw [crossings_cons, crossings_cons, h1]
        exact congrArg _ ih
  unfold inside; rw [this]

theorem ofParam_spec (pts : List (Pt K)) :
    ofParam pts = if 3 ≤ pts.length then some (close pts) else none := by
  unfold ofParam
  by_cases h : pts.length < 3
  · rw [if_pos h, if_neg (by omega)]
  · rw [if_neg h, if_pos (by omega)]

/-! ### Distance to the outline -/

theorem hypot_nonneg (x y : ℝ) : 0 ≤ hypot x y := Real.sqrt_nonneg _

theorem hypot_sq (x y : ℝ) : hypot x y ^ 2 = x ^ 2 + y ^ 2 := Real.sq_sqrt (by positivity)

theorem abs_fst_le_hypot (x y : ℝ) : |x| ≤ hypot x y := Real.abs_le_sqrt (by nlinarith [sq_nonneg y])

theorem abs_snd_le_hypot (x y : ℝ) : |y| ≤ hypot x y := Real.abs_le_sqrt (by nlinarith [sq_nonneg x])

theorem hypot_le_iff {x y r : ℝ} (hr : 0 ≤ r) : hypot x y ≤ r ↔ x ^ 2 + y ^ 2 ≤ r ^ 2 := by
  unfold hypot; rw [Real.sqrt_le_left hr]

theorem dist_le_dist {p q r : Pt ℝ} (h : (p.1 - q.1) ^ 2 + (p.2 - q.2) ^ 2 ≤ (p.1 - r.1) ^ 2 + (p.2 - r.2) ^ 2) :
    dist p q ≤ dist p r := Real.sqrt_le_sqrt h

/-- C74: the distance to an edge is attained on the edge, and no point of the edge is nearer. -/
theorem distLinestrip_spec (p a b : Pt ℝ) :
    (∃ q, OnSegment a b q ∧ distLinestrip p a b = dist p q) ∧ (∀ q, OnSegment a b q → distLinestrip p a b ≤ dist p q) := by
  unfold distLinestrip
  by_cases h1 : dot (sub b a) (sub p a) ≤ 0
  · rw [if_pos h1]
    refine ⟨⟨a, ⟨0, le_refl _, zero_le_one, by simp⟩, rfl⟩, ?_⟩
    rintro q ⟨t, t0, t1, rfl⟩
    apply dist_le_dist
    simp only [dot, sub] at h1
    nlinarith [mul_nonneg t0 (neg_nonneg.mpr h1), sq_nonneg (t * (b.1 - a.1)), sq_nonneg (t * (b.2 - a.2))]
  · rw [if_neg h1]
    by_cases h2 : dot (sub a b) (sub p b) ≤ 0
    · rw [if_pos h2]
      refine ⟨⟨b, ⟨1, zero_le_one, le_refl _, by simp⟩, rfl⟩, ?_⟩
      rintro q ⟨t, t0, t1, rfl⟩
      apply dist_le_dist
      simp only [dot, sub] at h2
      nlinarith [mul_nonneg (sub_nonneg.mpr t1) (neg_nonneg.mpr h2), sq_nonneg ((1 - t) * (b.1 - a.1)),
        sq_nonneg ((1 - t) * (b.2 - a.2))]
    · rw [if_neg h2]
      simp only [dot, sub, not_le] at h1 h2
      -- squared length of the edge
      have hL : 0 < (b.1 - a.1) ^ 2 + (b.2 - a.2) ^ 2 := by nlinarith
      generalize hLe : (b.1 - a.1) ^ 2 + (b.2 - a.2) ^ 2 = L at hL
      have hd : dist b a = Real.sqrt L := by rw [← hLe]; rfl
      have habs : |distLine p a b| = Real.sqrt (((b.1 - a.1) * (p.2 - a.2) - (b.2 - a.2) * (p.1 - a.1)) ^ 2 / L) := by
        unfold distLine cross
        rw [hd, abs_div, abs_of_nonneg (Real.sqrt_nonneg L), Real.sqrt_div (sq_nonneg _), Real.sqrt_sq_eq_abs]
        rfl
      rw [habs]
      constructor
      · refine ⟨(a.1 + (((b.1 - a.1) * (p.1 - a.1) + (b.2 - a.2) * (p.2 - a.2)) / L) * (b.1 - a.1),
          a.2 + (((b.1 - a.1) * (p.1 - a.1) + (b.2 - a.2) * (p.2 - a.2)) / L) * (b.2 - a.2)),
          ⟨_, ?_, ?_, rfl⟩, ?_⟩
        · exact div_nonneg h1.le hL.le
        · rw [div_le_one hL]; nlinarith
        · unfold dist hypot
          congr 1
          rw [eq_comm]
          have hL' : L ≠ 0 := hL.ne'
          field_simp
          rw [← hLe]; ring
      · rintro q ⟨t, t0, t1, rfl⟩
        unfold dist hypot
        apply Real.sqrt_le_sqrt
        rw [div_le_iff₀ hL, ← hLe]
        simp only []
        nlinarith [sq_nonneg ((b.1 - a.1) * (p.1 - (a.1 + t * (b.1 - a.1))) + (b.2 - a.2) * (p.2 - (a.2 + t * (b.2 - a.2))))]

theorem distFrom_le_big (p : Pt ℝ) : ∀ (v : List (Pt ℝ)) (big : ℝ), distFrom big p v ≤ big
  | [], _ => le_refl _
  | [_], _ => le_refl _
  | v1 :: v2 :: vs, big => by
    refine le_trans (distFrom_le_big p (v2 :: vs) _) ?_
    split
    · next h => exact h.le
    · exact le_refl _

theorem distFrom_le (p q : Pt ℝ) : ∀ (v : List (Pt ℝ)) (big : ℝ), OnOutline v q → distFrom big p v ≤ dist p q
  | [], _, h => by obtain ⟨l, a, b, r, e, -⟩ := h; cases l <;> simp at e
  | [_], _, h => by
    obtain ⟨l, a, b, r, e, -⟩ := h
    have := congrArg List.length e; simp at this; omega
  | v1 :: v2 :: vs, big, h => by
    obtain ⟨l, a, b, r, e, hs⟩ := h
    cases l with
    | nil =>
      simp only [List.nil_append, List.cons.injEq] at e
      obtain ⟨rfl, rfl, -⟩ := e
      refine le_trans ?_ ((distLinestrip_spec p v1 v2).2 q hs)
      refine le_trans (distFrom_le_big p (v2 :: vs) _) ?_
      split
      · exact le_refl _
      · next h => exact not_lt.mp h
    | cons c l =>
      simp only [List.cons_append, List.cons.injEq] at e
      exact distFrom_le p q (v2 :: vs) _ ⟨l, a, b, r, e.2, hs⟩

theorem distFrom_attained (p : Pt ℝ) : ∀ (v : List (Pt ℝ)) (big : ℝ), distFrom big p v < big →
    ∃ q, OnOutline v q ∧ distFrom big p v = dist p q
  | [], _, h => absurd h (lt_irrefl _)
  | [_], _, h => absurd h (lt_irrefl _)
  | v1 :: v2 :: vs, big, h => by
    simp only [distFrom] at h ⊢
    generalize hb : (if distLinestrip p v1 v2 < big then distLinestrip p v1 v2 else big) = b' at h ⊢
    rcases lt_or_eq_of_le (distFrom_le_big p (v2 :: vs) b') with h1 | h1
    · obtain ⟨q, ⟨l, a, b, r, e, hs⟩, hq⟩ := distFrom_attained p (v2 :: vs) b' h1
      exact ⟨q, ⟨v1 :: l, a, b, r, by rw [e]; rfl, hs⟩, hq⟩
    · rw [h1] at h ⊢
      by_cases h2 : distLinestrip p v1 v2 < big
      · rw [if_pos h2] at hb
        obtain ⟨q, hq, e⟩ := (distLinestrip_spec p v1 v2).1
        exact ⟨q, ⟨[], v1, v2, vs, rfl, hq⟩, by rw [← hb, e]⟩
      · rw [if_neg h2] at hb
        exact absurd h (by rw [hb]; exact lt_irrefl _)

/-- C74: the reported distance is the distance from the point to the nearest point of the outline (`big` being larger
than any distance that occurs). -/
theorem dist_spec (big : ℝ) (p : Pt ℝ) (v : List (Pt ℝ)) (hbig : ∃ q, OnOutline v q ∧ dist p q < big) :
    (∃ q, OnOutline v q ∧ distFrom big p v = dist p q) ∧ ∀ q, OnOutline v q → distFrom big p v ≤ dist p q := by
  refine ⟨?_, fun q hq => distFrom_le p q v big hq⟩
  obtain ⟨q, hq, hb⟩ := hbig
  exact distFrom_attained p v big (lt_of_le_of_lt (distFrom_le p q v big hq) hb)

theorem radius_fold (v : List (Pt ℝ)) : ∀ r : ℝ,
    r ≤ v.foldl (fun r p => if hypot p.1 p.2 > r then hypot p.1 p.2 else r) r ∧
    (∀ p ∈ v, hypot p.1 p.2 ≤ v.foldl (fun r p => if hypot p.1 p.2 > r then hypot p.1 p.2 else r) r) ∧
    (v.foldl (fun r p => if hypot p.1 p.2 > r then hypot p.1 p.2 else r) r = r ∨
      ∃ p ∈ v, v.foldl (fun r p => if hypot p.1 p.2 > r then hypot p.1 p.2 else r) r = hypot p.1 p.2) := by
  induction v with
  | nil => intro r; simp
  | cons p v ih =>
    intro r
    simp only [List.foldl_cons]
    generalize hr : (if hypot p.1 p.2 > r then hypot p.1 p.2 else r) = r'
    have hr1 : r ≤ r' := by
      rw [← hr]; split
      · next h => exact h.le
      · exact le_refl _
    have hr2 : hypot p.1 p.2 ≤ r' := by
      rw [← hr]; split
      · exact le_refl _
      · next h => exact not_lt.mp h
    obtain ⟨h1, h2, h3⟩ := ih r'
    refine ⟨le_trans hr1 h1, ?_, ?_⟩
    · intro q hq
      rcases List.mem_cons.mp hq with rfl | hq
      · exact le_trans hr2 h1
      · exact h2 q hq
    · rcases h3 with h3 | ⟨q, hq, e⟩
      · rw [h3]
        by_cases h : hypot p.1 p.2 > r
        · rw [if_pos h] at hr; exact Or.inr ⟨p, by simp, hr.symm⟩
        · rw [if_neg h] at hr; exact Or.inl hr.symm
      · exact Or.inr ⟨q, by simp [hq], e⟩

/-- C74: the reported radius is the distance of the farthest vertex. -/
theorem radius_spec (v : List (Pt ℝ)) (hv : v ≠ []) :
    (∃ p ∈ v, radius v = hypot p.1 p.2) ∧ ∀ p ∈ v, hypot p.1 p.2 ≤ radius v := by
  obtain ⟨h1, h2, h3⟩ := radius_fold v 0
  refine ⟨?_, h2⟩
  rcases h3 with h3 | h3
  · obtain ⟨p, hp⟩ := List.exists_mem_of_ne_nil v hv
    refine ⟨p, hp, le_antisymm ?_ (h2 p hp)⟩
    show List.foldl _ _ _ ≤ _
    rw [h3]; exact hypot_nonneg _ _
  · exact h3

theorem radius_nonneg (v : List (Pt ℝ)) : 0 ≤ radius v := (radius_fold v 0).1

/-- C74: everything reported inside lies within the radius of the origin. -/
theorem inside_within_radius (pts : List (Pt ℝ)) (a : Pt ℝ) (h : inside (close pts) a = true) :
    hypot a.1 a.2 ≤ radius (close pts) := by
  rw [hypot_le_iff (radius_nonneg _)]
  refine inside_in_disc pts a _ ?_ h
  intro p hp
  rw [← hypot_le_iff (radius_nonneg _)]
  refine (radius_fold (close pts) 0).2.1 p ?_
  cases pts with
  | nil => simp at hp
  | cons q qs => simp [close] at hp ⊢; tauto

/-- The pose `(x, y, yaw)` applied to one point. -/
noncomputable def place (x y yaw : ℝ) (p : Pt ℝ) : Pt ℝ :=
  (Real.cos yaw * p.1 - Real.sin yaw * p.2 + x, Real.sin yaw * p.1 + Real.cos yaw * p.2 + y)

theorem move_eq (x y yaw : ℝ) (v : List (Pt ℝ)) : move x y yaw v = v.map (place x y yaw) := rfl

/-- C74: moving a footprint is a rigid motion. -/
theorem dist_place (x y yaw : ℝ) (p q : Pt ℝ) : dist (place x y yaw p) (place x y yaw q) = dist p q := by
  unfold dist hypot place
  congr 1
  have := Real.sin_sq_add_cos_sq yaw
  simp only []
  linear_combination ((p.1 - q.1) ^ 2 + (p.2 - q.2) ^ 2) * this

theorem onOutline_place (x y yaw : ℝ) (v : List (Pt ℝ)) (q : Pt ℝ) (h : OnOutline v q) :
    OnOutline (move x y yaw v) (place x y yaw q) := by
  obtain ⟨l, a, b, r, rfl, t, t0, t1, rfl⟩ := h
  refine ⟨l.map (place x y yaw), place x y yaw a, place x y yaw b, r.map (place x y yaw), by simp [move_eq], t, t0, t1, ?_⟩
  simp only [place, Prod.mk.injEq]
  constructor <;> ring

theorem onOutline_place' (x y yaw : ℝ) (v : List (Pt ℝ)) (q' : Pt ℝ) (h : OnOutline (move x y yaw v) q') :
    ∃ q, OnOutline v q ∧ q' = place x y yaw q := by
  obtain ⟨l, a, b, r, e, t, t0, t1, rfl⟩ := h
  rw [move_eq, List.map_eq_append_iff] at e
  obtain ⟨l', r', rfl, -, e⟩ := e
  rw [List.map_eq_cons_iff] at e
  obtain ⟨a', r'', rfl, rfl, e⟩ := e
  rw [List.map_eq_cons_iff] at e
  obtain ⟨b', r', rfl, rfl, -⟩ := e
  refine ⟨_, ⟨l', a', b', r', rfl, t, t0, t1, rfl⟩, ?_⟩
  simp only [place, Prod.mk.injEq]
  constructor <;> ring

/-- C74: the distance from a moved point to the moved footprint is the original distance. -/
theorem dist_move (big x y yaw : ℝ) (v : List (Pt ℝ)) (p : Pt ℝ) (hbig : ∃ q, OnOutline v q ∧ dist p q < big) :
    distFrom big (place x y yaw p) (move x y yaw v) = distFrom big p v := by
  obtain ⟨⟨q, hq, e⟩, hmin⟩ := dist_spec big p v hbig
  obtain ⟨q0, hq0, hb⟩ := hbig
  obtain ⟨⟨q', hq', e'⟩, hmin'⟩ := dist_spec big (place x y yaw p) (move x y yaw v)
    ⟨place x y yaw q0, onOutline_place _ _ _ _ _ hq0, by rw [dist_place]; exact hb⟩
  obtain ⟨q1, hq1, rfl⟩ := onOutline_place' _ _ _ _ _ hq'
  apply le_antisymm
  · rw [e, ← dist_place x y yaw]
    exact hmin' _ (onOutline_place _ _ _ _ _ hq)
  · rw [e', dist_place]
    exact hmin _ hq1

/-- A square of side 2: distance 1 to the outline from the point `(3, 0)`. -/
example : distFrom 1000 (3, 0) (close [((-2 : ℝ), (-1 : ℝ)), (2, -1), (2, 1), (-2, 1)]) ≤ 1 := by
  refine le_trans (distFrom_le (3, 0) (2, 0) _ _ ⟨[(-2, -1)], (2, -1), (2, 1), [(-2, 1), (-2, -1)], rfl, 1 / 2,
    by norm_num, by norm_num, by norm_num⟩) ?_
  unfold dist hypot
  norm_num

/-- A concrete footprint: an L-shaped robot; the notch is outside, the body inside. -/
example : inside (close [((0 : ℚ), (0 : ℚ)), (4, 0), (4, 1), (1, 1), (1, 4), (0, 4)]) (1/2, 3) = true ∧
    inside (close [((0 : ℚ), (0 : ℚ)), (4, 0), (4, 1), (1, 1), (1, 4), (0, 4)]) (3, 3) = false := by
  decide +kernel

end Verif.Polygon
