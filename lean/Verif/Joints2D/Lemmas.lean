import Verif.Joints2D.Spec
import Verif.Model3D.Lemmas
import Verif.CSpace.Props
import Verif.Astar.Props
/-! # Lemmas for the two-joint planner -/
set_option linter.unusedVariables false
set_option linter.unusedSectionVars false
namespace Verif.Joints2D
open Verif.Model3D (cycU cycS upTo)
open Verif.CSpace (lround)
variable {K : Type} [Field K] [LinearOrder K] [IsStrictOrderedRing K] [FloorRing K]

/-! ### Timing -/

theorem span_nonneg (a b : K × K) : 0 ≤ span a b := le_max_of_le_left (abs_nonneg _)

theorem total_nonneg : ∀ l : List (K × K), 0 ≤ total l
  | [] => le_refl _
  | [_] => le_refl _
  | a :: b :: l => add_nonneg (span_nonneg a b) (total_nonneg (b :: l))

theorem speed_bounds (p : Par K) (hv : 0 < p.vmax.1 ∧ 0 < p.vmax.2) (t : K) (l : List (K × K)) :
    0 ≤ speed p t l ∧ speed p t l ≤ p.vmax.1 ∧ speed p t l ≤ p.vmax.2 := by
  unfold speed
  split
  · exact ⟨le_min hv.1.le hv.2.le, min_le_left _ _, min_le_right _ _⟩
  · rename_i ht
    have h0 : 0 ≤ total l / t := div_nonneg (total_nonneg l) (not_le.mp ht).le
    dsimp only
    by_cases h1 : total l / t > p.vmax.1
    · rw [if_pos h1]
      by_cases h2 : p.vmax.1 > p.vmax.2
      · rw [if_pos h2]; exact ⟨hv.2.le, h2.le, le_refl _⟩
      · rw [if_neg h2]; exact ⟨hv.1.le, le_refl _, not_lt.mp h2⟩
    · rw [if_neg h1]
      by_cases h2 : total l / t > p.vmax.2
      · rw [if_pos h2]; exact ⟨hv.2.le, (h2.le.trans (not_lt.mp h1)), le_refl _⟩
      · rw [if_neg h2]; exact ⟨h0, not_lt.mp h1, not_lt.mp h2⟩

theorem le_limit {v vm x y : K} (hv : 0 < v) (hm : v ≤ vm) (hx : x ≤ y) (hy : 0 ≤ y) : x ≤ vm * (y / v) := by
  refine hx.trans ?_
  calc y = v * (y / v) := by field_simp
    _ ≤ vm * (y / v) := mul_le_mul_of_nonneg_right hm (div_nonneg hy hv.le)

theorem points_respects (p : Par K) (v : K) (hv : 0 < v) (h1 : v ≤ p.vmax.1) (h2 : v ≤ p.vmax.2) :
    ∀ (l : List (K × K)) (prev : K × K) (sum : K), Respects p.vmax prev (sum / v) (points p v prev sum l)
  | [], _, _ => trivial
  | x :: l, prev, sum => by
    have hs := span_nonneg prev x
    have e : (sum + span prev x) / v - sum / v = span prev x / v := by rw [← sub_div]; congr 1; ring
    refine ⟨(sum + span prev x) / v, by simp [div?, hv.ne'], ?_, ?_, ?_, points_respects p v hv h1 h2 l x _⟩
    · have : 0 ≤ span prev x / v := div_nonneg hs hv.le
      linarith [e]
    · rw [e]; exact le_limit hv h1 (le_max_left _ _) hs
    · rw [e]; exact le_limit hv h2 (le_max_right _ _) hs

theorem points_last (p : Par K) (v : K) : ∀ (l : List (K × K)) (prev : K × K) (sum : K), l ≠ [] →
    ∃ x, (points p v prev sum l).getLast? = some x ∧ x.vel = some (0, 0) ∧ l.getLast? = some x.pos ∧
      x.time = div? (sum + total (prev :: l)) v
  | [], _, _, h => absurd rfl h
  | [x], prev, sum, _ => ⟨_, rfl, rfl, rfl, by show div? _ v = div? (sum + (span prev x + 0)) v; rw [add_zero]⟩
  | x :: y :: l, prev, sum, _ => by
    obtain ⟨z, h1, h2, h3, h4⟩ := points_last p v (y :: l) x (sum + span prev x) (by simp)
    refine ⟨z, ?_, h2, ?_, ?_⟩
    · unfold points
      dsimp only
      have hne : points p v x (sum + span prev x) (y :: l) ≠ [] := by simp [points]
      rw [List.getLast?_cons_of_ne_nil hne]; exact h1
    · rw [List.getLast?_cons_cons]; exact h3
    · rw [h4, show total (prev :: x :: y :: l) = span prev x + total (x :: y :: l) from rfl, add_assoc]

theorem way_points (p : Par K) (v : K) : ∀ (l : List (K × K)) (prev : K × K) (sum : K),
    way prev (points p v prev sum l) = total (prev :: l)
  | [], _, _ => rfl
  | x :: l, prev, sum => by
    show max _ _ + way x (points p v x _ l) = span prev x + total (x :: l)
    rw [way_points p v l x]; rfl

/-! ### The end of a searched path -/

theorem fixLast_last (f : K × K → K × K) : ∀ (l : List (K × K)), (fixLast f l).getLast? = l.getLast?.map f
  | [] => rfl
  | [x] => rfl
  | x :: y :: l => by
    have : fixLast f (y :: l) ≠ [] := by cases l <;> simp [fixLast]
    rw [fixLast, List.getLast?_cons_of_ne_nil this, List.getLast?_cons_cons]
    exact fixLast_last f (y :: l)

theorem fixLast_head (f : K × K → K × K) (x : K × K) (l : List (K × K)) (h : l ≠ []) :
    fixLast f (x :: l) = x :: fixLast f l := by
  cases l with
  | nil => exact absurd rfl h
  | cons y l => rfl

theorem lround_neg_part {x : K} (hx : x < 0) : lround x = ⌈x - 1 / 2⌉ := by
  unfold lround
  rw [if_neg (not_le.mpr hx), show -x + 1 / 2 = -(x - 1 / 2) by ring, Int.floor_neg, neg_neg]

theorem residual_eq (p : Par K) (hr : 0 < p.res) (hp : 0 < p.pi) (a : K) (ht : ¬ NegativeTie p a) :
    ((lround (a * (p.res : K) / (2 * p.pi)) : Int) : K) * 2 * p.pi / (p.res : K) + residual p a = a := by
  have hres : (0 : K) < (p.res : K) := by exact_mod_cast hr
  have hprec : 0 < 2 * p.pi / (p.res : K) := by positivity
  have hdiv : ∀ x : K, x / (2 * p.pi / (p.res : K)) = x * (p.res : K) / (2 * p.pi) := fun x => by field_simp
  have hhalf : ∀ x : K, (x + 2 * p.pi / (p.res : K) / 2) / (2 * p.pi / (p.res : K)) = x * (p.res : K) / (2 * p.pi) + 1 / 2 := by
    intro x; field_simp
  unfold residual
  dsimp only
  by_cases ha : a < 0
  · rw [if_pos ha]
    set N : Int := ⌈-a / p.pi * 2⌉ with hN
    have hNge : -a / p.pi * 2 ≤ (N : K) := Int.le_ceil _
    have hpos : 0 ≤ a + (N : K) * p.pi * 2 := by
      have h1 : -a * 2 ≤ (N : K) * p.pi := by
        have := mul_le_mul_of_nonneg_right hNge hp.le
        have e : -a / p.pi * 2 * p.pi = -a * 2 := by field_simp
        rw [e] at this; exact this
      nlinarith
    unfold fmod
    rw [if_pos (by positivity), hhalf]
    have e1 : (a + (N : K) * p.pi * 2) * (p.res : K) / (2 * p.pi) + 1 / 2 =
        (a * (p.res : K) / (2 * p.pi) + 1 / 2) + ((N * p.res : Int) : K) := by push_cast; field_simp; ring
    rw [e1, Int.floor_add_intCast]
    set u := a * (p.res : K) / (2 * p.pi) with hu
    have hu0 : u < 0 := by
      rw [hu]; exact div_neg_of_neg_of_pos (mul_neg_of_neg_of_pos ha hres) (by positivity)
    have hfl : ⌊u + 1 / 2⌋ = lround u := by
      rw [lround_neg_part hu0]
      symm
      rw [Int.ceil_eq_iff]
      have f1 : ((⌊u + 1 / 2⌋ : Int) : K) ≤ u + 1 / 2 := Int.floor_le _
      have f2 : u + 1 / 2 < ((⌊u + 1 / 2⌋ : Int) : K) + 1 := Int.lt_floor_add_one _
      refine ⟨?_, by linarith⟩
      rcases lt_or_eq_of_le f1 with f1 | f1
      · linarith
      · exfalso
        refine ht ⟨ha, ⌊u + 1 / 2⌋ - 1, ?_⟩
        push_cast
        rw [← hu]
        linarith
    rw [hfl]
    have e2 : a = u * (2 * p.pi) / (p.res : K) := by rw [hu]; field_simp
    push_cast
    field_simp
    ring
  · rw [if_neg ha]
    have ha := not_lt.mp ha
    unfold fmod
    rw [if_pos (by positivity), hhalf]
    have hu0 : 0 ≤ a * (p.res : K) / (2 * p.pi) := by positivity
    unfold lround
    rw [if_pos hu0]
    field_simp
    ring

theorem cycS_small (x d k A : Int) (hA : 0 < A) (hx : x = d + k * A) (h1 : A / 2 - A ≤ d) (h2 : d < A / 2) : cycS x A = d := by
  obtain ⟨⟨j, hj⟩, l1, l2⟩ := Model3D.cycS_spec x A hA
  have hz : cycS x A - d = (k + j) * A := by rw [hj, hx]; ring
  have b1 : cycS x A - d < A := by omega
  have b2 : -A < cycS x A - d := by omega
  have : k + j = 0 := by
    rw [hz] at b1 b2
    have c1 : k + j < 1 := by
      by_contra hc
      have := mul_le_mul_of_nonneg_right (not_lt.mp hc) hA.le
      linarith
    have c2 : -1 < k + j := by
      by_contra hc
      have := mul_le_mul_of_nonneg_right (not_lt.mp hc) hA.le
      linarith
    omega
  rw [this, zero_mul] at hz
  omega

theorem turn_displaced (p : Par K) (h : Sane p) (q a d b : Int × Int) (hq : Same p q a) (hd : |d.1| ≤ p.range ∧ |d.2| ≤ p.range)
    (hb : Displaced p a d b) : turn p q b = d := by
  obtain ⟨⟨k1, e1⟩, ⟨k2, e2⟩⟩ := hq
  obtain ⟨⟨j1, f1⟩, ⟨j2, f2⟩⟩ := hb
  have hr := h.range.2
  have hA := h.res
  have g1 := abs_le.mp hd.1
  have g2 := abs_le.mp hd.2
  unfold turn
  refine Prod.ext ?_ ?_
  · exact cycS_small _ d.1 (2 * (j1 - k1)) _ hA (by rw [f1, e1]; ring) (by omega) (by omega)
  · exact cycS_small _ d.2 (2 * (j2 - k2)) _ hA (by rw [f2, e2]; ring) (by omega) (by omega)

/-- The unrolled cells are the found cells up to whole turns, and consecutive ones differ by the displacement of the move. -/
theorem unroll_same (p : Par K) (m : Int × Int → Int) (h : Sane p) : ∀ (cs : List (Int × Int)) (q a : Int × Int), Same p q a →
    (a :: cs).IsChain (Legal p m) → List.Forall₂ (Same p) (unroll p q cs) cs
  | [], _, _, _, _ => .nil
  | b :: cs, q, a, hq, hc => by
    rw [List.isChain_cons_cons] at hc
    obtain ⟨⟨hb, d, d1, d2, hd, -⟩, hc⟩ := hc
    have ht := turn_displaced p h q a d b hq ⟨d1, d2⟩ hd
    have hs : Same p (q.1 + (turn p q b).1, q.2 + (turn p q b).2) b := by
      rw [ht]
      obtain ⟨⟨k1, e1⟩, ⟨k2, e2⟩⟩ := hq
      obtain ⟨⟨j1, f1⟩, ⟨j2, f2⟩⟩ := hd
      exact ⟨⟨k1 - j1, by rw [f1]; dsimp only; rw [e1]; ring⟩, ⟨k2 - j2, by rw [f2]; dsimp only; rw [e2]; ring⟩⟩
    exact .cons hs (unroll_same p m h cs _ b hs hc)

theorem forall₂_getLast? {α β : Type} {R : α → β → Prop} : ∀ {l : List α} {l' : List β}, List.Forall₂ R l l' → ∀ {b}, l'.getLast? = some b →
    ∃ a, l.getLast? = some a ∧ R a b
  | _, _, .nil, b, h => by cases h
  | _, _, .cons (l₁ := []) (l₂ := []) hr .nil, b, h => by cases h; exact ⟨_, rfl, hr⟩
  | _, _, .cons (l₁ := x :: l) (l₂ := y :: l') hr ht, b, h => by
    rw [List.getLast?_cons_cons] at h ⊢
    exact forall₂_getLast? ht h

/-! ### Costs -/

theorem along_some (m : Int × Int → Int) : ∀ (l : List (Int × Int)) (acc r : Int), along m l acc = some r → ∀ c ∈ l, m c ≤ 99
  | [], _, _, _, c, hc => by cases hc
  | x :: l, acc, r, h, c, hc => by
    unfold along at h
    split at h
    · cases h
    · rename_i hx
      rcases List.mem_cons.mp hc with rfl | hc
      · omega
      · exact along_some m l _ r h c hc

theorem along_ge (m : Int × Int → Int) (hm : ∀ c, 0 ≤ m c) : ∀ (l : List (Int × Int)) (acc r : Int), along m l acc = some r → acc ≤ r
  | [], _, _, h => by cases h; exact le_refl _
  | x :: l, acc, r, h => by
    unfold along at h
    split at h
    · cases h
    · have := along_ge m hm l _ r h
      have := hm x
      omega

theorem along_clear (m : Int × Int → Int) : ∀ (l : List (Int × Int)) (acc : Int), (∀ c ∈ l, m c ≤ 99) → ∃ r, along m l acc = some r
  | [], acc, _ => ⟨acc, rfl⟩
  | x :: l, acc, h => by
    unfold along
    rw [if_neg (by have := h x List.mem_cons_self; omega)]
    exact along_clear m l _ fun c hc => h c (List.mem_cons_of_mem _ hc)

theorem euclid_nonneg (p : Par K) (d : Int × Int) : 0 ≤ euclid p d := add_nonneg (abs_nonneg _) (abs_nonneg _)

theorem cost_clear (p : Par K) (m : Int × Int → Int) (a b : Int × Int) (h : 0 ≤ cost p m a b) :
    inMap p b = true ∧ Clear p m a (turn p a b) := by
  unfold cost at h
  split at h
  · exact absurd h (by norm_num)
  · rename_i hb
    refine ⟨by simpa using hb, ?_⟩
    dsimp only at h
    split at h
    · exact absurd h (by norm_num)
    · rename_i r hr
      intro i hi
      exact along_some m _ _ _ hr _ (List.mem_map.mpr ⟨i, List.mem_range.mpr hi, rfl⟩)

/-- The cost of an accepted move is at least its length (for a map without negative cells). -/
theorem cost_ge (p : Par K) (hp : Sane p) (m : Int × Int → Int) (hm : ∀ c, 0 ≤ m c) (a b : Int × Int) (hb : inMap p b = true)
    (hc : Clear p m a (turn p a b)) : euclid p (turn p a b) ≤ cost p m a b := by
  unfold cost
  rw [if_neg (by simp [hb])]
  dsimp only
  obtain ⟨r, hr⟩ := along_clear m ((List.range (steps (turn p a b))).map (sample p a (turn p a b))) 0 (by
    intro c hc'
    obtain ⟨i, hi, rfl⟩ := List.mem_map.mp hc'
    exact hc i (List.mem_range.mp hi))
  rw [hr]
  have h0 := along_ge m hm _ _ _ hr
  have : 0 ≤ (r : K) * p.weight / 100 := by
    have : (0 : K) ≤ (r : K) := by exact_mod_cast h0
    have := hp.weight
    positivity
  dsimp only
  linarith

end Verif.Joints2D
