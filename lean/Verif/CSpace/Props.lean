import Verif.CSpace.Spec
import Verif.Polygon.Props
import Mathlib.Tactic.Ring
import Mathlib.Tactic.Linarith
import Mathlib.Algebra.Order.Field.Rat
import Mathlib.Data.Rat.Floor
/-! # Properties of obstacle inflation (C24, C25) -/
set_option linter.unusedSectionVars false
namespace Verif.CSpace
open Spec
open Verif.Polygon hiding dist
open Verif.Polygon.Spec

variable {K : Type} [Field K] [LinearOrder K] [IsStrictOrderedRing K] [FloorRing K]

/-! ### Every operation is a maximum -/

theorem isMax_unique {S : Int → Prop} {b r r' : Int} (h : IsMax S b r) (h' : IsMax S b r') : r = r' := by
  obtain ⟨h1, h2, h3⟩ := h
  obtain ⟨h1', h2', h3'⟩ := h'
  apply le_antisymm
  · rcases h3 with h3 | h3
    · rw [h3]; exact h1'
    · exact h2' _ h3
  · rcases h3' with h3' | h3'
    · rw [h3']; exact h1
    · exact h2 _ h3'

/-- Sets that dominate each other have the same maximum. -/
theorem isMax_dom {S S' : Int → Prop} {b r : Int} (h12 : ∀ c, S c → ∃ c', S' c' ∧ c ≤ c')
    (h21 : ∀ c, S' c → ∃ c', S c' ∧ c ≤ c') (h : IsMax S b r) : IsMax S' b r := by
  obtain ⟨h1, h2, h3⟩ := h
  refine ⟨h1, ?_, ?_⟩
  · intro c hc
    obtain ⟨c', hc', hle⟩ := h21 c hc
    exact le_trans hle (h2 c' hc')
  · rcases h3 with h3 | h3
    · exact Or.inl h3
    · obtain ⟨c', hc', hle⟩ := h12 r h3
      obtain ⟨c'', hc'', hle'⟩ := h21 c' hc'
      have := h2 c'' hc''
      have e : c' = r := by omega
      exact Or.inr (e ▸ hc')

/-- What one stored value asks of a cell, given the rectangle used for it. -/
def ItemDemand (rc : Nat → Rect) (t : Int → Int → Int) (g : Grid K) (m : Info K) (iv : Nat × Int) (x y c : Int) : Prop :=
  inMap m (cellX g m iv.1) (cellY g m iv.1) = true ∧
  ((iv.2 = 0 ∧ x = cellX g m iv.1 ∧ y = cellY g m iv.1 ∧ c = 0) ∨
   (0 < iv.2 ∧ inMap m x y = true ∧
    (cellX g m iv.1 + (rc iv.1).xMin ≤ x ∧ x ≤ cellX g m iv.1 + (rc iv.1).xMax) ∧
    (cellY g m iv.1 + (rc iv.1).yMin ≤ y ∧ y ≤ cellY g m iv.1 + (rc iv.1).yMax) ∧
    c = (t (x - cellX g m iv.1) (y - cellY g m iv.1) * iv.2).tdiv 100 ∧ 0 < c))

theorem put_max (R : Int) (t : Int → Int → Int) (g : Grid K) (m : Info K) (c : Int → Int → Int) (iv : Nat × Int)
    (x y : Int) : IsMax (ItemDemand (rectOf R g m) t g m iv x y) (c x y) (putValue R t g m c iv x y) := by
  obtain ⟨i, val⟩ := iv
  unfold putValue
  simp only
  by_cases h1 : val < 0
  · rw [if_pos h1]
    refine ⟨le_refl _, ?_, Or.inl rfl⟩
    rintro d ⟨-, h | h⟩
    · have := h.1; simp only at this; omega
    · have := h.1; simp only at this; omega
  · rw [if_neg h1]
    cases h2 : inMap m (cellX g m i) (cellY g m i) with
    | false =>
      simp only [if_true]
      refine ⟨le_refl _, ?_, Or.inl rfl⟩
      rintro d ⟨h, -⟩
      simp only at h
      rw [h2] at h; cases h
    | true =>
      rw [if_neg (by simp)]
      by_cases h3 : val = 0
      · rw [if_pos h3]
        by_cases h4 : x = cellX g m i ∧ y = cellY g m i
        · rw [if_pos h4]
          by_cases h5 : c x y < 0
          · rw [if_pos h5]
            refine ⟨by omega, ?_, Or.inr ⟨h2, Or.inl ⟨h3, h4.1, h4.2, rfl⟩⟩⟩
            rintro d ⟨-, h | h⟩
            · rw [h.2.2.2]
            · have := h.1; simp only at this; omega
          · rw [if_neg h5]
            refine ⟨le_refl _, ?_, Or.inl rfl⟩
            rintro d ⟨-, h | h⟩
            · rw [h.2.2.2]; omega
            · have := h.1; simp only at this; omega
        · rw [if_neg h4]
          refine ⟨le_refl _, ?_, Or.inl rfl⟩
          rintro d ⟨-, h | h⟩
          · exact absurd ⟨h.2.1, h.2.2.1⟩ h4
          · have := h.1; simp only at this; omega
      · rw [if_neg h3]
        unfold stamp
        simp only
        by_cases h4 : max (cellX g m i + (rectOf R g m i).xMin) 0 ≤ x ∧ x ≤ min (cellX g m i + (rectOf R g m i).xMax) (m.w - 1) ∧
            max (cellY g m i + (rectOf R g m i).yMin) 0 ≤ y ∧ y ≤ min (cellY g m i + (rectOf R g m i).yMax) (m.h - 1)
        · rw [if_pos h4]
          have hin : inMap m x y = true := by unfold inMap; rw [decide_eq_true_iff]; omega
          generalize hv : (t (x - cellX g m i) (y - cellY g m i) * val).tdiv 100 = v
          by_cases h5 : v > 0 ∧ c x y < v
          · rw [if_pos h5]
            refine ⟨by omega, ?_, Or.inr ⟨h2, Or.inr ⟨by simp only; omega, hin, by simp only; omega, by simp only; omega, hv.symm, h5.1⟩⟩⟩
            rintro d ⟨-, h | h⟩
            · exact absurd h.1 h3
            · rw [h.2.2.2.2.1]; simp only; rw [hv]
          · rw [if_neg h5]
            refine ⟨le_refl _, ?_, Or.inl rfl⟩
            rintro d ⟨-, h | h⟩
            · exact absurd h.1 h3
            · obtain ⟨-, -, -, -, e, hd⟩ := h
              simp only at e
              rw [hv] at e; omega
        · rw [if_neg h4]
          refine ⟨le_refl _, ?_, Or.inl rfl⟩
          rintro d ⟨-, h | h⟩
          · exact absurd h.1 h3
          · obtain ⟨-, hin, hx, hy, -, -⟩ := h
            unfold inMap at hin
            rw [decide_eq_true_iff] at hin
            exfalso; apply h4; simp only at hx hy; omega

theorem fold_max (R : Int) (t : Int → Int → Int) (g : Grid K) (m : Info K) (x y : Int) :
    ∀ (l : List (Nat × Int)) (c : Int → Int → Int),
      IsMax (fun d => ∃ iv ∈ l, ItemDemand (rectOf R g m) t g m iv x y d) (c x y) (l.foldl (putValue R t g m) c x y) := by
  intro l
  induction l with
  | nil => intro c; exact ⟨le_refl _, fun d ⟨_, h, _⟩ => by simp at h, Or.inl rfl⟩
  | cons iv l ih =>
    intro c
    obtain ⟨h1, h2, h3⟩ := ih (putValue R t g m c iv)
    obtain ⟨p1, p2, p3⟩ := put_max R t g m c iv x y
    rw [List.foldl_cons]
    refine ⟨le_trans p1 h1, ?_, ?_⟩
    · rintro d ⟨q, hq, hd⟩
      rcases List.mem_cons.mp hq with rfl | hq
      · exact le_trans (p2 d hd) h1
      · exact h2 d ⟨q, hq, hd⟩
    · rcases h3 with h3 | ⟨q, hq, hd⟩
      · rw [h3]
        rcases p3 with p3 | p3
        · exact Or.inl p3
        · exact Or.inr ⟨iv, by simp, p3⟩
      · exact Or.inr ⟨q, by simp [hq], hd⟩

/-! ### Integer facts -/

theorem lround_nat (n : Nat) : lround ((n : K)) = n := by
  unfold lround
  rw [if_pos (Nat.cast_nonneg n)]
  rw [Int.floor_eq_iff]
  constructor
  · push_cast; linarith [show (0 : K) < 1 / 2 by norm_num]
  · push_cast; linarith [show (1 / 2 : K) < 1 by norm_num]

theorem tdiv_pos_iff {a c : Int} (hc : c = a.tdiv 100) (h : 0 < c) : c = a / 100 ∧ 100 ≤ a := by
  have hge : 0 ≤ a := by
    by_contra hn
    have h1 : a.tdiv 100 ≤ 0 := by
      rw [show a = -(-a) by ring, Int.neg_tdiv]
      have := Int.tdiv_nonneg (a := -a) (b := 100) (by omega) (by omega)
      omega
    omega
  rw [Int.tdiv_eq_ediv_of_nonneg hge] at hc
  exact ⟨hc, by omega⟩

theorem div_pos_iff' {a c : Int} (hc : c = a / 100) (h : 0 < c) : c = a.tdiv 100 ∧ 100 ≤ a := by
  have : 100 ≤ a := by omega
  rw [Int.tdiv_eq_ediv_of_nonneg (by omega)]
  exact ⟨hc, this⟩

theorem mem_items {g : Grid K} {iv : Nat × Int} : iv ∈ g.items ↔ iv.1 < g.data.length ∧ g.data.getD iv.1 0 = iv.2 := by
  unfold Grid.items
  rw [List.mem_map]
  constructor
  · rintro ⟨i, hi, rfl⟩; exact ⟨List.mem_range.mp hi, rfl⟩
  · rintro ⟨h1, h2⟩; exact ⟨iv.1, List.mem_range.mpr h1, by rw [h2]⟩

/-- With the whole template, the items ask for exactly the specified demand. -/
theorem full_demand (R : Int) (t : Int → Int → Int) (g : Grid K) (m : Info K) (x y : Int) (hin : inMap m x y = true)
    (d : Int) : (∃ iv ∈ g.items, ItemDemand (fun _ => fullRect R) t g m iv x y d) ↔ Demand R t g m x y d := by
  constructor
  · rintro ⟨⟨i, v⟩, hm, hmap, h⟩
    rw [mem_items] at hm
    simp only at hm hmap h
    have hmap' := hmap
    unfold inMap at hmap'
    rw [decide_eq_true_iff] at hmap'
    rcases h with ⟨h0, hx, hy, hd⟩ | ⟨hv, -, hx, hy, hd, hpos⟩
    · exact Or.inl ⟨⟨i, hm.1, by rw [hm.2, h0], hx.symm, hy.symm, by rw [hx, hy]; exact hmap'⟩, hd⟩
    · simp only [fullRect] at hx hy
      refine Or.inr ⟨cellX g m i, cellY g m i, v, ⟨i, hm.1, hm.2, rfl, rfl, hmap'⟩, hv, ?_, ?_, (tdiv_pos_iff hd hpos).1, hpos⟩
      · rw [abs_le]; omega
      · rw [abs_le]; omega
  · rintro (⟨⟨i, hi, hv, hx, hy, hb⟩, hd⟩ | ⟨gx, gy, v, ⟨i, hi, hv, hx, hy, hb⟩, hpos, h1, h2, hd, hdp⟩)
    · refine ⟨(i, 0), mem_items.mpr ⟨hi, hv⟩, ?_, Or.inl ⟨rfl, hx.symm, hy.symm, hd⟩⟩
      simp only; rw [hx, hy]; exact hin
    · refine ⟨(i, v), mem_items.mpr ⟨hi, hv⟩, ?_, Or.inr ⟨hpos, hin, ?_, ?_, ?_, hdp⟩⟩
      · simp only; rw [hx, hy]; unfold inMap; rw [decide_eq_true_iff]; exact hb
      · rw [abs_le] at h1; simp only [fullRect]; rw [hx]; omega
      · rw [abs_le] at h2; simp only [fullRect]; rw [hy]; omega
      · simp only; rw [hx, hy]; exact (div_pos_iff' hd hdp).1

/-! ### C24: the full template -/

/-- C24: when the source grid has another resolution than the map, each cell of the map ends up with the largest of its
previous value and everything the source grid asks of it; cells outside the map are untouched. -/
theorem inflate_full (R : Int) (t : Int → Int → Int) (g : Grid K) (m : Info K) (c : Int → Int → Int)
    (hres : g.res ≠ m.res) (x y : Int) (hin : inMap m x y = true) :
    IsMax (Demand R t g m x y) (c x y) (generateSpecified false R t g m c x y) := by
  have h := fold_max R t g m x y g.items c
  have e : rectOf R g m = fun _ => fullRect R := by funext i; unfold rectOf; rw [if_neg hres]
  rw [e] at h
  have := (funext fun d => propext (full_demand R t g m x y hin d) : (fun d => _) = _)
  rw [this] at h
  exact h

/-! ### C24: the shortcut -/

theorem idx_left {w i : Nat} (h : i % w ≠ 0) : (i - 1) % w = i % w - 1 ∧ (i - 1) / w = i / w := by
  rcases Nat.eq_zero_or_pos w with rfl | hw
  · simp at h ⊢
  · have e := Nat.div_add_mod i w
    have hlt := Nat.mod_lt i hw
    generalize hq : i / w = q at *
    generalize hr : i % w = r at *
    have : i - 1 = w * q + (r - 1) := by omega
    rw [this]
    constructor
    · rw [Nat.mul_add_mod, Nat.mod_eq_of_lt (by omega)]
    · rw [Nat.mul_add_div hw, Nat.div_eq_of_lt (by omega)]; omega

theorem idx_right {w i : Nat} (hw : 0 < w) (h : i % w ≠ w - 1) : (i + 1) % w = i % w + 1 ∧ (i + 1) / w = i / w := by
  have e := Nat.div_add_mod i w
  have hlt := Nat.mod_lt i hw
  generalize hq : i / w = q at *
  generalize hr : i % w = r at *
  have : i + 1 = w * q + (r + 1) := by omega
  rw [this]
  constructor
  · rw [Nat.mul_add_mod, Nat.mod_eq_of_lt (by omega)]
  · rw [Nat.mul_add_div hw, Nat.div_eq_of_lt (by omega)]; omega

theorem idx_up {w i : Nat} (hw : 0 < w) (h : i / w ≠ 0) : (i - w) % w = i % w ∧ (i - w) / w = i / w - 1 := by
  have e := Nat.div_add_mod i w
  have hlt := Nat.mod_lt i hw
  generalize hq : i / w = q at *
  generalize hr : i % w = r at *
  obtain ⟨p, rfl⟩ : ∃ p, q = p + 1 := ⟨q - 1, by omega⟩
  have : i - w = w * p + r := by rw [Nat.mul_add] at e; omega
  rw [this]
  constructor
  · rw [Nat.mul_add_mod, Nat.mod_eq_of_lt hlt]
  · rw [Nat.mul_add_div hw, Nat.div_eq_of_lt hlt]; omega

theorem idx_down {w i : Nat} (hw : 0 < w) : (i + w) % w = i % w ∧ (i + w) / w = i / w + 1 :=
  ⟨Nat.add_mod_right i w, Nat.add_div_right i hw⟩

/-- With equal resolutions the map cell is the grid cell shifted by the offset. -/
theorem lround_near (x : K) : |(lround x : K) - x| ≤ 1 / 2 := by
  unfold lround
  rw [abs_le]
  split
  · have h1 := Int.floor_le (x + 1 / 2)
    have h2 := Int.lt_floor_add_one (x + 1 / 2)
    constructor <;> linarith
  · have h1 := Int.floor_le (-x + 1 / 2)
    have h2 := Int.lt_floor_add_one (-x + 1 / 2)
    push_cast
    constructor <;> linarith

/-- `lround` rounds halves away from zero, in both directions alike. -/
theorem lround_neg (x : K) : lround (-x) = -lround x := by
  unfold lround
  rcases lt_trichotomy x 0 with h | h | h
  · rw [if_pos (by linarith), if_neg (by linarith)]; omega
  · subst h
    have : ⌊(0 : K) + 1 / 2⌋ = 0 := by
      rw [Int.floor_eq_iff]; norm_num
    simp only [neg_zero, le_refl, if_true, this]
  · rw [if_neg (by linarith), if_pos (by linarith), neg_neg]

/-- C24: the corner of the map cell of a grid value is within one map cell of the corner of the grid cell, in each
coordinate, for every offset and ratio of the resolutions. -/
theorem cell_near (g : Grid K) (m : Info K) (hm : 0 < m.res) (i : Nat) :
    |(m.ox + (cellX g m i : K) * m.res) - (g.ox + ((i % g.w : Nat) : K) * g.res)| ≤ m.res ∧
    |(m.oy + (cellY g m i : K) * m.res) - (g.oy + ((i / g.w : Nat) : K) * g.res)| ≤ m.res := by
  have key : ∀ (a b n r : K), |(b + ((lround (n * (r / m.res)) + lround ((a - b) / m.res) : Int) : K) * m.res) - (a + n * r)| ≤ m.res := by
    intro a b n r
    have h1 := lround_near (n * (r / m.res))
    have h2 := lround_near ((a - b) / m.res)
    have e : (b + ((lround (n * (r / m.res)) + lround ((a - b) / m.res) : Int) : K) * m.res) - (a + n * r) =
        (((lround (n * (r / m.res)) : K) - n * (r / m.res)) + ((lround ((a - b) / m.res) : K) - (a - b) / m.res)) * m.res := by
      push_cast
      field_simp
      ring
    rw [e, abs_mul, abs_of_pos hm]
    have h3 := abs_add_le ((lround (n * (r / m.res)) : K) - n * (r / m.res)) ((lround ((a - b) / m.res) : K) - (a - b) / m.res)
    nlinarith
  exact ⟨key _ _ _ _, key _ _ _ _⟩

theorem cell_eq (g : Grid K) (m : Info K) (hres : g.res = m.res) (h0 : m.res ≠ 0) (i : Nat) :
    cellX g m i = (i % g.w : Nat) + offX g m ∧ cellY g m i = (i / g.w : Nat) + offY g m := by
  have hs : scale g m = 1 := by unfold scale; rw [hres, div_self h0]
  unfold cellX cellY
  rw [hs, mul_one, mul_one, lround_nat, lround_nat]
  exact ⟨rfl, rfl⟩

theorem scaled_mono {t t' v v' : Int} (ht : t ≤ t') (hv : v ≤ v') (hv0 : 0 < v) (h : 100 ≤ t * v) :
    (t * v).tdiv 100 ≤ (t' * v').tdiv 100 ∧ 100 ≤ t' * v' := by
  have ht0 : 0 < t := by
    by_contra hn
    have : t * v ≤ 0 := Int.mul_nonpos_of_nonpos_of_nonneg (by omega) (by omega)
    omega
  have h1 : t * v ≤ t' * v' := mul_le_mul ht hv (by omega) (by omega)
  rw [Int.tdiv_eq_ediv_of_nonneg (by omega), Int.tdiv_eq_ediv_of_nonneg (by omega)]
  exact ⟨Int.ediv_le_ediv (by omega) h1, by omega⟩

/-- A demand through the whole template is met by some value through the masked rectangles, if the template decreases
away from the centre and the cell lies in the window of the grid. -/
theorem masked_dominates (R : Int) (t : Int → Int → Int) (g : Grid K) (m : Info K) (hwf : WF g) (hres : g.res = m.res)
    (h0 : m.res ≠ 0) (ht : Shrinking t) (x y : Int) (hin : inMap m x y = true) (hw : InWindow g m x y) :
    ∀ (n : Nat) (i : Nat) (v d : Int), (i, v) ∈ g.items → 0 < v → inMap m (cellX g m i) (cellY g m i) = true →
      (x - cellX g m i).natAbs + (y - cellY g m i).natAbs ≤ n →
      |x - cellX g m i| ≤ R → |y - cellY g m i| ≤ R →
      d = (t (x - cellX g m i) (y - cellY g m i) * v).tdiv 100 → 0 < d →
      ∃ iv ∈ g.items, ∃ d', ItemDemand (rectOf R g m) t g m iv x y d' ∧ d ≤ d' := by
  have hgw : 0 < g.w := by
    by_contra hn
    unfold InWindow at hw
    have : g.w = 0 := by omega
    rw [this] at hw; simp at hw; omega
  have hrect : ∀ i, rectOf R g m i = maskedRect R g i := fun i => by unfold rectOf; rw [if_pos hres]
  unfold inMap at hin
  rw [decide_eq_true_iff] at hin
  unfold InWindow at hw
  intro n
  induction n with
  | zero =>
    intro i v d hm hv hmap hn hx hy hd hd0
    refine ⟨(i, v), hm, d, ⟨hmap, Or.inr ⟨hv, ?_, ?_, ?_, hd, hd0⟩⟩, le_refl _⟩
    · unfold inMap; rw [decide_eq_true_iff]; exact hin
    · simp only [hrect, maskedRect]
      rw [abs_le] at hx
      constructor <;> split <;> omega
    · simp only [hrect, maskedRect]
      rw [abs_le] at hy
      constructor <;> split <;> omega
  | succ n ih =>
    intro i v d hm hv hmap hn hx hy hd hd0
    obtain ⟨hi, hgv⟩ := mem_items.mp hm
    simp only at hi hgv
    obtain ⟨ex, ey⟩ := cell_eq g m hres h0 i
    unfold inMap at hmap
    rw [decide_eq_true_iff] at hmap
    have hlen : g.data.length = g.w * g.h := hwf
    have hgy : i / g.w < g.h := Nat.div_lt_of_lt_mul (by rw [← hlen]; exact hi)
    have hgx : i % g.w < g.w := Nat.mod_lt i hgw
    have hprod := (tdiv_pos_iff hd hd0).2
    -- moving to a neighbour that is at least as large
    have move : ∀ j : Nat, j < g.data.length → v ≤ g.data.getD j 0 →
        t (x - cellX g m i) (y - cellY g m i) ≤ t (x - cellX g m j) (y - cellY g m j) →
        inMap m (cellX g m j) (cellY g m j) = true →
        (x - cellX g m j).natAbs + (y - cellY g m j).natAbs ≤ n →
        |x - cellX g m j| ≤ R → |y - cellY g m j| ≤ R →
        ∃ iv ∈ g.items, ∃ d', ItemDemand (rectOf R g m) t g m iv x y d' ∧ d ≤ d' := by
      intro j hj hvj htj hmj hnj hxj hyj
      obtain ⟨s1, s2⟩ := scaled_mono htj hvj hv hprod
      obtain ⟨iv, h1, d', h2, h3⟩ := ih j (g.data.getD j 0) _ (mem_items.mpr ⟨hj, rfl⟩) (by omega) hmj hnj hxj hyj rfl
        (by rw [Int.tdiv_eq_ediv_of_nonneg (by omega)]; omega)
      exact ⟨iv, h1, d', h2, by rw [hd]; omega⟩
    by_cases c1 : x < cellX g m i ∧ g.data.getD (i - 1) 0 ≥ v
    · have hne : i % g.w ≠ 0 := by omega
      obtain ⟨q1, q2⟩ := idx_left hne
      obtain ⟨ex', ey'⟩ := cell_eq g m hres h0 (i - 1)
      rw [q1] at ex'; rw [q2] at ey'
      have fx : cellX g m (i - 1) = cellX g m i - 1 := by omega
      have fy : cellY g m (i - 1) = cellY g m i := by omega
      refine move (i - 1) (by omega) c1.2 ?_ ?_ ?_ ?_ ?_
      · rw [fx, fy, show x - (cellX g m i - 1) = (x - cellX g m i) + 1 by ring]
        exact (ht _ _).1 (by omega)
      · unfold inMap; rw [decide_eq_true_iff]; omega
      · omega
      · rw [abs_le] at hx ⊢; omega
      · rw [fy]; exact hy
    by_cases c2 : cellX g m i < x ∧ g.data.getD (i + 1) 0 ≥ v
    · have hne : i % g.w ≠ g.w - 1 := by omega
      obtain ⟨q1, q2⟩ := idx_right hgw hne
      obtain ⟨ex', ey'⟩ := cell_eq g m hres h0 (i + 1)
      rw [q1] at ex'; rw [q2] at ey'
      have fx : cellX g m (i + 1) = cellX g m i + 1 := by omega
      have fy : cellY g m (i + 1) = cellY g m i := by omega
      have hj : i + 1 < g.data.length := by
        have e1 := Nat.div_add_mod i g.w
        have e2 : g.w * (i / g.w + 1) ≤ g.w * g.h := Nat.mul_le_mul_left _ hgy
        rw [Nat.mul_add] at e2; omega
      refine move (i + 1) hj c2.2 ?_ ?_ ?_ ?_ ?_
      · rw [fx, fy, show x - (cellX g m i + 1) = (x - cellX g m i) - 1 by ring]
        exact (ht _ _).2.1 (by omega)
      · unfold inMap; rw [decide_eq_true_iff]; omega
      · omega
      · rw [abs_le] at hx ⊢; omega
      · rw [fy]; exact hy
    by_cases c3 : y < cellY g m i ∧ g.data.getD (i - g.w) 0 ≥ v
    · have hne : i / g.w ≠ 0 := by omega
      obtain ⟨q1, q2⟩ := idx_up hgw hne
      obtain ⟨ex', ey'⟩ := cell_eq g m hres h0 (i - g.w)
      rw [q1] at ex'; rw [q2] at ey'
      have fx : cellX g m (i - g.w) = cellX g m i := by omega
      have fy : cellY g m (i - g.w) = cellY g m i - 1 := by omega
      refine move (i - g.w) (by omega) c3.2 ?_ ?_ ?_ ?_ ?_
      · rw [fx, fy, show y - (cellY g m i - 1) = (y - cellY g m i) + 1 by ring]
        exact (ht _ _).2.2.1 (by omega)
      · unfold inMap; rw [decide_eq_true_iff]; omega
      · omega
      · rw [fx]; exact hx
      · rw [abs_le] at hy ⊢; omega
    by_cases c4 : cellY g m i < y ∧ g.data.getD (i + g.w) 0 ≥ v
    · have hne : i / g.w ≠ g.h - 1 := by omega
      obtain ⟨q1, q2⟩ := idx_down (i := i) hgw
      obtain ⟨ex', ey'⟩ := cell_eq g m hres h0 (i + g.w)
      rw [q1] at ex'; rw [q2] at ey'
      have fx : cellX g m (i + g.w) = cellX g m i := by omega
      have fy : cellY g m (i + g.w) = cellY g m i + 1 := by omega
      have hj : i + g.w < g.data.length := by
        have e1 := Nat.div_add_mod i g.w
        have e2 : g.w * (i / g.w + 2) ≤ g.w * g.h := Nat.mul_le_mul_left _ (by omega)
        rw [Nat.mul_add] at e2; omega
      refine move (i + g.w) hj c4.2 ?_ ?_ ?_ ?_ ?_
      · rw [fx, fy, show y - (cellY g m i + 1) = (y - cellY g m i) - 1 by ring]
        exact (ht _ _).2.2.2 (by omega)
      · unfold inMap; rw [decide_eq_true_iff]; omega
      · omega
      · rw [fx]; exact hx
      · rw [abs_le] at hy ⊢; omega
    -- no better neighbour: the masked rectangle still holds the cell
    refine ⟨(i, v), hm, d, ⟨?_, Or.inr ⟨hv, ?_, ?_, ?_, hd, hd0⟩⟩, le_refl _⟩
    · unfold inMap; rw [decide_eq_true_iff]; exact hmap
    · unfold inMap; rw [decide_eq_true_iff]; exact hin
    · simp only [hrect, maskedRect, hgv]
      rw [abs_le] at hx
      constructor
      · split
        · next h => rcases h with h | h <;> omega
        · omega
      · split
        · next h => rcases h with h | h <;> omega
        · omega
    · simp only [hrect, maskedRect, hgv]
      rw [abs_le] at hy
      constructor
      · split
        · next h => rcases h with h | h <;> omega
        · omega
      · split
        · next h => rcases h with h | h <;> omega
        · omega

/-- C24: with equal resolutions the neighbour shortcut gives the same result on every map cell of the grid's window,
whenever the template never increases away from its centre along rows and columns. -/
theorem inflate_masked_partial (R : Int) (t : Int → Int → Int) (g : Grid K) (m : Info K) (c : Int → Int → Int)
    (hR : 0 ≤ R) (hwf : WF g) (hres : g.res = m.res) (h0 : m.res ≠ 0) (ht : Shrinking t) (x y : Int)
    (hin : inMap m x y = true) (hw : InWindow g m x y) :
    IsMax (Demand R t g m x y) (c x y) (generateSpecified false R t g m c x y) := by
  have h := fold_max R t g m x y g.items c
  refine isMax_dom ?_ ?_ h
  · rintro d ⟨iv, hiv, hmap, hd⟩
    refine ⟨d, (full_demand R t g m x y hin d).mp ⟨iv, hiv, hmap, ?_⟩, le_refl _⟩
    rcases hd with hd | ⟨h1, h2, h3, h4, h5⟩
    · exact Or.inl hd
    · have hr : ∀ i, -R ≤ (rectOf R g m i).xMin ∧ (rectOf R g m i).xMax ≤ R ∧ -R ≤ (rectOf R g m i).yMin ∧
          (rectOf R g m i).yMax ≤ R := by
        intro i
        unfold rectOf
        rw [if_pos hres]
        unfold maskedRect
        simp only
        refine ⟨?_, ?_, ?_, ?_⟩ <;> split <;> omega
      have := hr iv.1
      refine Or.inr ⟨h1, h2, ?_, ?_, h5⟩ <;> simp only [fullRect] <;> omega
  · intro d hd
    obtain ⟨⟨i, v⟩, hiv, hmap, h'⟩ := (full_demand R t g m x y hin d).mpr hd
    rcases h' with h' | ⟨h1, h2, h3, h4, h5, h6⟩
    · exact ⟨d, ⟨(i, v), hiv, hmap, Or.inl h'⟩, le_refl _⟩
    · simp only [fullRect] at h1 h3 h4 h5
      obtain ⟨iv, q1, d', q2, q3⟩ := masked_dominates R t g m hwf hres h0 ht x y hin hw _ i v d hiv h1 hmap (le_refl _)
        (by rw [abs_le]; omega) (by rw [abs_le]; omega) h5 h6
      exact ⟨d', ⟨iv, q1, q2⟩, q3⟩

/-! ### Unknown cells and overwriting -/

theorem restore_fold (g : Grid K) (m : Info K) (b : Int → Int → Int) (x y : Int) : ∀ (l : List (Nat × Int)) (c : Int → Int → Int),
    l.foldl (restoreUnknown g m b) c x y =
      if (∃ iv ∈ l, iv.2 < 0 ∧ cellX g m iv.1 = x ∧ cellY g m iv.1 = y ∧ inMap m x y = true) ∧ b x y < 0 then -1 else c x y := by
  intro l
  induction l with
  | nil => intro c; simp
  | cons iv l ih =>
    intro c
    obtain ⟨i, v⟩ := iv
    rw [List.foldl_cons, ih]
    have step : restoreUnknown g m b c (i, v) x y =
        if (v < 0 ∧ cellX g m i = x ∧ cellY g m i = y ∧ inMap m x y = true) ∧ b x y < 0 then -1 else c x y := by
      unfold restoreUnknown
      simp only
      by_cases h2 : (v < 0 ∧ cellX g m i = x ∧ cellY g m i = y ∧ inMap m x y = true) ∧ b x y < 0
      · rw [if_pos h2]
        obtain ⟨⟨a1, rfl, rfl, a4⟩, hb⟩ := h2
        have hne : ¬ (inMap m (cellX g m i) (cellY g m i) = false) := by rw [a4]; simp
        rw [if_neg hne, if_pos ⟨a1, hb⟩, if_pos ⟨rfl, rfl⟩]
      · have hr : (if (v < 0 ∧ cellX g m i = x ∧ cellY g m i = y ∧ inMap m x y = true) ∧ b x y < 0 then (-1 : Int) else c x y)
            = c x y := if_neg h2
        rw [hr]
        by_cases h3 : inMap m (cellX g m i) (cellY g m i) = false
        · rw [if_pos h3]
        · rw [if_neg h3]
          by_cases h4 : v < 0 ∧ b (cellX g m i) (cellY g m i) < 0
          · rw [if_pos h4]
            by_cases h5 : x = cellX g m i ∧ y = cellY g m i
            · exfalso; apply h2
              obtain ⟨rfl, rfl⟩ := h5
              exact ⟨⟨h4.1, rfl, rfl, by simpa using h3⟩, h4.2⟩
            · rw [if_neg h5]
          · rw [if_neg h4]
    rw [step]
    by_cases h1 : (∃ iv ∈ l, iv.2 < 0 ∧ cellX g m iv.1 = x ∧ cellY g m iv.1 = y ∧ inMap m x y = true) ∧ b x y < 0
    · obtain ⟨⟨q, hq, hh⟩, hb⟩ := h1
      rw [if_pos ⟨⟨q, hq, hh⟩, hb⟩, if_pos ⟨⟨q, by simp [hq], hh⟩, hb⟩]
    · rw [if_neg h1]
      by_cases h2 : (v < 0 ∧ cellX g m i = x ∧ cellY g m i = y ∧ inMap m x y = true) ∧ b x y < 0
      · rw [if_pos h2, if_pos ⟨⟨(i, v), by simp, h2.1⟩, h2.2⟩]
      · rw [if_neg h2, if_neg]
        rintro ⟨⟨q, hq, hh⟩, hb⟩
        rcases List.mem_cons.mp hq with rfl | hq
        · exact h2 ⟨hh, hb⟩
        · exact h1 ⟨⟨q, hq, hh⟩, hb⟩

/-- C24: with `keep_unknown`, a cell that is unknown both in the map below and in the source grid stays unknown; every
other cell is as without it. -/
theorem keep_unknown (R : Int) (t : Int → Int → Int) (g : Grid K) (m : Info K) (c : Int → Int → Int) (x y : Int) :
    ((∃ v < 0, ValueAt g m x y v) ∧ c x y < 0 → generateSpecified true R t g m c x y = -1) ∧
    (¬ ((∃ v < 0, ValueAt g m x y v) ∧ c x y < 0) →
      generateSpecified true R t g m c x y = generateSpecified false R t g m c x y) := by
  have e : generateSpecified true R t g m c x y =
      if (∃ iv ∈ g.items, iv.2 < 0 ∧ cellX g m iv.1 = x ∧ cellY g m iv.1 = y ∧ inMap m x y = true) ∧ c x y < 0 then -1
      else generateSpecified false R t g m c x y := restore_fold g m c x y g.items _
  have hiff : (∃ iv ∈ g.items, iv.2 < 0 ∧ cellX g m iv.1 = x ∧ cellY g m iv.1 = y ∧ inMap m x y = true) ↔
      ∃ v < 0, ValueAt g m x y v := by
    constructor
    · rintro ⟨⟨i, v⟩, hm, hv, hx, hy, hin⟩
      obtain ⟨h1, h2⟩ := mem_items.mp hm
      unfold inMap at hin
      rw [decide_eq_true_iff] at hin
      exact ⟨v, hv, i, h1, h2, hx, hy, hin⟩
    · rintro ⟨v, hv, i, h1, h2, hx, hy, hin⟩
      exact ⟨(i, v), mem_items.mpr ⟨h1, h2⟩, hv, hx, hy, by unfold inMap; rw [decide_eq_true_iff]; exact hin⟩
  rw [e]
  exact ⟨fun h => if_pos ⟨hiff.mpr h.1, h.2⟩, fun h => if_neg (fun h' => h ⟨hiff.mp h'.1, h'.2⟩)⟩

theorem clear_fold (R : Int) (g : Grid K) (m : Info K) (hres : g.res = m.res) (h0 : m.res ≠ 0) (x y : Int) :
    ∀ (l : List (Nat × Int)) (c : Int → Int → Int), l.foldl (clearValue R g m) c x y =
      if (∃ iv ∈ l, 0 ≤ iv.2 ∧ cellX g m iv.1 = x ∧ cellY g m iv.1 = y ∧ inMap m x y = true) ∧
        (R ≤ x - offX g m ∧ x - offX g m < g.w - R) ∧ (R ≤ y - offY g m ∧ y - offY g m < g.h - R) then -1 else c x y := by
  have hs : scale g m = 1 := by unfold scale; rw [hres, div_self h0]
  intro l
  induction l with
  | nil => intro c; simp
  | cons iv l ih =>
    intro c
    obtain ⟨i, v⟩ := iv
    rw [List.foldl_cons, ih]
    obtain ⟨ex, ey⟩ := cell_eq g m hres h0 i
    have step : clearValue R g m c (i, v) x y =
        if (0 ≤ v ∧ cellX g m i = x ∧ cellY g m i = y ∧ inMap m x y = true) ∧
          (R ≤ x - offX g m ∧ x - offX g m < g.w - R) ∧ (R ≤ y - offY g m ∧ y - offY g m < g.h - R) then -1 else c x y := by
      unfold clearValue
      simp only
      by_cases h1 : v < 0
      · rw [if_pos h1, if_neg (by omega)]
      · rw [if_neg h1]
        have hc : (⌈(1 : K)⌉ : Int) = 1 := Int.ceil_one
        rw [hs, mul_one, mul_one, lround_nat, lround_nat, hc]
        by_cases h2 : ((i % g.w : Nat) : Int) < R ∨ (g.w : Int) - R ≤ ((i % g.w : Nat) : Int)
        · rw [if_pos h2, if_neg (by omega)]
        · rw [if_neg h2]
          by_cases h3 : ((i / g.w : Nat) : Int) < R ∨ (g.h : Int) - R ≤ ((i / g.w : Nat) : Int)
          · rw [if_pos h3, if_neg (by omega)]
          · rw [if_neg h3]
            by_cases h4 : cellX g m i = x ∧ cellY g m i = y ∧ inMap m x y = true
            · rw [if_pos ⟨by omega, by omega, h4.2.2⟩, if_pos ⟨⟨by omega, h4⟩, by omega, by omega⟩]
            · rw [if_neg, if_neg]
              · rintro ⟨⟨-, h5⟩, -⟩; exact h4 h5
              · rintro ⟨h5, h6, h7⟩
                exact h4 ⟨by omega, by omega, h7⟩
    rw [step]
    by_cases h1 : (∃ iv ∈ l, 0 ≤ iv.2 ∧ cellX g m iv.1 = x ∧ cellY g m iv.1 = y ∧ inMap m x y = true) ∧
        (R ≤ x - offX g m ∧ x - offX g m < g.w - R) ∧ (R ≤ y - offY g m ∧ y - offY g m < g.h - R)
    · obtain ⟨⟨q, hq, hh⟩, hb⟩ := h1
      rw [if_pos ⟨⟨q, hq, hh⟩, hb⟩, if_pos ⟨⟨q, by simp [hq], hh⟩, hb⟩]
    · rw [if_neg h1]
      by_cases h2 : (0 ≤ v ∧ cellX g m i = x ∧ cellY g m i = y ∧ inMap m x y = true) ∧
          (R ≤ x - offX g m ∧ x - offX g m < g.w - R) ∧ (R ≤ y - offY g m ∧ y - offY g m < g.h - R)
      · rw [if_pos h2, if_pos ⟨⟨(i, v), by simp, h2.1⟩, h2.2⟩]
      · rw [if_neg h2, if_neg]
        rintro ⟨⟨q, hq, hh⟩, hb⟩
        rcases List.mem_cons.mp hq with rfl | hq
        · exact h2 ⟨hh, hb⟩
        · exact h1 ⟨⟨q, hq, hh⟩, hb⟩

/-- C75: in overwrite mode (equal resolutions), a cell the overlay has observed, at least a template range away from the
border of the overlay, forgets what the layers below said: it is set to unknown before the overlay's own obstacles are
applied.  All other cells keep the value from below. -/
theorem overwrite_base (R : Int) (g : Grid K) (m : Info K) (hres : g.res = m.res) (h0 : m.res ≠ 0)
    (c : Int → Int → Int) (x y : Int) :
    (((∃ v ≥ 0, ValueAt g m x y v) ∧ (R ≤ x - offX g m ∧ x - offX g m < g.w - R) ∧
        (R ≤ y - offY g m ∧ y - offY g m < g.h - R)) → clearTravelable .overwrite false R g m c x y = -1) ∧
    (¬ ((∃ v ≥ 0, ValueAt g m x y v) ∧ (R ≤ x - offX g m ∧ x - offX g m < g.w - R) ∧
        (R ≤ y - offY g m ∧ y - offY g m < g.h - R)) → clearTravelable .overwrite false R g m c x y = c x y) := by
  have e := clear_fold R g m hres h0 x y g.items c
  have hiff : (∃ iv ∈ g.items, 0 ≤ iv.2 ∧ cellX g m iv.1 = x ∧ cellY g m iv.1 = y ∧ inMap m x y = true) ↔
      ∃ v ≥ 0, ValueAt g m x y v := by
    constructor
    · rintro ⟨⟨i, v⟩, hm, hv, hx, hy, hin⟩
      obtain ⟨h1, h2⟩ := mem_items.mp hm
      unfold inMap at hin
      rw [decide_eq_true_iff] at hin
      exact ⟨v, hv, i, h1, h2, hx, hy, hin⟩
    · rintro ⟨v, hv, i, h1, h2, hx, hy, hin⟩
      exact ⟨(i, v), mem_items.mpr ⟨h1, h2⟩, hv, hx, hy, by unfold inMap; rw [decide_eq_true_iff]; exact hin⟩
  unfold clearTravelable
  rw [if_neg (by simp), e]
  exact ⟨fun h => if_pos ⟨hiff.mpr h.1, h.2⟩, fun h => if_neg (fun h' => h ⟨hiff.mp h'.1, h'.2⟩)⟩

/-- C75: in the other mode, and in the root layer, nothing is forgotten. -/
theorem max_base (mode : Mode) (root : Bool) (R : Int) (g : Grid K) (m : Info K) (c : Int → Int → Int)
    (h : mode = .max ∨ root = true) : clearTravelable mode root R g m c = c := by
  unfold clearTravelable
  rw [if_pos]
  rcases h with h | h
  · left; rw [h]; decide
  · right; exact h

/-! ### C25: conservative -/

theorem close_map {f : Pt ℝ → Pt ℝ} (pts : List (Pt ℝ)) : (close pts).map f = close (pts.map f) := by
  cases pts <;> simp [close]

theorem move_split (x y yaw : ℝ) (pts : List (Pt ℝ)) :
    move x y yaw (close pts) = moveCS x y 1 0 (close (pts.map (place 0 0 yaw))) := by
  rw [← close_map]
  unfold move moveCS
  rw [List.map_map]
  apply List.map_congr_left
  intro p _
  simp only [place, Function.comp, Prod.mk.injEq]
  constructor <;> ring

/-- A placed footprint that covers the origin is within its radius of it. -/
theorem covers_near (pts : List (Pt ℝ)) (x y yaw : ℝ) (h : inside (move x y yaw (close pts)) (0, 0) = true) :
    hypot x y ≤ radius (close pts) := by
  rw [move_split] at h
  have h2 := inside_translate (close (pts.map (place 0 0 yaw))) (-x, -y) x y
  simp only [neg_add_cancel] at h2
  rw [h2] at h
  rw [hypot_le_iff (radius_nonneg _)]
  have := inside_in_disc _ (-x, -y) (radius (close pts) ^ 2) (by
    intro p hp
    obtain ⟨q, hq, rfl⟩ := List.mem_map.mp hp
    have hq' : q ∈ close pts := by cases pts <;> simp [close] at hq ⊢; tauto
    have := (radius_fold (close pts) 0).2.1 q hq'
    have := (hypot_le_iff (radius_nonneg (close pts))).mp this
    have hcs := Real.sin_sq_add_cos_sq yaw
    have e : (place 0 0 yaw q).1 ^ 2 + (place 0 0 yaw q).2 ^ 2 = q.1 ^ 2 + q.2 ^ 2 := by
      simp only [place]
      linear_combination (q.1 ^ 2 + q.2 ^ 2) * hcs
    rw [e]; exact this) h
  simpa using this

theorem onOutline_radius (pts : List (Pt ℝ)) (q : Pt ℝ) (h : OnOutline (close pts) q) :
    hypot q.1 q.2 ≤ radius (close pts) := by
  obtain ⟨l, a, b, r, e, t, t0, t1, rfl⟩ := h
  have ha := (radius_fold (close pts) 0).2.1 a (by rw [e]; simp)
  have hb := (radius_fold (close pts) 0).2.1 b (by rw [e]; simp)
  have ha := (hypot_le_iff (radius_nonneg (close pts))).mp ha
  have hb := (hypot_le_iff (radius_nonneg (close pts))).mp hb
  rw [hypot_le_iff (radius_nonneg _)]
  simp only
  nlinarith [mul_nonneg (sub_nonneg.mpr t1) (sub_nonneg.mpr ha), mul_nonneg t0 (sub_nonneg.mpr hb),
    mul_nonneg (mul_nonneg t0 (sub_nonneg.mpr t1)) (add_nonneg (sq_nonneg (a.1 - b.1)) (sq_nonneg (a.2 - b.2)))]

theorem hypot_triangle (a b c d : ℝ) : hypot (a + c) (b + d) ≤ hypot a b + hypot c d := by
  have h1 := hypot_nonneg a b
  have h2 := hypot_nonneg c d
  rw [hypot_le_iff (by linarith)]
  have e1 := hypot_sq a b
  have e2 := hypot_sq c d
  have key : a * c + b * d ≤ hypot a b * hypot c d := by
    apply le_of_sq_le_sq _ (mul_nonneg h1 h2) |>.trans (le_refl _) |> fun h => h
    rw [mul_pow, e1, e2]
    nlinarith [sq_nonneg (a * d - b * c)]
  nlinarith

theorem pdist_triangle (p q r : Pt ℝ) : Polygon.dist p r ≤ Polygon.dist p q + Polygon.dist q r := by
  unfold Polygon.dist
  have := hypot_triangle (p.1 - q.1) (p.2 - q.2) (q.1 - r.1) (q.2 - r.2)
  simpa using this

/-- A placed footprint within distance `e` of the origin is placed within its radius plus `e`. -/
theorem outline_near (pts : List (Pt ℝ)) (x y yaw e : ℝ) (h : ∃ q, OnOutline (move x y yaw (close pts)) q ∧ Polygon.dist (0, 0) q ≤ e) :
    hypot x y ≤ radius (close pts) + e := by
  obtain ⟨q, hq, hd⟩ := h
  obtain ⟨q0, hq0, rfl⟩ := onOutline_place' _ _ _ _ _ hq
  have h1 := onOutline_radius pts q0 hq0
  have h2 : Polygon.dist (place x y yaw q0) (x, y) = hypot q0.1 q0.2 := by
    have := dist_place x y yaw q0 (0, 0)
    rw [show place x y yaw (0, 0) = (x, y) by simp [place]] at this
    rw [this]; unfold Polygon.dist; simp
  have h3 := pdist_triangle (0, 0) (place x y yaw q0) (x, y)
  have h4 : Polygon.dist (0, 0) (x, y) = hypot x y := by unfold Polygon.dist hypot; simp
  linarith

/-- The template is large enough: every placement of the footprint that covers the cell, or comes closer to it than the
expansion, is in it, with cost 100. -/
theorem template_covers (big : ℝ) (f : Foot) (res angRes : ℝ) (hres : 0 < res) (he : 0 ≤ f.expand) (hs : 0 ≤ f.spread)
    (x y yaw gx gy : Int) (h : FootCovers f res angRes x y yaw gx gy ∨ FootNear f res angRes x y yaw gx gy) :
    f.template big res angRes (x - gx) (y - gy) yaw = 100 ∧ |x - gx| ≤ f.rangeMax res ∧ |y - gy| ≤ f.rangeMax res := by
  have key : ∀ d : Int, |(d : ℝ) * res| ≤ radius (close f.pts) + f.expand → |d| ≤ f.rangeMax res := by
    intro d hd
    unfold Foot.rangeMax
    have h1 : (|d| : ℝ) ≤ (radius (close f.pts) + f.expand + f.spread) / res := by
      rw [le_div_iff₀ hres]
      rw [abs_mul, abs_of_pos hres] at hd
      linarith
    have h2 : ((|d| : Int) : ℝ) ≤ (radius (close f.pts) + f.expand + f.spread) / res := by push_cast; exact h1
    exact_mod_cast le_trans h2 (Int.le_ceil _)
  have fin : hypot ((x - gx : Int) * res) ((y - gy : Int) * res) ≤ radius (close f.pts) + f.expand →
      |x - gx| ≤ f.rangeMax res ∧ |y - gy| ≤ f.rangeMax res := fun hn =>
    ⟨key _ (le_trans (abs_fst_le_hypot _ _) hn), key _ (le_trans (abs_snd_le_hypot _ _) hn)⟩
  rcases h with h | h
  · unfold FootCovers at h
    refine ⟨?_, fin ((covers_near _ _ _ _ h).trans (by linarith))⟩
    unfold Foot.template
    simp only [h, if_true]
    split <;> rfl
  · unfold FootNear at h
    obtain ⟨q, hq, hd⟩ := h
    refine ⟨?_, fin (outline_near _ _ _ _ _ ⟨q, hq, hd.le⟩)⟩
    have hle := distFrom_le (0, 0) q _ big hq
    unfold Foot.template
    simp only
    split
    · rfl
    · split
      · rfl
      · rw [if_pos (by push_cast at hle ⊢; linarith)]

/-- Cost of a cell as a function of its distance from the footprint (outside it). -/
noncomputable def Foot.prof (f : Foot) (res d : ℝ) : Int :=
  if d < f.expand then 100
  else if d < f.expand + f.spread then trunc (100 - (d - f.expand) * (100 - f.minCost) / f.spread)
  else if |f.expand + f.spread - d| < res / 100 then f.minCost
  else 0

theorem trunc_nonneg {x : ℝ} (h : 0 ≤ x) : trunc x = ⌊x⌋ := by unfold trunc; rw [if_pos h]

/-- On the slope the cost lies between the configured minimum and 100. -/
theorem slope_bounds (f : Foot) (d : ℝ) (hm1 : f.minCost ≤ 100) (h1 : f.expand ≤ d)
    (h2 : d < f.expand + f.spread) :
    (f.minCost : ℝ) ≤ 100 - (d - f.expand) * (100 - f.minCost) / f.spread ∧
      100 - (d - f.expand) * (100 - f.minCost) / f.spread ≤ 100 := by
  have hs : 0 < f.spread := by linarith
  have m1 : (f.minCost : ℝ) ≤ 100 := by exact_mod_cast hm1
  have a : 0 ≤ (d - f.expand) * (100 - f.minCost) / f.spread :=
    div_nonneg (mul_nonneg (by linarith) (by linarith)) hs.le
  have b : (d - f.expand) * (100 - f.minCost) / f.spread ≤ 100 - f.minCost := by
    rw [div_le_iff₀ hs]
    nlinarith
  constructor <;> linarith

theorem prof_bounds (f : Foot) (res d : ℝ) (hm0 : 0 ≤ f.minCost) (hm1 : f.minCost ≤ 100) :
    0 ≤ f.prof res d ∧ f.prof res d ≤ 100 := by
  unfold Foot.prof
  split
  · omega
  · split
    · rename_i h1 h2
      obtain ⟨a, b⟩ := slope_bounds f d hm1 (not_lt.mp h1) h2
      have m0 : (0 : ℝ) ≤ f.minCost := by exact_mod_cast hm0
      rw [trunc_nonneg (by linarith)]
      refine ⟨Int.floor_nonneg.mpr (by linarith), ?_⟩
      have := Int.floor_le_floor b
      simpa using this
    · split <;> omega

/-- The cost never increases with the distance. -/
theorem prof_anti (f : Foot) (res : ℝ) (hm0 : 0 ≤ f.minCost) (hm1 : f.minCost ≤ 100) {d d' : ℝ} (h : d ≤ d') :
    f.prof res d' ≤ f.prof res d := by
  have hb := prof_bounds f res d' hm0 hm1
  have m0 : (0 : ℝ) ≤ f.minCost := by exact_mod_cast hm0
  have m1 : (f.minCost : ℝ) ≤ 100 := by exact_mod_cast hm1
  by_cases h1 : d < f.expand
  · conv_rhs => unfold Foot.prof
    rw [if_pos h1]; exact hb.2
  · by_cases h2 : d < f.expand + f.spread
    · have hs : 0 < f.spread := by linarith
      obtain ⟨a, b⟩ := slope_bounds f d hm1 (not_lt.mp h1) h2
      have e : f.prof res d = ⌊100 - (d - f.expand) * (100 - f.minCost) / f.spread⌋ := by
        unfold Foot.prof
        rw [if_neg h1, if_pos h2, trunc_nonneg (by linarith)]
      have hmc : f.minCost ≤ f.prof res d := by rw [e]; exact Int.le_floor.mpr a
      unfold Foot.prof
      rw [if_neg (by linarith)]
      by_cases h3 : d' < f.expand + f.spread
      · rw [if_pos h3]
        obtain ⟨a', b'⟩ := slope_bounds f d' hm1 (by linarith) h3
        rw [trunc_nonneg (by linarith)]
        change _ ≤ f.prof res d
        rw [e]
        apply Int.floor_le_floor
        have : (d - f.expand) * (100 - f.minCost) / f.spread ≤ (d' - f.expand) * (100 - f.minCost) / f.spread := by
          apply div_le_div_of_nonneg_right _ hs.le
          exact mul_le_mul_of_nonneg_right (by linarith) (by linarith)
        linarith
      · rw [if_neg h3]
        change _ ≤ f.prof res d
        split <;> omega
    · unfold Foot.prof
      rw [if_neg h1, if_neg h2, if_neg (by linarith), if_neg (by linarith)]
      rw [abs_of_nonpos (by linarith), abs_of_nonpos (by linarith)]
      split
      · rw [if_pos (by linarith)]
      · split <;> omega

theorem template_eq (big : ℝ) (f : Foot) (res angRes : ℝ) (x y yaw : Int) :
    f.template big res angRes x y yaw =
      if radius (close f.pts) = 0 ∧ x = 0 ∧ y = 0 then 100
      else if inside (move (x * res) (y * res) (yaw * angRes) (close f.pts)) (0, 0) then 100
      else f.prof res (distFrom big (0, 0) (move (x * res) (y * res) (yaw * angRes) (close f.pts))) := rfl

/-- C24: template costs lie between 0 and 100. -/
theorem template_bounds (big : ℝ) (f : Foot) (res angRes : ℝ) (hm0 : 0 ≤ f.minCost) (hm1 : f.minCost ≤ 100)
    (x y yaw : Int) : 0 ≤ f.template big res angRes x y yaw ∧ f.template big res angRes x y yaw ≤ 100 := by
  rw [template_eq]
  split
  · omega
  · split
    · omega
    · exact prof_bounds f res _ hm0 hm1

/-- C25: beyond the expanded and spread footprint the template is 0, so inflation never marks farther poses. -/
theorem template_far (big : ℝ) (f : Foot) (res angRes : ℝ) (x y yaw : Int) (he : 0 ≤ f.expand) (hs : 0 ≤ f.spread)
    (hres : 0 < res)
    (hin : inside (move (x * res) (y * res) (yaw * angRes) (close f.pts)) (0, 0) = false)
    (hf : ∀ q, OnOutline (move (x * res) (y * res) (yaw * angRes) (close f.pts)) q →
      f.expand + f.spread + res / 100 ≤ Polygon.dist (0, 0) q)
    (hbig : f.expand + f.spread + res / 100 ≤ big) (hne : f.pts ≠ []) : f.template big res angRes x y yaw = 0 := by
  have hd : f.expand + f.spread + res / 100 ≤
      distFrom big (0, 0) (move (x * res) (y * res) (yaw * angRes) (close f.pts)) := by
    by_contra hn
    obtain ⟨q, hq, e⟩ := distFrom_attained (0, 0) _ big (lt_of_lt_of_le (not_le.mp hn) hbig)
    have := hf q hq
    rw [← e] at this
    exact hn this
  rw [template_eq, if_neg, hin]
  · simp only [Bool.false_eq_true, if_false]
    unfold Foot.prof
    rw [if_neg (by linarith), if_neg (by linarith), if_neg]
    rw [abs_of_nonpos (by linarith)]
    linarith
  · rintro ⟨hr, rfl, rfl⟩
    obtain ⟨p, ps, e⟩ : ∃ p ps, f.pts = p :: ps := by
      cases h : f.pts with
      | nil => exact absurd h hne
      | cons p ps => exact ⟨p, ps, rfl⟩
    have hc : ∃ b r, close f.pts = p :: b :: r := by
      rw [e]; cases ps <;> simp [close]
    obtain ⟨b, r, hc⟩ := hc
    have ho : OnOutline (close f.pts) p := ⟨[], p, b, r, hc, 0, le_refl _, zero_le_one, by simp⟩
    have h0 := onOutline_radius _ _ ho
    rw [hr] at h0
    have := hf _ (onOutline_place ((0 : Int) * res) ((0 : Int) * res) (yaw * angRes) _ _ ho)
    have h2 := dist_place 0 0 (yaw * angRes) p (0, 0)
    have h3 : Polygon.dist (0, 0) (place 0 0 (yaw * angRes) p) ≤ 0 := by
      have hz : place 0 0 (yaw * angRes) ((0 : ℝ), (0 : ℝ)) = (0, 0) := by simp [place]
      have hs : Polygon.dist (0, 0) (place 0 0 (yaw * angRes) p) = Polygon.dist (place 0 0 (yaw * angRes) p) (0, 0) := by
        unfold Polygon.dist hypot; congr 1; ring
      rw [hs, ← hz, h2]
      unfold Polygon.dist; simpa using h0
    simp only [Int.cast_zero, zero_mul] at this
    linarith

/-- C25: if the source grid has another resolution than the map, every pose at which the footprint covers a fully
occupied cell gets cost at least 100. -/
theorem conservative_full (big : ℝ) (f : Foot) (angRes : ℝ) (he : 0 ≤ f.expand) (hs : 0 ≤ f.spread) (g : Grid ℝ)
    (m : Info ℝ) (hm : 0 < m.res) (hres : g.res ≠ m.res) (c : Int → Int → Int) (x y yaw gx gy : Int)
    (hin : inMap m x y = true) (hocc : ValueAt g m gx gy 100) (hcov : FootCovers f m.res angRes x y yaw gx gy ∨ FootNear f m.res angRes x y yaw gx gy) :
    100 ≤ generateSpecified false (f.rangeMax m.res) (fun x y => f.template big m.res angRes x y yaw) g m c x y := by
  obtain ⟨h1, h2, h3⟩ := template_covers big f m.res angRes hm he hs x y yaw gx gy hcov
  exact (inflate_full _ _ g m c hres x y hin).2.1 100
    (Or.inr ⟨gx, gy, 100, hocc, by norm_num, h2, h3, by show (100 : Int) = f.template _ _ _ _ _ _ * 100 / 100; rw [h1]; rfl, by norm_num⟩)

/-- C25: with equal resolutions the same holds on the grid's window if the template decreases away from the centre.
Missing: templates that do not (see `shortcut_misses_wall`). -/
theorem conservative_partial (big : ℝ) (f : Foot) (angRes : ℝ) (he : 0 ≤ f.expand) (hs : 0 ≤ f.spread) (g : Grid ℝ)
    (m : Info ℝ) (hm : 0 < m.res) (hres : g.res = m.res) (hwf : WF g) (c : Int → Int → Int) (x y yaw gx gy : Int)
    (ht : Shrinking (fun x y => f.template big m.res angRes x y yaw))
    (hin : inMap m x y = true) (hw : InWindow g m x y) (hocc : ValueAt g m gx gy 100)
    (hcov : FootCovers f m.res angRes x y yaw gx gy ∨ FootNear f m.res angRes x y yaw gx gy) :
    100 ≤ generateSpecified false (f.rangeMax m.res) (fun x y => f.template big m.res angRes x y yaw) g m c x y := by
  obtain ⟨h1, h2, h3⟩ := template_covers big f m.res angRes hm he hs x y yaw gx gy hcov
  have hR : 0 ≤ f.rangeMax m.res := le_trans (abs_nonneg _) h2
  exact (inflate_masked_partial _ _ g m c hR hwf hres hm.ne' ht x y hin hw).2.1 100
    (Or.inr ⟨gx, gy, 100, hocc, by norm_num, h2, h3, by show (100 : Int) = f.template _ _ _ _ _ _ * 100 / 100; rw [h1]; rfl, by norm_num⟩)

/-! ### The plain layer: a point-like robot -/

theorem move_points {pts : List (Pt ℝ)} (hp : ∀ p ∈ pts, p = (0, 0)) (x y yaw : ℝ) :
    move x y yaw (close pts) = List.replicate (close pts).length (x, y) := by
  rw [move_eq, List.eq_replicate_iff]
  refine ⟨by simp, ?_⟩
  intro b hb
  obtain ⟨q, hq, rfl⟩ := List.mem_map.mp hb
  rw [hp q (mem_close hq)]
  simp [place]

theorem crossings_points (a q : Pt ℝ) : ∀ n, crossings a (List.replicate n q) = 0
  | 0 => rfl
  | 1 => rfl
  | n + 2 => by
    have ih := crossings_points a q (n + 1)
    rw [List.replicate_succ] at ih
    rw [List.replicate_succ, List.replicate_succ]
    unfold crossings
    rw [ih]
    have : straddles a q q = false := by
      unfold straddles
      rw [Bool.or_self, Bool.and_eq_false_iff, decide_eq_false_iff_not, decide_eq_false_iff_not]
      by_cases h : q.2 ≤ a.2
      · right; exact not_lt.mpr h
      · left; exact h
    rw [this]; rfl

theorem distFrom_points (a q : Pt ℝ) : ∀ (n : Nat) (big : ℝ), 
    distFrom big a (List.replicate (n + 2) q) = min (Polygon.dist a q) big
  | 0, big => by
    simp only [List.replicate, distFrom]
    have : distLinestrip a q q = Polygon.dist a q := by
      unfold distLinestrip; rw [if_pos (by unfold dot sub; simp)]
    rw [this, min_def]
    split <;> split <;> linarith
  | n + 1, big => by
    rw [List.replicate_succ, List.replicate_succ]
    unfold distFrom
    rw [← List.replicate_succ, distFrom_points a q n]
    have : distLinestrip a q q = Polygon.dist a q := by
      unfold distLinestrip; rw [if_pos (by unfold dot sub; simp)]
    rw [this]
    split
    · rw [min_self, min_eq_left (by linarith)]
    · rfl

/-- The template of a point-like footprint as a function of the distance between the cells. -/
theorem plain_template (big : ℝ) (f : Foot) (hne : f.pts ≠ []) (hp : ∀ p ∈ f.pts, p = (0, 0)) (res angRes : ℝ)
    (x y yaw : Int) : f.template big res angRes x y yaw =
      if x = 0 ∧ y = 0 then 100 else f.prof res (min (hypot (x * res) (y * res)) big) := by
  have hr : radius (close f.pts) = 0 := by
    apply le_antisymm _ (radius_nonneg _)
    have hcn : close f.pts ≠ [] := by cases h : f.pts with
      | nil => exact absurd h hne
      | cons p ps => simp [close]
    obtain ⟨⟨p, hpm, e⟩, -⟩ := radius_spec (close f.pts) hcn
    rw [e, hp p (mem_close hpm)]
    unfold hypot; simp
  obtain ⟨n, hn⟩ : ∃ n, (close f.pts).length = n + 2 := by
    cases h : f.pts with
    | nil => exact absurd h hne
    | cons p ps => exact ⟨ps.length, by simp [close]⟩
  rw [template_eq, hr, move_points hp, hn]
  unfold inside
  rw [crossings_points, distFrom_points]
  have : Polygon.dist (0, 0) ((x : ℝ) * res, (y : ℝ) * res) = hypot (x * res) (y * res) := by
    unfold Polygon.dist hypot; simp
  rw [this]
  simp

theorem hypot_mono {a b c d : ℝ} (h1 : |a| ≤ |c|) (h2 : |b| ≤ |d|) : hypot a b ≤ hypot c d := by
  unfold hypot
  apply Real.sqrt_le_sqrt
  have := sq_le_sq.mpr h1
  have := sq_le_sq.mpr h2
  linarith

/-- C24: the plain layer's template decreases away from the centre, so the shortcut changes nothing there. -/
theorem plain_shrinking (big : ℝ) (f : Foot) (hne : f.pts ≠ []) (hp : ∀ p ∈ f.pts, p = (0, 0)) (res angRes : ℝ)
    (hm0 : 0 ≤ f.minCost) (hm1 : f.minCost ≤ 100) (yaw : Int) :
    Shrinking (fun x y => f.template big res angRes x y yaw) := by
  have key : ∀ x y x' y' : Int, |x'| ≤ |x| → |y'| ≤ |y| →
      f.template big res angRes x y yaw ≤ f.template big res angRes x' y' yaw := by
    intro x y x' y' hx hy
    by_cases h' : x' = 0 ∧ y' = 0
    · rw [plain_template big f hne hp res angRes x' y', if_pos h']
      exact (template_bounds big f res angRes hm0 hm1 x y yaw).2
    · have h : ¬ (x = 0 ∧ y = 0) := by
        rintro ⟨rfl, rfl⟩
        rw [abs_zero] at hx hy
        exact h' ⟨abs_nonpos_iff.mp hx, abs_nonpos_iff.mp hy⟩
      rw [plain_template big f hne hp, plain_template big f hne hp, if_neg h, if_neg h']
      apply prof_anti f res hm0 hm1
      apply min_le_min _ (le_refl _)
      apply hypot_mono
      · rw [abs_mul, abs_mul]
        exact mul_le_mul_of_nonneg_right (by exact_mod_cast hx) (abs_nonneg _)
      · rw [abs_mul, abs_mul]
        exact mul_le_mul_of_nonneg_right (by exact_mod_cast hy) (abs_nonneg _)
  intro x y
  refine ⟨fun h => key _ _ _ _ ?_ (le_refl _), fun h => key _ _ _ _ ?_ (le_refl _),
    fun h => key _ _ _ _ (le_refl _) ?_, fun h => key _ _ _ _ (le_refl _) ?_⟩ <;>
  · rw [abs_le]
    constructor <;> (rcases abs_cases (x : Int) with ⟨e, _⟩ | ⟨e, _⟩ <;> rcases abs_cases (y : Int) with ⟨e', _⟩ | ⟨e', _⟩ <;> omega)

/-- C25 for the plain layer, at equal resolutions: every cell of the grid's window closer than the expansion to a fully
occupied cell (or being that cell) gets cost at least 100, for every heading. -/
theorem plain_conservative (big : ℝ) (f : Foot) (hne : f.pts ≠ []) (hp : ∀ p ∈ f.pts, p = (0, 0)) (angRes : ℝ)
    (he : 0 ≤ f.expand) (hs : 0 ≤ f.spread) (hm0 : 0 ≤ f.minCost) (hm1 : f.minCost ≤ 100) (g : Grid ℝ) (m : Info ℝ)
    (hm : 0 < m.res) (hres : g.res = m.res) (hwf : WF g) (c : Int → Int → Int) (x y yaw gx gy : Int)
    (hin : inMap m x y = true) (hw : InWindow g m x y) (hocc : ValueAt g m gx gy 100)
    (hnear : (x = gx ∧ y = gy) ∨ hypot ((x - gx : Int) * m.res) ((y - gy : Int) * m.res) < f.expand) :
    100 ≤ generateSpecified false (f.rangeMax m.res) (fun x y => f.template big m.res angRes x y yaw) g m c x y := by
  have hr0 : 0 ≤ f.rangeMax m.res := by
    unfold Foot.rangeMax
    apply Int.ceil_nonneg
    have := radius_nonneg (close f.pts)
    positivity
  have ht := plain_shrinking big f hne hp m.res angRes hm0 hm1 yaw
  have hT : f.template big m.res angRes (x - gx) (y - gy) yaw = 100 ∧ |x - gx| ≤ f.rangeMax m.res ∧
      |y - gy| ≤ f.rangeMax m.res := by
    rcases hnear with ⟨rfl, rfl⟩ | hd
    · refine ⟨?_, by simpa using hr0, by simpa using hr0⟩
      rw [plain_template big f hne hp, if_pos ⟨by omega, by omega⟩]
    · refine template_covers big f m.res angRes hm he hs x y yaw gx gy (Or.inr ?_)
      obtain ⟨p, ps, e⟩ : ∃ p ps, f.pts = p :: ps := by
        cases h : f.pts with
        | nil => exact absurd h hne
        | cons p ps => exact ⟨p, ps, rfl⟩
      obtain ⟨b, r, hc⟩ : ∃ b r, close f.pts = p :: b :: r := by rw [e]; cases ps <;> simp [close]
      have ho : OnOutline (close f.pts) p := ⟨[], p, b, r, hc, 0, le_refl _, zero_le_one, by simp⟩
      refine ⟨_, onOutline_place _ _ _ _ _ ho, ?_⟩
      rw [hp p (by rw [e]; simp)]
      have : Polygon.dist (0, 0) (place ((x - gx : Int) * m.res) ((y - gy : Int) * m.res) (yaw * angRes) (0, 0)) =
          hypot ((x - gx : Int) * m.res) ((y - gy : Int) * m.res) := by
        unfold Polygon.dist hypot place; simp
      rw [this]; exact hd
  obtain ⟨h1, h2, h3⟩ := hT
  exact (inflate_masked_partial _ _ g m c hr0 hwf hres hm.ne' ht x y hin hw).2.1 100
    (Or.inr ⟨gx, gy, 100, hocc, by norm_num, h2, h3,
      by show (100 : Int) = f.template _ _ _ _ _ _ * 100 / 100; rw [h1]; rfl, by norm_num⟩)

/-! ### The shortcut is not conservative for elongated footprints at oblique headings -/

/-- A robot of width 8/√2 and length 16/√2, heading at 45 degrees. -/
def diag : Foot := ⟨[(6, 2), (2, 6), (-6, -2), (-2, -6)], 0, 0, 0⟩

/-- A straight wall across the whole grid. -/
def wallGrid : Grid ℝ := ⟨15, 10, 1, 0, 0, (List.range 150).map fun i => if i / 15 = 2 then 100 else 0⟩
def wallMap : Info ℝ := ⟨15, 10, 1, 1, 0, 0⟩

theorem wall_get (i : Nat) (h : i < 150) : wallGrid.data.getD i 0 = if i / 15 = 2 then 100 else 0 := by
  unfold wallGrid
  simp [List.getD_eq_getElem?_getD, h]

theorem wall_cell (i : Nat) : cellX wallGrid wallMap i = (i % 15 : Nat) ∧ cellY wallGrid wallMap i = (i / 15 : Nat) := by
  have h := cell_eq wallGrid wallMap rfl (by unfold wallMap; norm_num) i
  have o1 : offX wallGrid wallMap = 0 := by unfold offX wallGrid wallMap lround; norm_num
  have o2 : offY wallGrid wallMap = 0 := by unfold offY wallGrid wallMap lround; norm_num
  rw [o1, o2] at h
  simpa [wallGrid] using h

/-- Away from the wall's own column the diagonal template is 0 five cells from the obstacle. -/
theorem diag_side (big : ℝ) (hbig : 1 ≤ big) : diag.template big 1 1 0 5 0 = 0 := by
  have hmv : move ((0 : Int) * (1 : ℝ)) ((5 : Int) * (1 : ℝ)) ((0 : Int) * (1 : ℝ)) (close diag.pts) =
      [(6, 7), (2, 11), (-6, 3), (-2, -1), (6, 7)] := by
    unfold move moveCS diag close
    simp
    norm_num
  apply template_far big diag 1 1 0 5 0 (le_refl _) (le_refl _) one_pos
  · rw [hmv]
    unfold inside
    simp only [crossings, straddles, lx]
    norm_num
  · rw [hmv]
    intro q hq
    -- the origin is on the other side of the line y = x + 1 by more than 1/100
    have hall : ∀ p ∈ [((6 : ℝ), (7 : ℝ)), (2, 11), (-6, 3), (-2, -1), (6, 7)], p.1 + 1 ≤ p.2 := by
      intro p hp
      simp only [List.mem_cons, List.not_mem_nil, or_false] at hp
      rcases hp with rfl | rfl | rfl | rfl | rfl <;> norm_num
    obtain ⟨l, a, b, r, e, t, t0, t1, rfl⟩ := hq
    have ha := hall a (by rw [e]; simp)
    have hb := hall b (by rw [e]; simp)
    simp only [diag]
    unfold Polygon.dist hypot
    apply Real.le_sqrt_of_sq_le
    simp only
    have : (a.1 + t * (b.1 - a.1)) + 1 ≤ a.2 + t * (b.2 - a.2) := by
      nlinarith [mul_le_mul_of_nonneg_left ha (sub_nonneg.mpr t1), mul_le_mul_of_nonneg_left hb t0]
    generalize a.1 + t * (b.1 - a.1) = u at *
    generalize a.2 + t * (b.2 - a.2) = w at *
    nlinarith [sq_nonneg (u + w), sq_nonneg (u - w), sq_nonneg (w - u - 1)]
  · simp only [diag]; linarith
  · simp [diag]

/-- C25 fails for the code's shortcut: the wall cell `(6, 2)` is fully occupied, the robot placed at `(8, 7)` covers
it, and the pose still has cost 0. -/
theorem shortcut_misses_wall (big : ℝ) (hbig : 1 ≤ big) :
    ValueAt wallGrid wallMap 6 2 100 ∧ FootCovers diag wallMap.res 1 8 7 0 6 2 ∧
    inMap wallMap 8 7 = true ∧ InWindow wallGrid wallMap 8 7 ∧
    generateSpecified false (diag.rangeMax wallMap.res) (fun x y => diag.template big wallMap.res 1 x y 0) wallGrid wallMap
      (fun _ _ => 0) 8 7 = 0 := by
  have hlen : wallGrid.data.length = 150 := by unfold wallGrid; simp
  refine ⟨⟨36, by rw [hlen]; omega, wall_get 36 (by omega), (wall_cell 36).1, (wall_cell 36).2, by decide⟩, ?_, ?_, ?_, ?_⟩
  · unfold FootCovers
    have hmv : move ((8 - 6 : Int) * wallMap.res) ((7 - 2 : Int) * wallMap.res) ((0 : Int) * (1 : ℝ)) (close diag.pts) =
        [(8, 7), (4, 11), (-4, 3), (0, -1), (8, 7)] := by
      unfold move moveCS diag close wallMap
      simp
      norm_num
    rw [hmv]
    unfold inside
    simp only [crossings, straddles, lx]
    norm_num
  · unfold inMap wallMap; decide
  · have o1 : offX wallGrid wallMap = 0 := by unfold offX wallGrid wallMap lround; norm_num
    have o2 : offY wallGrid wallMap = 0 := by unfold offY wallGrid wallMap lround; norm_num
    unfold InWindow
    rw [o1, o2]
    unfold wallGrid
    simp
  · obtain ⟨h1, -, h3⟩ := fold_max (diag.rangeMax wallMap.res) (fun x y => diag.template big wallMap.res 1 x y 0)
      wallGrid wallMap 8 7 wallGrid.items (fun _ _ => 0)
    rcases h3 with h3 | ⟨⟨i, v⟩, hm, hmap, h⟩
    · exact h3
    · obtain ⟨hi, hv⟩ := mem_items.mp hm
      rw [hlen] at hi
      simp only at hi hv h
      rw [wall_get i hi] at hv
      obtain ⟨cx, cy⟩ := wall_cell i
      rw [cx, cy] at h
      rcases h with ⟨-, -, -, hd⟩ | ⟨hv0, -, hx, hy, hd, hpos⟩
      · exact hd
      · exfalso
        have hrow : i / 15 = 2 := by
          by_contra hn; rw [if_neg hn] at hv; omega
        rw [if_pos hrow] at hv
        have hmask : rectOf (diag.rangeMax wallMap.res) wallGrid wallMap i = maskedRect (diag.rangeMax wallMap.res) wallGrid i := by
          exact if_pos rfl
        rw [hmask] at hx
        have hg := wall_get i hi
        rw [if_pos hrow] at hg
        have hw15 : wallGrid.w = 15 := rfl
        have hmin : (maskedRect (diag.rangeMax wallMap.res) wallGrid i).xMin = 0 := by
          unfold maskedRect
          simp only [hw15, hg]
          apply if_pos
          by_cases h0 : i % 15 = 0
          · exact Or.inl h0
          · right
            rw [wall_get (i - 1) (by omega), if_pos (by omega)]
        have hmax : (maskedRect (diag.rangeMax wallMap.res) wallGrid i).xMax = 0 := by
          unfold maskedRect
          simp only [hw15, hg]
          apply if_pos
          by_cases h0 : i % 15 = 14
          · exact Or.inl h0
          · right
            rw [wall_get (i + 1) (by omega), if_pos (by omega)]
        rw [hmin, hmax] at hx
        have h8 : i = 38 := by omega
        subst h8
        have ht := diag_side big hbig
        have hr1 : wallMap.res = 1 := rfl
        rw [hr1] at hd
        norm_num [ht] at hd
        rw [hr1] at hpos
        omega

/-- The same placement would be blocked without the shortcut: the template itself covers the pose. -/
example (big : ℝ) : diag.template big 1 1 2 5 0 = 100 := by
  have h := (template_covers big diag 1 1 one_pos (le_refl _) (le_refl _) 8 7 0 6 2 (Or.inl ?_)).1
  · simpa using h
  · unfold FootCovers
    have hmv : move ((8 - 6 : Int) * (1 : ℝ)) ((7 - 2 : Int) * (1 : ℝ)) ((0 : Int) * (1 : ℝ)) (close diag.pts) =
        [(8, 7), (4, 11), (-4, 3), (0, -1), (8, 7)] := by
      unfold move moveCS diag close
      simp
      norm_num
    rw [hmv]
    unfold inside
    simp only [crossings, straddles, lx]
    norm_num

/-! ### The template cache -/

/-- C76: inside the ranges every template cell has its own place in the array. -/
theorem cache_addr (c : Cache) (x y yaw : Int) (hx : |x| ≤ c.cx) (hy : |y| ≤ c.cy) (h0 : 0 ≤ yaw) (h1 : yaw < c.ang) :
    ∃ a, c.addr x y yaw = some a ∧ a < c.arraySize ∧
      ∀ x' y' yaw' : Int, |x'| ≤ c.cx → |y'| ≤ c.cy → 0 ≤ yaw' → yaw' < c.ang → c.addr x' y' yaw' = some a →
        x' = x ∧ y' = y ∧ yaw' = yaw := by
  have key : ∀ x y yaw : Int, |x| ≤ c.cx → |y| ≤ c.cy → 0 ≤ yaw → yaw < c.ang →
      0 ≤ yaw * ((2 * c.cx + 1) * (2 * c.cy + 1) : Nat) + (y + c.cy) * (2 * c.cx + 1 : Nat) + (x + c.cx) ∧
      yaw * ((2 * c.cx + 1) * (2 * c.cy + 1) : Nat) + (y + c.cy) * (2 * c.cx + 1 : Nat) + (x + c.cx) < c.arraySize := by
    intro x y yaw hx hy h0 h1
    rw [abs_le] at hx hy
    unfold Cache.arraySize
    push_cast
    constructor
    · have a := mul_nonneg h0 (mul_nonneg (show (0 : Int) ≤ 2 * c.cx + 1 by omega) (show (0 : Int) ≤ 2 * c.cy + 1 by omega))
      have b := mul_nonneg (show (0 : Int) ≤ y + c.cy by omega) (show (0 : Int) ≤ 2 * c.cx + 1 by omega)
      linarith
    · have a := mul_le_mul_of_nonneg_right (show yaw + 1 ≤ (c.ang : Int) by omega)
        (mul_nonneg (show (0 : Int) ≤ 2 * c.cx + 1 by omega) (show (0 : Int) ≤ 2 * c.cy + 1 by omega))
      have b := mul_le_mul_of_nonneg_right (show y + c.cy + 1 ≤ 2 * c.cy + 1 by omega) (show (0 : Int) ≤ 2 * c.cx + 1 by omega)
      nlinarith
  have k := key x y yaw hx hy h0 h1
  refine ⟨_, by unfold Cache.addr; simp only; rw [if_pos k], by have := k.1; omega, ?_⟩
  intro x' y' yaw' hx' hy' h0' h1' e
  have k' := key x' y' yaw' hx' hy' h0' h1'
  unfold Cache.addr at e
  simp only at e
  rw [if_pos k'] at e
  injection e with e
  have e2 := congrArg (Nat.cast : Nat → Int) e
  rw [Int.toNat_of_nonneg k.1, Int.toNat_of_nonneg k'.1] at e2
  rw [abs_le] at hx hy hx' hy'
  push_cast at e2
  have W : (0 : Int) < 2 * c.cx + 1 := by omega
  have H : (0 : Int) < 2 * c.cy + 1 := by omega
  -- divide by the row length
  have r : ∀ x y yaw : Int, yaw * ((2 * c.cx + 1) * (2 * c.cy + 1)) + (y + c.cy) * (2 * c.cx + 1) + (x + c.cx) =
      (x + c.cx) + (2 * c.cx + 1) * ((y + c.cy) + (2 * c.cy + 1) * yaw) := by intros; ring
  rw [r, r] at e2
  have d1 := congrArg (· / (2 * (c.cx : Int) + 1)) e2
  have m1 := congrArg (· % (2 * (c.cx : Int) + 1)) e2
  simp only [Int.add_mul_ediv_left _ _ W.ne', Int.add_mul_emod_self_left] at d1 m1
  rw [Int.ediv_eq_zero_of_lt (by omega) (by omega), Int.ediv_eq_zero_of_lt (by omega) (by omega), zero_add, zero_add] at d1
  rw [Int.emod_eq_of_lt (by omega) (by omega), Int.emod_eq_of_lt (by omega) (by omega)] at m1
  have d2 := congrArg (· / (2 * (c.cy : Int) + 1)) d1
  have m2 := congrArg (· % (2 * (c.cy : Int) + 1)) d1
  simp only [Int.add_mul_ediv_left _ _ H.ne', Int.add_mul_emod_self_left] at d2 m2
  rw [Int.ediv_eq_zero_of_lt (by omega) (by omega), Int.ediv_eq_zero_of_lt (by omega) (by omega), zero_add, zero_add] at d2
  rw [Int.emod_eq_of_lt (by omega) (by omega), Int.emod_eq_of_lt (by omega) (by omega)] at m2
  omega

example : (⟨2, 1, 4⟩ : Cache).addr (-2) (-1) 0 = some 0 ∧ (⟨2, 1, 4⟩ : Cache).addr 2 1 3 = some 59 ∧
    (⟨2, 1, 4⟩ : Cache).arraySize = 60 := by decide

/-- A single obstacle on a 5×5 grid with a one-cell template, inflated at another resolution. -/
example : (generateSpecified false 1 (fun x y => if x = 0 ∧ y = 0 then 100 else 50)
    (⟨2, 2, (2 : ℚ), 0, 0, [0, 80, -1, 0]⟩ : Grid ℚ) ⟨5, 5, 1, 1, 0, 0⟩ (fun _ _ => -1)) 2 0 = 80 ∧
    (generateSpecified false 1 (fun x y => if x = 0 ∧ y = 0 then 100 else 50)
    (⟨2, 2, (2 : ℚ), 0, 0, [0, 80, -1, 0]⟩ : Grid ℚ) ⟨5, 5, 1, 1, 0, 0⟩ (fun _ _ => -1)) 3 1 = 40 := by
  decide +kernel

end Verif.CSpace
