import Verif.Region.Spec
import Mathlib.Tactic.Ring
import Mathlib.Tactic.Linarith
/-! # Properties of update regions and block copies (C22, C23) -/
namespace Verif.Region
open Spec

/-! ### C22: merging -/

theorem merge_regular {s r : Region} (hs : Regular s) (hr : Regular r) : Regular (s.merge r) := by
  unfold Region.merge
  unfold Regular at *
  by_cases h1 : r.width = 0 ∨ r.height = 0 ∨ r.angle = 0
  · rw [if_pos h1]; exact hs
  · rw [if_neg h1]
    by_cases h2 : s.width = 0 ∨ s.height = 0 ∨ s.angle = 0
    · simp only [if_pos h2]; exact hr
    · simp only [if_neg h2]
      refine ⟨?_, ?_, ?_⟩ <;> (repeat' split) <;> omega

/-- C22: the merged region holds every cell of both operands. -/
theorem merge_covers {s r : Region} (hs : Regular s) (hr : Regular r) (c : Cell) (h : Covers s c ∨ Covers r c) :
    Covers (s.merge r) c := by
  unfold Region.merge
  unfold Regular at *
  unfold Covers at *
  by_cases h1 : r.width = 0 ∨ r.height = 0 ∨ r.angle = 0
  · rw [if_pos h1]
    rcases h with h | h
    · exact h
    · omega
  · rw [if_neg h1]
    by_cases h2 : s.width = 0 ∨ s.height = 0 ∨ s.angle = 0
    · simp only [if_pos h2]
      rcases h with h | h
      · omega
      · exact h
    · simp only [if_neg h2]
      refine ⟨?_, ?_, ?_⟩ <;> (repeat' split) <;> omega

/-- C22: and it is no larger than their bounding box: any box holding both operands holds it. -/
theorem merge_least {s r : Region} (hs : Regular s) (hr : Regular r) (b : Region)
    (hb : ∀ c, Covers s c ∨ Covers r c → Covers b c) (c : Cell) (h : Covers (s.merge r) c) : Covers b c := by
  unfold Region.merge at h
  unfold Regular at *
  by_cases h1 : r.width = 0 ∨ r.height = 0 ∨ r.angle = 0
  · rw [if_pos h1] at h; exact hb c (Or.inl h)
  · rw [if_neg h1] at h
    by_cases h2 : s.width = 0 ∨ s.height = 0 ∨ s.angle = 0
    · simp only [if_pos h2] at h; exact hb c (Or.inr h)
    · simp only [if_neg h2] at h
      have a1 := hb ⟨s.x, s.y, s.yaw⟩ (Or.inl (by unfold Covers; simp only; omega))
      have a2 := hb ⟨s.x + s.width - 1, s.y + s.height - 1, s.yaw + s.angle - 1⟩
        (Or.inl (by unfold Covers; simp only; omega))
      have b1 := hb ⟨r.x, r.y, r.yaw⟩ (Or.inr (by unfold Covers; simp only; omega))
      have b2 := hb ⟨r.x + r.width - 1, r.y + r.height - 1, r.yaw + r.angle - 1⟩
        (Or.inr (by unfold Covers; simp only; omega))
      unfold Covers at *
      simp only at a1 a2 b1 b2 h
      obtain ⟨⟨hx1, hx2⟩, ⟨hy1, hy2⟩, ⟨ha1, ha2⟩⟩ := h
      refine ⟨⟨?_, ?_⟩, ⟨?_, ?_⟩, ⟨?_, ?_⟩⟩
      · clear hx2 hy1 hy2 ha1 ha2; split at hx1 <;> omega
      · clear hx1 hy1 hy2 ha1 ha2; (repeat' split at hx2) <;> omega
      · clear hx1 hx2 hy2 ha1 ha2; split at hy1 <;> omega
      · clear hx1 hx2 hy1 ha1 ha2; (repeat' split at hy2) <;> omega
      · clear hx1 hx2 hy1 hy2 ha2; split at ha1 <;> omega
      · clear hx1 hx2 hy1 hy2 ha1; (repeat' split at ha2) <;> omega

/-- Several pending regions merged one after another, as a layer accumulates them. -/
theorem fold_regular (rs : List Region) : ∀ s, Regular s → (∀ r ∈ rs, Regular r) → Regular (rs.foldl Region.merge s) := by
  induction rs with
  | nil => intro s hs _; exact hs
  | cons r rs ih =>
    intro s hs h
    exact ih _ (merge_regular hs (h r (by simp))) (fun q hq => h q (by simp [hq]))

theorem fold_covers (rs : List Region) : ∀ s, Regular s → (∀ r ∈ rs, Regular r) → ∀ c,
    (Covers s c ∨ ∃ r ∈ rs, Covers r c) → Covers (rs.foldl Region.merge s) c := by
  induction rs with
  | nil => intro s _ _ c h; simpa using h
  | cons r rs ih =>
    intro s hs h c hc
    refine ih _ (merge_regular hs (h r (by simp))) (fun q hq => h q (by simp [hq])) c ?_
    rcases hc with hc | ⟨q, hq, hc⟩
    · exact Or.inl (merge_covers hs (h r (by simp)) c (Or.inl hc))
    · rcases List.mem_cons.mp hq with rfl | hq
      · exact Or.inl (merge_covers hs (h q (by simp)) c (Or.inr hc))
      · exact Or.inr ⟨q, hq, hc⟩

theorem fold_least (rs : List Region) : ∀ s, Regular s → (∀ r ∈ rs, Regular r) → ∀ b : Region,
    (∀ c, (Covers s c ∨ ∃ r ∈ rs, Covers r c) → Covers b c) → ∀ c, Covers (rs.foldl Region.merge s) c → Covers b c := by
  induction rs with
  | nil => intro s _ _ b hb c h; exact hb c (Or.inl h)
  | cons r rs ih =>
    intro s hs h b hb c hc
    refine ih _ (merge_regular hs (h r (by simp))) (fun q hq => h q (by simp [hq])) b ?_ c hc
    intro c' hc'
    rcases hc' with hc' | ⟨q, hq, hc'⟩
    · refine merge_least hs (h r (by simp)) b ?_ c' hc'
      intro c'' h''
      rcases h'' with h'' | h''
      · exact hb c'' (Or.inl h'')
      · exact hb c'' (Or.inr ⟨r, by simp, h''⟩)
    · exact hb c' (Or.inr ⟨q, by simp [hq], hc'⟩)

/-- C22: the result of merging any sequence of regions does not depend on the order. -/
theorem merge_order {rs rs' : List Region} (hp : rs.Perm rs') (hr : ∀ r ∈ rs, Regular r) (c : Cell) :
    Covers (rs.foldl Region.merge .zero) c ↔ Covers (rs'.foldl Region.merge .zero) c := by
  have hz : Regular Region.zero := by simp [Regular, Region.zero]
  have hr' : ∀ r ∈ rs', Regular r := fun r h => hr r (hp.mem_iff.mpr h)
  constructor
  · exact fun h => fold_least rs _ hz hr _ (fun c hc => fold_covers rs' _ hz hr' c
      (hc.imp id (fun ⟨r, hr, h⟩ => ⟨r, hp.mem_iff.mp hr, h⟩))) c h
  · exact fun h => fold_least rs' _ hz hr' _ (fun c hc => fold_covers rs _ hz hr c
      (hc.imp id (fun ⟨r, hr, h⟩ => ⟨r, hp.mem_iff.mpr hr, h⟩))) c h

/-- The stamp of the merged region is that of the newest non-empty operand, unless the first operand is empty, in which
case it is the second operand's even if it is older. -/
theorem merge_stamp {s r : Region} (hr : r.width ≠ 0 ∧ r.height ≠ 0 ∧ r.angle ≠ 0) :
    (s.merge r).stamp = if s.width = 0 ∨ s.height = 0 ∨ s.angle = 0 then r.stamp else max s.stamp r.stamp := by
  unfold Region.merge
  rw [if_neg (by omega)]
  by_cases h2 : s.width = 0 ∨ s.height = 0 ∨ s.angle = 0
  · simp only [if_pos h2]
  · simp only [if_neg h2]; split <;> omega

/-- Two regions merged in either order, one partially at negative coordinates. -/
example : (Region.zero.merge ⟨-3, 2, 0, 5, 4, 8, 7⟩).merge ⟨1, 0, 0, 4, 3, 8, 9⟩ = ⟨-3, 0, 0, 8, 6, 8, 9⟩ ∧
    Regular ⟨-3, 2, 0, 5, 4, 8, 7⟩ := by
  refine ⟨by decide, by decide, by decide, by decide⟩

/-! ### C22: clipping -/

/-- C22: clipping keeps exactly the cells inside the map. -/
theorem normalize_covers (s : Region) (w h : Int) (c : Cell) :
    Covers (s.normalize w h) c ↔ Covers s c ∧ InMap w h c := by
  unfold Region.normalize Covers InMap
  by_cases h1 : s.x < 0 <;> by_cases h2 : s.y < 0 <;> simp only [h1, h2, if_true, if_false] <;>
    (constructor
     · rintro ⟨⟨hx1, hx2⟩, ⟨hy1, hy2⟩, ⟨ha1, ha2⟩⟩
       (repeat' split at hx2) <;> (repeat' split at hy2) <;> omega
     · rintro ⟨⟨⟨hx1, hx2⟩, ⟨hy1, hy2⟩, ⟨ha1, ha2⟩⟩, hx3, hx4, hy3, hy4⟩
       refine ⟨⟨by omega, ?_⟩, ⟨by omega, ?_⟩, ⟨ha1, ha2⟩⟩ <;> (repeat' split) <;> omega)

/-- C22: and never leaves a negative origin or size, nor anything beyond the map. -/
theorem normalize_bounds (s : Region) (w h : Int) :
    0 ≤ (s.normalize w h).x ∧ 0 ≤ (s.normalize w h).y ∧ 0 ≤ (s.normalize w h).width ∧ 0 ≤ (s.normalize w h).height ∧
    ((s.normalize w h).width = 0 ∨ (s.normalize w h).x + (s.normalize w h).width ≤ w) ∧
    ((s.normalize w h).height = 0 ∨ (s.normalize w h).y + (s.normalize w h).height ≤ h) := by
  unfold Region.normalize
  by_cases h1 : s.x < 0 <;> by_cases h2 : s.y < 0 <;> simp only [h1, h2, if_true, if_false] <;>
    refine ⟨by omega, by omega, ?_, ?_, ?_, ?_⟩ <;> (repeat' split) <;> omega

/-- C22: enlarging a region by a margin adds exactly the cells within that margin. -/
theorem expand_covers (s : Region) (ex : Int) (hex : 0 ≤ ex) (hs : 0 < s.width ∧ 0 < s.height) :
    ∃ s', s.expand ex = some s' ∧ ∀ c, Covers s' c ↔
      ∃ c', Covers s c' ∧ c.a = c'.a ∧ |c.x - c'.x| ≤ ex ∧ |c.y - c'.y| ≤ ex := by
  refine ⟨{ s with x := s.x - ex, y := s.y - ex, width := s.width + 2 * ex, height := s.height + 2 * ex }, ?_, ?_⟩
  · unfold Region.expand; rw [if_pos (by omega)]
  · intro c
    unfold Covers
    simp only
    constructor
    · intro h
      refine ⟨⟨max s.x (min c.x (s.x + s.width - 1)), max s.y (min c.y (s.y + s.height - 1)), c.a⟩, ?_, rfl, ?_, ?_⟩
      · simp only; omega
      · simp only [abs_le]; omega
      · simp only [abs_le]; omega
    · rintro ⟨c', h, ha, hx, hy⟩
      rw [abs_le] at hx hy
      omega

/-! ### C23: block copy -/

theorem memcpy_get {dst src d : List Int} {pos n : Nat} (h : memcpy dst src pos n = some d) :
    d.length = dst.length ∧ ∀ i, i < dst.length → d[i]? = if pos ≤ i ∧ i < pos + n then src[i]? else dst[i]? := by
  unfold memcpy at h
  split at h
  · next hc =>
    cases h
    have hlen : ((src.drop pos).take n).length = n := by simp; omega
    constructor
    · simp; omega
    · intro i hi
      rw [List.getElem?_append, List.length_take, List.getElem?_append, hlen]
      rw [Nat.min_eq_left (by omega)]
      by_cases h1 : i < pos
      · rw [if_pos h1, if_neg (by omega), List.getElem?_take_of_lt h1]
      · rw [if_neg h1]
        by_cases h2 : i < pos + n
        · rw [if_pos (by omega), if_pos (by omega), List.getElem?_take_of_lt (by omega), List.getElem?_drop]
          congr 1; omega
        · rw [if_neg (by omega), if_neg (by omega), List.getElem?_drop]
          congr 1; omega
  · cases h

theorem memcpy_some {dst src : List Int} {pos n : Nat} (h1 : pos + n ≤ dst.length) (h2 : pos + n ≤ src.length) :
    ∃ d, memcpy dst src pos n = some d := by
  unfold memcpy; rw [if_pos ⟨h1, h2⟩]; exact ⟨_, rfl⟩

theorem blitRows_spec (src : List Int) (stride n : Nat) : ∀ (k pos : Nat) (dst : List Int),
    pos + k * stride ≤ dst.length + stride - n → src.length = dst.length → n ≤ stride → 0 < n →
    (0 < k → pos + (k - 1) * stride + n ≤ dst.length) →
    ∃ d, blitRows src stride n k pos dst = some d ∧ d.length = dst.length ∧
      ∀ i, i < dst.length → d[i]? = (if ∃ j, j < k ∧ pos + j * stride ≤ i ∧ i < pos + j * stride + n then src[i]? else dst[i]?) := by
  intro k
  induction k with
  | zero => intro pos dst _ _ _ _ _; exact ⟨dst, rfl, rfl, fun i _ => by simp⟩
  | succ k ih =>
    intro pos dst hb hl hn hn0 hfit
    have hfit := hfit (by omega)
    simp only [Nat.add_sub_cancel] at hfit
    have h0 : pos + n ≤ dst.length := by
      have : 0 ≤ k * stride := Nat.zero_le _
      omega
    obtain ⟨d1, hd1⟩ := memcpy_some (dst := dst) (src := src) h0 (by omega)
    obtain ⟨hl1, hg1⟩ := memcpy_get hd1
    obtain ⟨d, hd, hld, hg⟩ := ih (pos + stride) d1 (by rw [hl1]; rw [Nat.add_mul] at hb; omega) (by omega) hn hn0
      (by
        intro hk
        rw [hl1]
        obtain ⟨m, rfl⟩ : ∃ m, k = m + 1 := ⟨k - 1, by omega⟩
        simp only [Nat.add_sub_cancel]
        rw [Nat.add_mul] at hfit; omega)
    refine ⟨d, by simp only [blitRows, hd1, hd], by omega, ?_⟩
    intro i hi
    rw [hg i (by omega), hg1 i hi]
    by_cases h1 : pos ≤ i ∧ i < pos + n
    · have h2 : ¬ ∃ j, j < k ∧ pos + stride + j * stride ≤ i ∧ i < pos + stride + j * stride + n := by
        rintro ⟨j, -, h, -⟩
        have : 0 ≤ j * stride := Nat.zero_le _
        omega
      rw [if_neg h2, if_pos h1, if_pos ⟨0, by omega, by omega, by omega⟩]
    · by_cases h2 : ∃ j, j < k ∧ pos + stride + j * stride ≤ i ∧ i < pos + stride + j * stride + n
      · rw [if_pos h2]
        obtain ⟨j, hj, h3, h4⟩ := h2
        rw [if_pos ⟨j + 1, by omega, by rw [Nat.add_mul]; omega, by rw [Nat.add_mul]; omega⟩]
      · rw [if_neg h2, if_neg h1, if_neg]
        rintro ⟨j, hj, h3, h4⟩
        cases j with
        | zero => exact h1 ⟨by omega, by omega⟩
        | succ j => exact h2 ⟨j, by omega, by rw [Nat.add_mul] at h3; omega, by rw [Nat.add_mul] at h4; omega⟩

/-- Flat indices determine row and column. -/
theorem flat_inj {w k x k0 x0 n : Nat} (hx : x < w) (hn : x0 + n ≤ w) :
    (k0 * w + x0 ≤ k * w + x ∧ k * w + x < k0 * w + x0 + n) ↔ k = k0 ∧ x0 ≤ x ∧ x < x0 + n := by
  constructor
  · rintro ⟨h1, h2⟩
    have hk : k = k0 := by
      rcases Nat.lt_trichotomy k k0 with h | h | h
      · have : (k + 1) * w ≤ k0 * w := Nat.mul_le_mul_right w h
        rw [Nat.add_mul] at this; omega
      · exact h
      · have : (k0 + 1) * w ≤ k * w := Nat.mul_le_mul_right w h
        rw [Nat.add_mul] at this; omega
    subst hk
    exact ⟨rfl, by omega, by omega⟩
  · rintro ⟨rfl, h1, h2⟩
    exact ⟨by omega, by omega⟩

theorem flat_inj2 {h a y a0 y0 : Nat} (hy : y < h) (hy0 : y0 < h) (e : a * h + y = a0 * h + y0) : a = a0 ∧ y = y0 := by
  have := (flat_inj (w := h) (k := a) (x := y) (k0 := a0) (x0 := y0) (n := 1) hy (by omega)).mp ⟨by omega, by omega⟩
  exact ⟨this.1, by omega⟩

theorem index_lt {w h ang x y a : Nat} (hx : x < w) (hy : y < h) (ha : a < ang) : (a * h + y) * w + x < w * h * ang := by
  have h1 : a * h + y + 1 ≤ ang * h := by
    have : (a + 1) * h ≤ ang * h := Nat.mul_le_mul_right h ha
    rw [Nat.add_mul] at this; omega
  have h2 : (a * h + y + 1) * w ≤ ang * h * w := Nat.mul_le_mul_right w h1
  rw [Nat.add_mul] at h2
  have : ang * h * w = w * h * ang := by ring
  omega

/-- One heading's worth of rows. -/
theorem blitPlane (src dst : List Int) {w h ang x0 y0 n rows a0 : Nat} (hs : src.length = w * h * ang)
    (hd : dst.length = w * h * ang) (hn : x0 + n ≤ w) (hn0 : 0 < n) (hr : y0 + rows ≤ h) (ha : a0 < ang) :
    ∃ d, blitRows src w n rows ((a0 * h + y0) * w + x0) dst = some d ∧ d.length = dst.length ∧
      ∀ x y a, x < w → y < h → a < ang → d[(a * h + y) * w + x]? =
        if a = a0 ∧ (x0 ≤ x ∧ x < x0 + n) ∧ (y0 ≤ y ∧ y < y0 + rows) then src[(a * h + y) * w + x]?
        else dst[(a * h + y) * w + x]? := by
  have hfit : 0 < rows → (a0 * h + y0) * w + x0 + (rows - 1) * w + n ≤ dst.length := by
    intro hk
    have := index_lt (w := w) (h := h) (ang := ang) (x := x0 + n - 1) (y := y0 + (rows - 1)) (a := a0)
      (by omega) (by omega) ha
    rw [hd]
    have e : (a0 * h + (y0 + (rows - 1))) * w = (a0 * h + y0) * w + (rows - 1) * w := by ring
    omega
  have hb : (a0 * h + y0) * w + x0 + rows * w ≤ dst.length + w - n := by
    cases rows with
    | zero =>
      have : a0 * h + y0 ≤ ang * h := by
        have : (a0 + 1) * h ≤ ang * h := Nat.mul_le_mul_right h ha
        rw [Nat.add_mul] at this; omega
      have h2 := Nat.mul_le_mul_right w this
      have : ang * h * w = w * h * ang := by ring
      omega
    | succ m =>
      have := hfit (by omega)
      simp only [Nat.add_sub_cancel] at this
      have e : (m + 1) * w = m * w + w := by ring
      omega
  obtain ⟨d, h1, h2, h3⟩ := blitRows_spec src w n rows ((a0 * h + y0) * w + x0) dst hb (by omega) (by omega) hn0 hfit
  refine ⟨d, h1, h2, ?_⟩
  intro x y a hx hy ha'
  rw [h3 _ (by rw [hd]; exact index_lt hx hy ha')]
  have key : (∃ j, j < rows ∧ (a0 * h + y0) * w + x0 + j * w ≤ (a * h + y) * w + x ∧
      (a * h + y) * w + x < (a0 * h + y0) * w + x0 + j * w + n) ↔
      (a = a0 ∧ (x0 ≤ x ∧ x < x0 + n) ∧ (y0 ≤ y ∧ y < y0 + rows)) := by
    constructor
    · rintro ⟨j, hj, g1, g2⟩
      have e : (a0 * h + y0) * w + x0 + j * w = (a0 * h + (y0 + j)) * w + x0 := by ring
      rw [e] at g1 g2
      obtain ⟨g3, g4, g5⟩ := (flat_inj hx hn).mp ⟨g1, g2⟩
      obtain ⟨g6, g7⟩ := flat_inj2 hy (by omega) g3
      exact ⟨g6, ⟨g4, g5⟩, by omega, by omega⟩
    · rintro ⟨rfl, ⟨g1, g2⟩, g3, g4⟩
      refine ⟨y - y0, by omega, ?_⟩
      have e : (a * h + y0) * w + x0 + (y - y0) * w = (a * h + (y0 + (y - y0))) * w + x0 := by ring
      rw [e]
      have e2 : y0 + (y - y0) = y := by omega
      rw [e2]
      constructor <;> omega
  by_cases hc : a = a0 ∧ (x0 ≤ x ∧ x < x0 + n) ∧ (y0 ≤ y ∧ y < y0 + rows)
  · rw [if_pos hc, if_pos (key.mpr hc)]
  · rw [if_neg hc, if_neg (fun h => hc (key.mp h))]

theorem blitAngles_spec (r : Region) (src dest : Map) {n rows : Nat} (hw : dest.w = src.w) (hh : dest.h = src.h)
    (hs : WF src) (hn : r.x.toNat + n ≤ src.w) (hn0 : 0 < n) (hr : r.y.toNat + rows ≤ src.h) :
    ∀ (k a0 : Nat) (dst : List Int), dst.length = src.w * src.h * src.ang → a0 + k ≤ src.ang →
    ∃ d, blitAngles r src dest n rows k a0 dst = some d ∧ d.length = dst.length ∧
      ∀ x y a, x < src.w → y < src.h → a < src.ang → d[(a * src.h + y) * src.w + x]? =
        if (a0 ≤ a ∧ a < a0 + k) ∧ (r.x.toNat ≤ x ∧ x < r.x.toNat + n) ∧ (r.y.toNat ≤ y ∧ y < r.y.toNat + rows)
        then src.data[(a * src.h + y) * src.w + x]? else dst[(a * src.h + y) * src.w + x]? := by
  intro k
  induction k with
  | zero =>
    intro a0 dst _ _
    refine ⟨dst, rfl, rfl, fun x y a _ _ _ => ?_⟩
    rw [if_neg (by omega)]
  | succ k ih =>
    intro a0 dst hd ha
    obtain ⟨d1, e1, l1, g1⟩ := blitPlane src.data dst (x0 := r.x.toNat) (y0 := r.y.toNat) (n := n) (rows := rows)
      (a0 := a0) hs hd hn hn0 hr (by omega)
    obtain ⟨d, e2, l2, g2⟩ := ih (a0 + 1) d1 (by omega) (by omega)
    refine ⟨d, ?_, by omega, ?_⟩
    · simp only [blitAngles, Map.address, hw, hh, e1, e2]
    · intro x y a hx hy ha'
      rw [g2 x y a hx hy ha', g1 x y a hx hy ha']
      by_cases h1 : a = a0
      · subst h1
        rw [if_neg (by omega)]
        by_cases h2 : (r.x.toNat ≤ x ∧ x < r.x.toNat + n) ∧ (r.y.toNat ≤ y ∧ y < r.y.toNat + rows)
        · rw [if_pos ⟨rfl, h2⟩, if_pos ⟨by omega, h2⟩]
        · rw [if_neg (fun h => h2 h.2), if_neg (fun h => h2 h.2)]
      · by_cases h2 : (a0 + 1 ≤ a ∧ a < a0 + 1 + k) ∧ (r.x.toNat ≤ x ∧ x < r.x.toNat + n) ∧
            (r.y.toNat ≤ y ∧ y < r.y.toNat + rows)
        · rw [if_pos h2, if_pos ⟨by omega, h2.2⟩]
        · rw [if_neg h2, if_neg (by omega), if_neg]
          intro h3; exact h2 ⟨by omega, h3.2⟩

/-- C23: restoring a region from a map of the same size changes every cell of the region that lies in the map to the
source's value and nothing else; it never touches memory outside the buffers. -/
theorem bitblt_spec (r : Region) (dest src : Map) (hyaw : 0 ≤ r.yaw) (hd : WF dest) (hs : WF src)
    (hang : dest.ang = src.ang) (hw : dest.w = src.w) (hh : dest.h = src.h) :
    ∃ m, bitblt r dest src = some (r.normalize src.w src.h, m) ∧ WF m ∧ m.w = dest.w ∧ m.h = dest.h ∧ m.ang = dest.ang ∧
      ∀ x y a : Int, (Covers r ⟨x, y, a⟩ → m.getCost x y a = src.getCost x y a) ∧
        (¬ Covers r ⟨x, y, a⟩ → m.getCost x y a = dest.getCost x y a) := by
  unfold bitblt
  rw [if_pos ⟨hang, hw, hh⟩]
  have hcov := normalize_covers r src.w src.h
  obtain ⟨b1, b2, b3, b4, b5, b6⟩ := normalize_bounds r src.w src.h
  have hya : (r.normalize src.w src.h).yaw = r.yaw ∧ (r.normalize src.w src.h).angle = r.angle := by
    unfold Region.normalize; exact ⟨rfl, rfl⟩
  generalize hs' : r.normalize src.w src.h = s at *
  simp only []
  by_cases h0 : s.width = 0 ∨ s.height = 0
  · rw [if_pos h0]
    refine ⟨dest, rfl, hd, rfl, rfl, rfl, ?_⟩
    intro x y a
    refine ⟨fun hc => ?_, fun _ => rfl⟩
    have hnc : ¬ Covers s ⟨x, y, a⟩ := by unfold Covers; simp only; omega
    rw [hcov] at hnc
    have hni : ¬ InMap src.w src.h ⟨x, y, a⟩ := fun h => hnc ⟨hc, h⟩
    unfold InMap at hni
    simp only at hni
    unfold Map.getCost
    rw [if_neg (by omega), if_neg (by omega)]
  · rw [if_neg h0]
    have en : min s.width.toNat (src.w - s.x.toNat) = s.width.toNat := by omega
    have er : (min (s.y + s.height) (src.h : Int) - s.y).toNat = s.height.toNat := by omega
    rw [en, er]
    generalize hk' : (if s.yaw < 0 then 0 else min (s.yaw + s.angle) (src.ang : Int) - s.yaw).toNat = k
    rw [if_neg (by omega)] at hk'
    have main : ∃ d, blitAngles s src dest s.width.toNat s.height.toNat k s.yaw.toNat dest.data = some d ∧
        d.length = dest.data.length ∧
        ∀ x y a, x < src.w → y < src.h → a < src.ang → d[(a * src.h + y) * src.w + x]? =
        if (s.yaw.toNat ≤ a ∧ a < s.yaw.toNat + k) ∧ (s.x.toNat ≤ x ∧ x < s.x.toNat + s.width.toNat) ∧
          (s.y.toNat ≤ y ∧ y < s.y.toNat + s.height.toNat)
        then src.data[(a * src.h + y) * src.w + x]? else dest.data[(a * src.h + y) * src.w + x]? := by
      by_cases hk : k = 0
      · refine ⟨dest.data, by rw [hk]; rfl, rfl, ?_⟩
        intro x y a _ _ _
        rw [if_neg (by omega)]
      · exact blitAngles_spec s src dest hw hh hs (by omega) (by omega) (by omega) _ _ _
          (by rw [hd, hw, hh, hang]) (by omega)
    obtain ⟨d, hd1, hl, hg⟩ := main
    rw [hd1]
    refine ⟨{ dest with data := d }, rfl, ?_, rfl, rfl, rfl, ?_⟩
    · unfold WF at *; simp only; omega
    · intro x y a
      by_cases hin : 0 ≤ a ∧ a < dest.ang ∧ 0 ≤ x ∧ x < dest.w ∧ 0 ≤ y ∧ y < dest.h
      · have hcell : Covers s ⟨x, y, a⟩ ↔ Covers r ⟨x, y, a⟩ := by
          rw [hcov]; unfold InMap; simp only
          constructor
          · exact fun h => h.1
          · exact fun h => ⟨h, by omega, by omega, by omega, by omega⟩
        have hg' := hg x.toNat y.toNat a.toNat (by omega) (by omega) (by omega)
        have e1 : Map.getCost { dest with data := d } x y a = d[(a.toNat * src.h + y.toNat) * src.w + x.toNat]? := by
          unfold Map.getCost Map.address; simp only; rw [if_pos hin, hw, hh]
        have e2 : src.getCost x y a = src.data[(a.toNat * src.h + y.toNat) * src.w + x.toNat]? := by
          unfold Map.getCost Map.address; rw [if_pos (by omega)]
        have e3 : dest.getCost x y a = dest.data[(a.toNat * src.h + y.toNat) * src.w + x.toNat]? := by
          unfold Map.getCost Map.address; rw [if_pos hin, hw, hh]
        rw [e1, e2, e3, hg']
        clear hg hg' e1 e2 e3 hl hd1 hs' hcov
        have hiff : ((s.yaw.toNat ≤ a.toNat ∧ a.toNat < s.yaw.toNat + k) ∧
            (s.x.toNat ≤ x.toNat ∧ x.toNat < s.x.toNat + s.width.toNat) ∧
            (s.y.toNat ≤ y.toNat ∧ y.toNat < s.y.toNat + s.height.toNat)) ↔ Covers s ⟨x, y, a⟩ := by
          clear hcell
          unfold Covers; simp only
          constructor
          · rintro ⟨⟨h1, h2⟩, ⟨h3, h4⟩, h5, h6⟩
            refine ⟨⟨by omega, by omega⟩, ⟨by omega, by omega⟩, by omega, by omega⟩
          · rintro ⟨⟨h1, h2⟩, ⟨h3, h4⟩, h5, h6⟩
            refine ⟨⟨by omega, by omega⟩, ⟨by omega, by omega⟩, by omega, by omega⟩
        constructor
        · intro hc
          rw [if_pos (hiff.mpr (hcell.mpr hc))]
        · intro hc
          rw [if_neg (fun h => hc (hcell.mp (hiff.mp h)))]
      · have e1 : Map.getCost { dest with data := d } x y a = none := by
          unfold Map.getCost; simp only; rw [if_neg hin]
        have e2 : src.getCost x y a = none := by
          unfold Map.getCost; rw [if_neg (by omega)]
        have e3 : dest.getCost x y a = none := by
          unfold Map.getCost; rw [if_neg hin]
        rw [e1, e2, e3]; exact ⟨fun _ => rfl, fun _ => rfl⟩

/-- A 3×2 map with two headings; a region hanging over the left edge. -/
example : bitblt ⟨-1, 1, 0, 3, 5, 2, 0⟩ ⟨3, 2, 2, [0, 0, 0, 0, 0, 0, 0, 0, 0, 0, 0, 0]⟩
    ⟨3, 2, 2, [1, 2, 3, 4, 5, 6, 7, 8, 9, 10, 11, 12]⟩ =
    some (⟨0, 1, 0, 2, 1, 2, 0⟩, ⟨3, 2, 2, [0, 0, 0, 4, 5, 0, 0, 0, 0, 10, 11, 0]⟩) := by decide +kernel

end Verif.Region
