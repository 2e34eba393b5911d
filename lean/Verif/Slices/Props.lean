import Verif.Slices.Spec
import Mathlib.Algebra.Order.Field.Rat
import Mathlib.Data.Rat.Floor
import Mathlib.Data.List.Nodup
import Mathlib.Data.List.Perm.Basic
import Mathlib.Tactic.Linarith
/-! # Properties of floor extraction (C54, C73) -/
set_option linter.unusedSectionVars false
namespace Verif.Slices
open Spec

variable {K : Type} [Field K] [LinearOrder K] [IsStrictOrderedRing K] [FloorRing K]

theorem mark_fold (c : Cfg K) (i : Int) (pts : List Pt) (f : Cell → Option Bool) (v : Cell) :
    ((pts.foldl (mark c i) f) v = some true ↔ HasObstacle c pts i v ∨ f v = some true) ∧
    ((pts.foldl (mark c i) f) v = some false ↔
      ¬ HasObstacle c pts i v ∧ (f v = some false ∨ (f v = none ∧ HasFloor c pts i v))) := by
  induction pts generalizing f with
  | nil => simp [HasObstacle, HasFloor]
  | cons p ps ih =>
    have hO : HasObstacle c (p :: ps) i v ↔ (p.cell = v ∧ c.floorHeight < |i - p.h| ∧
        i + c.floorHeight + c.floorTolerance < p.h ∧ p.h ≤ i + c.robotHeight) ∨ HasObstacle c ps i v := by
      simp [HasObstacle]
    have hF : HasFloor c (p :: ps) i v ↔ (p.cell = v ∧ |i - p.h| ≤ c.floorHeight) ∨ HasFloor c ps i v := by
      simp [HasFloor]
    rw [List.foldl_cons, (ih _).1, (ih _).2, hO, hF]
    by_cases hv : p.cell = v
    · subst hv
      unfold mark
      by_cases h1 : |i - p.h| ≤ c.floorHeight
      · have h1' : ¬ c.floorHeight < |i - p.h| := not_lt.mpr h1
        rw [if_pos h1]
        cases hf : f p.cell with
        | none => simp [h1, h1']
        | some b => simp [h1', hf]
      · have h1' : c.floorHeight < |i - p.h| := not_le.mp h1
        rw [if_neg h1]
        by_cases h2 : i + c.floorHeight + c.floorTolerance < p.h ∧ p.h ≤ i + c.robotHeight
        · rw [if_pos h2]; simp [h1', h2]
        · rw [if_neg h2]; simp [h1, h1', h2]
    · have : mark c i f p v = f v := by
        unfold mark
        split
        · split
          · simp [Function.update, Ne.symm hv]
          · rfl
        · split
          · simp [Function.update, Ne.symm hv]
          · rfl
      rw [this]
      simp [hv]

/-- **C73** (content of a slice).  For every cloud, height and cell: the slice is occupied exactly where a point would hit the
robot, free exactly where there are floor points and no such point, unknown elsewhere. -/
theorem slice_spec (c : Cfg K) (pts : List Pt) (i : Int) (v : Cell) :
    ((toMap c pts i).data v = 100 ↔ HasObstacle c pts i v) ∧
    ((toMap c pts i).data v = 0 ↔ HasFloor c pts i v ∧ ¬ HasObstacle c pts i v) ∧
    ((toMap c pts i).data v = -1 ↔ ¬ HasFloor c pts i v ∧ ¬ HasObstacle c pts i v) := by
  have h := mark_fold c i pts (fun _ => none) v
  simp only [reduceCtorEq, or_false, false_or, true_and] at h
  obtain ⟨h1, h2⟩ := h
  simp only [toMap]
  cases hf : floorOf c pts i v with
  | none =>
    simp only [floorOf] at hf
    rw [hf] at h1 h2
    simp only [reduceCtorEq, false_iff] at h1 h2
    have h3 : ¬ HasFloor c pts i v := fun hx => h2 ⟨h1, hx⟩
    simp [h1, h3]
  | some b =>
    simp only [floorOf] at hf
    rw [hf] at h1 h2
    cases b with
    | true => simp at h1; simp [h1]
    | false =>
      simp only [true_iff] at h2
      simp [h2.1, h2.2]

theorem foldl_min_le {α : Type} (f : α → Int) (l : List α) (a : Int) :
    l.foldl (fun m q => min m (f q)) a ≤ a ∧ ∀ q ∈ l, l.foldl (fun m q => min m (f q)) a ≤ f q := by
  induction l generalizing a with
  | nil => simp
  | cons q l ih =>
    have := ih (min a (f q))
    simp only [List.foldl_cons, List.mem_cons, forall_eq_or_imp]
    refine ⟨this.1.trans (min_le_left _ _), this.1.trans (min_le_right _ _), this.2⟩

theorem le_foldl_max {α : Type} (f : α → Int) (l : List α) (a : Int) :
    a ≤ l.foldl (fun m q => max m (f q)) a ∧ ∀ q ∈ l, f q ≤ l.foldl (fun m q => max m (f q)) a := by
  induction l generalizing a with
  | nil => simp
  | cons q l ih =>
    have := ih (max a (f q))
    simp only [List.foldl_cons, List.mem_cons, forall_eq_or_imp]
    refine ⟨(le_max_left _ _).trans this.1, (le_max_right _ _).trans this.1, this.2⟩

/-- **C73** (no out-of-range write).  Every cell of the cloud lies in the map's rectangle. -/
theorem points_in_rect {pts : List Pt} {r : Rect} (h : rectOf pts = some r) : ∀ p ∈ pts, Rect.Has r p.cell := by
  cases pts with
  | nil => cases h
  | cons p ps =>
    cases h
    intro q hq
    have mx := (le_foldl_max Pt.x (p :: ps) 0).2 q hq
    have my := (le_foldl_max Pt.y (p :: ps) 0).2 q hq
    have nx : ps.foldl (fun m q => min m q.x) p.x ≤ q.x := by
      rcases List.mem_cons.mp hq with rfl | hq
      · exact (foldl_min_le Pt.x ps _).1
      · exact (foldl_min_le Pt.x ps _).2 q hq
    have ny : ps.foldl (fun m q => min m q.y) p.y ≤ q.y := by
      rcases List.mem_cons.mp hq with rfl | hq
      · exact (foldl_min_le Pt.y ps _).1
      · exact (foldl_min_le Pt.y ps _).2 q hq
    exact ⟨nx, mx, ny, my⟩

/-- **C73** (storage).  Distinct cells of the rectangle have distinct indices inside the data array. -/
theorem addr_spec (r : Rect) {v w : Cell} (hv : Rect.Has r v) (hw : Rect.Has r w) :
    0 ≤ addr r v ∧ addr r v < (r.xMax - r.xMin + 1) * (r.yMax - r.yMin + 1) ∧ (addr r v = addr r w → v = w) := by
  obtain ⟨a1, a2, a3, a4⟩ := hv
  obtain ⟨b1, b2, b3, b4⟩ := hw
  obtain ⟨x, y⟩ := v
  obtain ⟨x', y'⟩ := w
  simp only at a1 a2 a3 a4 b1 b2 b3 b4
  unfold addr
  simp only
  have hX : 0 ≤ x - r.xMin ∧ x - r.xMin < r.xMax - r.xMin + 1 := by omega
  have hX' : 0 ≤ x' - r.xMin ∧ x' - r.xMin < r.xMax - r.xMin + 1 := by omega
  have hY : 0 ≤ y - r.yMin ∧ y - r.yMin + 1 ≤ r.yMax - r.yMin + 1 := by omega
  have ex : x = x - r.xMin + r.xMin := by omega
  have ex' : x' = x' - r.xMin + r.xMin := by omega
  have ey : y = y - r.yMin + r.yMin := by omega
  have ey' : y' = y' - r.yMin + r.yMin := by omega
  generalize x - r.xMin = a at *
  generalize x' - r.xMin = a' at *
  generalize y - r.yMin = b at *
  generalize y' - r.yMin = b' at *
  generalize r.xMax - r.xMin + 1 = W at *
  generalize r.yMax - r.yMin + 1 = H at *
  refine ⟨by nlinarith, by nlinarith, ?_⟩
  intro h
  have hb : b = b' := by
    rcases lt_trichotomy b b' with hlt | heq | hgt
    · nlinarith
    · exact heq
    · nlinarith
  subst hb
  have : a = a' := by linarith
  rw [ex, ex', ey, ey', this]

theorem mem_cells (r : Rect) (v : Cell) : v ∈ cells r ↔ Rect.Has r v := by
  simp only [cells, List.mem_flatMap, List.mem_range, List.mem_map, Rect.Has]
  constructor
  · rintro ⟨y, hy, x, hx, rfl⟩
    simp only; omega
  · rintro ⟨h1, h2, h3, h4⟩
    refine ⟨(v.2 - r.yMin).toNat, by omega, (v.1 - r.xMin).toNat, by omega, ?_⟩
    apply Prod.ext <;> simp only <;> omega

theorem nodup_cells (r : Rect) : (cells r).Nodup := by
  unfold cells
  rw [List.nodup_flatMap]
  constructor
  · intro y _
    apply List.Nodup.map _ List.nodup_range
    intro a b h
    simp at h; exact h
  · apply List.Nodup.pairwise_of_forall_ne List.nodup_range
    intro a _ b _ hab
    rw [Function.onFun, List.disjoint_left]
    intro v h1 h2
    simp only [List.mem_map] at h1 h2
    obtain ⟨_, _, rfl⟩ := h1
    obtain ⟨_, _, h⟩ := h2
    simp at h
    exact hab h.2.symm

/-- **C73** (area).  The area of a slice is the number of its free cells. -/
theorem area_is_free (c : Cfg K) {pts : List Pt} {r : Rect} (h : rectOf pts = some r) (i : Int) (ht : tall c pts i = true) :
    (toMap c pts i).area = freeCount r (toMap c pts i).data := by
  simp only [toMap, runnable, ht, if_true, freeCount]
  apply List.Perm.length_eq
  rw [List.perm_ext_iff_of_nodup ((List.nodup_dedup _).filter _) ((nodup_cells r).filter _)]
  intro v
  simp only [List.mem_filter, List.mem_dedup, List.mem_map, mem_cells, decide_eq_true_eq]
  constructor
  · rintro ⟨⟨p, hp, rfl⟩, h2⟩
    exact ⟨points_in_rect h p hp, by rw [h2]⟩
  · rintro ⟨_, h2⟩
    have h3 : floorOf c pts i v = some false := by
      cases hf : floorOf c pts i v with
      | none => rw [hf] at h2; cases h2
      | some b => cases b with
        | false => rfl
        | true => rw [hf] at h2; cases h2
    refine ⟨?_, h3⟩
    have := ((mark_fold c i pts (fun _ => none) v).2.mp h3).2
    simp at this
    obtain ⟨p, hp, e, _⟩ := this
    exact ⟨p, hp, e⟩

/-- **C54** (two slices).  Merging a cell of a lower and an upper slice: it is free afterwards iff it was free in one of them, and
then only in the lower; cells free in neither are unchanged. -/
theorem mergeCell_spec (lo hi : Int) :
    ((mergeCell lo hi).1 = 0 ↔ lo = 0 ∨ hi = 0) ∧ (mergeCell lo hi).2 ≠ 0 ∧
    (lo ≠ 0 → hi ≠ 0 → mergeCell lo hi = (lo, hi)) ∧
    ((mergeCell lo hi).1 = 100 ↔ lo = 100 ∧ hi ≠ 0) ∧ ((mergeCell lo hi).2 = 100 ↔ hi = 100) := by
  unfold mergeCell
  by_cases h1 : lo = 0 <;> by_cases h2 : hi = 0 <;> simp [h1, h2]

theorem mergeDown_length (r : Rect) (ms : List Map) : ∀ (prev : Map),
    (mergeDown r prev ms).map (·.h) = prev.h :: ms.map (·.h) := by
  induction ms with
  | nil => intro prev; rfl
  | cons m ms ih =>
    intro prev
    unfold mergeDown
    split
    · simp [ih]
    · simp [ih]

theorem adj_iff (a b : Int) : 2 * |a - b| < 3 ↔ |a - b| ≤ 1 := by omega

theorem mergeDown_free (r : Rect) (ms : List Map) (v : Cell) : ∀ (prev : Map),
    (∃ m ∈ mergeDown r prev ms, m.data v = 0) ↔ (∃ m ∈ prev :: ms, m.data v = 0) := by
  induction ms with
  | nil => intro prev; rfl
  | cons m ms ih =>
    intro prev
    unfold mergeDown
    split
    · simp only [List.mem_cons, exists_eq_or_imp, ih]
      have := mergeCell_spec (m.data v) (prev.data v)
      simp only [this.1, this.2.1, false_or]
      tauto
    · simp only [List.mem_cons, exists_eq_or_imp, ih]

/-- The head of a merge result: same height, free only where the original head was. -/
theorem mergeDown_head (r : Rect) (ms : List Map) (prev : Map) :
    ∃ u us, mergeDown r prev ms = u :: us ∧ u.h = prev.h ∧ (∀ v, u.data v = 0 → prev.data v = 0) := by
  cases ms with
  | nil => exact ⟨prev, [], rfl, rfl, fun _ h => h⟩
  | cons m ms =>
    unfold mergeDown
    split
    · exact ⟨_, _, rfl, rfl, fun v h => absurd h (mergeCell_spec _ _).2.1⟩
    · exact ⟨_, _, rfl, rfl, fun _ h => h⟩

theorem mergeDown_drained (r : Rect) (ms : List Map) : ∀ (prev : Map), Drained (mergeDown r prev ms) := by
  induction ms with
  | nil => intro prev; trivial
  | cons m ms ih =>
    intro prev
    unfold mergeDown
    split
    · obtain ⟨u, us, e, _, _⟩ := mergeDown_head r ms ⟨m.h, freeCount r (fun v => (mergeCell (m.data v) (prev.data v)).1),
        fun v => (mergeCell (m.data v) (prev.data v)).1⟩
      have := ih ⟨m.h, freeCount r (fun v => (mergeCell (m.data v) (prev.data v)).1),
        fun v => (mergeCell (m.data v) (prev.data v)).1⟩
      simp only
      rw [e] at this ⊢
      exact ⟨fun _ v => (mergeCell_spec _ _).2.1, this⟩
    · rename_i hn
      obtain ⟨u, us, e, hu, _⟩ := mergeDown_head r ms m
      have := ih m
      rw [e] at this ⊢
      refine ⟨fun ha => absurd ?_ hn, this⟩
      rw [adj_iff, ← hu]; exact ha

theorem mergeDown_area (r : Rect) (ms : List Map) : ∀ (prev : Map), (∀ m ∈ prev :: ms, m.area = freeCount r m.data) →
    ∀ m ∈ mergeDown r prev ms, m.area = freeCount r m.data := by
  induction ms with
  | nil => intro prev h; exact h
  | cons m ms ih =>
    intro prev h
    unfold mergeDown
    split
    · intro x hx
      rcases List.mem_cons.mp hx with rfl | hx
      · rfl
      · refine ih _ ?_ x hx
        intro y hy
        rcases List.mem_cons.mp hy with rfl | hy
        · rfl
        · exact h y (by simp [hy])
    · intro x hx
      rcases List.mem_cons.mp hx with rfl | hx
      · exact h _ (by simp)
      · exact ih m (fun y hy => h y (List.mem_cons_of_mem _ hy)) x hx

/-- **C54** (all slices).  Merging any list of slices keeps their heights; a cell is free in some slice afterwards iff it was free in
some slice before; from top to bottom, a slice directly above an adjacent one has no free cell left. -/
theorem mergeAll_spec (r : Rect) (ms : List Map) :
    (mergeAll r ms).map (·.h) = ms.map (·.h) ∧
    (∀ v, (∃ m ∈ mergeAll r ms, m.data v = 0) ↔ ∃ m ∈ ms, m.data v = 0) ∧
    Drained (mergeAll r ms).reverse := by
  unfold mergeAll
  cases hr : ms.reverse with
  | nil =>
    have : ms = [] := by simpa using hr
    subst this
    simp [Drained]
  | cons m rest =>
    have e : ms = (m :: rest).reverse := by rw [← hr, List.reverse_reverse]
    refine ⟨?_, ?_, ?_⟩
    · rw [List.map_reverse, mergeDown_length, e, List.map_reverse]; rfl
    · intro v
      have := mergeDown_free r rest v m
      rw [e]
      simpa [or_comm] using this
    · rw [List.reverse_reverse]; exact mergeDown_drained r rest m

/-- **C54** (limit of the claim).  Merging can turn an occupied cell of the lower slice into a free one: when the slice directly above is
free there. -/
theorem merge_clears_obstacle : mergeCell 100 0 = (0, -1) := rfl

theorem floorWidth_spec (r : Rect) (d : Cell → Int) (f : Cell) :
    0 ≤ floorWidth r d f ∧ floorWidth r d f ≤ 6 ∧
    ∀ v, Rect.Has r v → d v = 100 → dist2 v f ≤ 36 → floorWidth r d f * floorWidth r d f ≤ dist2 v f := by
  have key : ∀ (l : List Cell) (w : Int), 0 ≤ w → w ≤ 6 →
      let w' := l.foldl (fun (w : Int) v =>
        if dist2 v f > 36 then w
        else if d v = 100 then if dist2 v f < w * w then (Nat.sqrt (dist2 v f).toNat : Int) else w
        else w) w
      0 ≤ w' ∧ w' ≤ w ∧ ∀ v ∈ l, d v = 100 → dist2 v f ≤ 36 → w' * w' ≤ dist2 v f := by
    intro l
    induction l with
    | nil => intro w h0 _; exact ⟨h0, le_refl _, by simp⟩
    | cons v l ih =>
      intro w h0 h6
      have hd0 : 0 ≤ dist2 v f := by
        unfold dist2
        have := mul_self_nonneg (v.1 - f.1)
        have := mul_self_nonneg (v.2 - f.2)
        omega
      -- the value after one step
      have step : ∃ w1 : Int, (if dist2 v f > 36 then w
          else if d v = 100 then if dist2 v f < w * w then (Nat.sqrt (dist2 v f).toNat : Int) else w else w) = w1 ∧
          0 ≤ w1 ∧ w1 ≤ w ∧ (d v = 100 → dist2 v f ≤ 36 → w1 * w1 ≤ dist2 v f) := by
        by_cases h1 : dist2 v f > 36
        · exact ⟨w, if_pos h1, h0, le_refl _, fun _ h => absurd h (not_le.mpr h1)⟩
        · by_cases h2 : d v = 100
          · by_cases h3 : dist2 v f < w * w
            · refine ⟨_, by rw [if_neg h1, if_pos h2, if_pos h3], Int.natCast_nonneg _, ?_, fun _ _ => ?_⟩
              · have hs : Nat.sqrt (dist2 v f).toNat * Nat.sqrt (dist2 v f).toNat ≤ (dist2 v f).toNat := Nat.sqrt_le _
                have : ((Nat.sqrt (dist2 v f).toNat : Int)) * (Nat.sqrt (dist2 v f).toNat : Int) ≤ dist2 v f := by
                  have : ((Nat.sqrt (dist2 v f).toNat * Nat.sqrt (dist2 v f).toNat : Nat) : Int) ≤ ((dist2 v f).toNat : Int) := by
                    exact_mod_cast hs
                  rw [Int.toNat_of_nonneg hd0] at this
                  push_cast at this
                  exact this
                by_contra hc
                nlinarith
              · have hs : Nat.sqrt (dist2 v f).toNat * Nat.sqrt (dist2 v f).toNat ≤ (dist2 v f).toNat := Nat.sqrt_le _
                have : ((Nat.sqrt (dist2 v f).toNat * Nat.sqrt (dist2 v f).toNat : Nat) : Int) ≤ ((dist2 v f).toNat : Int) := by
                  exact_mod_cast hs
                rw [Int.toNat_of_nonneg hd0] at this
                push_cast at this
                exact this
            · exact ⟨w, by rw [if_neg h1, if_pos h2, if_neg h3], h0, le_refl _, fun _ _ => not_lt.mp h3⟩
          · exact ⟨w, by rw [if_neg h1, if_neg h2], h0, le_refl _, fun h => absurd h h2⟩
      obtain ⟨w1, e1, a0, a1, a2⟩ := step
      simp only [List.foldl_cons, e1]
      obtain ⟨b0, b1, b2⟩ := ih w1 a0 (a1.trans h6)
      refine ⟨b0, b1.trans a1, ?_⟩
      intro u hu
      rcases List.mem_cons.mp hu with rfl | hu
      · intro h1 h2
        have := a2 h1 h2
        nlinarith
      · exact b2 u hu
  obtain ⟨k0, k1, k2⟩ := key (cells r) 6 (by norm_num) (le_refl _)
  exact ⟨k0, k1, fun v hv => k2 v ((mem_cells r v).mpr hv)⟩

theorem le_floorWidth (r : Rect) (d : Cell → Int) (f : Cell) {k : Int} (h0 : 0 ≤ k) (h6 : k ≤ 6) (hk : Clear r d f k) :
    k ≤ floorWidth r d f := by
  have key : ∀ (l : List Cell) (w : Int), (∀ v ∈ l, Rect.Has r v) → k ≤ w →
      k ≤ l.foldl (fun (w : Int) v =>
        if dist2 v f > 36 then w
        else if d v = 100 then if dist2 v f < w * w then (Nat.sqrt (dist2 v f).toNat : Int) else w
        else w) w := by
    intro l
    induction l with
    | nil => intro w _ h; exact h
    | cons v l ih =>
      intro w hl hw
      rw [List.foldl_cons]
      refine ih _ (fun u hu => hl u (List.mem_cons_of_mem _ hu)) ?_
      split
      · exact hw
      · rename_i h1
        split
        · rename_i h2
          split
          · have := hk v (hl v List.mem_cons_self) h2 (not_lt.mp h1)
            have hn : k.toNat * k.toNat ≤ (dist2 v f).toNat := by
              have e : ((k.toNat * k.toNat : Nat) : Int) = k * k := by push_cast; rw [Int.toNat_of_nonneg h0]
              omega
            have := Nat.le_sqrt.mpr hn
            omega
          · exact hw
        · exact hw
  exact key (cells r) 6 (fun v hv => (mem_cells r v).mp hv) h6

theorem widen_fold (r : Rect) (cp : Cell → Int) (l : List Cell) (d : Cell → Int) (v : Cell) :
    ((Rect.Has r v ∧ cp v ≠ 100 ∧ ∃ f ∈ l, cp f = 0 ∧ 0 ≤ floorWidth r cp f - 1 ∧
        dist2 v f ≤ (floorWidth r cp f - 1) * (floorWidth r cp f - 1)) ∧ (l.foldl (widenCell r cp) d) v = 0) ∨
    (¬ (Rect.Has r v ∧ cp v ≠ 100 ∧ ∃ f ∈ l, cp f = 0 ∧ 0 ≤ floorWidth r cp f - 1 ∧
        dist2 v f ≤ (floorWidth r cp f - 1) * (floorWidth r cp f - 1)) ∧ (l.foldl (widenCell r cp) d) v = d v) := by
  induction l generalizing d with
  | nil => right; simp
  | cons f l ih =>
    rw [List.foldl_cons]
    by_cases hf : Rect.Has r v ∧ cp v ≠ 100 ∧ cp f = 0 ∧ 0 ≤ floorWidth r cp f - 1 ∧
        dist2 v f ≤ (floorWidth r cp f - 1) * (floorWidth r cp f - 1)
    · have hw : widenCell r cp d f v = 0 := by
        unfold widenCell
        rw [if_pos hf.2.2.1]
        rw [if_pos ⟨(mem_cells r v).mpr hf.1, hf.2.2.2.1, hf.2.2.2.2, hf.2.1⟩]
      left
      refine ⟨⟨hf.1, hf.2.1, f, List.mem_cons_self, hf.2.2⟩, ?_⟩
      rcases ih (widenCell r cp d f) with h | h
      · exact h.2
      · rw [h.2, hw]
    · have hw : widenCell r cp d f v = d v := by
        unfold widenCell
        by_cases h0 : cp f = 0
        · rw [if_pos h0]
          rw [if_neg]
          rintro ⟨h1, h2, h3, h4⟩
          exact hf ⟨(mem_cells r v).mp h1, h4, h0, h2, h3⟩
        · rw [if_neg h0]
      rcases ih (widenCell r cp d f) with ⟨⟨h1, h2, g, hg, h3⟩, h4⟩ | h
      · exact .inl ⟨⟨h1, h2, g, List.mem_cons_of_mem _ hg, h3⟩, h4⟩
      · right
        refine ⟨?_, by rw [h.2, hw]⟩
        rintro ⟨h1, h2, g, hg, h3⟩
        rcases List.mem_cons.mp hg with rfl | hg
        · exact hf ⟨h1, h2, h3⟩
        · exact h.1 ⟨h1, h2, g, hg, h3⟩

/-- **C54** (widening).  For every map: widening frees exactly the cells to be filled up, leaves every other cell as it is, and in
particular never frees an occupied cell nor blocks a free one. -/
theorem widen_spec (r : Rect) (cp : Cell → Int) (v : Cell) :
    (Filled r cp v → widen r cp v = 0) ∧ (¬ Filled r cp v → widen r cp v = cp v) ∧
    (widen r cp v = 100 ↔ cp v = 100) ∧ (cp v = 0 → widen r cp v = 0) := by
  have hiff : Filled r cp v ↔ (Rect.Has r v ∧ cp v ≠ 100 ∧ ∃ f ∈ cells r, cp f = 0 ∧ 0 ≤ floorWidth r cp f - 1 ∧
        dist2 v f ≤ (floorWidth r cp f - 1) * (floorWidth r cp f - 1)) := by
    constructor
    · rintro ⟨h1, h2, f, k, hf, h0, k0, k5, hd, hc⟩
      have := le_floorWidth r cp f (by omega) (by omega) hc
      exact ⟨h1, h2, f, (mem_cells r f).mpr hf, h0, by omega, by nlinarith⟩
    · rintro ⟨h1, h2, f, hf, h0, h3, h4⟩
      obtain ⟨w0, w1, w2⟩ := floorWidth_spec r cp f
      refine ⟨h1, h2, f, floorWidth r cp f - 1, (mem_cells r f).mp hf, h0, h3, by omega, h4, ?_⟩
      rw [Int.sub_add_cancel]
      exact w2
  have hw := widen_fold r cp (cells r) cp v
  rw [← hiff] at hw
  change (_ ∧ widen r cp v = 0) ∨ (_ ∧ widen r cp v = cp v) at hw
  refine ⟨fun h => ?_, fun h => ?_, ?_, fun h => ?_⟩
  · rcases hw with hw | hw
    · exact hw.2
    · exact absurd h hw.1
  · rcases hw with hw | hw
    · exact absurd hw.1 h
    · exact hw.2
  · rcases hw with hw | hw
    · rw [hw.2]
      have := hw.1.2.1
      constructor
      · intro h; cases h
      · intro h; exact absurd h this
    · rw [hw.2]
  · rcases hw with hw | hw
    · exact hw.2
    · rw [hw.2, h]

theorem candidates_area (c : Cfg K) {pts : List Pt} {r : Rect} (h : rectOf pts = some r) :
    ∀ m ∈ candidates c pts, m.area = freeCount r m.data := by
  intro m hm
  simp only [candidates, List.mem_map, List.mem_filter, candidate, Bool.and_eq_true] at hm
  obtain ⟨i, ⟨_, ⟨⟨ht, _⟩, _⟩, _⟩, rfl⟩ := hm
  exact area_is_free c h i ht

/-- **C73** (published floors).  For every cloud, a floor is published exactly when it is a merged candidate whose number of free cells
makes up the minimum area; what is published is that floor widened, in ascending order of altitude. -/
theorem published_spec (c : Cfg K) (pts : List Pt) {r : Rect} (h : rectOf pts = some r) :
    cbPoints c pts = ((mergeAll r (candidates c pts)).filter (fun m =>
      decide (c.minFloorArea ≤ (freeCount r m.data : K) * (c.grid * c.grid)))).map
        (fun m => { m with data := widen r m.data }) := by
  have ha : ∀ m ∈ mergeAll r (candidates c pts), m.area = freeCount r m.data := by
    unfold mergeAll
    have hc := candidates_area c h
    cases hr : (candidates c pts).reverse with
    | nil => simp
    | cons m rest =>
      simp only [List.mem_reverse]
      apply mergeDown_area
      intro x hx
      rw [← hr, List.mem_reverse] at hx
      exact hc x hx
  unfold cbPoints
  rw [h]
  simp only [publish]
  congr 1
  apply List.filter_congr
  intro m hm
  rw [ha m hm]
  simp

/-- **C73** (no map from nothing). -/
theorem empty_cloud (c : Cfg K) : cbPoints c [] = [] := rfl

/-- **C54** (end to end).  For every cloud: an occupied cell of a published floor was occupied in the slice of that height:
merging and widening create no obstacles. -/
theorem published_obstacles (c : Cfg K) (pts : List Pt) {r : Rect} (h : rectOf pts = some r) {m : Map}
    (hm : m ∈ cbPoints c pts) (v : Cell) (ho : m.data v = 100) : HasObstacle c pts m.h v := by
  rw [published_spec c pts h] at hm
  simp only [List.mem_map, List.mem_filter] at hm
  obtain ⟨m', ⟨hm', _⟩, rfl⟩ := hm
  simp only at ho ⊢
  have h1 : m'.data v = 100 := (widen_spec r m'.data v).2.2.1.mp ho
  -- merging creates no obstacle
  have key : ∀ (ms : List Map) (prev : Map), (∀ x ∈ prev :: ms, x.data v = 100 → HasObstacle c pts x.h v) →
      ∀ x ∈ mergeDown r prev ms, x.data v = 100 → HasObstacle c pts x.h v := by
    intro ms
    induction ms with
    | nil => intro prev h; exact h
    | cons m ms ih =>
      intro prev hp
      unfold mergeDown
      have sp := mergeCell_spec (m.data v) (prev.data v)
      split
      · intro x hx
        rcases List.mem_cons.mp hx with rfl | hx
        · intro hx; exact hp prev (by simp) (sp.2.2.2.2.mp hx)
        · refine ih _ ?_ x hx
          intro y hy
          rcases List.mem_cons.mp hy with rfl | hy
          · intro hy; exact hp m (by simp) (sp.2.2.2.1.mp hy).1
          · exact hp y (by simp [hy])
      · intro x hx
        rcases List.mem_cons.mp hx with rfl | hx
        · exact hp _ (by simp)
        · exact ih m (fun y hy => hp y (List.mem_cons_of_mem _ hy)) x hx
  unfold mergeAll at hm'
  cases hr : (candidates c pts).reverse with
  | nil => rw [hr] at hm'; simp at hm'
  | cons m rest =>
    rw [hr] at hm'
    simp only [List.mem_reverse] at hm'
    refine key rest m ?_ m' hm' h1
    intro x hx
    rw [← hr, List.mem_reverse] at hx
    simp only [candidates, List.mem_map] at hx
    obtain ⟨i, _, rfl⟩ := hx
    exact (slice_spec c pts i v).1.mp

/-! ## Concrete cases: a floor of three cells with an obstacle over one of them -/

def exC : Cfg ℚ := ⟨0, 0, 2, 1 / 2, 4 / 5, 1, 1⟩
def exP : List Pt := [⟨0, 0, 0⟩, ⟨1, 0, 0⟩, ⟨2, 0, 0⟩, ⟨2, 0, 1⟩]
example : (cbPoints exC exP).map (fun m => (m.h, m.data (0, 0), m.data (1, 0), m.data (2, 0))) = [(0, 0, 0, 100)] := by
  decide +kernel
example : HasObstacle exC exP 0 (2, 0) := ⟨⟨2, 0, 1⟩, by decide, rfl, by decide, by decide, by decide⟩
example : HasFloor exC exP 0 (1, 0) := ⟨⟨1, 0, 0⟩, by decide, rfl, by decide⟩
example : (mergeAll ⟨0, 1, 0, 0⟩ [⟨0, 1, fun v => if v = (0, 0) then 0 else -1⟩, ⟨1, 1, fun v => if v = (1, 0) then 0 else -1⟩]).map
    (fun m => (m.data (0, 0), m.data (1, 0), m.area)) = [(0, 0, 2), (-1, -1, 0)] := by decide +kernel

end Verif.Slices
