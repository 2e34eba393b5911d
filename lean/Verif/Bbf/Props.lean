import Verif.Bbf.Spec
import Mathlib.Tactic.Ring
import Mathlib.Tactic.FieldSimp
import Mathlib.Tactic.Linarith
import Mathlib.Tactic.NormNum
import Mathlib.Tactic.Positivity
import Mathlib.Algebra.Order.Field.Rat
import Mathlib.Data.Rat.Floor
import Mathlib.Algebra.Order.Archimedean.Basic
/-! # Properties of the remembered-obstacle map (C16, C72) -/
set_option linter.unusedSectionVars false
namespace Verif.Bbf
open Spec

variable {K : Type} [Field K] [LinearOrder K] [IsStrictOrderedRing K]

theorem minOdds_eq : (minOdds : K) = 1 / 9 := by simp only [minOdds, probabilityToOdds, minP]; norm_num
theorem maxOdds_eq : (maxOdds : K) = 9 := by simp only [maxOdds, probabilityToOdds, maxP, minP]; norm_num

theorem update_eq (rnd : K → K) (o f : K) : update rnd o f = max (1 / 9) (min 9 (rnd (o * f))) := by
  simp only [update, minOdds_eq, maxOdds_eq]
  have h9 : (1 / 9 : K) < 9 := by norm_num
  split
  · rename_i h; rw [min_eq_right (by linarith), max_eq_left h.le]
  · rename_i h
    split
    · rename_i h2; rw [min_eq_left (le_of_lt h2), max_eq_right h9.le]
    · rename_i h2; rw [min_eq_right (not_lt.mp h2), max_eq_right (not_lt.mp h)]

theorem mem_range {a b x : Int} : x ∈ range a b ↔ a ≤ x ∧ x ≤ b := by
  simp only [range, List.mem_map, List.mem_range]
  constructor
  · rintro ⟨i, hi, rfl⟩; omega
  · rintro ⟨h1, h2⟩; exact ⟨(x - a).toNat, by omega, by omega⟩

theorem nodup_range (a b : Int) : (range a b).Nodup := by
  unfold range
  refine List.Nodup.map ?_ List.nodup_range
  intro i j h; simp only at h; omega

theorem nodup_offsets (r : Int) :
    ((range (-r) r).flatMap (fun x => (range (-r) r).map (fun y => (x, y)))).Nodup := by
  rw [List.nodup_flatMap]
  refine ⟨fun x _ => (nodup_range _ _).map (fun a b h => by simpa using h), ?_⟩
  refine (nodup_range _ _).imp ?_
  intro a b hab p ha hb
  simp only [List.mem_map] at ha hb
  obtain ⟨_, _, rfl⟩ := ha
  obtain ⟨_, _, h⟩ := hb
  exact hab (by simpa using (congrArg Prod.fst h).symm)

theorem mem_offsets {r : Int} {p : Int × Int} :
    p ∈ (range (-r) r).flatMap (fun x => (range (-r) r).map (fun y => (x, y))) ↔
      (-r ≤ p.1 ∧ p.1 ≤ r) ∧ (-r ≤ p.2 ∧ p.2 ≤ r) := by
  simp only [List.mem_flatMap, List.mem_map, mem_range]
  constructor
  · rintro ⟨x, hx, y, hy, rfl⟩; exact ⟨hx, hy⟩
  · rintro ⟨h1, h2⟩; exact ⟨p.1, h1, p.2, h2, rfl⟩

/-- Effect of the loop body on one cell. -/
theorem rememberCell_apply (rnd : K → K) (s : Scan K) (w h : Int) (odds : Int × Int → K) (p q : Int × Int) :
    rememberCell rnd s w h odds p q =
      if q = (s.cx + p.1, s.cy + p.2) then
        (if 0 ≤ q.1 ∧ q.1 < w ∧ 0 ≤ q.2 ∧ q.2 < h ∧ p.1 * p.1 + p.2 * p.2 ≤ s.rmax * s.rmax then
          if s.cm q < 0 then odds q
          else if s.cm q = 100 then
            if s.rmin * s.rmin ≤ p.1 * p.1 + p.2 * p.2 then update rnd (odds q) s.hit else odds q
          else update rnd (odds q) s.miss
        else odds q)
      else odds q := by
  unfold rememberCell
  simp only
  by_cases hq : q = (s.cx + p.1, s.cy + p.2)
  · have e1 : s.cx + p.1 = q.1 := by rw [hq]
    have e2 : s.cy + p.2 = q.2 := by rw [hq]
    rw [if_pos hq, ← hq, e1, e2]
    by_cases h1 : q.1 < 0 ∨ q.1 ≥ w ∨ q.2 < 0 ∨ q.2 ≥ h
    · rw [if_pos h1, if_neg (by omega)]
    · rw [if_neg h1]
      by_cases h2 : p.1 * p.1 + p.2 * p.2 > s.rmax * s.rmax
      · have hin : ¬ (0 ≤ q.1 ∧ q.1 < w ∧ 0 ≤ q.2 ∧ q.2 < h ∧ p.1 * p.1 + p.2 * p.2 ≤ s.rmax * s.rmax) := by omega
        rw [if_pos h2, if_neg hin]
      · have hin : 0 ≤ q.1 ∧ q.1 < w ∧ 0 ≤ q.2 ∧ q.2 < h ∧ p.1 * p.1 + p.2 * p.2 ≤ s.rmax * s.rmax := by omega
        rw [if_neg h2, if_pos hin]
        split
        · rfl
        · split
          · by_cases h3 : p.1 * p.1 + p.2 * p.2 ≥ s.rmin * s.rmin
            · rw [if_pos h3, if_pos h3, Function.update_self]
            · rw [if_neg h3, if_neg h3]
          · rw [Function.update_self]
  · rw [if_neg hq]
    split
    · rfl
    · split
      · rfl
      · split
        · rfl
        · split
          · split
            · rw [Function.update_of_ne hq]
            · rfl
          · rw [Function.update_of_ne hq]

theorem fold_other (rnd : K → K) (s : Scan K) (w h : Int) (ps : List (Int × Int)) (odds : Int × Int → K) (q : Int × Int)
    (hq : (q.1 - s.cx, q.2 - s.cy) ∉ ps) : ps.foldl (rememberCell rnd s w h) odds q = odds q := by
  induction ps generalizing odds with
  | nil => rfl
  | cons p ps ih =>
    simp only [List.mem_cons, not_or] at hq
    rw [List.foldl_cons, ih _ hq.2, rememberCell_apply, if_neg]
    rintro rfl
    exact hq.1 (by simp)

theorem fold_at (rnd : K → K) (s : Scan K) (w h : Int) (ps : List (Int × Int)) (hn : ps.Nodup) (odds : Int × Int → K)
    (q : Int × Int) (hq : (q.1 - s.cx, q.2 - s.cy) ∈ ps) :
    ps.foldl (rememberCell rnd s w h) odds q = rememberCell rnd s w h odds (q.1 - s.cx, q.2 - s.cy) q := by
  induction ps generalizing odds with
  | nil => cases hq
  | cons p ps ih =>
    rw [List.foldl_cons]
    rw [List.nodup_cons] at hn
    rcases List.mem_cons.mp hq with h1 | h1
    · rw [fold_other _ _ _ _ _ _ _ (by rw [h1]; exact hn.1), h1]
    · have hne : (q.1 - s.cx, q.2 - s.cy) ≠ p := by rintro rfl; exact hn.1 h1
      rw [ih hn.2 _ h1]
      have : rememberCell rnd s w h odds p q = odds q := by
        rw [rememberCell_apply, if_neg]
        intro e
        apply hne
        have e1 := congrArg Prod.fst e
        have e2 := congrArg Prod.snd e
        simp only at e1 e2
        ext <;> simp only <;> omega
      have e := rememberCell_apply rnd s w h (rememberCell rnd s w h odds p) (q.1 - s.cx, q.2 - s.cy) q
      rw [this] at e
      rw [e, rememberCell_apply rnd s w h odds]

theorem abs_le_of_sq {x y r : Int} (hr : 0 ≤ r) (h : x * x + y * y ≤ r * r) : -r ≤ x ∧ x ≤ r := by
  constructor <;> by_contra hc <;> nlinarith [mul_self_nonneg y]

/-- **C16** (one scan, one cell).  After a scan each cell's odds are multiplied, with saturation, by the factor of
what the scan says about that cell; cells not observed keep their odds. -/
theorem remember_cell (rnd : K → K) (m : Map K) (s : Scan K) (p : Int × Int) :
    (remember rnd m s).odds p =
      match observed s m.w m.h p with
      | some f => max (1 / 9) (min 9 (rnd (m.odds p * f)))
      | none => m.odds p := by
  simp only [remember]
  have hoff : (s.cx + (p.1 - s.cx), s.cy + (p.2 - s.cy)) = p := by ext <;> simp
  by_cases hm : (p.1 - s.cx, p.2 - s.cy) ∈
      (range (-s.rmax) s.rmax).flatMap (fun x => (range (-s.rmax) s.rmax).map (fun y => (x, y)))
  · rw [fold_at _ _ _ _ _ (nodup_offsets _) _ _ hm, rememberCell_apply, if_pos hoff.symm]
    rw [mem_offsets] at hm
    have h0 : 0 ≤ s.rmax := by omega
    unfold observed
    simp only [h0, true_and]
    by_cases hin : 0 ≤ p.1 ∧ p.1 < m.w ∧ 0 ≤ p.2 ∧ p.2 < m.h ∧
        (p.1 - s.cx) * (p.1 - s.cx) + (p.2 - s.cy) * (p.2 - s.cy) ≤ s.rmax * s.rmax
    · rw [if_pos hin, if_pos hin]
      by_cases h1 : s.cm p < 0
      · rw [if_pos h1, if_pos h1]
      · rw [if_neg h1, if_neg h1]
        by_cases h2 : s.cm p = 100
        · rw [if_pos h2, if_pos h2]
          by_cases h3 : s.rmin * s.rmin ≤ (p.1 - s.cx) * (p.1 - s.cx) + (p.2 - s.cy) * (p.2 - s.cy)
          · rw [if_pos h3, if_pos h3, update_eq]
          · rw [if_neg h3, if_neg h3]
        · rw [if_neg h2, if_neg h2, update_eq]
    · rw [if_neg hin, if_neg hin]
  · rw [fold_other _ _ _ _ _ _ _ hm]
    have : observed s m.w m.h p = none := by
      unfold observed
      simp only
      rw [if_neg]
      rintro ⟨-, -, -, -, h0, h1⟩
      apply hm
      rw [mem_offsets]
      exact ⟨abs_le_of_sq h0 h1, abs_le_of_sq (x := p.2 - s.cy) (y := p.1 - s.cx) h0 (by linarith)⟩
    rw [this]

theorem run_size [FloorRing K] (rnd : K → K) (hs : List (Op K)) : ((run rnd hs).w, (run rnd hs).h) = size hs := by
  induction hs with
  | nil => rfl
  | cons o hs ih => cases o <;> simp_all [run, apply, size, reset, clear, remember, updateCostmap]

/-- **C16** (all histories).  After any history each cell's odds are the saturating product of what was observed of that
cell since the last clear; nothing else influences it. -/
theorem odds_history [FloorRing K] (rnd : K → K) (hs : List (Op K)) (p : Int × Int) :
    (run rnd hs).odds p = oddsOf rnd (observations p hs) := by
  induction hs with
  | nil => exact minOdds_eq
  | cons o hs ih =>
    cases o with
    | reset w h => exact minOdds_eq
    | clear => exact minOdds_eq
    | update => exact ih
    | remember s =>
      have hsz := run_size rnd hs
      simp only [run, apply, remember_cell, observations]
      rw [show (run rnd hs).w = (size hs).1 by rw [← hsz], show (run rnd hs).h = (size hs).2 by rw [← hsz]]
      cases observed s (size hs).1 (size hs).2 p with
      | none => exact ih
      | some f => simp only [oddsOf, ih]

theorem oddsOf_bounds (rnd : K → K) (fs : List K) : 1 / 9 ≤ oddsOf rnd fs ∧ oddsOf rnd fs ≤ 9 := by
  cases fs with
  | nil => simp only [oddsOf]; norm_num
  | cons f fs => exact ⟨le_max_left _ _, max_le (by norm_num) (min_le_left _ _)⟩

/-- **C16** (bounded).  For every history, every hit and miss odds (even negative or zero) and every rounding of the
product, each cell's odds stay within [1/9, 9]. -/
theorem odds_bounded [FloorRing K] (rnd : K → K) (hs : List (Op K)) (p : Int × Int) :
    1 / 9 ≤ (run rnd hs).odds p ∧ (run rnd hs).odds p ≤ 9 := by
  rw [odds_history]; exact oddsOf_bounds rnd _

theorem normalized_eq {o : K} (h : 0 < 1 + o) : normalized o = (9 * o - 1) / (8 * (1 + o)) := by
  simp only [normalized, oddsToProbability, maxP, minP]
  have := h.ne'
  field_simp
  ring

theorem published_bounds [FloorRing K] {o : K} (h1 : 1 / 9 ≤ o) (h2 : o ≤ 9) :
    0 ≤ published o ∧ published o ≤ 100 := by
  have hp : 0 < 1 + o := by linarith [show (0 : K) < 1 / 9 by norm_num]
  have hn0 : 0 ≤ normalized o := by
    rw [normalized_eq hp]; apply div_nonneg <;> linarith
  have hn1 : normalized o ≤ 1 := by
    rw [normalized_eq hp, div_le_one (by linarith)]; linarith
  unfold published
  simp only
  rw [if_pos (by positivity)]
  constructor
  · apply Int.floor_nonneg.mpr; linarith [show (0:K) ≤ normalized o * 100 by positivity]
  · have : ⌊normalized o * 100 + 1 / 2⌋ < 101 := by
      rw [Int.floor_lt]; push_cast; linarith [show (1:K)/2 < 1 by norm_num]
    omega

theorem published_min [FloorRing K] : published (1 / 9 : K) = 0 := by
  unfold published
  have : normalized (1 / 9 : K) = 0 := by rw [normalized_eq (by norm_num)]; norm_num
  rw [this]
  norm_num

theorem published_mono [FloorRing K] {a b : K} (ha : 1 / 9 ≤ a) (hab : a ≤ b) : published a ≤ published b := by
  have h9 : (0 : K) < 1 / 9 := by norm_num
  have hp : 0 < 1 + a := by linarith
  have hq : 0 < 1 + b := by linarith
  have h0 : 0 ≤ normalized a := by rw [normalized_eq hp]; apply div_nonneg <;> linarith
  have h1 : normalized a ≤ normalized b := by
    rw [normalized_eq hp, normalized_eq hq, div_le_div_iff₀ (by linarith) (by linarith)]
    nlinarith
  unfold published
  simp only
  rw [if_pos (by positivity), if_pos (by have := h0.trans h1; positivity)]
  apply Int.floor_le_floor
  linarith

/-- In phase outside the pending rectangle, and costs are always in range. -/
structure Phase [FloorRing K] (m : Map K) : Prop where
  cost : ∀ p, 0 ≤ p.1 → p.1 < m.w → 0 ≤ p.2 → p.2 < m.h →
    ¬ (m.minX ≤ p.1 ∧ p.1 ≤ m.maxX ∧ m.minY ≤ p.2 ∧ p.2 ≤ m.maxY) → m.cost p = published (m.odds p)
  range : ∀ p, 0 ≤ m.cost p ∧ m.cost p ≤ 100

theorem observed_some {s : Scan K} {w h : Int} {p : Int × Int} {f : K} (ho : observed s w h p = some f) :
    0 ≤ p.1 ∧ p.1 < w ∧ 0 ≤ p.2 ∧ p.2 < h ∧ (s.cx - s.rmax ≤ p.1 ∧ p.1 ≤ s.cx + s.rmax) ∧
      (s.cy - s.rmax ≤ p.2 ∧ p.2 ≤ s.cy + s.rmax) := by
  unfold observed at ho
  simp only at ho
  split at ho
  · rename_i hh
    obtain ⟨h1, h2, h3, h4, h5, h6⟩ := hh
    have a := abs_le_of_sq h5 h6
    have b := abs_le_of_sq (x := p.2 - s.cy) (y := p.1 - s.cx) h5 (by linarith)
    exact ⟨h1, h2, h3, h4, ⟨by omega, by omega⟩, ⟨by omega, by omega⟩⟩
  · cases ho

theorem run_phase [FloorRing K] (rnd : K → K) (hs : List (Op K)) : Phase (run rnd hs) := by
  induction hs with
  | nil => exact ⟨fun p h1 h2 => by simp only [run, fresh] at h2; omega, fun p => by simp [run, fresh]⟩
  | cons o hs ih =>
    cases o with
    | reset w h =>
      refine ⟨fun p h1 h2 h3 h4 h5 => ?_, fun p => by simp [run, apply, reset, clear]⟩
      simp only [run, apply, reset, clear] at h2 h4 h5; omega
    | clear =>
      refine ⟨fun p h1 h2 h3 h4 h5 => ?_, fun p => by simp [run, apply, clear]⟩
      simp only [run, apply, clear] at h2 h4 h5; omega
    | update =>
      refine ⟨fun p h1 h2 h3 h4 h5 => ?_, fun p => ?_⟩
      · simp only [run, apply, updateCostmap] at h2 h4 h5 ⊢
        split
        · rfl
        · rename_i hh; exact ih.cost p h1 h2 h3 h4 hh
      · simp only [run, apply, updateCostmap]
        split
        · have := odds_bounded rnd hs p; exact published_bounds this.1 this.2
        · exact ih.range p
    | remember s =>
      refine ⟨fun p h1 h2 h3 h4 h5 => ?_, fun p => ih.range p⟩
      have hodds : (run rnd (Op.remember s :: hs)).odds p = (run rnd hs).odds p := by
        simp only [run, apply, remember_cell]
        cases ho : observed s (run rnd hs).w (run rnd hs).h p with
        | none => rfl
        | some f =>
          exfalso
          have := observed_some ho
          simp only [run, apply, remember] at h5
          omega
      rw [hodds]
      refine ih.cost p h1 h2 h3 h4 ?_
      simp only [run, apply, remember] at h5
      omega

/-- **C16** (published costs are in range) for every history. -/
theorem cost_bounded [FloorRing K] (rnd : K → K) (hs : List (Op K)) (p : Int × Int) :
    0 ≤ (run rnd hs).cost p ∧ (run rnd hs).cost p ≤ 100 := (run_phase rnd hs).range p

/-- **C16** (in phase).  Right after an update the cost of every cell of the map is the rounded probability of what has
been observed of it since the last clear; so keeping only a rectangle of pending changes loses nothing. -/
theorem cost_in_phase [FloorRing K] (rnd : K → K) (hs : List (Op K)) (p : Int × Int)
    (h : 0 ≤ p.1 ∧ p.1 < (size hs).1 ∧ 0 ≤ p.2 ∧ p.2 < (size hs).2) :
    (run rnd (.update :: hs)).cost p = published (oddsOf rnd (observations p hs)) := by
  have hsz := run_size rnd (.update :: hs)
  have hph := (run_phase rnd (.update :: hs)).cost p h.1
    (by rw [show (run rnd (.update :: hs)).w = (size hs).1 from congrArg Prod.fst hsz]; exact h.2.1) h.2.2.1
    (by rw [show (run rnd (.update :: hs)).h = (size hs).2 from congrArg Prod.snd hsz]; exact h.2.2.2)
    (by simp only [run, apply, updateCostmap]; omega)
  rw [hph, odds_history]
  rfl

/-- **C16** (no access outside the map).  Once the size has been set, the rectangle of pending changes, all of whose cells the next update writes, lies inside the map. -/
theorem pending_inside [FloorRing K] (rnd : K → K) (hs : List (Op K)) (hpos : ∀ w h, Op.reset w h ∈ hs → 0 ≤ w ∧ 0 ≤ h) (hset : ∃ w h, Op.reset w h ∈ hs) :
    let m := run rnd hs
    0 ≤ m.w ∧ 0 ≤ m.h ∧ ∀ p : Int × Int, m.minX ≤ p.1 ∧ p.1 ≤ m.maxX ∧ m.minY ≤ p.2 ∧ p.2 ≤ m.maxY → 0 ≤ p.1 ∧ p.1 < m.w ∧ 0 ≤ p.2 ∧ p.2 < m.h := by
  have key : ∀ hs : List (Op K), (∀ w h, Op.reset w h ∈ hs → 0 ≤ w ∧ 0 ≤ h) → (∃ w h, Op.reset w h ∈ hs) →
      0 ≤ (run rnd hs).w ∧ 0 ≤ (run rnd hs).h ∧ 0 ≤ (run rnd hs).minX ∧ 0 ≤ (run rnd hs).minY ∧ (run rnd hs).maxX < (run rnd hs).w ∧
        (run rnd hs).maxY < (run rnd hs).h := by
    intro hs
    induction hs with
    | nil => rintro - ⟨w, h, k⟩; cases k
    | cons o hs ih =>
      intro hpos hset
      cases o with
      | reset w h =>
        have := hpos w h (List.mem_cons_self ..)
        simp only [run, apply, reset, clear]
        omega
      | clear =>
        obtain ⟨w, h, k⟩ := hset
        have := ih (fun w h k => hpos w h (List.mem_cons_of_mem _ k)) ⟨w, h, by simpa using k⟩
        simp only [run, apply, clear]
        omega
      | remember s =>
        obtain ⟨w, h, k⟩ := hset
        have := ih (fun w h k => hpos w h (List.mem_cons_of_mem _ k)) ⟨w, h, by simpa using k⟩
        simp only [run, apply, remember]
        omega
      | update =>
        obtain ⟨w, h, k⟩ := hset
        have := ih (fun w h k => hpos w h (List.mem_cons_of_mem _ k)) ⟨w, h, by simpa using k⟩
        simp only [run, apply, updateCostmap]
        omega
  intro m
  obtain ⟨h1, h2, h3, h4, h5, h6⟩ := key hs hpos hset
  exact ⟨h1, h2, fun p hp => by simp only [m] at hp ⊢; omega⟩

/-- A map of 3×2 cells: the hypotheses are met, and the update writes all its cells. -/
example : let m := run (id : Rat → Rat) [.reset 3 2]
    m.minX ≤ 2 ∧ 2 ≤ m.maxX ∧ m.minY ≤ 1 ∧ 1 ≤ m.maxY ∧ 0 ≤ m.w ∧ m.w = 3 := by decide

/-- **C16** (a cell never observed contributes nothing). -/
theorem unobserved_zero [FloorRing K] (rnd : K → K) (hs : List (Op K)) (p : Int × Int)
    (h : 0 ≤ p.1 ∧ p.1 < (size hs).1 ∧ 0 ≤ p.2 ∧ p.2 < (size hs).2) (hno : observations p hs = []) :
    (run rnd (.update :: hs)).cost p = 0 := by
  rw [cost_in_phase rnd hs p h, hno]; exact published_min

/-- **C16** (more evidence, more cost).  With a monotone rounding, a cell with higher odds before an observation
has at least the same odds after it. -/
theorem update_mono (rnd : K → K) (hr : ∀ a b, a ≤ b → rnd a ≤ rnd b) {a b f : K} (hf : 0 ≤ f) (h : a ≤ b) :
    update rnd a f ≤ update rnd b f := by
  rw [update_eq, update_eq]
  exact max_le_max le_rfl (min_le_min le_rfl (hr _ _ (mul_le_mul_of_nonneg_right h hf)))

theorem prod_perm {a b : List K} (h : a.Perm b) : prod a = prod b := by
  induction h with
  | nil => rfl
  | cons x _ ih => simp [prod, ih]
  | swap x y l => simp only [prod]; ring
  | trans _ _ h1 h2 => exact h1.trans h2

theorem oddsOf_unsaturated (fs : List K) (h : Unsaturated fs) : oddsOf id fs = 1 / 9 * prod fs := by
  induction fs with
  | nil => simp [oddsOf, prod]
  | cons f fs ih =>
    have h' : Unsaturated fs := fun k hk => by
      have := h (k + 1) (by simp only [List.length_cons]; omega)
      simpa using this
    have h0 := h 0 (by omega)
    simp only [List.drop_zero, prod] at h0
    simp only [oddsOf, ih h', id, prod]
    have e : 1 / 9 * prod fs * f = 1 / 9 * (f * prod fs) := by ring
    rw [e, min_eq_right h0.2, max_eq_right h0.1]

/-- **C16** (order).  Without rounding and saturation, the order of the observations does not matter. -/
theorem order_irrelevant {a b : List K} (h : a.Perm b) (ha : Unsaturated a) (hb : Unsaturated b) :
    oddsOf id a = oddsOf id b := by
  rw [oddsOf_unsaturated a ha, oddsOf_unsaturated b hb, prod_perm h]

/-- **C16** (saturation matters): the same two observations in different order leave different odds. -/
theorem order_relevant_saturated : oddsOf id [(2 : ℚ), 1 / 2] ≠ oddsOf id [1 / 2, (2 : ℚ)] := by
  decide +kernel

/-- **C72** (obstacles are eventually learnt and eventually forgotten).  Repeated hits with odds above one saturate a
cell at the maximum and repeated misses with odds below one bring it back to zero cost. -/
theorem saturates [Archimedean K] {f : K} (hf : 1 < f) :
    ∃ n, ∀ fs : List K, ∀ k ≥ n, oddsOf id (List.replicate k f ++ fs) = 9 := by
  obtain ⟨n, hn⟩ := pow_unbounded_of_one_lt (81 : K) hf
  refine ⟨n, fun fs => ?_⟩
  have hb := oddsOf_bounds (K := K) id fs
  have key : ∀ k, oddsOf id (List.replicate k f ++ fs) = min 9 (oddsOf id fs * f ^ k) := by
    intro k
    induction k with
    | zero => simp [min_eq_right hb.2]
    | succ k ih =>
      rw [List.replicate_succ, List.cons_append, oddsOf, ih, id]
      have hpos : 0 < oddsOf id fs := lt_of_lt_of_le (by norm_num) hb.1
      rcases le_total (9 : K) (oddsOf id fs * f ^ k) with h | h
      · rw [min_eq_left h, min_eq_left (by linarith), max_eq_right (by norm_num), min_eq_left]
        rw [pow_succ, ← mul_assoc]; nlinarith
      · rw [min_eq_right h, pow_succ, ← mul_assoc]
        have h1 : 1 / 9 ≤ oddsOf id fs * f ^ k * f := by
          have : 1 ≤ f ^ k := one_le_pow₀ hf.le
          have : (1:K)/9 ≤ oddsOf id fs * f ^ k := by nlinarith [hb.1]
          nlinarith
        rw [max_eq_right (le_min (by norm_num) h1)]
  intro k hk
  rw [key, min_eq_left]
  have h1 : f ^ n ≤ f ^ k := pow_le_pow_right₀ hf.le hk
  nlinarith [hb.1]

theorem forgets [Archimedean K] {f : K} (hf0 : 0 ≤ f) (hf : f < 1) :
    ∃ n, ∀ fs : List K, ∀ k ≥ n, oddsOf id (List.replicate k f ++ fs) = 1 / 9 := by
  obtain ⟨n, hn⟩ := exists_pow_lt_of_lt_one (show (0 : K) < 1 / 81 by norm_num) hf
  refine ⟨n, fun fs => ?_⟩
  have hb := oddsOf_bounds (K := K) id fs
  have key : ∀ k, oddsOf id (List.replicate k f ++ fs) = max (1 / 9) (oddsOf id fs * f ^ k) := by
    intro k
    induction k with
    | zero => simp only [List.replicate_zero, List.nil_append, pow_zero, mul_one]; rw [max_eq_right hb.1]
    | succ k ih =>
      rw [List.replicate_succ, List.cons_append, oddsOf, ih, id]
      have hpos : 0 < oddsOf id fs := lt_of_lt_of_le (by norm_num) hb.1
      have hk0 : 0 ≤ f ^ k := pow_nonneg hf0 k
      have hk1 : f ^ k ≤ 1 := pow_le_one₀ hf0 hf.le
      have h9 : (0 : K) < 1 / 9 := by norm_num
      rcases le_total (oddsOf id fs * f ^ k) (1 / 9 : K) with h | h
      · rw [max_eq_left h, min_eq_right (by nlinarith [show (1:K)/9 < 9 by norm_num]), max_eq_left (by nlinarith), max_eq_left]
        rw [pow_succ, ← mul_assoc]; nlinarith [mul_nonneg hpos.le hk0]
      · rw [max_eq_right h, pow_succ, ← mul_assoc, min_eq_right]
        nlinarith [mul_nonneg hpos.le hk0, hb.2, mul_nonneg hk0 hf0]
  intro k hk
  rw [key, max_eq_left]
  have h1 : f ^ k ≤ f ^ n := pow_le_pow_of_le_one hf0 hf.le hk
  have h0 : 0 ≤ f ^ k := pow_nonneg hf0 k
  have : oddsOf id fs * f ^ k ≤ 9 * (1 / 81) := by
    apply mul_le_mul hb.2 (by linarith) h0 (by norm_num)
  linarith [show (9 : K) * (1 / 81) = 1 / 9 by norm_num]

/-! ## Concrete cases -/

section Examples
def exScan : Scan ℚ := ⟨fun p => if p = (2, 1) then 100 else 0, 1, 1, 4, 3 / 10, 0, 1⟩
example : observed exScan 3 3 (2, 1) = some 4 ∧ observed exScan 3 3 (1, 1) = some (3 / 10) ∧
    observed exScan 3 3 (0, 0) = none := by decide +kernel
example : (run id [.update, .remember exScan, .remember exScan, .reset 3 3]).cost (2, 1) = 68 ∧
    (run id [.update, .remember exScan, .remember exScan, .reset 3 3]).cost (1, 1) = 0 := by decide +kernel
example : Unsaturated [(2 : ℚ), 3] ∧ Unsaturated [(3 : ℚ), 2] := by
  constructor <;> intro k hk <;> simp only [List.length_cons, List.length_nil] at hk <;>
    (have : k = 0 ∨ k = 1 ∨ k = 2 := by omega) <;> rcases this with rfl | rfl | rfl <;> decide +kernel
end Examples

end Verif.Bbf
