import Verif.Model3D.Spec
import Verif.GridMetric.Props
import Mathlib.Analysis.Convex.SpecificFunctions.Deriv
import Mathlib.Tactic.LinearCombination
/-! # Lemmas about caches, samples and scans -/
set_option linter.unusedVariables false
namespace Verif.Model3D
open Spec
open Verif.GridMetric (Cell Pose lround_int)
open Verif.CSpace (lround lround_near)
open Real

theorem mem_upTo (a b k : Int) : k ∈ upTo a b ↔ a ≤ k ∧ k ≤ b := by
  unfold upTo
  simp only [List.mem_map, List.mem_range]
  constructor
  · rintro ⟨n, hn, rfl⟩; omega
  · rintro ⟨h1, h2⟩
    exact ⟨(k - a).toNat, by omega, by omega⟩

theorem cycU_spec (e A : Int) (hA : 0 < A) : (∃ k : Int, cycU e A = e + k * A) ∧ 0 ≤ cycU e A ∧ cycU e A < A := by
  obtain ⟨w, hw, hr, k, hk⟩ := CyclicVec.cycleUnsignedElement_spec e A hA
  unfold cycU
  rw [hw]
  exact ⟨⟨k, hk⟩, hr.1, hr.2⟩

theorem cycS_spec (e A : Int) (hA : 0 < A) :
    (∃ k : Int, cycS e A = e + k * A) ∧ A / 2 - A ≤ cycS e A ∧ cycS e A < A / 2 := by
  obtain ⟨w, hw, hr, k, hk⟩ := CyclicVec.cycleElement_spec e A hA
  unfold cycS
  rw [hw]
  exact ⟨⟨k, hk⟩, hr.1, hr.2⟩

theorem mul_small {k A : Int} (hA : 0 < A) (h1 : -A < k * A) (h2 : k * A < A) : k = 0 := by
  rcases lt_trichotomy k 0 with h | h | h
  · nlinarith
  · exact h
  · nlinarith

theorem cycU_id (e A : Int) (hA : 0 < A) (h : 0 ≤ e ∧ e < A) : cycU e A = e := by
  obtain ⟨⟨k, hk⟩, h1, h2⟩ := cycU_spec e A hA
  have := mul_small hA (k := k) (by omega) (by omega)
  rw [hk, this]; ring

theorem headings_eq (g : Geo) (hs : Sane g) : headings g = g.angle := by
  have hA : (0 : ℝ) < (g.angle : ℝ) := by exact_mod_cast hs.angle_pos
  have hp := Real.pi_pos
  unfold headings
  rw [hs.ares]
  have : π * 2 / (2 * π / (g.angle : ℝ)) = (g.angle : ℝ) := by field_simp
  rw [this, lround_int]

theorem ares_pos (g : Geo) (hs : Sane g) : 0 < g.ares := by
  have hA : (0 : ℝ) < (g.angle : ℝ) := by exact_mod_cast hs.angle_pos
  have hp := Real.pi_pos
  rw [hs.ares]; positivity

theorem angle_ares (g : Geo) (hs : Sane g) : (g.angle : ℝ) * g.ares = 2 * π := by
  have hA : (0 : ℝ) < (g.angle : ℝ) := by exact_mod_cast hs.angle_pos
  rw [hs.ares]; field_simp

/-! ### Rotation cache -/

theorem fold_write {β : Type} (addr : Cell → Int) (val : Cell → β) : ∀ (l : List Cell) (pg : Int → Option β) (d : Cell),
    (∀ x ∈ l, addr x = addr d → x = d) → (d ∈ l ∨ pg (addr d) = some (val d)) →
    (l.foldl (fun pg d => fun a => if a = addr d then some (val d) else pg a) pg) (addr d) = some (val d) := by
  intro l
  induction l with
  | nil =>
    intro pg d _ h
    rcases h with h | h
    · simp at h
    · exact h
  | cons x xs ih =>
    intro pg d hinj h
    rw [List.foldl_cons]
    apply ih _ d (fun y hy => hinj y (List.mem_cons_of_mem _ hy))
    by_cases hx : addr d = addr x
    · right
      have := hinj x (List.mem_cons_self ..) hx.symm
      rw [this]; simp
    · rcases h with h | h
      · rcases List.mem_cons.1 h with rfl | h
        · exact absurd rfl hx
        · exact Or.inl h
      · right
        simp only [if_neg hx]; exact h

theorem mem_rcCells (g : Geo) (p : Cell) : p ∈ rcCells g ↔
    0 ≤ p.x ∧ p.x ≤ g.range * 2 ∧ 0 ≤ p.y ∧ p.y ≤ g.range * 2 ∧ 0 ≤ p.yaw ∧ p.yaw < headings g := by
  unfold rcCells
  simp only [List.mem_flatMap, List.mem_map, mem_upTo]
  constructor
  · rintro ⟨x, hx, y, hy, w, hw, rfl⟩
    exact ⟨hx.1, hx.2, hy.1, hy.2, hw.1, by simp only; omega⟩
  · rintro ⟨h1, h2, h3, h4, h5, h6⟩
    exact ⟨p.x, ⟨h1, h2⟩, p.y, ⟨h3, h4⟩, p.yaw, ⟨h5, by omega⟩, rfl⟩

theorem divmod_unique {N a b c d : Int} (hN : 0 < N) (hb : 0 ≤ b) (hb' : b < N) (hd : 0 ≤ d) (hd' : d < N)
    (h : a * N + b = c * N + d) : a = c ∧ b = d := by
  have h1 : (a - c) * N = d - b := by linarith
  have := mul_small hN (k := a - c) (by rw [h1]; omega) (by rw [h1]; omega)
  have hac : a = c := by omega
  subst hac
  exact ⟨rfl, by linarith⟩

/-- The address determines the entry. -/
theorem rcAddr_inj (range : Int) (p q : Cell) (hr : 0 ≤ range)
    (hp : 0 ≤ p.x ∧ p.x ≤ range * 2 ∧ 0 ≤ p.y ∧ p.y ≤ range * 2)
    (hq : 0 ≤ q.x ∧ q.x ≤ range * 2 ∧ 0 ≤ q.y ∧ q.y ≤ range * 2) (h : rcAddr range p = rcAddr range q) : p = q := by
  unfold rcAddr at h
  obtain ⟨h1, h2⟩ := divmod_unique (N := range * 2 + 1) (by omega) hp.1 (by omega) hq.1 (by omega) h
  obtain ⟨h3, h4⟩ := divmod_unique (N := range * 2 + 1) (by omega) hp.2.2.1 (by omega) hq.2.2.1 (by omega) h1
  cases p; cases q
  simp_all

theorem rcGet_eq (g : Geo) (hr : 0 ≤ g.range) (s : Int) (p : Cell) (hs : 0 ≤ s ∧ s < headings g)
    (hp : p ∈ rcCells g) : rcGet g s p = some (rcEntry g s p) := by
  unfold rcGet
  rw [if_pos hs]
  unfold rcPage
  apply fold_write (rcAddr g.range) (rcEntry g s)
  · intro x hx he
    have h1 := (mem_rcCells g x).1 hx
    have h2 := (mem_rcCells g p).1 hp
    exact rcAddr_inj g.range x p hr ⟨h1.1, h1.2.1, h1.2.2.1, h1.2.2.2.1⟩ ⟨h2.1, h2.2.1, h2.2.2.1, h2.2.2.2.1⟩ he
  · exact Or.inl hp

theorem motionOf_eq (g : Geo) (i x y w : Int) : motionOf g i ⟨x + g.range, y + g.range, w⟩ = mcMotion g i ⟨x, y, w⟩ := by
  unfold motionOf mcMotion
  simp

/-! ### Motion cache -/

theorem mem_mcKeys (g : Geo) (p : Cell) : p ∈ mcKeys g ↔
    ¬ (p.x = 0 ∧ p.y = 0) ∧ p.x * p.x + p.y * p.y ≤ g.range * g.range ∧ -g.range ≤ p.x ∧ p.x ≤ g.range ∧
      -g.range ≤ p.y ∧ p.y ≤ g.range ∧ 0 ≤ p.yaw ∧ p.yaw < headings g := by
  unfold mcKeys
  simp only [List.mem_flatMap, mem_upTo]
  constructor
  · rintro ⟨x, hx, y, hy, h⟩
    split at h
    · simp at h
    · rename_i hc
      simp only [List.mem_map, mem_upTo] at h
      obtain ⟨w, hw, rfl⟩ := h
      exact ⟨fun h' => hc (Or.inl h'), by simp only; by_contra h'; exact hc (Or.inr (by omega)), hx.1, hx.2, hy.1, hy.2,
        hw.1, by simp only; omega⟩
  · rintro ⟨h1, h2, h3, h4, h5, h6, h7, h8⟩
    refine ⟨p.x, ⟨h3, h4⟩, p.y, ⟨h5, h6⟩, ?_⟩
    rw [if_neg (by rintro (h | h); exact h1 h; omega)]
    simp only [List.mem_map, mem_upTo]
    exact ⟨p.yaw, ⟨h7, by omega⟩, rfl⟩

theorem sq_box {x y r : Int} (hr : 0 ≤ r) (h : x * x + y * y ≤ r * r) : -r ≤ x ∧ x ≤ r ∧ -r ≤ y ∧ y ≤ r := by
  have hx : x * x ≤ r * r := by nlinarith [mul_self_nonneg y]
  have hy : y * y ≤ r * r := by nlinarith [mul_self_nonneg x]
  have hx' := abs_le_abs_of_sq_le_sq hx hr
  have hy' := abs_le_abs_of_sq_le_sq hy hr
  exact ⟨hx'.1, hx'.2, hy'.1, hy'.2⟩
where
  abs_le_abs_of_sq_le_sq {x r : Int} (h : x * x ≤ r * r) (hr : 0 ≤ r) : -r ≤ x ∧ x ≤ r := by
    constructor <;> nlinarith

theorem find_some (g : Geo) (hr : 0 ≤ g.range) (s : Int) (p : Cell) (hne : ¬ (p.x = 0 ∧ p.y = 0))
    (hsq : p.x * p.x + p.y * p.y ≤ g.range * g.range) (hw : 0 ≤ p.yaw ∧ p.yaw < headings g) :
    find g s p = some (page g (cycU s (headings g)) p) := by
  obtain ⟨a, b, c, d⟩ := sq_box hr hsq
  unfold find
  rw [if_pos ((mem_mcKeys g p).2 ⟨hne, hsq, a, b, c, d, hw.1, hw.2⟩)]

theorem mem_record (d : Cell) (m : List Cell) (pos x : Cell) : x ∈ record d m pos ↔ x ∈ m ∨ (x = pos ∧ pos ≠ d) := by
  unfold record
  split
  · rename_i h
    simp only [List.mem_append, List.mem_singleton]
    constructor
    · rintro (h' | h')
      · exact Or.inl h'
      · exact Or.inr ⟨h', h.1⟩
    · rintro (h' | ⟨h', -⟩)
      · exact Or.inl h'
      · exact Or.inr h'
  · rename_i h
    constructor
    · exact Or.inl
    · rintro (h' | ⟨rfl, h'⟩)
      · exact h'
      · by_contra hx
        exact h ⟨h', hx⟩

theorem mem_motion_aux (d : Cell) (f : Nat → Cell) : ∀ (ks : List Nat) (m : List Cell) (x : Cell),
    x ∈ ks.foldl (fun m k => record d m (f k)) m ↔ x ∈ m ∨ ∃ k ∈ ks, x = f k ∧ f k ≠ d := by
  intro ks
  induction ks with
  | nil => simp
  | cons k ks ih =>
    intro m x
    rw [List.foldl_cons, ih, mem_record]
    constructor
    · rintro ((h | ⟨h1, h2⟩) | ⟨j, hj, h⟩)
      · exact Or.inl h
      · exact Or.inr ⟨k, List.mem_cons_self .., h1, h2⟩
      · exact Or.inr ⟨j, List.mem_cons_of_mem _ hj, h⟩
    · rintro (h | ⟨j, hj, h⟩)
      · exact Or.inl (Or.inl h)
      · rcases List.mem_cons.1 hj with rfl | hj
        · exact Or.inl (Or.inr h)
        · exact Or.inr ⟨j, hj, h⟩

theorem mem_motion (g : Geo) (s : Int) (d x : Cell) : x ∈ (page g s d).motion ↔
    ∃ k, k < totalStep g d ∧ x = cellOf g (sampleAt g s d (ratioOf g d k)) ∧ x ≠ d := by
  unfold page
  simp only [mem_motion_aux, List.not_mem_nil, false_or, List.mem_range]
  constructor
  · rintro ⟨k, hk, rfl, h⟩; exact ⟨k, hk, rfl, h⟩
  · rintro ⟨k, hk, rfl, h⟩; exact ⟨k, hk, rfl, h⟩

theorem cellOf_near (g : Geo) (hs : Sane g) (q : Pose ℝ) :
    |q.x - ((cellOf g q).x : ℝ)| ≤ 1 / 2 ∧ |q.y - ((cellOf g q).y : ℝ)| ≤ 1 / 2 ∧
    ∃ k : Int, |q.yaw - (((cellOf g q).yaw + k * g.angle : Int) : ℝ)| ≤ 1 / 2 := by
  have h1 := lround_near q.x
  have h2 := lround_near q.y
  have h3 := lround_near q.yaw
  rw [abs_sub_comm] at h1 h2 h3
  refine ⟨h1, h2, ?_⟩
  unfold cellOf
  rw [headings_eq g hs]
  obtain ⟨⟨k, hk⟩, -⟩ := cycU_spec (lround q.yaw) g.angle hs.angle_pos
  refine ⟨-k, ?_⟩
  simp only
  rw [hk]
  have : lround q.yaw + k * g.angle + -k * g.angle = lround q.yaw := by ring
  rw [this]
  exact h3

/-! ### Scans -/

theorem scan_free (cm hy : Cell → Option Int) (u : Bool) (thr : Int) : ∀ (l : List Cell) (s t h s' t' h' : Int),
    scan cm hy u thr l s t h = .sums s' t' h' → ∀ p ∈ l, Free cm p := by
  intro l
  induction l with
  | nil => intro s t h s' t' h' _ p hp; simp at hp
  | cons q l ih =>
    intro s t h s' t' h' he p hp
    simp only [scan] at he
    split at he
    · cases he
    · rename_i c hc
      split at he
      · cases he
      · rename_i hle
        have hq : Free cm q := ⟨c, hc, by omega⟩
        have hrest : ∃ a b d, scan cm hy u thr l a b d = .sums s' t' h' := by
          split at he
          · split at he
            · cases he
            · exact ⟨_, _, _, he⟩
          · exact ⟨_, _, _, he⟩
        obtain ⟨a, b, d, hrest⟩ := hrest
        rcases List.mem_cons.1 hp with rfl | hp
        · exact hq
        · exact ih a b d s' t' h' hrest p hp

theorem scan_defined (cm hy : Cell → Option Int) (u : Bool) (thr : Int) : ∀ (l : List Cell) (s t h : Int),
    (∀ p ∈ l, (∃ c, cm p = some c) ∧ ∃ c, hy p = some c) → scan cm hy u thr l s t h ≠ .undefined := by
  intro l
  induction l with
  | nil => intro s t h _; simp [scan]
  | cons q l ih =>
    intro s t h hd
    obtain ⟨⟨c, hc⟩, v, hv⟩ := hd q (List.mem_cons_self ..)
    have ih' := fun s t h => ih s t h (fun p hp => hd p (List.mem_cons_of_mem _ hp))
    simp only [scan, hc, hv]
    split
    · simp
    · split
      · exact ih' _ _ _
      · exact ih' _ _ _

theorem scan_nonneg (cm hy : Cell → Option Int) (u : Bool) (thr : Int) (hcm : ∀ p c, cm p = some c → 0 ≤ c)
    (hhy : ∀ p c, hy p = some c → 0 ≤ c) : ∀ (l : List Cell) (s t h s' t' h' : Int),
    0 ≤ s → 0 ≤ t → 0 ≤ h → scan cm hy u thr l s t h = .sums s' t' h' → 0 ≤ s' ∧ 0 ≤ t' ∧ 0 ≤ h' := by
  intro l
  induction l with
  | nil =>
    intro s t h s' t' h' h1 h2 h3 he
    simp only [scan, Scan.sums.injEq] at he
    obtain ⟨rfl, rfl, rfl⟩ := he
    exact ⟨h1, h2, h3⟩
  | cons q l ih =>
    intro s t h s' t' h' h1 h2 h3 he
    simp only [scan] at he
    split at he
    · cases he
    · rename_i c hc
      have hc0 := hcm q c hc
      split at he
      · cases he
      · have ht : 0 ≤ (if c ≥ thr then t + c else t) := by split <;> omega
        split at he
        · split at he
          · cases he
          · rename_i v hv
            have := hhy q v hv
            exact ih _ _ _ _ _ _ (by omega) ht (by omega) he
        · exact ih _ _ _ _ _ _ (by omega) ht (by omega) he

/-- The heading after `k` steps of an in-place turn. -/
def turnYaw (A dir : Int) : Nat → Int → Int
  | 0, w => w
  | k + 1, w => turnYaw A dir k (if w + dir < 0 then w + dir + A else if w + dir ≥ A then w + dir - A else w + dir)

theorem turnYaw_spec (A dir : Int) (hA : 0 < A) (hdir : dir = 1 ∨ dir = -1) : ∀ (k : Nat) (w : Int), 0 ≤ w → w < A →
    0 ≤ turnYaw A dir k w ∧ turnYaw A dir k w < A ∧ ∃ j : Int, turnYaw A dir k w = w + k * dir + j * A := by
  intro k
  induction k with
  | zero => intro w h1 h2; exact ⟨h1, h2, 0, by simp [turnYaw]⟩
  | succ k ih =>
    intro w h1 h2
    simp only [turnYaw]
    by_cases c1 : w + dir < 0
    · rw [if_pos c1]
      obtain ⟨a, b, j, hj⟩ := ih (w + dir + A) (by omega) (by omega)
      exact ⟨a, b, j + 1, by rw [hj]; push_cast; ring⟩
    · rw [if_neg c1]
      by_cases c2 : w + dir ≥ A
      · rw [if_pos c2]
        obtain ⟨a, b, j, hj⟩ := ih (w + dir - A) (by omega) (by omega)
        exact ⟨a, b, j - 1, by rw [hj]; push_cast; ring⟩
      · rw [if_neg c2]
        obtain ⟨a, b, j, hj⟩ := ih (w + dir) (by omega) (by omega)
        exact ⟨a, b, j, by rw [hj]; push_cast; ring⟩

theorem turnScan_free (cm : Cell → Option Int) (thr A dir : Int) : ∀ (n : Nat) (pos : Cell) (s s' t' h' : Int),
    turnScan cm thr A dir n pos s = .sums s' t' h' → ∀ k < n, Free cm { pos with yaw := turnYaw A dir k pos.yaw } := by
  intro n
  induction n with
  | zero => intro pos s s' t' h' _ k hk; omega
  | succ n ih =>
    intro pos s s' t' h' he k hk
    simp only [turnScan] at he
    split at he
    · cases he
    · rename_i c hc
      split at he
      · cases he
      · cases k with
        | zero => exact ⟨c, hc, by omega⟩
        | succ k => exact ih _ _ _ _ _ he k (by omega)

theorem turnScan_defined (cm : Cell → Option Int) (thr A dir : Int) (hA : 0 < A) (hdir : dir = 1 ∨ dir = -1) :
    ∀ (n : Nat) (pos : Cell) (s : Int), 0 ≤ pos.yaw → pos.yaw < A →
    (∀ w, 0 ≤ w → w < A → ∃ c, cm { pos with yaw := w } = some c) → turnScan cm thr A dir n pos s ≠ .undefined := by
  intro n
  induction n with
  | zero => intro pos s _ _ _; simp [turnScan]
  | succ n ih =>
    intro pos s h1 h2 hcm
    obtain ⟨c, hc⟩ := hcm pos.yaw h1 h2
    have hc' : cm pos = some c := hc
    simp only [turnScan, hc']
    split
    · simp
    · apply ih
      · simp only; split <;> [omega; (split <;> omega)]
      · simp only; split <;> [omega; (split <;> omega)]
      · intro w hw1 hw2
        exact hcm w hw1 hw2

theorem turnScan_nonneg (cm : Cell → Option Int) (thr A dir : Int) (hcm : ∀ p c, cm p = some c → 0 ≤ c) :
    ∀ (n : Nat) (pos : Cell) (s s' t' h' : Int), 0 ≤ s → turnScan cm thr A dir n pos s = .sums s' t' h' → 0 ≤ s' := by
  intro n
  induction n with
  | zero =>
    intro pos s s' t' h' hs he
    simp only [turnScan, Scan.sums.injEq] at he
    omega
  | succ n ih =>
    intro pos s s' t' h' hs he
    simp only [turnScan] at he
    split at he
    · cases he
    · rename_i c hc
      have := hcm pos c hc
      split at he
      · cases he
      · exact ih _ _ _ _ _ (by split <;> omega) he

/-! ### Rounding -/

theorem lround_between (x : ℝ) (a b : Int) (h1 : (a : ℝ) ≤ x) (h2 : x ≤ b) : a ≤ lround x ∧ lround x ≤ b := by
  have h := lround_near x
  rw [abs_le] at h
  constructor
  · have : ((a - 1 : Int) : ℝ) < (lround x : ℝ) := by push_cast; linarith
    have := Int.cast_lt.1 this
    omega
  · have : (lround x : ℝ) < ((b + 1 : Int) : ℝ) := by push_cast; linarith
    have := Int.cast_lt.1 this
    omega

theorem ratio_range (g : Geo) (d : Cell) (k : Nat) (hk : k < totalStep g d) : 0 ≤ ratioOf g d k ∧ ratioOf g d k < 1 := by
  unfold ratioOf
  have : (0 : ℝ) < (totalStep g d : ℝ) := by exact_mod_cast (by omega : 0 < totalStep g d)
  constructor
  · positivity
  · rw [div_lt_one this]
    exact_mod_cast hk

/-! ### The geometry of a motion -/

theorem straightAt_eq (g : Geo) (hs : Sane g) (s : Int) (d : Cell) (ρ : ℝ) :
    straightAt g s d ρ = ⟨d.x * ρ, d.y * ρ, s⟩ := by
  have h1 := hs.res_pos
  have h2 := ares_pos g hs
  unfold straightAt
  congr 1
  · field_simp
  · field_simp
  · field_simp

theorem r2_eq (x φ : ℝ) (hφ : sin φ ≠ 0) :
    copysign (√(x ^ 2 + (x * cos φ / sin φ) ^ 2)) (x * sin φ) = x / sin φ := by
  have e : x ^ 2 + (x * cos φ / sin φ) ^ 2 = (x / sin φ) ^ 2 := by
    field_simp
    have := sin_sq_add_cos_sq φ
    linear_combination x ^ 2 * this
  unfold copysign
  rw [e, Real.sqrt_sq_eq_abs, abs_abs]
  have hm : x / sin φ * sin φ ^ 2 = x * sin φ := by field_simp
  have hp : 0 < sin φ ^ 2 := by positivity
  split
  · rename_i h
    have : x / sin φ < 0 := by nlinarith
    rw [abs_of_neg this]; ring
  · rename_i h
    have : 0 ≤ x / sin φ := by
      by_contra hn
      push Not at hn
      nlinarith
    rw [abs_of_nonneg this]

theorem normAngle_eq (v : ℝ) : ∃ k : Int, normAngle v = v + k * (2 * π) := by
  unfold normAngle
  split
  · exact ⟨-1, by push_cast; ring⟩
  · split
    · exact ⟨1, by push_cast; ring⟩
    · exact ⟨0, by push_cast; ring⟩

/-- The code's second normalisation of the heading difference gives the same value. -/
theorem dyaw_eq (v : ℝ) : (if v < -π then v + 2 * π else if v > π then v - 2 * π else v) = normAngle v := by
  have := Real.pi_pos
  unfold normAngle
  by_cases h1 : v > π
  · rw [if_neg (by linarith), if_pos h1, if_pos h1]
  · rw [if_neg h1, if_neg h1]

/-- A curved motion in polar form: the centre of rotation is fixed and the radius changes linearly. -/
theorem curveAt_eq (g : Geo) (hs : Sane g) (s : Int) (d : Cell) (ρ : ℝ) (hsin : sin (mcMotion g s d).yaw ≠ 0) :
    curveAt g s d ρ =
      (let v := mcMotion g s d
       let θ := (s : ℝ) * g.ares
       let r1 := v.y + v.x * cos v.yaw / sin v.yaw
       let r2 := v.x / sin v.yaw
       let r := r1 * (1 - ρ) + r2 * ρ
       ⟨(r * sin (θ + ρ * v.yaw) - r1 * sin θ) / g.res, (r1 * cos θ - r * cos (θ + ρ * v.yaw)) / g.res,
        (θ + ρ * v.yaw) / g.ares⟩) := by
  have hres := hs.res_pos
  set v := mcMotion g s d with hv
  set θ := (s : ℝ) * g.ares with hθ
  have hyaw : v.yaw = normAngle ((d.yaw : ℝ) * g.ares - θ) := by
    rw [hv, hθ]; unfold mcMotion rotate
    simp only
    congr 1; ring
  have hvx : v.x = cos θ * (d.x * g.res) + sin θ * (d.y * g.res) := by
    rw [hv, hθ]; unfold mcMotion rotate
    simp only [neg_mul, cos_neg, sin_neg]
    ring
  have hvy : v.y = -sin θ * (d.x * g.res) + cos θ * (d.y * g.res) := by
    rw [hv, hθ]; unfold mcMotion rotate
    simp only [neg_mul, cos_neg, sin_neg]
  obtain ⟨k, hk⟩ := normAngle_eq ((d.yaw : ℝ) * g.ares - θ)
  rw [← hyaw] at hk
  have hE : (d.yaw : ℝ) * g.ares = θ + v.yaw - k * (2 * π) := by linarith
  have hsinE : sin ((d.yaw : ℝ) * g.ares) = sin (θ + v.yaw) := by rw [hE, Real.sin_sub_int_mul_two_pi]
  have hcosE : cos ((d.yaw : ℝ) * g.ares) = cos (θ + v.yaw) := by rw [hE, Real.cos_sub_int_mul_two_pi]
  unfold curveAt
  simp only
  rw [dyaw_eq, ← hv, ← hθ, ← hyaw]
  unfold radii
  simp only [r2_eq v.x v.yaw hsin]
  simp only [cos_add_pi_div_two, sin_add_pi_div_two, hsinE, hcosE, sin_add θ v.yaw, cos_add θ v.yaw]
  have key : ∀ φ : ℝ, sin φ ^ 2 + cos φ ^ 2 = 1 := sin_sq_add_cos_sq
  have hdx : (d.x : ℝ) * g.res = cos θ * v.x - sin θ * v.y := by
    rw [hvx, hvy]; linear_combination (-(d.x : ℝ) * g.res) * key θ
  have hdy : (d.y : ℝ) * g.res = sin θ * v.x + cos θ * v.y := by
    rw [hvx, hvy]; linear_combination (-(d.y : ℝ) * g.res) * key θ
  rw [hdx, hdy]
  congr 2
  · field_simp
    ring
  · field_simp
    ring

/-- Squared distance from the start along a curved motion. -/
theorem curve_sq (r1 r θ φ : ℝ) :
    (r * sin (θ + φ) - r1 * sin θ) ^ 2 + (r1 * cos θ - r * cos (θ + φ)) ^ 2 = (r - r1) ^ 2 + 2 * (r1 * r) * (1 - cos φ) := by
  have h1 := sin_sq_add_cos_sq θ
  have h2 := sin_sq_add_cos_sq (θ + φ)
  have h3 : cos φ = cos (θ + φ) * cos θ + sin (θ + φ) * sin θ := by
    rw [← cos_sub]; congr 1; ring
  rw [h3]
  linear_combination r ^ 2 * h2 + r1 ^ 2 * h1

/-- A curve that turns by at most a quarter never gets farther from its start than its end is. -/
theorem curve_bound (r1 r2 φ ρ : ℝ) (hρ0 : 0 ≤ ρ) (hρ1 : ρ ≤ 1) (hφ : |φ| ≤ π / 2) (hr : 0 ≤ r1 * r2) :
    (r1 * (1 - ρ) + r2 * ρ - r1) ^ 2 + 2 * (r1 * (r1 * (1 - ρ) + r2 * ρ)) * (1 - cos (ρ * φ)) ≤
      (r2 - r1) ^ 2 + 2 * (r1 * r2) * (1 - cos φ) := by
  have hmem : φ ∈ Set.Icc (-(π / 2)) (π / 2) := by rw [abs_le] at hφ; exact hφ
  have h0 : (0 : ℝ) ∈ Set.Icc (-(π / 2)) (π / 2) := ⟨by linarith [Real.pi_pos], by linarith [Real.pi_pos]⟩
  have hconc := strictConcaveOn_cos_Icc.concaveOn.2 hmem h0 hρ0 (by linarith : (0 : ℝ) ≤ 1 - ρ) (by ring)
  simp only [smul_eq_mul, mul_zero, add_zero, cos_zero, mul_one] at hconc
  have hc0 : 0 ≤ cos φ := cos_nonneg_of_mem_Icc hmem
  have hc1 : cos φ ≤ 1 := cos_le_one φ
  set c := 1 - cos φ with hc
  have hcl : 1 - cos (ρ * φ) ≤ ρ * c := by rw [hc]; linarith
  have hrr : 0 ≤ r1 * (r1 * (1 - ρ) + r2 * ρ) := by nlinarith [mul_self_nonneg r1]
  have h1 : 2 * (r1 * (r1 * (1 - ρ) + r2 * ρ)) * (1 - cos (ρ * φ)) ≤ 2 * (r1 * (r1 * (1 - ρ) + r2 * ρ)) * (ρ * c) :=
    mul_le_mul_of_nonneg_left hcl (by linarith)
  refine le_trans (add_le_add_right h1 _) ?_
  -- f(ρ) ≤ f(1) for a quadratic with nonnegative slope at both ends
  have hcc : 0 ≤ c ∧ c ≤ 1 := ⟨by rw [hc]; linarith, by rw [hc]; linarith⟩
  set δ := r1 - r2 with hδ
  have hr2 : r2 = r1 - δ := by rw [hδ]; ring
  rw [hr2]
  have hslope : 0 ≤ δ ^ 2 - 2 * r1 * δ * c + r1 ^ 2 * c := by
    nlinarith [sq_nonneg (δ - r1 * c), mul_nonneg (mul_nonneg (sq_nonneg r1) hcc.1) (by linarith [hcc.2] : (0 : ℝ) ≤ 1 - c)]
  have e : ((r1 - δ) - r1) ^ 2 + 2 * (r1 * (r1 - δ)) * c -
      ((r1 * (1 - ρ) + (r1 - δ) * ρ - r1) ^ 2 + 2 * (r1 * (r1 * (1 - ρ) + (r1 - δ) * ρ)) * (ρ * c)) =
      (1 - ρ) * ((1 + ρ) * (δ ^ 2 - 2 * r1 * δ * c + r1 ^ 2 * c) + (1 - ρ) * (r1 ^ 2 * c)) := by ring
  have : 0 ≤ (1 - ρ) * ((1 + ρ) * (δ ^ 2 - 2 * r1 * δ * c + r1 ^ 2 * c) + (1 - ρ) * (r1 ^ 2 * c)) := by
    have : 0 ≤ r1 ^ 2 * c := mul_nonneg (sq_nonneg _) hcc.1
    apply mul_nonneg (by linarith)
    apply add_nonneg
    · exact mul_nonneg (by linarith) hslope
    · exact mul_nonneg (by linarith) this
  linarith

end Verif.Model3D
