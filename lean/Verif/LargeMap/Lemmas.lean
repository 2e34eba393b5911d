import Verif.LargeMap.Spec
import Verif.CSpace.Props
/-! # Lemmas about local maps -/
namespace Verif.LargeMap
open Verif.CSpace (lround trunc)

/-! ### The occlusion pass -/

theorem set_length (l : List Nat) : ∀ m : List Int, (l.foldl (fun m b => m.set b (-1)) m).length = m.length := by
  induction l with
  | nil => intro m; rfl
  | cons b l ih => intro m; rw [List.foldl_cons, ih, List.length_set]

theorem set_get (l : List Nat) : ∀ (m : List Int) (c : Nat),
    (l.foldl (fun m b => m.set b (-1)) m)[c]? = if c ∈ l ∧ c < m.length then some (-1) else m[c]? := by
  induction l with
  | nil => intro m c; simp
  | cons b l ih =>
    intro m c
    rw [List.foldl_cons, ih, List.length_set, List.getElem?_set]
    by_cases hc : c < m.length
    · by_cases h1 : c ∈ l
      · simp [h1, hc]
      · by_cases h2 : b = c
        · subst h2; simp [h1, hc]
        · have h3 : ¬ c = b := fun h => h2 h.symm
          simp [h1, h2, h3]
    · have h4 : m[c]? = none := List.getElem?_eq_none (by omega)
      by_cases h2 : b = c
      · subst h2; simp [hc]
      · simp [hc, h2]

theorem hide_length (E : Nat → List Nat) (m : List Int) (a : Nat) : (hide E m a).length = m.length := by
  unfold hide; split
  · exact set_length _ _
  · rfl

theorem hide_get (E : Nat → List Nat) (m : List Int) (a c : Nat) :
    (hide E m a)[c]? = if (m[a]? = some 100 ∧ c ∈ E a) ∧ c < m.length then some (-1) else m[c]? := by
  unfold hide
  by_cases h : m[a]? = some 100
  · rw [if_pos h, set_get]; simp [h]
  · rw [if_neg h]; simp [h]

theorem fold_length (E : Nat → List Nat) (as : List Nat) : ∀ m : List Int, (as.foldl (hide E) m).length = m.length := by
  induction as with
  | nil => intro m; rfl
  | cons a as ih => intro m; rw [List.foldl_cons, ih, hide_length]

/-- A value stays or becomes unknown; it changes only behind an obstacle of the original map. -/
theorem fold_get (E : Nat → List Nat) (as : List Nat) : ∀ (m : List Int) (c : Nat),
    (as.foldl (hide E) m)[c]? = m[c]? ∨ ((as.foldl (hide E) m)[c]? = some (-1) ∧ ∃ a ∈ as, m[a]? = some 100 ∧ c ∈ E a) := by
  induction as with
  | nil => intro m c; exact .inl rfl
  | cons a as ih =>
    intro m c
    rw [List.foldl_cons]
    have key : ∀ b : Nat, (hide E m a)[b]? = some 100 → m[b]? = some 100 := by
      intro b h
      rw [hide_get] at h
      split at h
      · cases h
      · exact h
    rcases ih (hide E m a) c with h | ⟨h, b, hb, h1, h2⟩
    · rw [h, hide_get]
      by_cases hc : (m[a]? = some 100 ∧ c ∈ E a) ∧ c < m.length
      · rw [if_pos hc]
        exact .inr ⟨rfl, a, List.mem_cons_self .., hc.1.1, hc.1.2⟩
      · rw [if_neg hc]
        exact .inl rfl
    · exact .inr ⟨h, b, List.mem_cons_of_mem _ hb, key b h1, h2⟩

/-- Behind an obstacle that stays visible everything becomes unknown. -/
theorem fold_hidden (E : Nat → List Nat) (as : List Nat) : ∀ (m : List Int) (a c : Nat), a ∈ as → c ∈ E a → c < m.length →
    (as.foldl (hide E) m)[a]? = some 100 → (as.foldl (hide E) m)[c]? = some (-1) := by
  induction as with
  | nil => intro m a c h; cases h
  | cons b as ih =>
    intro m a c ha hc hl hv
    rw [List.foldl_cons] at hv ⊢
    rcases List.mem_cons.mp ha with rfl | ha'
    · have h1 : (hide E m a)[a]? = some 100 := by
        rcases fold_get E as (hide E m a) a with h | ⟨h, -⟩
        · rw [← h]; exact hv
        · rw [h] at hv; cases hv
      have h2 : m[a]? = some 100 := by
        rw [hide_get] at h1
        split at h1
        · cases h1
        · exact h1
      have h3 : (hide E m a)[c]? = some (-1) := by rw [hide_get, if_pos ⟨⟨h2, hc⟩, hl⟩]
      rcases fold_get E as (hide E m a) c with h | ⟨h, -⟩
      · rw [h]; exact h3
      · exact h
    · exact ih _ a c ha' hc (by rw [hide_length]; exact hl) hv

/-! ### Addresses -/

/-- Address of a cell. -/
def addr (w : Nat) (c : Cell) : Nat := (c.2 * w + c.1).toNat

theorem addr_spec {w : Nat} {c : Cell} (h : OnMap w c) : (addr w c : Int) = c.2 * w + c.1 ∧ addr w c < w * w ∧
    ((addr w c % w : Nat) : Int) = c.1 ∧ ((addr w c / w : Nat) : Int) = c.2 := by
  obtain ⟨⟨h1, h2⟩, h3, h4⟩ := h
  obtain ⟨x, y⟩ := c
  lift x to Nat using h1
  lift y to Nat using h3
  simp only [Nat.cast_lt] at h2 h4
  have e : addr w ((x : Int), (y : Int)) = y * w + x := by
    unfold addr
    dsimp only
    rw [← Nat.cast_mul, ← Nat.cast_add, Int.toNat_natCast]
  rw [e]
  refine ⟨by push_cast; rfl, ?_, ?_, ?_⟩
  · calc y * w + x < y * w + w := by omega
      _ = (y + 1) * w := by ring
      _ ≤ w * w := Nat.mul_le_mul_right w h4
  · rw [Nat.mul_comm, Nat.mul_add_mod, Nat.mod_eq_of_lt h2]
  · rw [Nat.mul_comm, Nat.mul_add_div (by omega), Nat.div_eq_of_lt h2, Nat.add_zero]

theorem addr_inj {w : Nat} {a b : Cell} (ha : OnMap w a) (hb : OnMap w b) (h : addr w a = addr w b) : a = b := by
  obtain ⟨-, -, a1, a2⟩ := addr_spec ha
  obtain ⟨-, -, b1, b2⟩ := addr_spec hb
  rw [h] at a1 a2
  exact Prod.ext (a1.symm.trans b1) (a2.symm.trans b2)

/-- Every address is one of a cell. -/
theorem exists_addr {w a : Nat} (h : a < w * w) : ∃ c, OnMap w c ∧ addr w c = a := by
  have hw : 0 < w := by
    rcases Nat.eq_zero_or_pos w with rfl | h'
    · simp at h
    · exact h'
  refine ⟨(((a % w : Nat) : Int), ((a / w : Nat) : Int)), ⟨⟨by positivity, Int.ofNat_lt.mpr (Nat.mod_lt a hw)⟩, by positivity, ?_⟩, ?_⟩
  · exact Int.ofNat_lt.mpr (Nat.div_lt_of_lt_mul h)
  · unfold addr
    dsimp only
    rw [← Nat.cast_mul, ← Nat.cast_add, Int.toNat_natCast, Nat.mul_comm, Nat.div_add_mod]

theorem trunc_iff {v : ℝ} (hv : 0 ≤ v) (z : Int) : trunc v = z ↔ (z : ℝ) ≤ v ∧ v < z + 1 := by
  unfold trunc
  rw [if_pos hv, Int.floor_eq_iff]

/-- A point strictly between the middle and a cell of the map is in the map. -/
theorem sample_range (w : Nat) (x : Int) (h : 0 ≤ x ∧ x < w) (f : ℝ) (h0 : 0 ≤ f) (h1 : f < 1) :
    0 ≤ (w : ℝ) / 2 + f * ((x : ℝ) - (w : ℝ) / 2) ∧ (w : ℝ) / 2 + f * ((x : ℝ) - (w : ℝ) / 2) < w := by
  have a : (0 : ℝ) ≤ (x : ℝ) := by exact_mod_cast h.1
  have b : (x : ℝ) ≤ (w : ℝ) - 1 := by
    have : x ≤ (w : Int) - 1 := by omega
    exact_mod_cast this
  have hw : (0 : ℝ) < w := by linarith
  constructor <;> nlinarith

/-- The addresses on the way to a cell. -/
theorem mem_samples {w : Nat} {b c : Cell} (hb : OnMap w b) (hc : OnMap w c) :
    ((addr w b : Nat) : Int) ∈ samples w (addr w c) ↔ ∃ k : Nat, (1 + (k : ℝ) / 2) + 1 < Real.sqrt (sqRadius w c) ∧
      let f := (1 + (k : ℝ) / 2) / Real.sqrt (sqRadius w c)
      ((b.1 : ℝ) ≤ (w : ℝ) / 2 + f * ((c.1 : ℝ) - (w : ℝ) / 2) ∧ (w : ℝ) / 2 + f * ((c.1 : ℝ) - (w : ℝ) / 2) < (b.1 : ℝ) + 1) ∧
      ((b.2 : ℝ) ≤ (w : ℝ) / 2 + f * ((c.2 : ℝ) - (w : ℝ) / 2) ∧ (w : ℝ) / 2 + f * ((c.2 : ℝ) - (w : ℝ) / 2) < (b.2 : ℝ) + 1) := by
  obtain ⟨-, -, c1, c2⟩ := addr_spec hc
  obtain ⟨b0, -, -, -⟩ := addr_spec hb
  have e1 : ((addr w c % w : Nat) : ℝ) = (c.1 : ℝ) := by rw [← c1, Int.cast_natCast]
  have e2 : ((addr w c / w : Nat) : ℝ) = (c.2 : ℝ) := by rw [← c2, Int.cast_natCast]
  have e3 : ∀ x y : ℝ, x * x + y * y = x ^ 2 + y ^ 2 := fun x y => by ring
  unfold samples
  simp only [e1, e2, e3]
  change _ ∈ List.map _ (List.range ⌈2 * (Real.sqrt (sqRadius w c) - 2)⌉₊) ↔ _
  change ((addr w b : Nat) : Int) ∈ List.map (fun k : Nat =>
    trunc (((c.2 : ℝ) - (w : ℝ) / 2) * (1 + (k : ℝ) / 2) / Real.sqrt (sqRadius w c) + (w : ℝ) / 2) * (w : Int) +
    trunc (((c.1 : ℝ) - (w : ℝ) / 2) * (1 + (k : ℝ) / 2) / Real.sqrt (sqRadius w c) + (w : ℝ) / 2)) _ ↔ _
  generalize Real.sqrt (sqRadius w c) = l
  rw [List.mem_map]
  refine exists_congr fun k => ?_
  rw [List.mem_range, Nat.lt_ceil]
  have hk : (k : ℝ) < 2 * (l - 2) ↔ (1 + (k : ℝ) / 2) + 1 < l := by constructor <;> intro h <;> linarith
  rw [hk]
  refine and_congr_right fun hl => ?_
  have hr : (0 : ℝ) < 1 + (k : ℝ) / 2 := by positivity
  have hlp : 0 < l := by linarith
  have f0 : 0 ≤ (1 + (k : ℝ) / 2) / l := by positivity
  have f1 : (1 + (k : ℝ) / 2) / l < 1 := by rw [div_lt_one hlp]; linarith
  have er : ∀ v : ℝ, v * (1 + (k : ℝ) / 2) / l + (w : ℝ) / 2 = (w : ℝ) / 2 + (1 + (k : ℝ) / 2) / l * v := fun v => by ring
  simp only [er]
  obtain ⟨x0, x1⟩ := sample_range w c.1 hc.1 _ f0 f1
  obtain ⟨y0, y1⟩ := sample_range w c.2 hc.2 _ f0 f1
  rw [← trunc_iff x0, ← trunc_iff y0]
  generalize (w : ℝ) / 2 + (1 + (k : ℝ) / 2) / l * ((c.1 : ℝ) - (w : ℝ) / 2) = vx at *
  generalize (w : ℝ) / 2 + (1 + (k : ℝ) / 2) / l * ((c.2 : ℝ) - (w : ℝ) / 2) = vy at *
  have key : ∀ v : ℝ, 0 ≤ v → v < w → 0 ≤ trunc v ∧ trunc v < w := by
    intro v h0 h1
    obtain ⟨h2, h3⟩ := (trunc_iff h0 _).mp rfl
    constructor
    · have : ((-1 : Int) : ℝ) < ((trunc v : Int) : ℝ) := by push_cast; linarith
      have := Int.cast_lt.mp this
      omega
    · have : ((trunc v : Int) : ℝ) < ((w : Int) : ℝ) := by push_cast; linarith
      exact Int.cast_lt.mp this
  have hin : OnMap w (trunc vx, trunc vy) := ⟨key vx x0 x1, key vy y0 y1⟩
  constructor
  · intro h
    have : addr w (trunc vx, trunc vy) = addr w b := by
      have := (addr_spec hin).1
      dsimp only at this
      rw [h] at this
      exact_mod_cast this
    have := addr_inj hin hb this
    rw [← this]
    exact ⟨rfl, rfl⟩
  · rintro ⟨h1, h2⟩
    rw [h1, h2, b0]

theorem mem_behind {w : Nat} {b c : Cell} (hb : OnMap w b) (hc : OnMap w c) : addr w c ∈ behind w (addr w b) ↔ Blocks w b c := by
  unfold behind Blocks
  rw [List.mem_filter, List.mem_filter, decide_eq_true_iff, decide_eq_true_iff, mem_samples hb hc, List.mem_range]
  have hne : addr w c ≠ addr w b ↔ b ≠ c := by
    constructor
    · intro h e; exact h (by rw [e])
    · intro h e; exact h (addr_inj hb hc e.symm)
  rw [hne]
  constructor
  · rintro ⟨⟨-, h⟩, h'⟩; exact ⟨h', h⟩
  · rintro ⟨h', h⟩; exact ⟨⟨(addr_spec hc).2.1, h⟩, h'⟩

theorem mem_behind_lt {w a b : Nat} (h : b ∈ behind w a) : b < w * w := by
  unfold behind at h
  rw [List.mem_filter, List.mem_filter, List.mem_range] at h
  exact h.1.1

/-! ### The copied part -/

theorem mapM_spec {α β : Type} (f : α → Option β) : ∀ (l : List α) (m : List β), l.mapM f = some m →
    m.length = l.length ∧ ∀ (i : Nat) (a : α), l[i]? = some a → m[i]? = f a := by
  intro l
  induction l with
  | nil =>
    intro m h
    rw [List.mapM_nil] at h
    obtain rfl := Option.some.inj h
    exact ⟨rfl, fun i a h => by simp at h⟩
  | cons x l ih =>
    intro m h
    rw [List.mapM_cons] at h
    cases hx : f x with
    | none => rw [hx] at h; cases h
    | some y =>
      cases hl : l.mapM f with
      | none => rw [hx, hl] at h; cases h
      | some ys =>
        rw [hx, hl] at h
        obtain rfl : y :: ys = m := Option.some.inj h
        obtain ⟨h1, h2⟩ := ih ys hl
        refine ⟨by simp [h1], fun i a ha => ?_⟩
        cases i with
        | zero =>
          obtain rfl : x = a := by simpa using ha
          simp [hx]
        | succ i => simpa using h2 i a (by simpa using ha)

theorem base_get {c : Config} {L : Large} {gx gy : Int} {m : List Int} (h : base c L gx gy = some m) :
    m.length = c.width * c.width ∧ ∀ p, OnMap c.width p → value c.width m p = cell c L gx gy p.1 p.2 := by
  unfold base at h
  obtain ⟨h1, h2⟩ := mapM_spec _ _ _ h
  rw [List.length_range] at h1
  refine ⟨h1, fun p hp => ?_⟩
  obtain ⟨-, h3, h4, h5⟩ := addr_spec hp
  have := h2 (addr c.width p) (addr c.width p) (by rw [List.getElem?_range h3])
  rw [h4, h5] at this
  exact this

end Verif.LargeMap
