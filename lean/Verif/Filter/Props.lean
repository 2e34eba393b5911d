import Verif.Filter.Spec
import Mathlib.Tactic.Ring
import Mathlib.Tactic.FieldSimp
import Mathlib.Tactic.Linarith
import Mathlib.Tactic.Positivity
import Mathlib.Algebra.Order.AbsoluteValue.Basic
import Mathlib.Algebra.Order.Field.Rat
import Mathlib.Data.Rat.Floor
/-! # Properties of the filter (C46, C68) -/
set_option linter.unusedSectionVars false
namespace Verif.Filter
open Spec

variable {K : Type} [Field K] [LinearOrder K] [IsStrictOrderedRing K]

/-- Coefficients of a constructed filter with the state left free. -/
structure IsLpf (tc : K) (f : Obj K) : Prop where
  h0 : f.k0 = -(4 * tc) / (1 + 2 * tc)
  h1 : f.k1 = (2 * tc - 1) / (1 + 2 * tc)
  h2 : f.k2 = 1 / (1 + 2 * tc)
  h3 : f.k3 = -1 / (1 + 2 * tc)

theorem mk_isLpf {tc : K} (h : 1 + 2 * tc ≠ 0) (a : K) : IsLpf tc (mk .lpf tc a) := by
  constructor <;> simp only [mk] <;> field_simp <;> ring

theorem feed_isLpf {tc : K} {f : Obj K} (h : IsLpf tc f) (u : K) : IsLpf tc (feed f u) :=
  ⟨h.h0, h.h1, h.h2, h.h3⟩

theorem mk_x {tc : K} (h : 1 + 2 * tc ≠ 0) (a : K) : (mk .lpf tc a).x = -(2 * tc * a) := by
  simp only [mk]; field_simp; ring

theorem after_isLpf {tc : K} : ∀ (us : List K) {f : Obj K}, IsLpf tc f → IsLpf tc (after f us)
  | [], _, h => h
  | u :: us, _, h => after_isLpf us (feed_isLpf h u)

theorem after_snoc (f : Obj K) (us : List K) (u : K) : after f (us ++ [u]) = feed (after f us) u := by
  simp [after]

theorem after_replicate_succ (f : Obj K) (n : Nat) (u : K) :
    after f (List.replicate (n + 1) u) = feed (after f (List.replicate n u)) u := by
  rw [List.replicate_succ', after_snoc]

theorem lpf_x {tc : K} (h : 0 < tc) (a u : K) (n : Nat) :
    (after (mk .lpf tc a) (List.replicate n u)).x + 2 * tc * u =
      ((2 * tc - 1) / (1 + 2 * tc)) ^ n * (2 * tc * (u - a)) := by
  have hp : (1 + 2 * tc) ≠ 0 := by positivity
  induction n with
  | zero => simp only [List.replicate_zero, after, List.foldl_nil, mk_x hp]; ring
  | succ n ih =>
    have hl := after_isLpf (List.replicate n u) (mk_isLpf hp a)
    rw [after_replicate_succ]
    simp only [feed]
    rw [hl.h0, hl.h1, pow_succ]
    have e : (after (mk .lpf tc a) (List.replicate n u)).x =
        ((2 * tc - 1) / (1 + 2 * tc)) ^ n * (2 * tc * (u - a)) - 2 * tc * u := by linarith
    rw [e]
    generalize ((2 * tc - 1) / (1 + 2 * tc)) ^ n = q
    field_simp
    ring

/-- **C46** (constant input, closed form).  Started at `a` and fed the constant `u` for `n + 1` steps, the
low-pass output differs from `u` by the initial difference shrunk geometrically. -/
theorem lpf_step_response {tc : K} (h : 0 < tc) (a u : K) (n : Nat) :
    (after (mk .lpf tc a) (List.replicate (n + 1) u)).out - u =
      ((2 * tc - 1) / (2 * tc + 1)) ^ (n + 1) * (2 * tc / (2 * tc + 1)) * (a - u) := by
  have hp : (1 + 2 * tc) ≠ 0 := by positivity
  have hl := after_isLpf (List.replicate n u) (mk_isLpf hp a)
  have hx := lpf_x h a u (n + 1)
  rw [after_replicate_succ] at hx ⊢
  simp only [feed] at hx ⊢
  rw [hl.h2, hl.h3]
  have e := eq_sub_of_add_eq hx
  rw [e, show 2 * tc + 1 = 1 + 2 * tc by ring]
  generalize ((2 * tc - 1) / (1 + 2 * tc)) ^ (n + 1) = q
  field_simp
  ring

/-- **C46** (unit gain).  A filter initialised with the constant input reproduces it, for every number
of steps. -/
theorem lpf_unit_gain {tc : K} (h : 0 < tc) (a : K) (n : Nat) :
    (after (mk .lpf tc a) (List.replicate n a)).out = a := by
  cases n with
  | zero => rfl
  | succ n => have := lpf_step_response h a a n; simp at this; linarith

theorem ratio_lt_one {tc : K} (h : 0 < tc) : |(2 * tc - 1) / (2 * tc + 1)| < 1 := by
  rw [abs_lt]
  have hp : 0 < 2 * tc + 1 := by positivity
  constructor
  · rw [lt_div_iff₀ hp]; linarith
  · rw [div_lt_one hp]; linarith

/-- **C46** (convergence).  For every positive time constant there is a factor below one such that, for
every start value, every constant input and every number of steps, the distance to the input is at most
the initial distance times that power. -/
theorem lpf_converges {tc : K} (h : 0 < tc) :
    ∃ r : K, 0 ≤ r ∧ r < 1 ∧ ∀ (a u : K) (n : Nat),
      |(after (mk .lpf tc a) (List.replicate n u)).out - u| ≤ r ^ n * |a - u| := by
  refine ⟨|(2 * tc - 1) / (2 * tc + 1)|, abs_nonneg _, ratio_lt_one h, fun a u n => ?_⟩
  cases n with
  | zero => simp [after, mk]
  | succ n =>
    rw [lpf_step_response h, abs_mul, abs_mul, abs_pow]
    have h1 : |2 * tc / (2 * tc + 1)| ≤ 1 := by
      have hp : 0 < 2 * tc + 1 := by positivity
      rw [abs_of_nonneg (by positivity), div_le_one hp]; linarith
    have h2 : 0 ≤ |(2 * tc - 1) / (2 * tc + 1)| ^ (n + 1) := by positivity
    calc _ ≤ |(2 * tc - 1) / (2 * tc + 1)| ^ (n + 1) * 1 * |a - u| := by gcongr
      _ = _ := by ring

/-- The internal state in the units of the output stays in the hull of start value and inputs. -/
theorem lpf_hull_inv {tc lo hi : K} (h : 1 ≤ 2 * tc) {f : Obj K} (hl : IsLpf tc f)
    (hx : 2 * tc * lo ≤ -f.x ∧ -f.x ≤ 2 * tc * hi) {u : K} (hu : lo ≤ u ∧ u ≤ hi) :
    (2 * tc * lo ≤ -(feed f u).x ∧ -(feed f u).x ≤ 2 * tc * hi) ∧
      (lo ≤ (feed f u).out ∧ (feed f u).out ≤ hi) := by
  have hp : 0 < 1 + 2 * tc := by linarith
  have hx' : -(feed f u).x = (4 * tc * u + (2 * tc - 1) * -f.x) / (1 + 2 * tc) := by
    simp only [feed]; rw [hl.h0, hl.h1]; field_simp; try ring
  have ho : (feed f u).out = (u + -(feed f u).x) / (1 + 2 * tc) := by
    simp only [feed]; rw [hl.h2, hl.h3]; field_simp; try ring
  have hb : 2 * tc * lo ≤ -(feed f u).x ∧ -(feed f u).x ≤ 2 * tc * hi := by
    rw [hx']
    have h4 : 0 ≤ 4 * tc := by linarith
    have h5 : 0 ≤ 2 * tc - 1 := by linarith
    have a1 := mul_le_mul_of_nonneg_left hu.1 h4
    have a2 := mul_le_mul_of_nonneg_left hu.2 h4
    have b1 := mul_le_mul_of_nonneg_left hx.1 h5
    have b2 := mul_le_mul_of_nonneg_left hx.2 h5
    constructor
    · rw [le_div_iff₀ hp]
      nlinarith
    · rw [div_le_iff₀ hp]
      nlinarith
  refine ⟨hb, ?_⟩
  rw [ho]
  constructor
  · rw [le_div_iff₀ hp]; nlinarith [hu.1, hb.1]
  · rw [div_le_iff₀ hp]; nlinarith [hu.2, hb.2]

theorem lpf_hull_aux {tc lo hi : K} (h : 1 ≤ 2 * tc) : ∀ (us : List K) {f : Obj K}, IsLpf tc f →
    (2 * tc * lo ≤ -f.x ∧ -f.x ≤ 2 * tc * hi) → (lo ≤ f.out ∧ f.out ≤ hi) → Within lo hi us →
    lo ≤ (after f us).out ∧ (after f us).out ≤ hi
  | [], _, _, _, ho, _ => ho
  | u :: us, f, hl, hx, _, hw => by
    have := lpf_hull_inv h hl hx (hw u (by simp))
    exact lpf_hull_aux h us (feed_isLpf hl u) this.1 this.2 (fun v hv => hw v (by simp [hv]))

theorem mk_hull {tc lo hi a : K} (h : 1 ≤ 2 * tc) (ha : lo ≤ a ∧ a ≤ hi) :
    2 * tc * lo ≤ -(mk .lpf tc a).x ∧ -(mk .lpf tc a).x ≤ 2 * tc * hi := by
  have hp : (1 + 2 * tc) ≠ 0 := by linarith
  rw [mk_x hp]
  have h0 : 0 ≤ 2 * tc := by linarith
  have := mul_le_mul_of_nonneg_left ha.1 h0
  have := mul_le_mul_of_nonneg_left ha.2 h0
  constructor <;> linarith

/-- **C68**.  With a time constant of at least half a step the low-pass output never leaves the range
spanned by the start value and the inputs. -/
theorem lpf_no_overshoot {tc lo hi a : K} (h : 1 ≤ 2 * tc) (ha : lo ≤ a ∧ a ≤ hi) (us : List K)
    (hu : Within lo hi us) :
    lo ≤ (after (mk .lpf tc a) us).out ∧ (after (mk .lpf tc a) us).out ≤ hi :=
  lpf_hull_aux h us (mk_isLpf (by linarith) a) (mk_hull h ha) (by simpa [mk] using ha) hu

/-- **C68** (counterexample below half a step).  With time constant 1/4 a step from 0 to 1 overshoots to
10/9. -/
theorem lpf_overshoots : (after (mk .lpf (1/4 : ℚ) 0) [1]).out = 10 / 9 := by decide +kernel

/-- **C46** (high pass).  A constant input is suppressed geometrically. -/
theorem hpf_blocks_constant {tc : K} (h : 0 < tc) (a u : K) (n : Nat) :
    (after (mk .hpf tc a) (List.replicate (n + 1) u)).out =
      ((2 * tc - 1) / (2 * tc + 1)) ^ (n + 1) * ((a + 2 * tc * u) / (2 * tc + 1)) := by
  have hp : (1 + 2 * tc) ≠ 0 := by positivity
  have key : ∀ n, let f := after (mk .hpf tc a) (List.replicate n u)
      f.k0 = 4 * tc / (1 + 2 * tc) ∧ f.k1 = (2 * tc - 1) / (1 + 2 * tc) ∧
      f.k2 = 2 * tc / (1 + 2 * tc) ∧ f.k3 = -1 / (1 + 2 * tc) ∧
      f.x - 2 * tc * u = ((2 * tc - 1) / (1 + 2 * tc)) ^ n * (-a - 2 * tc * u) := by
    intro n
    induction n with
    | zero =>
      simp only [List.replicate_zero, after, List.foldl_nil, mk, pow_zero, one_mul]
      refine ⟨?_, ?_, ?_, ?_, ?_⟩ <;> first | trivial | (field_simp; ring) | field_simp
    | succ n ih =>
      rw [after_replicate_succ]
      obtain ⟨h0, h1, h2, h3, hx⟩ := ih
      refine ⟨h0, h1, h2, h3, ?_⟩
      simp only [feed]
      rw [h0, h1, eq_add_of_sub_eq hx, pow_succ]
      generalize ((2 * tc - 1) / (1 + 2 * tc)) ^ n = q
      field_simp
      ring
  obtain ⟨h0, h1, h2, h3, hx⟩ := key n
  have hx' := (key (n + 1)).2.2.2.2
  rw [after_replicate_succ] at hx' ⊢
  simp only [feed] at hx' ⊢
  rw [h2, h3, eq_add_of_sub_eq hx', show 2 * tc + 1 = 1 + 2 * tc by ring]
  generalize ((2 * tc - 1) / (1 + 2 * tc)) ^ (n + 1) = q
  field_simp
  ring

/-- **C46** (`set` restarts the filter). -/
theorem setOut_eq_mk (t : Kind) (tc a b : K) (us : List K) :
    setOut (after (mk t tc a) us) b = mk t tc b := by
  have key : ∀ (us : List K) (f : Obj K), setOut (after f us) b = setOut f b := by
    intro us
    induction us with
    | nil => intro f; rfl
    | cons u us ih => intro f; exact ih (feed f u)
  rw [key]
  cases t <;> rfl

theorem rne_near [FloorRing K] (q : K) : |q - rne q| ≤ 1 / 2 := by
  have h1 := Int.floor_le q
  have h2 := Int.lt_floor_add_one q
  unfold rne
  rw [abs_le]
  split
  · constructor <;> linarith
  · split
    · push_cast; constructor <;> linarith
    · have : q - ⌊q⌋ = 1 / 2 := le_antisymm (by linarith) (by linarith)
      split
      · constructor <;> linarith
      · push_cast; constructor <;> linarith

/-- `remainder` is equivalent modulo `m` and at most half of `m`. -/
theorem remainder_spec [FloorRing K] {m : K} (hm : 0 < m) (x : K) :
    (∃ k : Int, remainder x m = x - k * m) ∧ |remainder x m| ≤ m / 2 := by
  refine ⟨⟨rne (x / m), by simp [remainder, mul_comm]⟩, ?_⟩
  have h := rne_near (x / m)
  have e : remainder x m = (x / m - rne (x / m)) * m := by simp only [remainder]; field_simp
  rw [e, abs_mul, abs_of_pos hm]
  calc _ ≤ 1 / 2 * m := by gcongr
    _ = m / 2 := by ring

/-- **C68** (angle mode).  The value fed into an angle filter is the given angle up to full turns and at
most half a turn away from the present output; so crossing ±half a turn never makes the output swing
the long way round. -/
theorem angle_feed [FloorRing K] {turn : K} (ht : 0 < turn) (f : Obj K) (i : K) :
    ∃ (j : K) (k : Int), feedAngle turn f i = feed f j ∧ j = i + k * turn ∧ |j - f.out| ≤ turn / 2 := by
  obtain ⟨⟨k, hk⟩, hb⟩ := remainder_spec ht (i - f.out)
  refine ⟨f.out + remainder (i - f.out) turn, -k, rfl, ?_, ?_⟩
  · rw [hk]; push_cast; ring
  · simpa using hb

theorem smooth_aux (f : Obj K) (us acc : List K) :
    ((us.foldl (fun s i => (feed s.1 i, (feed s.1 i).out :: s.2)) (f, acc)).2).reverse =
      acc.reverse ++ (List.range us.length).map (fun i => (after f (us.take (i + 1))).out) := by
  induction us generalizing f acc with
  | nil => simp
  | cons u us ih =>
    simp only [List.foldl_cons]
    rw [ih]
    simp [List.range_succ_eq_map, after, Function.comp_def]

/-- **C68** (path smoothing of the trajectory server).  For a path with at least one pose the smoothed path has
the same number of poses, starts at the same position, and, for a filter step of at least one half, stays
within the range of the original coordinates.  An empty path is undefined behaviour (`none`). -/
theorem smooth_spec {tc : K} (h : 0 < tc) (us : List K) :
    (smooth tc us = none ↔ us = []) ∧
    ∀ out, smooth tc us = some out →
      out.length = us.length ∧ out.head? = us.head? ∧
      (1 ≤ 2 * tc → ∀ lo hi, Within lo hi us → Within lo hi out) := by
  cases us with
  | nil => simp [smooth]
  | cons a us =>
    simp only [smooth, reduceCtorEq, List.cons_ne_nil, iff_self, true_and, Option.some.injEq]
    intro out ho
    rw [smooth_aux] at ho
    subst ho
    refine ⟨by simp, ?_, ?_⟩
    · have := lpf_unit_gain h a 1
      simpa [List.range_succ_eq_map] using this
    · intro h2 lo hi hw v hv
      simp only [List.reverse_nil, List.nil_append, List.mem_map] at hv
      obtain ⟨i, _, rfl⟩ := hv
      exact lpf_no_overshoot h2 (hw a (by simp)) _ (fun u hu => hw u (List.mem_of_mem_take hu))

/-! ## Concrete cases -/

example : (mk .lpf (2 : ℚ) 5).out = 5 ∧ (after (mk .lpf (2 : ℚ) 5) [0, 0]).out = 36 / 25 := by
  decide +kernel
example : smooth (2 : ℚ) [1, 2, 4] = some [1, 38/25, 344/125] := by decide +kernel
example : (0 : ℚ) < 1 / 10 ∧ Within (0 : ℚ) 4 [1, 2, 4] := ⟨by decide +kernel, by
  intro u hu; simp at hu; rcases hu with rfl | rfl | rfl <;> decide +kernel⟩
example : remainder (7 : ℚ) 4 = -1 ∧ remainder (6 : ℚ) 4 = -2 ∧ remainder (2 : ℚ) 4 = 2 := by
  decide +kernel

end Verif.Filter
