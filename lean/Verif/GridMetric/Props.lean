import Verif.GridMetric.Spec
import Verif.CSpace.Props
import Verif.CyclicVec.Props
import Mathlib.Tactic.FieldSimp
import Mathlib.Algebra.Order.Field.Rat
import Mathlib.Data.Rat.Floor
/-! # Properties of the grid and metric conversions (C12) -/
set_option linter.unusedSectionVars false
namespace Verif.GridMetric
open Spec
open Verif.CSpace (lround lround_near lround_neg lround_nat)

variable {K : Type} [Field K] [LinearOrder K] [IsStrictOrderedRing K] [FloorRing K]

theorem lround_int (z : Int) : lround ((z : K)) = z := by
  rcases le_or_gt 0 z with h | h
  · obtain ⟨n, rfl⟩ := Int.eq_ofNat_of_zero_le h
    simpa using lround_nat (K := K) n
  · obtain ⟨n, hn⟩ := Int.eq_ofNat_of_zero_le (show 0 ≤ -z by omega)
    have e : (z : K) = -((n : Nat) : K) := by
      have : z = -(n : Int) := by omega
      rw [this]; push_cast; ring
    rw [e, lround_neg, lround_nat]
    omega

/-- **C12**: a cell is its own image. -/
theorem roundtrip (m : Info K) (hr : 0 < m.res) (ha : 0 < m.ares) (c : Cell) : metric2Grid m (grid2Metric m c) = c := by
  have h1 : ∀ (z : Int) (o : K), ⌊(((z : K) + 1 / 2) * m.res + o - o) / m.res⌋ = z := by
    intro z o
    have e : (((z : K) + 1 / 2) * m.res + o - o) / m.res = (z : K) + 1 / 2 := by
      field_simp
      ring
    rw [e, Int.floor_eq_iff]
    constructor <;> linarith
  have h2 : lround ((c.yaw : K) * m.ares / m.ares) = c.yaw := by
    rw [mul_div_cancel_right₀ _ (ne_of_gt ha), lround_int]
  unfold metric2Grid grid2Metric grid2MetricF
  simp only [h1, h2]

/-- **C12**: the planner's wrapper: a cell with a normalised heading is its own image. -/
theorem roundtrip_cyclic (m : Info K) (hr : 0 < m.res) (ha : 0 < m.ares) (hm : 0 < m.angle) (c : Cell)
    (hc : 0 ≤ c.yaw ∧ c.yaw < m.angle) : metric2GridC m (grid2Metric m c) = some c := by
  unfold metric2GridC
  rw [roundtrip m hr ha c]
  have h : CyclicVec.cycleUnsignedElement c.yaw m.angle = some c.yaw := by
    unfold CyclicVec.cycleUnsignedElement
    rw [if_neg (by omega), Int.tmod_eq_of_lt hc.1 hc.2]
    simp only
    rw [if_neg (by omega)]
  simp [h]

/-- **C12**: a point is given the cell whose square contains it, and a nearest heading. -/
theorem cell_of_point (m : Info K) (hr : 0 < m.res) (ha : 0 < m.ares) (p : Pose K) (i j : Int) :
    ((metric2Grid m p).x = i ∧ (metric2Grid m p).y = j ↔ InSquare m i j p.x p.y) ∧
    NearestHeading m (metric2Grid m p).yaw p.yaw := by
  constructor
  · unfold metric2Grid InSquare
    simp only [Int.floor_eq_iff]
    rw [le_div_iff₀ hr, div_lt_iff₀ hr, le_div_iff₀ hr, div_lt_iff₀ hr]
    constructor
    · rintro ⟨⟨a, b⟩, c, d⟩
      exact ⟨by linarith, by linarith, by linarith, by linarith⟩
    · rintro ⟨a, b, c, d⟩
      exact ⟨⟨by linarith, by linarith⟩, by linarith, by linarith⟩
  · have h := lround_near (p.yaw / m.ares)
    unfold NearestHeading metric2Grid
    have e : p.yaw - (lround (p.yaw / m.ares) : K) * m.ares = -(((lround (p.yaw / m.ares) : K) - p.yaw / m.ares) * m.ares) := by
      field_simp
      ring
    simp only
    rw [e, abs_neg, abs_mul, abs_of_pos ha]
    nlinarith

/-- **C12**: the planner's wrapper changes nothing but the representation of the heading. -/
theorem wrapper_same_cell (m : Info K) (hm : 0 < m.angle) (p : Pose K) :
    ∃ c, metric2GridC m p = some c ∧ c.x = (metric2Grid m p).x ∧ c.y = (metric2Grid m p).y ∧
      SameDirection m.angle c.yaw (metric2Grid m p).yaw ∧ 0 ≤ c.yaw ∧ c.yaw < m.angle := by
  obtain ⟨w, hw, hr, k, hk⟩ := CyclicVec.cycleUnsignedElement_spec (metric2Grid m p).yaw m.angle hm
  refine ⟨⟨(metric2Grid m p).x, (metric2Grid m p).y, w⟩, ?_, rfl, rfl, ?_, hr.1, hr.2⟩
  · unfold metric2GridC
    simp [hw]
  · exact ⟨k, by linarith⟩

/-- **C12**: fractional grid coordinates: the two conversions differ by the half cell that places integer coordinates
at cell centres; the point `(x, y)` of the grid lies in the cell nearest to it. -/
theorem fractional (m : Info K) (hr : 0 < m.res) (ha : 0 < m.ares) (g : Pose K) :
    metric2GridF m (grid2MetricF m g) = ⟨g.x + 1 / 2, g.y + 1 / 2, g.yaw⟩ ∧
    |g.x - ((metric2Grid m (grid2MetricF m g)).x : K)| ≤ 1 / 2 ∧
    |g.y - ((metric2Grid m (grid2MetricF m g)).y : K)| ≤ 1 / 2 ∧
    |g.yaw - ((metric2Grid m (grid2MetricF m g)).yaw : K)| ≤ 1 / 2 := by
  have e : ∀ (v o : K), ((v + 1 / 2) * m.res + o - o) / m.res = v + 1 / 2 := by
    intro v o
    field_simp
    ring
  have ew : g.yaw * m.ares / m.ares = g.yaw := mul_div_cancel_right₀ _ (ne_of_gt ha)
  have hf : ∀ v : K, |v - (⌊v + 1 / 2⌋ : K)| ≤ 1 / 2 := by
    intro v
    have h1 := Int.floor_le (v + 1 / 2)
    have h2 := Int.lt_floor_add_one (v + 1 / 2)
    rw [abs_le]; constructor <;> linarith
  refine ⟨?_, ?_, ?_, ?_⟩
  · unfold metric2GridF grid2MetricF
    simp only [e, ew]
  · unfold metric2Grid grid2MetricF
    simp only [e]
    exact hf _
  · unfold metric2Grid grid2MetricF
    simp only [e]
    exact hf _
  · unfold metric2Grid grid2MetricF
    simp only [ew]
    rw [abs_sub_comm]
    exact lround_near _

/-- **C12**: appending a grid path keeps what was there and adds one pose per grid pose, in order. -/
theorem append_path (m : Info K) (grid path : List (Pose K)) :
    appendPath m grid path = path ++ grid.map (grid2MetricF m) := by
  unfold appendPath
  induction grid generalizing path with
  | nil => simp
  | cons g gs ih =>
    rw [List.foldl_cons, ih]
    simp

/-- **C12**: cell centres with a grid heading pass the test for grid centres. -/
theorem centres_are_centres (m : Info K) (hr : 0 < m.res) (ha : 0 < m.ares) (c : Cell) :
    isGridCenter m (grid2Metric m c) = true := by
  have h := (fractional m hr ha ⟨(c.x : K), (c.y : K), (c.yaw : K)⟩).1
  unfold isGridCenter grid2Metric
  rw [h]
  have e : ∀ z : Int, (z : K) + 1 / 2 - 1 / 2 = (z : K) := fun z => by ring
  simp only [e, lround_int, sub_self, abs_zero]
  have : (0 : K) < 1 / 1000 := by norm_num
  simp [this]

/-- **C12**: a pose that passes the test is within a thousandth of a cell of the centre of its own cell, and within a
thousandth of a heading step of a grid heading. -/
theorem centre_is_near (m : Info K) (hr : 0 < m.res) (ha : 0 < m.ares) (p : Pose K) (h : isGridCenter m p = true) :
    |p.x - (grid2Metric m (metric2Grid m p)).x| < m.res / 1000 ∧
    |p.y - (grid2Metric m (metric2Grid m p)).y| < m.res / 1000 ∧
    |p.yaw - (grid2Metric m (metric2Grid m p)).yaw| < m.ares / 1000 := by
  unfold isGridCenter at h
  simp only [Bool.and_eq_true, decide_eq_true_eq] at h
  obtain ⟨⟨h1, h2⟩, h3⟩ := h
  have key : ∀ (v o : K), |(v - o) / m.res - 1 / 2 - (lround ((v - o) / m.res - 1 / 2) : K)| < 1 / 1000 →
      |v - (((⌊(v - o) / m.res⌋ : K) + 1 / 2) * m.res + o)| < m.res / 1000 := by
    intro v o hv
    set q := (v - o) / m.res with hq
    have hfl : ⌊q⌋ = lround (q - 1 / 2) := by
      rw [Int.floor_eq_iff]
      rw [abs_lt] at hv
      constructor <;> linarith
    have hvq : v = q * m.res + o := by rw [hq]; field_simp; ring
    rw [hfl, hvq]
    have e : q * m.res + o - (((lround (q - 1 / 2) : K) + 1 / 2) * m.res + o) =
        (q - 1 / 2 - (lround (q - 1 / 2) : K)) * m.res := by ring
    rw [e, abs_mul, abs_of_pos hr]
    nlinarith
  refine ⟨key _ _ h1, key _ _ h2, ?_⟩
  unfold metric2GridF at h3
  unfold grid2Metric grid2MetricF metric2Grid
  simp only at h3 ⊢
  have e : p.yaw - (lround (p.yaw / m.ares) : K) * m.ares = (p.yaw / m.ares - (lround (p.yaw / m.ares) : K)) * m.ares := by
    field_simp
  rw [e, abs_mul, abs_of_pos ha]
  nlinarith

/-- Concrete case: resolution 0.1, 16 headings of 0.4, origin (−1, 2). -/
def m0 : Info ℚ := ⟨1 / 10, 2 / 5, -1, 2, 16⟩

example : metric2GridC m0 ⟨-0.33, 2.08, -0.41⟩ = some ⟨6, 0, 15⟩ ∧ InSquare m0 6 0 (-0.33) 2.08 ∧
    grid2Metric m0 ⟨6, 0, 15⟩ = ⟨-0.35, 2.05, 6⟩ := by
  refine ⟨by decide +kernel, ?_, by decide +kernel⟩
  unfold InSquare m0; norm_num

end Verif.GridMetric
