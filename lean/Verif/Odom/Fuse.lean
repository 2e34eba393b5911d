import Verif.Odom.Props
/-! # C144: what the state estimate filter makes of repeated measurements -/
namespace Verif.Odom
open Verif.Num Verif.Num.Ext Spec

variable {K : Type} [Field K] [LinearOrder K] [IsStrictOrderedRing K]

namespace Spec

/-- The filter as constructed (nothing known), after the measurements (value, standard deviation), oldest first. -/
def fused (ms : List (K × K)) : KF K := ms.foldl (fun f m => f.measure (.fin m.1) (.fin m.2)) ⟨.fin 0, .pinf⟩

/-- The information in the measurements: the inverse variance of their best linear combination. -/
def info (ms : List (K × K)) : K := (ms.map fun m => 1 / m.2 ^ 2).sum

end Spec

theorem fused_snoc (ms : List (K × K)) (m : K × K) : fused (ms ++ [m]) = (fused ms).measure (.fin m.1) (.fin m.2) := by
  simp [fused]

theorem info_snoc (ms : List (K × K)) (m : K × K) : info (ms ++ [m]) = info ms + 1 / m.2 ^ 2 := by
  simp [info]

/-- **C144**: after at least one measurement the estimate is finite, and the filter is at least as sure as the best combination of the measurements could be; after two or more it is surer than
any combination of them can justify. -/
theorem too_sure (ms : List (K × K)) (hp : ∀ m ∈ ms, 0 < m.2) (hne : ms ≠ []) :
    ∃ x s : K, fused ms = ⟨.fin x, .fin s⟩ ∧ 0 < s ∧ info ms * s ^ 2 ≤ 1 ∧ (2 ≤ ms.length → info ms * s ^ 2 < 1) := by
  induction ms using List.reverseRecOn with
  | nil => exact absurd rfl hne
  | append_singleton ms m ih =>
    have hm : 0 < m.2 := hp m (by simp)
    rw [fused_snoc, info_snoc]
    by_cases h0 : ms = []
    · subst h0
      refine ⟨m.1, m.2, inf_takes _ _ _, hm, ?_, by simp⟩
      have : info ([] : List (K × K)) + 1 / m.2 ^ 2 = 1 / m.2 ^ 2 := by simp [info]
      rw [this, one_div, inv_mul_cancel₀ (by positivity)]
    · obtain ⟨x, s, hf, hs, hi, -⟩ := ih (fun y hy => hp y (by simp [hy])) h0
      have hd : 0 < s * s + m.2 * m.2 := by positivity
      have key : (info ms + 1 / m.2 ^ 2) * (m.2 * m.2 * s / (s * s + m.2 * m.2)) ^ 2 < 1 := by
        rw [div_pow, ← mul_div_assoc, div_lt_one (by positivity)]
        have e : (info ms + 1 / m.2 ^ 2) * (m.2 * m.2 * s) ^ 2 = (info ms * s ^ 2) * m.2 ^ 4 + m.2 ^ 2 * s ^ 2 := by
          field_simp
        rw [e]
        have h4 : 0 < m.2 ^ 4 := by positivity
        have h5 : 0 < s ^ 4 := by positivity
        have h6 : 0 < m.2 ^ 2 * s ^ 2 := by positivity
        have h7 : (info ms * s ^ 2) * m.2 ^ 4 ≤ m.2 ^ 4 := by nlinarith
        nlinarith
      rw [hf]
      exact ⟨_, _, measure_fin hd.ne', by positivity, key.le, fun _ => key⟩

/-- **C144**: a further measurement moves the estimate towards its value, by at most its share of the information; if there were two or more before it, by less than its share. -/
theorem late_counts_less (ms : List (K × K)) (hp : ∀ m ∈ ms, 0 < m.2) (hne : ms ≠ []) (z m : K) (hm : 0 < m) :
    ∃ x w : K, (fused ms).x = .fin x ∧ (fused (ms ++ [(z, m)])).x = .fin (x + w * (z - x)) ∧ 0 < w ∧
      w ≤ (1 / m ^ 2) / info (ms ++ [(z, m)]) ∧ (2 ≤ ms.length → w < (1 / m ^ 2) / info (ms ++ [(z, m)])) := by
  obtain ⟨x, s, hf, hs, hi, hi2⟩ := too_sure ms hp hne
  have hd : 0 < s * s + m * m := by positivity
  have hI : 0 ≤ info ms := by
    refine List.sum_nonneg ?_
    intro y hy
    obtain ⟨a, -, rfl⟩ := List.mem_map.mp hy
    positivity
  have hI' : 0 < info ms + 1 / m ^ 2 := by positivity
  refine ⟨x, s * s / (s * s + m * m), by rw [hf], ?_, by positivity, ?_, fun h2 => ?_⟩
  · rw [fused_snoc, hf, measure_fin hd.ne']
    simp only [Ext.fin.injEq]
    have : s ^ 2 + m ^ 2 ≠ 0 := by rw [sq, sq]; exact hd.ne'
    field_simp
    ring
  · rw [info_snoc, div_le_div_iff₀ hd hI']
    have e : 1 / m ^ 2 * (s * s + m * m) = s ^ 2 * (1 / m ^ 2) + 1 := by field_simp
    rw [e]; nlinarith
  · have := hi2 h2
    rw [info_snoc, div_lt_div_iff₀ hd hI']
    have e : 1 / m ^ 2 * (s * s + m * m) = s ^ 2 * (1 / m ^ 2) + 1 := by field_simp
    rw [e]; nlinarith

/-- **C144**: two equally good measurements are averaged. -/
theorem two_averaged (a b m : K) (hm : 0 < m) : fused [(a, m), (b, m)] = ⟨.fin ((a + b) / 2), .fin (m / 2)⟩ := by
  have hd : m * m + m * m ≠ 0 := by positivity
  have : fused [(a, m), (b, m)] = (KF.mk (.fin a) (.fin m)).measure (.fin b) (.fin m) := by
    simp only [fused, List.foldl_cons, List.foldl_nil, inf_takes]
  rw [this, measure_fin hd]
  simp only [KF.mk.injEq, Ext.fin.injEq]
  constructor <;> field_simp <;> ring

/-- **C144**, finding: three equally good measurements are not averaged; the last counts half as much as each of the others. -/
theorem three_not_averaged (a b c m : K) (hm : 0 < m) : (fused [(a, m), (b, m), (c, m)]).x = .fin ((2 * a + 2 * b + c) / 5) := by
  have hd : m / 2 * (m / 2) + m * m ≠ 0 := by positivity
  have : fused [(a, m), (b, m), (c, m)] = (fused [(a, m), (b, m)]).measure (.fin c) (.fin m) := fused_snoc [(a, m), (b, m)] (c, m)
  rw [this, two_averaged a b m hm, measure_fin hd]
  simp only [Ext.fin.injEq]
  field_simp
  ring

/-- **C144**: nothing known and an infinite value measured: the estimate is zero. -/
theorem infinite_value (x : Ext K) (z : Ext K) (hz : z = .pinf ∨ z = .ninf) (m : K) : (KF.mk x .pinf).measure z (.fin m) = ⟨.fin 0, .fin m⟩ := by
  rcases hz with rfl | rfl <;> simp [KF.measure, isInf]

/-- The hypotheses can be met, and the order of the measurements matters. -/
example : (∀ m ∈ [((0 : ℚ), (1 : ℚ)), (0, 1), (5, 1)], 0 < m.2) ∧ (fused [((0 : ℚ), (1 : ℚ)), (0, 1), (5, 1)]).x = .fin 1 ∧
    (fused [((5 : ℚ), (1 : ℚ)), (0, 1), (0, 1)]).x = .fin 2 := by
  refine ⟨by simp, ?_, ?_⟩
  · rw [three_not_averaged _ _ _ _ one_pos]; norm_num
  · rw [three_not_averaged _ _ _ _ one_pos]; norm_num

end Verif.Odom
