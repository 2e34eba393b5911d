import Verif.Model3D.Plan
import Verif.Astar.Exact
/-! # Searches with real costs end

C08 with exact costs, for every search of the planner: whatever the schedule of the threads, the search stops, and if the
progress callback does not stop it, it has a result. -/
set_option linter.unusedVariables false
namespace Verif.Model3D
open Verif.GridMetric (Cell)
open Verif.Astar
open Verif.Astar.Vec (VProb Search Why toProb)
open Verif.Astar.Vec.Spec (WellFormed Step)

/-- **C08** (exact costs).  A search over a well-formed problem with real costs does not run for ever, for any batch size, queue
limit and schedule. -/
theorem search_ends {P : VProb (WithTop ℝ)} (wf : WellFormed P) (hs : ∀ x ∈ P.starts, (0 : WithTop ℝ) ≤ x.2)
    (run : Nat → St (List Int) (WithTop ℝ)) (h : Reach (toProb P) (run 0)) : ¬ ∀ n, Round (toProb P) (run n) (run (n + 1)) :=
  ends_exact wf hs run h

/-- Every search that is not stopped by its progress callback has a result. -/
theorem search_answers {P : VProb (WithTop ℝ)} (wf : WellFormed P) (hs : ∀ x ∈ P.starts, (0 : WithTop ℝ) ≤ x.2) (rb : Bool) :
    ∃ why r, why ≠ .aborted ∧ Search P rb why r :=
  has_result (fun run h => search_ends wf hs run h) rb

/-- **C08** (the 3-DOF planner).  Every search of the 3-DOF planner ends, and one that is not stopped by its progress callback has a
result: for every map, weights, estimate, leave test, batch size and queue limit. -/
theorem plan_ends (g : Geo) (hmap : 0 < g.width ∧ 0 < g.height ∧ 0 < g.angle) (c : Wt) (u : Bool) (cm hy : Cell → Option Int)
    (lr : Int) (ss : List Cell) (junk : WithTop ℝ) (estim startEstim : List Int → WithTop ℝ)
    (starts : List (List Int × WithTop ℝ)) (goal : List Int) (leave : WithTop ℝ → WithTop ℝ → Bool) (tasks limit : Nat)
    (hg : goal.length = 3) (hst : ∀ s ∈ starts, 0 ≤ s.2 ∧ s.1.length = 3) :
    let P := planProb g c u cm hy lr ss junk estim startEstim starts goal leave tasks limit
    (∀ run : Nat → St (List Int) (WithTop ℝ), Reach (toProb P) (run 0) → ¬ ∀ n, Round (toProb P) (run n) (run (n + 1))) ∧
    ∀ rb, ∃ why r, why ≠ .aborted ∧ Search P rb why r := by
  intro P
  have wf : WellFormed P := by
    refine ⟨?_, by simp [P, planProb], by simpa [P, planProb] using hg, ?_, ?_⟩
    · intro s hs'
      simp only [P, planProb, List.mem_cons, List.not_mem_nil, or_false] at hs'
      rcases hs' with rfl | rfl | rfl
      · exact hmap.1
      · exact hmap.2.1
      · exact hmap.2.2
    · intro s hs'
      exact (hst s hs').2
    · intro p d hd
      simp only [P, planProb, List.mem_map] at hd
      obtain ⟨x, -, rfl⟩ := hd
      rfl
  exact ⟨fun run h => search_ends wf (fun x hx => (hst x hx).1) run h,
    fun rb => search_answers wf (fun x hx => (hst x hx).1) rb⟩

/-- The hypotheses are met by a map of three by three cells with four headings, and a search from one corner to another. -/
example (c : Wt) (cm : Cell → Option Int) (estim : List Int → WithTop ℝ) :=
  plan_ends ⟨3, 3, 4, 1, Real.pi / 2, 1, 1 / 10, 1⟩ ⟨by norm_num, by norm_num, by norm_num⟩ c true cm cm 0 [] 0 estim estim
    [([0, 0, 0], 0)] [2, 2, 0] (fun p r => decide (p < r)) 1 0 rfl (by simp)

end Verif.Model3D
