import Verif.DistMap.Change
import Verif.DistMap.Props
/-! # C64, C112: updates of the distance map after changes -/
set_option linter.unusedSectionVars false
namespace Verif.DistMap
open Spec Grid
open Verif.Astar (CostType setF)

variable {V C : Type} [DecidableEq V] [CostType C]

/-- **C64**, **C112** (part).  After any history of changes that are seen through the rectangles of the updates, every finite value belongs to
a cell that is connected with the goal now, and is not below the cost of a route that exists now.  Missing: changes around which the
cells that are not below the rectangle fall into several regions (`update_stale`). -/
theorem update_sound_partial {cells : List V} {e : V} {E : Env V C} {m : DM V C} (h : Changes cells e E m) (v : V)
    (hv : m.g v ≠ CostType.top) : Connected E e v ∧ ∃ c, Route E e v c ∧ c ≤ m.g v := by
  have key : GoodC E e m ∧ Laws2 E e := by
    clear hv
    induction h with
    | create L hs he h => exact ⟨goodC_create L hs he h, L⟩
    | update _ L hs he hc h ih => exact ⟨goodC_update ih.2.toLaws L hs he ih.1 hc h, L⟩
  obtain ⟨c, h1, h2⟩ := chain_route key.2 ((key.1.vals v).resolve_left hv)
  exact ⟨connected_of_route h1, c, h1, h2⟩

/-! ### A corridor that gets blocked -/

/-- A corridor of four cells; `b` is the cost of the third one. -/
def corridor (b : Int) : Cfg where
  w := 4
  h := 1
  cm p := if p = (2, 0) then b else 0
  hist _ := 0
  eu d := ((|d.1| + |d.2| : Int) : Rat)
  gl _ := 1
  ec0 := 1
  res := 1
  wc := 1
  wr := 1
  over := 4
  tasks := 2

theorem corridor_good (b : Int) (hb : 0 ≤ b) : GoodCfg (corridor b) where
  ec0 := by simp only [corridor]; norm_num
  res := by simp only [corridor]; norm_num
  wc := by simp only [corridor]; norm_num
  wr := by simp only [corridor]; norm_num
  over := by simp only [corridor]; norm_num
  eu := by intro d hd; simp only [corridor]; revert d; decide +kernel
  gl := by intro d _; simp [corridor]
  cm := by intro p; simp only [corridor]; split <;> omega
  hist := by intro p; simp [corridor]
  ec0_lt := by simp only [corridor]; decide +kernel

/-- The cells of the corridor. -/
def four : List Pos := [(0, 0), (1, 0), (2, 0), (3, 0)]

theorem in_corridor (b : Int) (v : Pos) (h : inMap (corridor b) v = true) : v ∈ four := by
  have h := of_decide_eq_true h
  obtain ⟨x, y⟩ := v
  simp only [corridor] at h
  simp only [four, List.mem_cons, Prod.mk.injEq, List.not_mem_nil, or_false]
  omega

/-- The map is created for the goal at one end and the robot at the other; the third cell becomes lethal, and the update is told so.  The
change is seen through the rectangle, the robot's cell loses its value, and the third cell, which can still be entered, has one. -/
theorem corridor_blocked : ∃ m1 m2 : DM Pos Rat,
    Create (env (corridor 0)) (3, 0) (0, 0) initDM m1 ∧ m1.g (3, 0) = 5 / 2 ∧
    Confined (env (corridor 0)) (env (corridor 100)) m1 (3, 0) (0, 0) [(2, 0)] ∧
    Update (env (corridor 100)) four (3, 0) (0, 0) [(2, 0)] m1 m2 ∧
    m2.g (3, 0) = CostType.top ∧ m2.g (2, 0) = 3 / 2 ∧ Changes four (0, 0) (env (corridor 100)) m2 := by
  obtain ⟨m1, h1⟩ : ∃ m, createD (env (corridor 0)) 30 (3, 0) (0, 0) initDM = some m :=
    Option.isSome_iff_exists.mp (by decide +kernel)
  obtain ⟨m2, h2⟩ : ∃ m, (createD (env (corridor 0)) 30 (3, 0) (0, 0) initDM).bind
      (updateD (env (corridor 100)) four 30 (3, 0) (0, 0) [(2, 0)]) = some m :=
    Option.isSome_iff_exists.mp (by decide +kernel)
  have k1 : (createD (env (corridor 0)) 30 (3, 0) (0, 0) initDM).map (fun m => (m.g (0, 0), m.g (1, 0), m.g (2, 0), m.g (3, 0))) =
      some (0, 1 / 2, 3 / 2, 5 / 2) := by decide +kernel
  have k2 : ((createD (env (corridor 0)) 30 (3, 0) (0, 0) initDM).bind
      (updateD (env (corridor 100)) four 30 (3, 0) (0, 0) [(2, 0)])).map (fun m => (m.g (3, 0), m.g (2, 0))) =
      some (CostType.top, 3 / 2) := by decide +kernel
  rw [h2] at k2
  rw [h1] at h2 k1
  simp only [Option.bind_some] at h2
  simp only [Option.map_some, Option.some.injEq, Prod.mk.injEq] at k1 k2
  obtain ⟨v0, v1, v2, v3⟩ := k1
  have hc := createD_create _ _ _ _ _ h1
  have hu := updateD_update _ _ _ _ _ _ _ h2
  have L0 := grid_laws (corridor_good 0 (by decide)) (0, 0)
  have L1 := grid_laws (corridor_good 100 (by decide)) (0, 0)
  have hg := good_of_create L0 (by decide : 0 < (corridor 0).tasks) (by decide +kernel) (by decide +kernel) hc
  have hin : ∀ v, m1.g v < CostType.top → v ∈ four := fun v hv => in_corridor 0 v (hg.1.inMap v hv)
  have hlow : ∀ v, (v = (0, 0) ∨ Below m1 [(2, 0)] v) → v = (0, 0) ∨ v = (1, 0) := by
    rintro v (h | ⟨h3, h4⟩)
    · exact Or.inl h
    · have h5 := h4 (2, 0) (by simp)
      rw [v2] at h5
      have h6 := hin v h3
      simp only [four, List.mem_cons, List.not_mem_nil, or_false] at h6
      rcases h6 with rfl | rfl | rfl | rfl
      · exact Or.inl rfl
      · exact Or.inr rfl
      · rw [v2] at h5; exact absurd h5 (lt_irrefl _)
      · rw [v3] at h5; norm_num at h5
  have hconf : Confined (env (corridor 0)) (env (corridor 100)) m1 (3, 0) (0, 0) [(2, 0)] := by
    refine ⟨rfl, ?_, ?_⟩
    · rintro p x w hp hx ⟨eu, hd⟩
      refine ⟨eu, ?_⟩
      have key : ∀ p ∈ ([(0, 0), (1, 0)] : List Pos), ∀ d ∈ (env (corridor 0)).nexts p, (d.next = (0, 0) ∨ d.next = (1, 0)) →
          d ∈ (env (corridor 100)).nexts p := by decide +kernel
      exact key p (by simpa using hlow p hp) _ hd (hlow x hx)
    · intro v hv hb
      left
      intro r hr _
      simp only [List.mem_singleton] at hr
      subst hr
      have h6 := hin v hv
      have hb2 : ¬ Below m1 [(2, 0)] (3, 0) := by
        rintro ⟨_, h⟩
        have := h (2, 0) (by simp)
        rw [v2, v3] at this; norm_num at this
      simp only [four, List.mem_cons, List.not_mem_nil, or_false] at h6
      rcases h6 with rfl | rfl | rfl | rfl
      · exact absurd ⟨hv, fun r hr => by simp only [List.mem_singleton] at hr; subst hr; rw [v0, v2]; norm_num⟩ hb
      · exact absurd ⟨hv, fun r hr => by simp only [List.mem_singleton] at hr; subst hr; rw [v1, v2]; norm_num⟩ hb
      · exact .refl
      · exact .single ⟨by decide +kernel, hv, hb2⟩
  exact ⟨m1, m2, hc, v3, hconf, hu, k2.1, k2.2, .update (.create L0 (by decide +kernel) (by decide +kernel) hc) L1 (by decide +kernel)
    (by decide +kernel) hconf hu⟩

/-! ### An update overestimates -/

/-- A free map of 3×2 cells; the lengths of the steps are rounded to quarters. -/
def field : Cfg where
  w := 3
  h := 2
  cm _ := 0
  hist _ := 0
  eu d := if d.1 * d.1 + d.2 * d.2 ≤ 1 then 1 else if d.1 * d.1 + d.2 * d.2 ≤ 2 then 3 / 2 else
    if d.1 * d.1 + d.2 * d.2 ≤ 4 then 2 else if d.1 * d.1 + d.2 * d.2 ≤ 5 then 9 / 4 else 4
  gl _ := 1
  ec0 := 1
  res := 1
  wc := 1
  wr := 1
  over := 4
  tasks := 1

theorem field_good : GoodCfg field where
  ec0 := by decide +kernel
  res := by decide +kernel
  wc := by decide +kernel
  wr := by decide +kernel
  over := by decide +kernel
  eu := by decide +kernel
  gl := by intro d _; simp [field]
  cm := by intro p; simp [field]
  hist := by intro p; simp [field]
  ec0_lt := by decide +kernel

/-- **C112** fails: in a free map nothing changes at all; the cell (2, 1) is reported as (possibly) changed.  Its value, 7/4 after the
creation, which is the cost of the step from the goal, becomes 2: cells from which it is reached by a longer step are not looked at again.
So the estimate used by the search is above the true cost. -/
theorem update_overestimates : ∃ m1 m2 : DM Pos Rat,
    GoodCfg field ∧ Create (env field) (2, 1) (0, 0) initDM m1 ∧
    Update (env field) [(0, 0), (1, 0), (2, 0), (0, 1), (1, 1), (2, 1)] (2, 1) (0, 0) [(2, 1)] m1 m2 ∧
    Route (env field) (0, 0) (2, 1) (m1.g (2, 1)) ∧ m1.g (2, 1) = 7 / 4 ∧ m2.g (2, 1) = 2 := by
  obtain ⟨m1, h1⟩ : ∃ m, createD (env field) 30 (2, 1) (0, 0) initDM = some m :=
    Option.isSome_iff_exists.mp (by decide +kernel)
  obtain ⟨m2, h2⟩ : ∃ m, (createD (env field) 30 (2, 1) (0, 0) initDM).bind
      (updateD (env field) [(0, 0), (1, 0), (2, 0), (0, 1), (1, 1), (2, 1)] 30 (2, 1) (0, 0) [(2, 1)]) = some m :=
    Option.isSome_iff_exists.mp (by decide +kernel)
  have k1 : (createD (env field) 30 (2, 1) (0, 0) initDM).map (fun m => m.g (2, 1)) = some (7 / 4) := by decide +kernel
  have k2 : ((createD (env field) 30 (2, 1) (0, 0) initDM).bind
      (updateD (env field) [(0, 0), (1, 0), (2, 0), (0, 1), (1, 1), (2, 1)] 30 (2, 1) (0, 0) [(2, 1)])).map (fun m => m.g (2, 1)) =
      some 2 := by decide +kernel
  rw [h2] at k2
  rw [h1] at h2 k1
  simp only [Option.bind_some] at h2
  simp only [Option.map_some, Option.some.injEq] at k1 k2
  have s1 : Step (env field) (0, 0) (2, 1) (9 / 4) := ⟨9 / 4, by decide +kernel⟩
  have hr := Route.step (Route.goal (E := env field) (goal := (0, 0))) s1
  have hb : (env field).base + 9 / 4 = (7 / 4 : Rat) := by decide +kernel
  rw [hb] at hr
  exact ⟨m1, m2, field_good, createD_create _ _ _ _ _ h1, updateD_update _ _ _ _ _ _ _ h2, by rw [k1]; exact hr, k1, k2⟩

end Verif.DistMap
