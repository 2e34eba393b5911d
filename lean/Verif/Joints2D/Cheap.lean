import Verif.Joints2D.PropsMap
import Verif.Astar.Exact
import Verif.Astar.Props
/-! # The search for the two joints: it ends, and when its result is cheapest (C115) -/
set_option linter.unusedVariables false
set_option linter.unusedSectionVars false
namespace Verif.Joints2D
open Verif.Model3D (cycU cycS upTo)
open Verif.Astar (Round Reach)
open Verif.Astar.Vec (VProb Search toProb Why)
variable {K : Type} [Field K] [LinearOrder K] [IsStrictOrderedRing K] [FloorRing K]

theorem starts_nonneg (p : Par K) (m : Int × Int → Int) (s e : Int × Int) (t l : Nat) :
    ∀ x ∈ (problem p m s e t l).starts, (0 : WithTop K) ≤ x.2 := by
  intro x hx
  simp only [problem, List.mem_cons, List.not_mem_nil, or_false] at hx
  rw [hx]

theorem exact_add : Verif.Astar.ExactAdd (WithTop K) where
  assoc a b c := add_assoc a b c
  mono_right a b w h := add_le_add_right h w
  mono_left a b w h := add_le_add_left h w
  strict_left a b w hw h := by
    have hw : w ≠ ⊤ := hw
    exact WithTop.add_lt_add_right hw h

/-- **C115.** The search never runs for ever, for any number of tasks, queue limit and schedule, and always has an answer. -/
theorem search_ends (p : Par K) (hp : Sane p) (m : Int × Int → Int) (s e : Int × Int) (t l : Nat) :
    (∀ run : Nat → Verif.Astar.St (List Int) (WithTop K), Reach (toProb (problem p m s e t l)) (run 0) →
      ¬ ∀ n, Round (toProb (problem p m s e t l)) (run n) (run (n + 1))) ∧
    ∀ rb, ∃ why r, why ≠ .aborted ∧ Search (problem p m s e t l) rb why r := by
  have hend : ∀ run : Nat → Verif.Astar.St (List Int) (WithTop K), Reach (toProb (problem p m s e t l)) (run 0) →
      ¬ ∀ n, Round (toProb (problem p m s e t l)) (run n) (run (n + 1)) := fun run h =>
    Verif.Astar.ends_exact (problem_wf p hp m s e t l) (starts_nonneg p m s e t l) run h
  exact ⟨hend, fun rb => Verif.Astar.has_result hend rb⟩

theorem norm_cell (p : Par K) (hp : Sane p) (m : Int × Int → Int) (s e : Int × Int) (t l : Nat) (a : Int × Int) (ha : inMap p a = true) :
    Verif.Astar.Vec.norm (problem p m s e t l) (toVec a) = toVec a :=
  ((Verif.Astar.Vec.norm_iff (problem_wf p hp m s e t l) (v := toVec a) rfl).1
    ((normal_iff p m s e t l a a).2 ⟨ha, ⟨0, by ring⟩, ⟨0, by ring⟩⟩)).symm

theorem prob_starts (p : Par K) (hp : Sane p) (m : Int × Int → Int) (s e : Int × Int) (t l : Nat) (hs : inMap p s = true) :
    (toProb (problem p m s e t l)).starts = [(toVec s, 0)] := by
  have : (toProb (problem p m s e t l)).starts = [(Verif.Astar.Vec.norm (problem p m s e t l) (toVec s), 0)] := rfl
  rw [this, norm_cell p hp m s e t l s hs]

theorem move_legal (p : Par K) (hp : Sane p) (m : Int × Int → Int) (hm : ∀ c, 0 ≤ m c) (s e : Int × Int) (t l : Nat) (a : Int × Int)
    (ha : inMap p a = true) (x : List Int) :
    Verif.Astar.Spec.Move (toProb (problem p m s e t l)) (toVec a) x ↔ ∃ b, x = toVec b ∧ inMap p b = true ∧ Legal p m a b := by
  rw [Verif.Astar.Vec.move_iff (problem_wf p hp m s e t l) (p := toVec a) rfl]
  constructor
  · intro h
    obtain ⟨h1, h2⟩ := inMap_vec p x h.2.1
    rw [h1] at h
    exact ⟨ofVec x, h1, h2, (step_iff p hp m hm s e t l a _ ha).1 h⟩
  · rintro ⟨b, rfl, -, h⟩
    exact (step_iff p hp m hm s e t l a b ha).2 h

theorem route_cell (p : Par K) (hp : Sane p) (m : Int × Int → Int) (hm : ∀ c, 0 ≤ m c) (s e : Int × Int) (t l : Nat) (hs : inMap p s = true)
    {v : List Int} {c : WithTop K} (h : Verif.Astar.Spec.Route (toProb (problem p m s e t l)) v c) :
    0 ≤ c ∧ ∃ a, inMap p a = true ∧ v = toVec a := by
  induction h with
  | start h =>
    rw [prob_starts p hp m s e t l hs, List.mem_singleton, Prod.mk.injEq] at h
    rw [h.1, h.2]
    exact ⟨le_refl _, s, hs, rfl⟩
  | move _ hmv ih =>
    obtain ⟨h0, a, ha, rfl⟩ := ih
    refine ⟨le_trans h0 (Verif.Astar.CostType.le_add _ _ hmv.2.2.1), ?_⟩
    obtain ⟨b, rfl, hb, -⟩ := (move_legal p hp m hm s e t l a ha _).1 hmv
    exact ⟨b, hb, rfl⟩

/-- The estimate is consistent along moves inside the angle range. -/
theorem inner_consistent (p : Par K) (hp : Sane p) (m : Int × Int → Int) (hm : ∀ c, 0 ≤ m c) (a b g : Int × Int) (hb : Legal p m a b)
    (h1 : |b.1 - a.1| ≤ p.range) (h2 : |b.2 - a.2| ≤ p.range) : estim p a g ≤ cost p m a b + estim p b g := by
  obtain ⟨hin, d, r1, r2, hdis, hcl⟩ := hb
  have hd := turn_displaced p hp a a d b ⟨⟨0, by ring⟩, ⟨0, by ring⟩⟩ ⟨r1, r2⟩ hdis
  have ht : turn p a b = (b.1 - a.1, b.2 - a.2) := by
    have := hp.range
    have := hp.res
    rw [abs_le] at h1 h2
    unfold turn
    rw [cycS_small _ (b.1 - a.1) 0 p.res hp.res (by ring) (by omega) (by omega),
      cycS_small _ (b.2 - a.2) 0 p.res hp.res (by ring) (by omega) (by omega)]
  have hce := cost_ge p hp m hm a b hin (by rw [hd]; exact hcl)
  rw [ht] at hce
  refine le_trans ?_ (add_le_add_left hce _)
  unfold estim euclid
  dsimp only
  have t1 := abs_add_le (p.coef.1 * ((b.1 - a.1 : Int) : K)) (p.coef.1 * ((g.1 - b.1 : Int) : K))
  have t2 := abs_add_le (p.coef.2 * ((b.2 - a.2 : Int) : K)) (p.coef.2 * ((g.2 - b.2 : Int) : K))
  rw [← mul_add, ← Int.cast_add, show b.1 - a.1 + (g.1 - b.1) = g.1 - a.1 by ring] at t1
  rw [← mul_add, ← Int.cast_add, show b.2 - a.2 + (g.2 - b.2) = g.2 - a.2 by ring] at t2
  linarith

theorem opt_hyp (p : Par K) (hp : Sane p) (m : Int × Int → Int) (hm : ∀ c, 0 ≤ m c) (hn : NoSeam p m) (s e : Int × Int)
    (hs : inMap p s = true) : Verif.Astar.OptHyp (toProb (problem p m s e 1 0)) where
  tasks := rfl
  limit := rfl
  leave v raw := by
    have h0 : (0 : WithTop K) ≤ ((estim p (ofVec v) e : K) : WithTop K) := WithTop.coe_le_coe.mpr (estim_nonneg p _ _)
    exact decide_eq_false (not_lt.2 (le_add_of_nonneg_right h0))
  leaveStart v raw _ := by
    have h0 : (0 : WithTop K) ≤ (((⌊estim p (ofVec v) e⌋ : Int) : K) : WithTop K) :=
      WithTop.coe_le_coe.mpr (Int.cast_nonneg (Int.floor_nonneg.2 (estim_nonneg p _ _)))
    exact decide_eq_false (not_lt.2 (le_add_of_nonneg_left h0))
  consistent v c x hp' hmv := by
    obtain ⟨-, a, ha, rfl⟩ := route_cell p hp m hm s e 1 0 hs hp'
    obtain ⟨b, rfl, hb, hleg⟩ := (move_legal p hp m hm s e 1 0 a ha _).1 hmv
    obtain ⟨h1, h2⟩ := hn a b ha hleg
    exact WithTop.coe_le_coe.2 (inner_consistent p hp m hm a b e hleg h1 h2)
  startEstim v c h := by
    rw [prob_starts p hp m s e 1 0 hs, List.mem_singleton, Prod.mk.injEq] at h
    rw [h.2]
    change (((⌊estim p (ofVec v) e⌋ : Int) : K) : WithTop K) + 0 ≤ 0 + ((estim p (ofVec v) e : K) : WithTop K)
    rw [add_zero, zero_add]
    exact WithTop.coe_le_coe.2 (Int.floor_le _)
  startBest v c c' h hr' := by
    rw [prob_starts p hp m s e 1 0 hs, List.mem_singleton, Prod.mk.injEq] at h
    rw [h.2]
    exact (route_cell p hp m hm s e 1 0 hs hr').1
  starts0 x h := by
    rw [prob_starts p hp m s e 1 0 hs, List.mem_singleton] at h
    rw [h]
    exact ⟨le_refl _, le_top⟩
  top0 := le_top

theorem moves_chain (p : Par K) (m : Int × Int → Int) (s e : Int × Int) (t l : Nat) : ∀ (cs : List (Int × Int)) (r : K),
    Verif.Astar.Spec.movesCost (toProb (problem p m s e t l)) (cs.map toVec) (r : WithTop K) =
      ((r + chainCost (cost p m) cs : K) : WithTop K) := by
  intro cs
  induction cs with
  | nil => intro r; simp [Verif.Astar.Spec.movesCost, chainCost]
  | cons a rest ih =>
    intro r
    cases rest with
    | nil => simp [Verif.Astar.Spec.movesCost, chainCost]
    | cons b rest =>
      simp only [List.map_cons, Verif.Astar.Spec.movesCost] at ih ⊢
      have := ih (r + cost p m a b)
      rw [chainCost, ← add_assoc]
      exact this

theorem route_chain (p : Par K) (hp : Sane p) (m : Int × Int → Int) (hm : ∀ c, 0 ≤ m c) (s e : Int × Int) (t l : Nat)
    (hs : inMap p s = true) : ∀ (cs : List (Int × Int)) (a : Int × Int) (r : K), inMap p a = true →
    Verif.Astar.Spec.Route (toProb (problem p m s e t l)) (toVec a) (r : WithTop K) → GoodSearch p m a e cs →
    Verif.Astar.Spec.Route (toProb (problem p m s e t l)) (toVec e) ((r + chainCost (cost p m) cs : K) : WithTop K) := by
  intro cs
  induction cs with
  | nil => rintro a r _ _ ⟨h, -⟩; cases h
  | cons a rest ih =>
    rintro a' r ha hroute ⟨h1, h2, h3⟩
    cases h1
    cases rest with
    | nil =>
      cases h2
      simpa [chainCost] using hroute
    | cons b rest =>
      rw [List.isChain_cons_cons] at h3
      have hmv := (move_legal p hp m hm s e t l a ha (toVec b)).2 ⟨b, rfl, h3.1.1, h3.1⟩
      have hroute' := Verif.Astar.Spec.Route.move hroute hmv
      have := ih b (r + cost p m a b) h3.1.1 hroute' ⟨rfl, by rwa [List.getLast?_cons_cons] at h2, h3.2⟩
      rw [chainCost, ← add_assoc]
      exact this

/-- **C115 (partial).** With one task per round and no queue limit, and if no legal move goes through the end of the angle range, the chain found
costs at most as much as every legal chain to the goal.  Missing: chains through the end of the range, for which it is false (`seam_detour`). -/
theorem cheapest_partial (p : Par K) (hp : Sane p) (m : Int × Int → Int) (hm : ∀ c, 0 ≤ m c) (hn : NoSeam p m) (s e : Int × Int)
    (hs : inMap p s = true) (he : inMap p e = true) {rb : Bool} {why : Why} {path : List (List Int)}
    (h : Search (problem p m s e 1 0) rb why (true, path)) (cs : List (Int × Int)) (hc : GoodSearch p m s e cs) :
    chainCost (cost p m) (path.map ofVec) ≤ chainCost (cost p m) cs := by
  have hgoal : (toProb (problem p m s e 1 0)).goal = toVec e := norm_cell p hp m s e 1 0 e he
  have hroute := route_chain p hp m hm s e 1 0 hs cs s 0 hs (.start (by rw [prob_starts p hp m s e 1 0 hs]; exact List.mem_singleton.2 rfl)) hc
  generalize hres : (true, path) = r at h
  cases h with
  | noStart => cases hres
  | same => cases hres
  | @run st f h1 h2 hf =>
    cases f with
    | exhausted => simp only [Verif.Astar.result] at hres; split at hres <;> cases hres
    | aborted => simp only [Verif.Astar.result] at hres; split at hres <;> cases hres
    | found x =>
      obtain ⟨-, l, c0, hl1, ⟨hl2, hl3⟩, hl4⟩ := Verif.Astar.path_optimal (rb := rb) exact_add (opt_hyp p hp m hm hn s e hs) hf
      rw [← hres] at hl1
      cases hl1
      have hpath : (path.map ofVec).map toVec = path := by
        rw [List.map_map]
        conv_rhs => rw [← List.map_id path]
        refine List.map_congr_left fun v hv => ?_
        have : ∃ a, inMap p a = true ∧ v = toVec a := by
          have key : ∀ (l : List (List Int)) (hne : l ≠ []), l.IsChain (Verif.Astar.Spec.Move (toProb (problem p m s e 1 0))) →
              (∃ a, inMap p a = true ∧ l.head hne = toVec a) → ∀ v ∈ l, ∃ a, inMap p a = true ∧ v = toVec a := by
            intro l
            induction l with
            | nil => intro hne; exact absurd rfl hne
            | cons x l ih =>
              rintro hne hch ⟨a, ha, hxa⟩ v hv
              simp only [List.head_cons] at hxa
              subst hxa
              rcases List.mem_cons.1 hv with rfl | hv
              · exact ⟨a, ha, rfl⟩
              · cases l with
                | nil => cases hv
                | cons y l =>
                  rw [List.isChain_cons_cons] at hch
                  obtain ⟨b, rfl, hb, -⟩ := (move_legal p hp m hm s e 1 0 a ha y).1 hch.1
                  exact ih (by simp) hch.2 ⟨b, hb, rfl⟩ v hv
          refine key path hl2.ne hl2.moves ⟨s, hs, ?_⟩ v hv
          rw [prob_starts p hp m s e 1 0 hs, List.mem_singleton, Prod.mk.injEq] at hl3
          exact hl3.1
        obtain ⟨a, -, rfl⟩ := this
        rfl
      rw [prob_starts p hp m s e 1 0 hs, List.mem_singleton, Prod.mk.injEq] at hl3
      rw [hgoal] at hl4
      have := hl4 _ hroute
      rw [hl3.2, ← hpath] at this
      have hmc := moves_chain p m s e 1 0 (path.map ofVec) 0
      rw [WithTop.coe_zero] at hmc
      rw [hmc] at this
      have := WithTop.coe_le_coe.1 this
      linarith

/-! ### A case in which no move goes through the end of the range -/

/-- Collisions around the end of the range, for either joint, and a post in the middle of the free part. -/
def walls : Int × Int → Int := fun c =>
  if c.1 % 8 = 0 ∨ c.1 % 8 = 7 ∨ c.2 % 8 = 0 ∨ c.2 % 8 = 7 ∨ c = (3, 3) then 100 else 0

/-- Moves by one cell. -/
def par1 : Par ℚ := { par0 with range := 1 }

theorem par1_sane : Sane par1 := by constructor <;> norm_num [par1, par0]

theorem walls_nonneg (c : Int × Int) : 0 ≤ walls c := by unfold walls; split <;> omega

/-- Where a move starts is looked at, unless it is no move. -/
theorem clear_here (p : Par K) (m : Int × Int → Int) (a d : Int × Int) (h : Clear p m a d) (hd : d ≠ (0, 0)) :
    m (cycU a.1 p.res, cycU a.2 p.res) ≤ 99 := by
  have hpos : 0 < samples d := by
    unfold samples
    rw [Nat.sqrt_pos]
    have h1 := mul_self_nonneg d.1
    have h2 := mul_self_nonneg d.2
    by_contra hn
    have h3 : d.1 * d.1 + d.2 * d.2 ≤ 0 := by omega
    have h4 : d.1 * d.1 = 0 := by omega
    have h5 : d.2 * d.2 = 0 := by omega
    exact hd (Prod.ext (mul_self_eq_zero.1 h4) (mul_self_eq_zero.1 h5))
  have := h 0 hpos
  simpa [GridMetric.lround_int] using this

theorem walls_inner : NoSeam par1 walls := by
  rintro a b ha ⟨hb, d, h1, h2, ⟨⟨k, hk⟩, ⟨j, hj⟩⟩, hcl⟩
  obtain ⟨⟨a1, a2⟩, a3, a4⟩ := (inMap_iff _ _).1 ha
  obtain ⟨⟨b1, b2⟩, b3, b4⟩ := (inMap_iff _ _).1 hb
  change a.1 < 16 at a2
  change a.2 < 16 at a4
  change b.1 < 16 at b2
  change b.2 < 16 at b4
  change b.1 = a.1 + d.1 + k * 16 at hk
  change b.2 = a.2 + d.2 + j * 16 at hj
  change |d.1| ≤ 1 at h1
  change |d.2| ≤ 1 at h2
  change |b.1 - a.1| ≤ 1 ∧ |b.2 - a.2| ≤ 1
  rw [abs_le] at h1 h2
  rw [abs_le, abs_le]
  by_cases hd : d = (0, 0)
  · subst hd
    dsimp only at *
    omega
  · have h := clear_here par1 walls a d hcl hd
    obtain ⟨⟨x, hx⟩, hx0, hx1⟩ := Model3D.cycU_spec a.1 8 (by norm_num)
    obtain ⟨⟨y, hy⟩, hy0, hy1⟩ := Model3D.cycU_spec a.2 8 (by norm_num)
    change walls (cycU a.1 8, cycU a.2 8) ≤ 99 at h
    unfold walls at h
    split at h
    · omega
    · rename_i hw
      simp only [not_or] at hw
      omega

/-- The hypotheses of `cheapest_partial` are met: around the post. -/
example : ∃ path, Search (problem par1 walls (2, 3) (4, 3) 1 0) false .found (true, path) ∧
    GoodSearch par1 walls (2, 3) (4, 3) [(2, 3), (3, 4), (4, 3)] ∧ chainCost (cost par1 walls) (path.map ofVec) ≤ 4 := by
  have hg : GoodSearch par1 walls (2, 3) (4, 3) [(2, 3), (3, 4), (4, 3)] := by
    have h : ∀ (a b d : Int × Int), |d.1| ≤ 1 → |d.2| ≤ 1 → b = (a.1 + d.1, a.2 + d.2) → inMap par1 b = true →
        (∀ i ∈ List.range (samples d), walls (Model3D.cycU (CSpace.lround ((a.1 : ℚ) + (i : ℚ) * ((d.1 : ℚ) / (samples d : ℚ)))) 8,
          Model3D.cycU (CSpace.lround ((a.2 : ℚ) + (i : ℚ) * ((d.2 : ℚ) / (samples d : ℚ)))) 8) ≤ 99) → Legal par1 walls a b := by
      intro a b d h1 h2 hb hi hcl
      subst hb
      exact ⟨hi, d, h1, h2, ⟨⟨0, by ring⟩, ⟨0, by ring⟩⟩, fun i hi => hcl i (List.mem_range.2 hi)⟩
    exact ⟨rfl, rfl, .cons_cons (h (2, 3) (3, 4) (1, 1) (by norm_num) (by norm_num) rfl rfl (by decide +kernel))
      (.cons_cons (h (3, 4) (4, 3) (1, -1) (by norm_num) (by norm_num) rfl rfl (by decide +kernel)) (.singleton _))⟩
  obtain ⟨-, hans⟩ := search_ends par1 par1_sane walls (2, 3) (4, 3) 1 0
  obtain ⟨why, ⟨b, path⟩, hw, hs⟩ := hans false
  have hwhy : why = .found := by
    generalize hr : ((b, path) : Bool × List (List Int)) = r at hs
    cases hs with
    | noStart h => cases h
    | same h =>
      obtain ⟨x, hx, he⟩ := h
      rw [show (problem par1 walls (2, 3) (4, 3) 1 0).starts = [([2, 3], 0)] from rfl, List.mem_singleton] at hx
      rw [hx] at he
      exact absurd he (by decide)
    | @run st f h1 h2 hf =>
      cases f with
      | found => rfl
      | aborted => exact absurd rfl hw
      | exhausted =>
        exact absurd ⟨_, hg⟩ (search_exhausted par1 par1_sane walls walls_nonneg _ _ rfl rfl 1 (by norm_num) (Search.run (returnBest := false) h1 h2 hf))
  subst hwhy
  have hb := Verif.Astar.found_returns_true (starts_nonneg par1 walls (2, 3) (4, 3) 1 0) hs
  simp only at hb
  subst hb
  refine ⟨path, hs, hg, ?_⟩
  refine le_trans (cheapest_partial par1 par1_sane walls walls_nonneg walls_inner _ _ rfl rfl hs _ hg) ?_
  decide +kernel

/-! ### The seam -/

/-- The default weights of the joints, four cells per turn, moves by one cell. -/
def par2 : Par ℚ := { par0 with res := 4, range := 1, coef := (1, 3 / 2), weight := 4 }

/-- Collision at (0, 0), up to full turns. -/
def pin : Int × Int → Int := fun c => if c.1 % 4 = 0 ∧ c.2 % 4 = 0 then 100 else 0

/-- A run of the search. -/
def seamRun (n : Nat) := Verif.Astar.exec (toProb (problem par2 pin (4, 1) (4, 7) 1 0)) n
  (Verif.Astar.init (toProb (problem par2 pin (4, 1) (4, 7) 1 0)) [4, 1])

/-- The predecessors it records. -/
def seamPar : List (List Int × List Int) :=
  [([6, 0], [5, 7]), ([6, 7], [5, 6]), ([5, 7], [5, 6]), ([4, 7], [5, 6]), ([6, 6], [5, 5]), ([5, 6], [5, 5]),
    ([4, 6], [5, 5]), ([6, 5], [5, 4]), ([6, 4], [5, 4]), ([6, 3], [5, 4]), ([5, 5], [5, 4]), ([4, 5], [5, 4]),
    ([5, 4], [4, 3]), ([4, 4], [4, 3]), ([3, 4], [4, 3]), ([5, 3], [4, 2]), ([4, 3], [4, 2]), ([3, 3], [4, 2]),
    ([5, 2], [4, 1]), ([5, 1], [4, 1]), ([5, 0], [4, 1]), ([4, 2], [4, 1]), ([4, 0], [4, 1]), ([3, 2], [4, 1]),
    ([3, 1], [4, 1]), ([3, 0], [4, 1])]

/-- **C115 (finding).** The estimate does not know that the angle range is a circle, so the path found need not be a cheapest one: here it goes
the long way round and costs 11, although the chain through the end of the range costs 5.  (The direct move is refused.) -/
theorem seam_detour :
    ∃ path, Search (problem par2 pin (4, 1) (4, 7) 1 0) false .found (true, path) ∧ chainCost (cost par2 pin) (path.map ofVec) = 11 ∧
      GoodSearch par2 pin (4, 1) (4, 7) [(4, 1), (5, 0), (4, 7)] ∧ chainCost (cost par2 pin) [(4, 1), (5, 0), (4, 7)] = 5 ∧
      cost par2 pin (4, 1) (4, 7) < 0 := by
  have hg : GoodSearch par2 pin (4, 1) (4, 7) [(4, 1), (5, 0), (4, 7)] := by
    have h : ∀ (a b d : Int × Int) (k l : Int), |d.1| ≤ 1 → |d.2| ≤ 1 → b.1 = a.1 + d.1 + k * 8 → b.2 = a.2 + d.2 + l * 8 →
        inMap par2 b = true →
        (∀ i ∈ List.range (samples d), pin (Model3D.cycU (CSpace.lround ((a.1 : ℚ) + (i : ℚ) * ((d.1 : ℚ) / (samples d : ℚ)))) 4,
          Model3D.cycU (CSpace.lround ((a.2 : ℚ) + (i : ℚ) * ((d.2 : ℚ) / (samples d : ℚ)))) 4) ≤ 99) → Legal par2 pin a b := by
      intro a b d k l h1 h2 hb1 hb2 hi hcl
      exact ⟨hi, d, h1, h2, ⟨⟨k, hb1⟩, ⟨l, hb2⟩⟩, fun i hi => hcl i (List.mem_range.2 hi)⟩
    exact ⟨rfl, rfl, .cons_cons (h (4, 1) (5, 0) (1, -1) 0 0 (by norm_num) (by norm_num) rfl rfl rfl (by decide +kernel))
      (.cons_cons (h (5, 0) (4, 7) (-1, -1) 0 1 (by norm_num) (by norm_num) rfl rfl rfl (by decide +kernel)) (.singleton _))⟩
  have hrun : (seamRun 12).map (fun r => (r.1.par, match r.2 with | .found e => some e | _ => none)) = some (seamPar, some [4, 7]) := by
    decide +kernel
  unfold seamRun at hrun
  cases he : Verif.Astar.exec (toProb (problem par2 pin (4, 1) (4, 7) 1 0)) 12
      (Verif.Astar.init (toProb (problem par2 pin (4, 1) (4, 7) 1 0)) [4, 1]) with
  | none => rw [he] at hrun; cases hrun
  | some r =>
    obtain ⟨st, f⟩ := r
    rw [he] at hrun
    simp only [Option.map_some, Option.some.injEq, Prod.mk.injEq] at hrun
    obtain ⟨hpar, hfe⟩ := hrun
    obtain rfl : f = .found [4, 7] := by
      cases f with
      | found e => simp only [Option.some.injEq] at hfe; rw [hfe]
      | exhausted => cases hfe
      | aborted => cases hfe
    have hf := Verif.Astar.exec_final _ _ _ (.init _ (List.mem_map.mpr ⟨([4, 1], 0), List.mem_cons_self, rfl⟩)) he
    have hs := Verif.Astar.Vec.Search.run (P := problem par2 pin (4, 1) (4, 7) 1 0) (returnBest := false) (by simp [problem]) (by
      intro x hx
      rw [show (problem par2 pin (4, 1) (4, 7) 1 0).starts = [([4, 1], 0)] from rfl, List.mem_singleton] at hx
      rw [hx]
      decide) hf
    have hres : Verif.Astar.result (toProb (problem par2 pin (4, 1) (4, 7) 1 0)) st (.found [4, 7]) false =
        (true, [[4, 1], [4, 2], [4, 3], [5, 4], [5, 5], [5, 6], [4, 7]]) := by
      show Verif.Astar.findPath [[4, 1]] st.par [4, 7] [] = _
      rw [hpar]
      unfold seamPar
      rw [Verif.Astar.findPath_eq_step (p := [5, 6]) (by decide) (by decide +kernel), Verif.Astar.findPath_eq_step (p := [5, 5]) (by decide) (by decide +kernel),
        Verif.Astar.findPath_eq_step (p := [5, 4]) (by decide) (by decide +kernel), Verif.Astar.findPath_eq_step (p := [4, 3]) (by decide) (by decide +kernel),
        Verif.Astar.findPath_eq_step (p := [4, 2]) (by decide) (by decide +kernel), Verif.Astar.findPath_eq_step (p := [4, 1]) (by decide) (by decide +kernel),
        Verif.Astar.findPath_eq_start (by decide)]
    rw [hres] at hs
    exact ⟨_, hs, by decide +kernel, hg, by decide +kernel, by decide +kernel⟩

end Verif.Joints2D
