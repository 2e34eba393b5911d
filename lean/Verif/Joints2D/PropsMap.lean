import Verif.Joints2D.Props
import Verif.Joints2D.Map
/-! # Obligations of the planner for two serial joints: collisions, costs, robustness -/
set_option linter.unusedVariables false
set_option linter.unusedSectionVars false
namespace Verif.Joints2D
open Verif.Model3D (cycU cycS upTo)
open Verif.CSpace (lround)
open Verif.Astar.Vec (Search)
variable {K : Type} [Field K] [LinearOrder K] [IsStrictOrderedRing K] [FloorRing K]

/-! ## C92: collision-free motion -/

/-- A successful search over the joint grid gives a chain of legal moves from the start to the goal. -/
theorem search_good (p : Par K) (hp : Sane p) (m : Int × Int → Int) (hm : ∀ c, 0 ≤ m c) (s e : Int × Int) (hs : inMap p s = true)
    (he : inMap p e = true) (t l : Nat) {rb : Bool} {why} {path : List (List Int)} (h : Search (problem p m s e t l) rb why (true, path)) :
    GoodSearch p m s e (path.map ofVec) :=
  search_good' p hp m hm s e hs he t l h

/-- A search that exhausts the reachable cells proves that there is no chain of legal moves. -/
theorem search_exhausted (p : Par K) (hp : Sane p) (m : Int × Int → Int) (hm : ∀ c, 0 ≤ m c) (s e : Int × Int) (hs : inMap p s = true)
    (he : inMap p e = true) (t : Nat) (ht : 0 < t) {rb : Bool} {r : Bool × List (List Int)}
    (h : Search (problem p m s e t 0) rb .exhausted r) : ¬ ∃ cs, GoodSearch p m s e cs :=
  fun ⟨cs, hc⟩ => search_exhausted' p hp m hm s e hs he t ht h cs hc

theorem unroll_clear (p : Par K) (m : Int × Int → Int) (h : Sane p) : ∀ (cs : List (Int × Int)) (q a : Int × Int), Same p q a →
    (a :: cs).IsChain (Legal p m) → ClearWay p m (q :: unroll p q cs)
  | [], _, _, _, _ => .singleton _
  | b :: cs, q, a, hq, hc => by
    rw [List.isChain_cons_cons] at hc
    obtain ⟨⟨hb, d, d1, d2, hd, hcl⟩, hc⟩ := hc
    have ht := turn_displaced p h q a d b hq ⟨d1, d2⟩ hd
    have hs : Same p (q.1 + (turn p q b).1, q.2 + (turn p q b).2) b := by
      rw [ht]
      obtain ⟨⟨k1, e1⟩, ⟨k2, e2⟩⟩ := hq
      obtain ⟨⟨l1, f1⟩, ⟨l2, f2⟩⟩ := hd
      exact ⟨⟨k1 - l1, by show q.1 + d.1 = _; rw [e1, f1]; ring⟩, ⟨k2 - l2, by show q.2 + d.2 = _; rw [e2, f2]; ring⟩⟩
    have ih := unroll_clear p m h cs _ b hs hc
    unfold unroll
    dsimp only
    refine List.isChain_cons_cons.mpr ⟨⟨a, hq, ?_⟩, ih⟩
    rw [ht]
    have : (q.1 + d.1 - q.1, q.2 + d.2 - q.2) = d := by ext <;> dsimp only <;> ring
    dsimp only
    rw [this]
    exact hcl

theorem residual_small (p : Par K) (hr : 0 < p.res) (hp : 0 < p.pi) (a : K) : |residual p a| ≤ p.pi / (p.res : K) := by
  have hr' : (0 : K) < (p.res : K) := by exact_mod_cast hr
  unfold residual
  dsimp only
  set prec := 2 * p.pi / (p.res : K) with hprec
  have hprec0 : 0 < prec := by positivity
  set egp := (if a < 0 then a + (⌈-a / p.pi * 2⌉ : K) * p.pi * 2 else a) with hegp
  have h0 : 0 ≤ egp := by
    rw [hegp]
    split
    · rename_i ha
      have hc := Int.le_ceil (-a / p.pi * 2)
      have : -a / p.pi * 2 * p.pi * 2 ≤ (⌈-a / p.pi * 2⌉ : K) * p.pi * 2 := by gcongr
      have e : -a / p.pi * 2 * p.pi * 2 = -a * 4 := by field_simp; ring
      rw [e] at this
      linarith
    · rename_i ha; exact not_lt.mp ha
  unfold fmod
  rw [if_pos (by linarith)]
  have h1 := Int.floor_le ((egp + prec / 2) / prec)
  have h2 := Int.lt_floor_add_one ((egp + prec / 2) / prec)
  rw [le_div_iff₀ hprec0] at h1
  rw [div_lt_iff₀ hprec0] at h2
  have e : p.pi / (p.res : K) = prec / 2 := by rw [hprec]; ring
  rw [e, abs_le]
  constructor <;> nlinarith

theorem fixLast_near (p : Par K) (hr : 0 < p.res) (hp : 0 < p.pi) (r : K × K) (h1 : |r.1| ≤ p.pi / (p.res : K)) (h2 : |r.2| ≤ p.pi / (p.res : K)) :
    ∀ l : List (Int × Int), List.Forall₂ (Near p) (fixLast (fun x => (x.1 + r.1, x.2 + r.2)) (l.map (toMetric p))) l
  | [] => .nil
  | [q] => .cons ⟨by dsimp only; rw [add_sub_cancel_left]; exact h1, by dsimp only; rw [add_sub_cancel_left]; exact h2⟩ .nil
  | q :: q' :: l => by
    have hr' : (0 : K) < (p.res : K) := by exact_mod_cast hr
    have h0 : (0 : K) ≤ p.pi / (p.res : K) := by positivity
    exact .cons ⟨by simpa using h0, by simpa using h0⟩ (fixLast_near p hr hp r h1 h2 (q' :: l))

theorem points_pos (p : Par K) (v : K) : ∀ (l : List (K × K)) (prev : K × K) (sum : K), (points p v prev sum l).map Pt.pos = l
  | [], _, _ => rfl
  | x :: l, prev, sum => by
    show x :: (points p v x _ l).map Pt.pos = x :: l
    rw [points_pos p v l]

/-- The way-points of a plan. -/
theorem plan_clear (p : Par K) (hp : Sane p) (m : Int × Int → Int) (found) (hf : Sound p m found) (sg eg : K × K) (plan : Plan K)
    (hm : makePlan p m found sg eg = some plan) (path : List (K × K)) (hpa : plan.path sg eg = some path) :
    (∃ qs, ClearWay p m (toGrid p sg :: qs) ∧ List.Forall₂ (Near p) path.tail qs) ∨
    (path = [sg, eg] ∧ Clear p m (toGrid p sg) (turn p (toGrid p sg) (toGrid p eg))) := by
  unfold makePlan at hm
  dsimp only at hm
  by_cases h1 : inMap p (toGrid p sg) = false
  · rw [if_pos h1] at hm; cases hm
  rw [if_neg h1] at hm
  by_cases h2 : m (toGrid p sg) = 100
  · rw [if_pos h2] at hm; cases hm; cases hpa
  rw [if_neg h2] at hm
  by_cases h3 : inMap p (toGrid p eg) = false
  · rw [if_pos h3] at hm; cases hm
  rw [if_neg h3] at hm
  by_cases h4 : m (toGrid p eg) = 100
  · rw [if_pos h4] at hm; cases hm; cases hpa
  rw [if_neg h4] at hm
  by_cases h5 : cost p m (toGrid p sg) (toGrid p eg) ≥ euclid p (turn p (toGrid p sg) (toGrid p eg))
  · rw [if_pos h5] at hm; cases hm; cases hpa
    exact .inr ⟨rfl, (cost_clear p m _ _ ((euclid_nonneg p _).trans h5)).2⟩
  rw [if_neg h5] at hm
  cases hfd : found (toGrid p sg) (toGrid p eg) with
  | none => rw [hfd] at hm; cases hm; cases hpa
  | some cs =>
    rw [hfd] at hm
    obtain ⟨g1, g2, g3⟩ := hf _ _ cs (by simpa using h1) (by simpa using h3) hfd
    cases cs with
    | nil => cases g1
    | cons c cs =>
      cases g1
      cases hm
      cases hpa
      refine .inl ⟨unroll p (toGrid p sg) cs, unroll_clear p m hp cs _ _ ⟨⟨0, by ring⟩, ⟨0, by ring⟩⟩ g3, ?_⟩
      have hn := fixLast_near p hp.res hp.pi (residual p eg.1, residual p eg.2) (residual_small p hp.res hp.pi _)
        (residual_small p hp.res hp.pi _) (unroll p (toGrid p sg) cs)
      simp only [List.tail_cons]
      cases hq : unroll p (toGrid p sg) cs with
      | nil => exact .nil
      | cons a l =>
        rw [hq] at hn
        rw [fixLast_head _ _ _ (by simp)]
        exact hn

theorem near_grid (p : Par K) (hp : Sane p) (g : K × K) : Near p g (toGrid p g) := by
  have hr' : (0 : K) < (p.res : K) := by exact_mod_cast hp.res
  have hpi := hp.pi
  have key : ∀ a : K, |a - ((lround (a * (p.res : K) / (2 * p.pi)) + p.res - p.res : Int) : K) * 2 * p.pi / (p.res : K)| ≤ p.pi / (p.res : K) := by
    intro a
    have hl : |a * (p.res : K) / (2 * p.pi) - (lround (a * (p.res : K) / (2 * p.pi)) : K)| ≤ 1 / 2 := by
      unfold lround
      split
      · have := Int.floor_le (a * (p.res : K) / (2 * p.pi) + 1 / 2)
        have := Int.lt_floor_add_one (a * (p.res : K) / (2 * p.pi) + 1 / 2)
        rw [abs_le]; constructor <;> linarith
      · push_cast
        have := Int.floor_le (-(a * (p.res : K) / (2 * p.pi)) + 1 / 2)
        have := Int.lt_floor_add_one (-(a * (p.res : K) / (2 * p.pi)) + 1 / 2)
        rw [abs_le]; constructor <;> linarith
    have e : a - ((lround (a * (p.res : K) / (2 * p.pi)) + p.res - p.res : Int) : K) * 2 * p.pi / (p.res : K) =
        (a * (p.res : K) / (2 * p.pi) - (lround (a * (p.res : K) / (2 * p.pi)) : K)) * (2 * p.pi / (p.res : K)) := by
      rw [add_sub_cancel_right]
      field_simp
    rw [e, abs_mul, abs_of_pos (show (0 : K) < 2 * p.pi / (p.res : K) by positivity)]
    calc _ ≤ 1 / 2 * (2 * p.pi / (p.res : K)) := mul_le_mul_of_nonneg_right hl (by positivity)
      _ = _ := by ring
  exact ⟨key g.1, key g.2⟩

/-- The points of a published trajectory lie, up to half a cell, on a sequence of cells that begins with the cell of the reported
position and whose moves are clear; the exceptions are a standstill and a direct move of more than half a turn (for which only the
reduced displacement is known to be clear). -/
theorem moves_clear_partial (p : Par K) (hp : Sane p) (m : Int × Int → Int) (h : List (Event K)) (e : Event K) (s s' : St K) (tr : List (Pt K))
    (hr : run p m h = some s) (hs : step p m s e = some (s', some tr)) (hf : Sound p m e.found) :
    tr.map Pt.pos = [s'.cur] ∨
    (∃ qs, ClearWay p m (toGrid p s'.cur :: qs) ∧ List.Forall₂ (Near p) (tr.map Pt.pos) qs) ∨
    (∃ g, tr.map Pt.pos = [g] ∧ ¬ HalfTurn p (toGrid p s'.cur) (toGrid p g)) := by
  obtain ⟨t, goal, plan, -, hm, hc, -⟩ := published p hp.vmax m s s' _ tr (run_pace p hp.vmax m h s hr) hs
  rcases hc with ⟨-, rfl⟩ | ⟨path, hpa, rfl, -, -⟩
  · exact .inl rfl
  · have htail : (trajectory p s'.avg path).map Pt.pos = path.tail := by
      cases path with
      | nil => rfl
      | cons a l => exact points_pos p _ l _ _
    rw [htail]
    rcases plan_clear p hp m _ hf _ _ plan hm path hpa with hq | ⟨rfl, hcl⟩
    · exact .inr (.inl hq)
    · by_cases hh : HalfTurn p (toGrid p s'.cur) (toGrid p goal)
      · refine .inr (.inl ⟨[toGrid p goal], ?_, .cons (near_grid p hp goal) .nil⟩)
        refine .cons_cons ⟨_, ⟨⟨0, by ring⟩, ⟨0, by ring⟩⟩, ?_⟩ (.singleton _)
        obtain ⟨a1, a2, a3, a4⟩ := hh
        have : turn p (toGrid p s'.cur) (toGrid p goal) =
            ((toGrid p goal).1 - (toGrid p s'.cur).1, (toGrid p goal).2 - (toGrid p s'.cur).2) := by
          unfold turn
          rw [cycS_small _ _ 0 p.res hp.res (by ring) a1 a2, cycS_small _ _ 0 p.res hp.res (by ring) a3 a4]
        rw [← this]
        exact hcl
      · exact .inr (.inr ⟨goal, rfl, hh⟩)

/-- Around the obstacle of `around`. -/
example : ∃ s s' tr, run par0 (post 1 0) [at0 0 0] = some s ∧ step par0 (post 1 0) s around = some (s', some tr) ∧ tr.length = 2 ∧
    ∃ qs, ClearWay par0 (post 1 0) (toGrid par0 s'.cur :: qs) ∧ List.Forall₂ (Near par0) (tr.map Pt.pos) qs := by
  obtain ⟨s, s', h1, h2⟩ := outputs_some around_out
  refine ⟨s, s', _, h1, h2, rfl, ?_⟩
  rcases moves_clear_partial par0 par0_sane _ _ _ s s' _ h1 h2 around_sound with h | h | ⟨g, h, -⟩
  · exact absurd (congrArg List.length h) (by simp)
  · exact h
  · exact absurd (congrArg List.length h) (by simp)

/-- A plan is made only if neither the reported position nor the target collides. -/
theorem plan_ends (p : Par K) (m : Int × Int → Int) (found) (sg eg : K × K) (plan : Plan K) (hm : makePlan p m found sg eg = some plan)
    (path : List (K × K)) (hpa : plan.path sg eg = some path) : m (toGrid p sg) ≠ 100 ∧ m (toGrid p eg) ≠ 100 := by
  unfold makePlan at hm
  dsimp only at hm
  by_cases h1 : inMap p (toGrid p sg) = false
  · rw [if_pos h1] at hm; cases hm
  rw [if_neg h1] at hm
  by_cases h2 : m (toGrid p sg) = 100
  · rw [if_pos h2] at hm; cases hm; cases hpa
  rw [if_neg h2] at hm
  by_cases h3 : inMap p (toGrid p eg) = false
  · rw [if_pos h3] at hm; cases hm
  rw [if_neg h3] at hm
  by_cases h4 : m (toGrid p eg) = 100
  · rw [if_pos h4] at hm; cases hm; cases hpa
  exact ⟨h2, h4⟩

/-- Unless the joints are told to stay where they are, neither the reported position nor the commanded target lies in a colliding
cell. -/
theorem ends_not_lethal (p : Par K) (hp : Sane p) (m : Int × Int → Int) (ij : Nat × Nat) (h : List (Event K)) (e : Event K)
    (hord : SameOrder p ij (h ++ [e])) (s s' : St K) (tr : List (Pt K)) (hr : run p m h = some s) (hs : step p m s e = some (s', some tr)) :
    tr = hold s'.cur ∨
    (m (toGrid p s'.cur) ≠ 100 ∧ ∃ t g, lastTarget p (h ++ [e]) = some (t, g) ∧ m (toGrid p g) ≠ 100) := by
  have hr' : run p m (h ++ [e]) = some s' := by rw [run_snoc, hr, Option.bind_some, hs]; rfl
  have aim := aim_run p m ij (h ++ [e]) hord s' hr'
  obtain ⟨t, goal, plan, ⟨l, i, j, k1, k2, k3⟩, hm, hc, -⟩ := published p hp.vmax m s s' e tr (run_pace p hp.vmax m h s hr) hs
  have hlt : lastTarget p (h ++ [e]) = some (t, goal) := by
    rcases aim with ⟨-, h2, -⟩ | ⟨h1, h2, h3⟩
    · rw [h2] at k1; cases k1
    · rcases h3 with ⟨h3, -⟩ | ⟨l', h3, h4⟩
      · rw [h3] at k1; cases k1
      · rw [h3] at k1
        cases k1
        rw [h2] at k2
        cases k2
        rw [h1]
        rw [show pick (ij.1, ij.2) l = pick ij l from rfl, h4] at k3
        cases k3
        rfl
  rcases hc with ⟨-, rfl⟩ | ⟨path, hpa, -, -, -⟩
  · exact .inl rfl
  · obtain ⟨h1, h2⟩ := plan_ends p m _ _ _ plan hm path hpa
    exact .inr ⟨h1, t, goal, hlt, h2⟩

/-- The joints move around the obstacle. -/
example : ∃ s s' tr, run par0 (post 1 0) [at0 0 0] = some s ∧ step par0 (post 1 0) s around = some (s', some tr) ∧
    post 1 0 (toGrid par0 s'.cur) ≠ 100 := by
  obtain ⟨s, s', h1, h2⟩ := outputs_some around_out
  refine ⟨s, s', _, h1, h2, ?_⟩
  rcases ends_not_lethal par0 par0_sane _ (0, 1) [at0 0 0] around (by
    intro e he
    rcases List.mem_append.mp he with he | he <;> rw [List.mem_singleton] at he <;> subst he
    · trivial
    · show indices par0 [0, 1] = _; decide) s s' _ h1 h2 with h | ⟨h, -⟩
  · exact absurd (congrArg List.length h) (by simp [hold])
  · exact h

/-- A direct move of more than half a turn is accepted although it leads through a lethal angle pair: from (−9/4, 0) to (9/4, 0),
with a collision at (0, 0). -/
theorem direct_through_collision :
    outputs par0 (post 0 0) [at0 (-9 / 4) 0] (to0 0 (9 / 4) 0) = some (some [⟨(9 / 4, 0), some (0, 0), some (9 / 2)⟩]) ∧
    post 0 0 (toGrid par0 (0, 0)) = 100 := by
  constructor <;> decide +kernel

/-- On a clear move none of the sampled angle pairs collides. -/
theorem clear_no_collision (p : Par K) (hp : Sane p) (collide : K → K → Bool) (hper : Periodic p.pi collide) (m : Int × Int → Int)
    (hm : Costmap p collide m) (a d : Int × Int) (hc : Clear p m a d) (i : Nat) (hi : i < samples d) :
    let q := (lround ((a.1 : K) + (i : K) * ((d.1 : K) / (samples d : K))), lround ((a.2 : K) + (i : K) * ((d.2 : K) / (samples d : K))))
    collide (toMetric p q).1 (toMetric p q).2 = false := by
  intro q
  have hr' : (p.res : K) ≠ 0 := by exact_mod_cast hp.res.ne'
  obtain ⟨⟨k, hk⟩, k1, k2⟩ := Model3D.cycU_spec q.1 p.res hp.res
  obtain ⟨⟨l, hl⟩, l1, l2⟩ := Model3D.cycU_spec q.2 p.res hp.res
  have hx : inMap p (cycU q.1 p.res, cycU q.2 p.res) = true := by
    rw [inMap_iff]; have := hp.res; dsimp only; omega
  have h99 := hc i hi
  have hne : ¬ m (cycU q.1 p.res, cycU q.2 p.res) = 100 := by
    intro h
    have : m (cycU q.1 p.res, cycU q.2 p.res) ≤ 99 := h99
    omega
  rw [hm.lethal _ hx, Bool.not_eq_true] at hne
  rw [← hne, ← hper (toMetric p q).1 (toMetric p q).2 k l]
  have e : ∀ x k : Int, ((x - p.res : Int) : K) * 2 * p.pi / (p.res : K) + (k : K) * (2 * p.pi) =
      ((x + k * p.res - p.res : Int) : K) * 2 * p.pi / (p.res : K) := by
    intro x k; push_cast; field_simp; ring
  congr 1
  · rw [hk]; exact e _ _
  · rw [hl]; exact e _ _

/-! ## C93: the estimate of the remaining cost -/

/-- The estimate never exceeds the cost of a chain of legal moves that stays inside the angle range. -/
theorem estimate_lower_bound_partial (p : Par K) (hp : Sane p) (m : Int × Int → Int) (hm : ∀ c, 0 ≤ m c) (g : Int × Int) :
    ∀ (cs : List (Int × Int)) (a : Int × Int), (a :: cs).IsChain (Inner p m) → (a :: cs).getLast? = some g →
      estim p a g ≤ chainCost (cost p m) (a :: cs)
  | [], a, _, hl => by
    cases hl
    unfold estim euclid chainCost
    simp
  | b :: cs, a, hc, hl => by
    rw [List.isChain_cons_cons] at hc
    obtain ⟨⟨hb, h1, h2, hcl⟩, hc⟩ := hc
    rw [List.getLast?_cons_cons] at hl
    have ih := estimate_lower_bound_partial p hp m hm g cs b hc hl
    have ht : turn p a b = (b.1 - a.1, b.2 - a.2) := by
      have := hp.range
      have := hp.res
      rw [abs_le] at h1 h2
      unfold turn
      rw [cycS_small _ (b.1 - a.1) 0 p.res hp.res (by ring) (by omega) (by omega), cycS_small _ (b.2 - a.2) 0 p.res hp.res (by ring) (by omega) (by omega)]
    have hce := cost_ge p hp m hm a b hb (by rw [ht]; exact hcl)
    rw [ht] at hce
    show _ ≤ cost p m a b + chainCost (cost p m) (b :: cs)
    refine le_trans ?_ (add_le_add hce ih)
    unfold estim euclid
    dsimp only
    have t1 := abs_add_le (p.coef.1 * ((b.1 - a.1 : Int) : K)) (p.coef.1 * ((g.1 - b.1 : Int) : K))
    have t2 := abs_add_le (p.coef.2 * ((b.2 - a.2 : Int) : K)) (p.coef.2 * ((g.2 - b.2 : Int) : K))
    rw [← mul_add, ← Int.cast_add, show b.1 - a.1 + (g.1 - b.1) = g.1 - a.1 by ring] at t1
    rw [← mul_add, ← Int.cast_add, show b.2 - a.2 + (g.2 - b.2) = g.2 - a.2 by ring] at t2
    linarith

example : estim par0 (8, 8) (11, 8) ≤ chainCost (cost par0 (post 1 0)) [(8, 8), (9, 9), (11, 8)] ∧
    chainCost (cost par0 (post 1 0)) [(8, 8), (9, 9), (11, 8)] = 5 := by
  refine ⟨estimate_lower_bound_partial par0 par0_sane _ (fun c => by unfold post; split <;> omega) _ _ _ ?_ rfl, by decide +kernel⟩
  have h : ∀ a b : Int × Int, legal0 (post 1 0) a (b.1 - a.1, b.2 - a.2) b = true → Inner par0 (post 1 0) a b := by
    intro a b h
    unfold legal0 at h
    simp only [Bool.and_eq_true, decide_eq_true_eq, List.all_eq_true, List.mem_range] at h
    obtain ⟨⟨h1, h2, h3, h4, h5⟩, h6⟩ := h
    exact ⟨h1, h2, h3, h6⟩
  exact .cons_cons (h _ _ (by decide +kernel)) (.cons_cons (h _ _ (by decide +kernel)) (.singleton _))

theorem along_sum (m : Int × Int → Int) : ∀ (l : List (Int × Int)) (acc : Int), (∀ c ∈ l, m c ≤ 99) → along m l acc = some (acc + (l.map m).sum)
  | [], acc, _ => by simp [along]
  | c :: l, acc, h => by
    unfold along
    rw [if_neg (by have := h c (by simp); omega), along_sum m l _ (fun x hx => h x (by simp [hx]))]
    simp [add_assoc]

/-- The cost of a clear move into the map is the weighted joint way plus the costs of the cells looked at; every other move is refused
(negative cost). -/
theorem move_cost (p : Par K) (m : Int × Int → Int) (a b : Int × Int) :
    let d := turn p a b
    (inMap p b = true ∧ Clear p m a d →
      cost p m a b = |p.coef.1 * (d.1 : K)| + |p.coef.2 * (d.2 : K)| + (traffic p m a d : K) * p.weight / 100) ∧
    (¬ (inMap p b = true ∧ Clear p m a d) → cost p m a b < 0) := by
  intro d
  constructor
  · rintro ⟨hb, hc⟩
    unfold cost
    rw [if_neg (by simp [hb])]
    dsimp only
    rw [along_sum m _ 0 (by
      intro c hc'
      obtain ⟨i, hi, rfl⟩ := List.mem_map.mp hc'
      exact hc i (List.mem_range.mp hi))]
    dsimp only
    rw [zero_add, List.map_map]
    rfl
  · intro h
    by_contra h0
    exact h (cost_clear p m a b (not_lt.mp h0))

example : cost par0 (fun c => if c.1 = 1 then 20 else 10) (8, 8) (10, 8) = 2 + 30 / 100 ∧ cost par0 (post 1 0) (8, 8) (10, 8) < 0 := by
  decide +kernel

/-- A move through the end of the angle range costs less than the estimate. -/
theorem estimate_too_high :
    Legal par0 open0 (0, 0) (15, 0) ∧ cost par0 open0 (0, 0) (15, 0) = 1 ∧ estim par0 (0, 0) (15, 0) = 15 :=
  ⟨legal0_legal _ (0, 0) (-1, 0) (15, 0) (by decide +kernel), by decide +kernel, by decide +kernel⟩

/-! ## C94: the costmap -/

/-- The costmap is lethal exactly at the colliding cells, and each other cell has the largest of the costs that fade with the distance
from the colliding cells around it. -/
theorem costmap_built (p : Par K) (collide : K → K → Bool) (hr : 0 < reach p) :
    ∃ m, buildMap p collide = some m ∧ Costmap p collide m := by
  obtain ⟨m, h1, h2, -⟩ := build_costmap p collide hr
  exact ⟨m, h1, h2⟩

theorem raise_zero (p : Par K) (hr : reach p = 0) (m : Int × Int → Int) : ∀ l : List (Int × Int),
    (l.foldlM (raiseCell p) m = none ∧ ∃ c ∈ l, m c = 100) ∨ (l.foldlM (raiseCell p) m = some m ∧ ∀ c ∈ l, m c ≠ 100)
  | [] => .inr ⟨rfl, by simp⟩
  | c :: l => by
    rw [List.foldlM_cons]
    by_cases hc : m c = 100
    · refine .inl ⟨?_, c, List.mem_cons_self, hc⟩
      unfold raiseCell
      rw [if_neg (by simpa using hc), if_pos hr]; rfl
    · have e : raiseCell p m c = some m := by unfold raiseCell; rw [if_pos hc]
      rw [e]
      rcases raise_zero p hr m l with ⟨h1, x, hx, h2⟩ | ⟨h1, h2⟩
      · exact .inl ⟨h1, x, List.mem_cons_of_mem _ hx, h2⟩
      · exact .inr ⟨h1, by intro x hx; rcases List.mem_cons.mp hx with rfl | hx; exacts [hc, h2 x hx]⟩

/-- With a zero expansion radius the construction of the costmap is undefined (0/0 converted to an integer) as soon as any cell
collides. -/
theorem zero_reach_undefined_iff (p : Par K) (collide : K → K → Bool) (hr : reach p = 0) :
    buildMap p collide = none ↔ ∃ c, inMap p c = true ∧ collide (toMetric p c).1 (toMetric p c).2 = true := by
  unfold buildMap
  have hb : ∀ c, baseMap p collide c = 100 ↔ collide (toMetric p c).1 (toMetric p c).2 = true := by
    intro c; unfold baseMap; split <;> simp_all
  rcases raise_zero p hr (baseMap p collide) (cells p) with ⟨h1, c, hc, h2⟩ | ⟨h1, h2⟩
  · simp only [h1, true_iff]
    exact ⟨c, (mem_cells p c).mp hc, (hb c).mp h2⟩
  · rw [h1]
    constructor
    · intro h; cases h
    rintro ⟨c, hc, hk⟩
    exact absurd ((hb c).mpr hk) (h2 c ((mem_cells p c).mpr hc))

/-- Links that collide just below each full turn of the first joint (−3/4 and its images). -/
def below : ℚ → ℚ → Bool := fun a _ => decide (∃ k ∈ [(0 : Int), 1, 2], a = -3 / 4 + 6 * ((k - 1 : Int) : ℚ))

theorem par0_reach : reach par0 = 2 := by decide +kernel

theorem below_cell (x : Int × Int) (hx : inMap par0 x = true) : below (toMetric par0 x).1 (toMetric par0 x).2 = true ↔ x.1 % 8 = 7 := by
  rw [inMap_iff] at hx
  obtain ⟨⟨h1, h2⟩, -⟩ := hx
  have h2 : x.1 < 16 := h2
  have e : (toMetric par0 x).1 = ((x.1 - 8 : Int) : ℚ) * 3 / 4 := by
    show ((x.1 - 8 : Int) : ℚ) * 2 * 3 / ((8 : Int) : ℚ) = _; push_cast; ring
  unfold below
  rw [e]
  simp only [decide_eq_true_eq, List.mem_cons, List.not_mem_nil, or_false, exists_eq_or_imp, exists_eq_left]
  constructor
  · rintro (h | h | h)
    · have : ((x.1 : Int) : ℚ) = -1 := by push_cast at h; linarith
      have : x.1 = -1 := by exact_mod_cast this
      omega
    · have : ((x.1 : Int) : ℚ) = 7 := by push_cast at h; linarith
      have : x.1 = 7 := by exact_mod_cast this
      omega
    · have : ((x.1 : Int) : ℚ) = 15 := by push_cast at h; linarith
      have : x.1 = 15 := by exact_mod_cast this
      omega
  · intro h
    have : x.1 = 7 ∨ x.1 = 15 := by omega
    rcases this with h | h <;> rw [h]
    · right; left; norm_num
    · right; right; norm_num

/-- Cells 0 and 8 of the first joint are the same angle, next to a collision; the expansion reaches cell 8 but not cell 0, the one that
the cost function reads. -/
theorem expansion_stops_at_seam :
    ∃ m, buildMap par0 below = some m ∧ m (8, 0) = 50 ∧ m (0, 0) = 0 ∧ cycU 8 par0.res = 0 := by
  obtain ⟨m, h1, h2⟩ := costmap_built par0 below (by rw [par0_reach]; omega)
  refine ⟨m, h1, ?_, ?_, by decide +kernel⟩
  · have lo := h2.near (8, 0) (by decide +kernel) (7, 0) (by decide +kernel) ((below_cell _ (by decide +kernel)).mpr (by decide)) (by decide +kernel)
    have hl : fade (reach par0) (far (8, 0) (7, 0)) = 50 := by decide +kernel
    rw [hl] at lo
    rcases h2.max (8, 0) (by decide +kernel) with h | h | ⟨c, hc, hk, hf, h⟩
    · rw [below_cell _ (by decide +kernel)] at h; omega
    · omega
    · rw [par0_reach] at hf h
      have h1 : 1 ≤ far (8, 0) c := by
        have : far (8, 0) c ≠ 0 := by
          rw [Ne, far_zero]
          rintro rfl
          rw [below_cell _ hc] at hk; omega
        have := far_nonneg (8, 0) c
        omega
      have := fade_antitone 2 1 (far (8, 0) c) (by omega) h1
      have e : fade 2 1 = 50 := by decide +kernel
      omega
  · rcases h2.max (0, 0) (by decide +kernel) with h | h | ⟨c, hc, hk, hf, h⟩
    · rw [below_cell _ (by decide +kernel)] at h; omega
    · exact h
    · rw [below_cell _ hc] at hk
      rw [par0_reach] at hf
      have h3 : |0 - c.1| ≤ 2 := (le_max_left _ _).trans hf
      rw [inMap_iff] at hc
      rw [abs_le] at h3
      omega

/-! ## C95: no undefined behaviour -/

/-- Messages that are complete, name the joints in one order, stay within two turns and do not ask for the initial values never make
the node read outside an array. -/
theorem never_undefined (p : Par K) (m : Int × Int → Int) (ij : Nat × Nat) (h : List (Event K)) (hc : Complete p h) (hd : NotDefault p h)
    (hi : InReach p h) (ho : SameOrder p ij h) : (run p m h).isSome = true := by
  suffices H : ∃ s, run p m h = some s ∧ (s.known = true → inMap p (toGrid p s.cur) = true) ∧
      (∀ t g, lastTarget p h = some (t, g) → (t, g) ≠ (0, (0, 0)) ∧ inMap p (toGrid p g) = true) by
    obtain ⟨s, hs, -⟩ := H; rw [hs]; rfl
  induction h using List.reverseRecOn with
  | nil => exact ⟨init, rfl, (fun h => by cases h), fun t g h => by cases h⟩
  | append_singleton h e ih =>
    have sub : ∀ x ∈ h, x ∈ h ++ [e] := fun x hx => List.mem_append_left _ hx
    have me : e ∈ h ++ [e] := by simp
    obtain ⟨s, hs, hcur, hlt⟩ := ih (fun x hx => hc x (sub x hx)) (fun x hx => hd x (sub x hx)) (fun x hx => hi x (sub x hx))
      (fun x hx => ho x (sub x hx))
    have haim := aim_run p m ij h (fun x hx => ho x (sub x hx)) s hs
    have hce := hc e me
    have hde := hd e me
    have hie := hi e me
    have hoe := ho e me
    -- replanning with a target in reach is defined
    have rep : ∀ (f) (s1 : St K), (s1.known = true → inMap p (toGrid p s1.cur) = true) →
        (s1.ids = (none, none) ∨ ∃ i j t l g, s1.ids = (some i, some j) ∧ s1.kept = some (t, l) ∧ pick (i, j) l = some g ∧ inMap p (toGrid p g) = true) →
        ∃ s2 o, replan p m f s1 = some (s2, o) := by
      intro f s1 hk hids
      unfold replan
      cases hkn : s1.known with
      | false => exact ⟨s1, none, rfl⟩
      | true =>
        simp only [Bool.not_true, Bool.false_eq_true, if_false]
        rcases hids with h0 | ⟨i, j, t, l, g, h1, h2, h3, h4⟩
        · rw [h0]; exact ⟨s1, none, rfl⟩
        · rw [h1]
          dsimp only
          rw [h2]
          dsimp only
          rw [h3]
          dsimp only
          have hpl : ∃ plan, makePlan p m f s1.cur g = some plan := by
            unfold makePlan
            dsimp only
            rw [hk hkn, h4]
            simp only [Bool.true_eq_false, if_false]
            split
            · exact ⟨_, rfl⟩
            · split
              · exact ⟨_, rfl⟩
              · split
                · exact ⟨_, rfl⟩
                · split <;> exact ⟨_, rfl⟩
          obtain ⟨plan, hpl⟩ := hpl
          rw [hpl]
          dsimp only
          split <;> exact ⟨_, _, rfl⟩
    have st : ∃ s2 o, step p m s e = some (s2, o) ∧ (s2.known = true → inMap p (toGrid p s2.cur) = true) := by
      cases e with
      | joint names pos due f =>
        unfold step
        dsimp only
        cases hl : lookup p 0 names (none, none) with
        | mk a b =>
          cases a with
          | none => exact ⟨s, none, rfl, hcur⟩
          | some i =>
            cases b with
            | none => exact ⟨s, none, rfl, hcur⟩
            | some j =>
              dsimp only
              have hl' : indices p names = (some i, some j) := hl
              obtain ⟨g, hg⟩ := Option.isSome_iff_exists.mp (hce i j hl')
              rw [hg]
              dsimp only
              have hgm := hie i j g hl' hg
              cases due with
              | false => exact ⟨_, none, rfl, fun _ => hgm⟩
              | true =>
                rw [if_pos rfl]
                obtain ⟨s2, o, h2⟩ := rep f { s with cur := g, known := true } (fun _ => hgm) (by
                  rcases haim with ⟨-, -, -, h0⟩ | ⟨a1, a2, a3⟩
                  · exact .inl h0
                  · obtain ⟨b1, b2⟩ := hlt _ _ a1
                    rcases a3 with ⟨-, a3⟩ | ⟨l, a3, a4⟩
                    · exact absurd a3 b1
                    · exact .inr ⟨_, _, _, l, _, a2, a3, a4, b2⟩)
                refine ⟨s2, o, h2, ?_⟩
                obtain ⟨-, -, -, k4, -⟩ := replan_keeps p m f _ s2 o h2
                rw [k4]; exact fun _ => hgm
      | command c f =>
        obtain ⟨⟨t, g⟩, htg⟩ := Option.isSome_iff_exists.mp hce
        have hgm := hie t g htg
        unfold target at htg
        unfold step
        dsimp only
        have hoe' : lookup p 0 c.names (none, none) = (some ij.1, some ij.2) := hoe
        rw [hoe']
        rw [hoe] at htg
        dsimp only
        cases hpt : c.points with
        | nil => rw [hpt] at htg; cases htg
        | cons x rest =>
          obtain ⟨t', l⟩ := x
          rw [hpt] at htg
          dsimp only at htg ⊢
          obtain ⟨g', hg', e'⟩ := Option.map_eq_some_iff.mp htg
          cases e'
          rw [hg']
          dsimp only
          split
          · exact ⟨_, none, rfl, hcur⟩
          · obtain ⟨s2, o, h2⟩ := rep f { s with ids := (some ij.1, some ij.2), last := (t, g), kept := some (t, l), avg := -1 } hcur
              (.inr ⟨_, _, _, _, _, rfl, rfl, hg', hgm⟩)
            refine ⟨s2, o, h2, ?_⟩
            obtain ⟨-, -, -, k4, k5⟩ := replan_keeps p m f _ s2 o h2
            rw [k4, k5]; exact hcur
    obtain ⟨s2, o, h2, hcur2⟩ := st
    refine ⟨s2, by rw [run_snoc, hs, Option.bind_some, h2]; rfl, hcur2, ?_⟩
    intro t g htg
    rw [lastTarget_snoc] at htg
    cases e with
    | joint names pos due f => exact hlt t g htg
    | command c f =>
      dsimp only at htg hce hde hie
      cases hct : target p c with
      | none => rw [hct] at hce; cases hce
      | some x =>
        rw [hct] at htg
        cases htg
        exact ⟨fun h => hde (by rw [hct, h]), hie t g hct⟩

example : (run par0 open0 [at0 0 0, to0 1 1 1, at0 1 1]).isSome = true :=
  never_undefined par0 open0 (0, 1) _ (by
    intro e he
    rcases List.mem_cons.mp he with rfl | he
    · intro i j h; cases (show indices par0 [0, 1] = (some 0, some 1) from rfl).symm.trans h; rfl
    rcases List.mem_cons.mp he with rfl | he
    · rfl
    rcases List.mem_singleton.mp he with rfl
    intro i j h; cases (show indices par0 [0, 1] = (some 0, some 1) from rfl).symm.trans h; rfl) (by
    intro e he
    rcases List.mem_cons.mp he with rfl | he
    · trivial
    rcases List.mem_cons.mp he with rfl | he
    · show target par0 _ ≠ _; decide +kernel
    rcases List.mem_singleton.mp he with rfl
    trivial) (by
    intro e he
    rcases List.mem_cons.mp he with rfl | he
    · intro i j g h hg
      cases (show indices par0 [0, 1] = (some 0, some 1) from rfl).symm.trans h; cases hg; decide +kernel
    rcases List.mem_cons.mp he with rfl | he
    · intro t g h; cases h; decide +kernel
    rcases List.mem_singleton.mp he with rfl
    intro i j g h hg
    cases (show indices par0 [0, 1] = (some 0, some 1) from rfl).symm.trans h; cases hg; decide +kernel) (by
    intro e he
    rcases List.mem_cons.mp he with rfl | he
    · trivial
    rcases List.mem_cons.mp he with rfl | he
    · rfl
    rcases List.mem_singleton.mp he with rfl
    trivial)

/-- What each hypothesis is for: an ignored first command leaves no points to read; so does a command without points; an angle beyond
two turns is outside the costmap; a repeated command with the joints named in the other order swaps the target's angles. -/
theorem undefined_or_wrong :
    (run par0 open0 [to0 0 0 0, at0 1 1]).isSome = false ∧
    (run par0 open0 [.command ⟨[0, 1], []⟩ lost]).isSome = false ∧
    (run par0 open0 [at0 0 0, to0 0 7 0]).isSome = false ∧
    outputs par0 open0 [at0 0 0, to0 0 1 0, .command ⟨[1, 0], [(0, [0, 1])]⟩ lost] (at0 0 0) = some (some [⟨(0, 1), some (0, 0), some 1⟩]) := by
  refine ⟨?_, ?_, ?_, ?_⟩ <;> decide +kernel

end Verif.Joints2D
