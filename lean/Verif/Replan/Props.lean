import Verif.Replan.Spec
import Mathlib.Tactic.Linarith
import Mathlib.Tactic.FieldSimp
/-! # C107, C108: when the planner plans again -/
namespace Verif.Replan
open Verif.GridMetric (Pose)

/-! ### Switch backs -/

theorem moved_iff (p q : Pose ℝ) : moved p q ↔ 1 / 1000 < Real.sqrt ((q.x - p.x) ^ 2 + (q.y - p.y) ^ 2) := by
  unfold moved
  rw [gt_iff_lt, Real.lt_sqrt (by norm_num), add_comm]

theorem backward_iff (p q : Pose ℝ) :
    backward p q ↔ (q.x - p.x) * Real.cos q.yaw + (q.y - p.y) * Real.sin q.yaw < 0 := by
  unfold backward
  rw [mul_comm (Real.cos _), mul_comm (Real.sin _)]

theorem movesTo_iff {path : List (Pose ℝ)} {k : Nat} {p q : Pose ℝ} (h1 : 1 ≤ k) (hp : path[k - 1]? = some p)
    (hq : path[k]? = some q) : MovesTo path k ↔ moved p q := by
  rw [moved_iff]
  constructor
  · rintro ⟨p', q', _, hp', hq', h⟩
    rw [hp] at hp'; rw [hq] at hq'
    obtain rfl := Option.some.inj hp'; obtain rfl := Option.some.inj hq'
    exact h
  · intro h; exact ⟨p, q, h1, hp, hq, h⟩

theorem backwardTo_iff {path : List (Pose ℝ)} {k : Nat} {p q : Pose ℝ} (h1 : 1 ≤ k) (hp : path[k - 1]? = some p)
    (hq : path[k]? = some q) : BackwardTo path k ↔ backward p q := by
  rw [backward_iff]
  constructor
  · rintro ⟨p', q', _, hp', hq', h⟩
    rw [hp] at hp'; rw [hq] at hq'
    obtain rfl := Option.some.inj hp'; obtain rfl := Option.some.inj hq'
    exact h
  · intro h; exact ⟨p, q, h1, hp, hq, h⟩

/-- What the loop knows at position `i`: the direction of all motions so far. -/
def Knows (path : List (Pose ℝ)) (i : Nat) : Option Bool → Prop
  | none => ∀ j, j < i → ¬ MovesTo path j
  | some d => (∃ j, j < i ∧ MovesTo path j) ∧ ∀ j, j < i → MovesTo path j → (BackwardTo path j ↔ d = true)

theorem not_reversed_of_knows {path : List (Pose ℝ)} {i : Nat} {d : Option Bool} (h : Knows path i d) (k : Nat)
    (hk : k < i) : ¬ Reversed path k := by
  rintro ⟨hm, j, hj, hmj, hne⟩
  cases d with
  | none => exact h k hk hm
  | some d => exact hne ((h.2 j (by omega) hmj).trans (h.2 k hk hm).symm)

open Classical in
theorem switchFrom_spec (path : List (Pose ℝ)) : ∀ (rest : List (Pose ℝ)) (i : Nat) (prev : Pose ℝ) (d : Option Bool),
    1 ≤ i → path[i - 1]? = some prev → path.drop i = rest → Knows path i d →
    (∀ k, switchFrom prev d i rest = some k → Reversed path k ∧ ∀ j, j < k → ¬ Reversed path j) ∧
    (switchFrom prev d i rest = none → ∀ k, ¬ Reversed path k)
  | [], i, prev, d, hi, hp, hr, hk => by
    refine ⟨fun k h => by simp [switchFrom] at h, fun _ k hrev => ?_⟩
    have hlen : path.length ≤ i := by simpa using hr
    have : k < i := by
      obtain ⟨⟨_, q, _, _, hq, _⟩, _⟩ := hrev
      have := (List.getElem?_eq_some_iff.mp hq).1
      omega
    exact not_reversed_of_knows hk k this hrev
  | p :: ps, i, prev, d, hi, hp, hr, hk => by
    have hq : path[i]? = some p := by
      have := congrArg List.head? hr
      rw [List.head?_drop] at this; simpa using this
    have hr' : path.drop (i + 1) = ps := by
      rw [← List.drop_drop, hr]; simp
    have hM := movesTo_iff hi hp hq
    have hB := backwardTo_iff hi hp hq
    have next := switchFrom_spec path ps (i + 1) p
    unfold switchFrom
    by_cases hm : moved prev p
    · rw [if_pos hm]
      cases d with
      | none =>
        dsimp only
        refine next _ (by omega) (by simpa using hq) hr' ⟨⟨i, by omega, hM.mpr hm⟩, ?_⟩
        intro j hj hmj
        by_cases hji : j = i
        · subst hji; rw [hB]; simp
        · exact absurd hmj (hk j (by omega))
      | some b =>
        dsimp only
        by_cases hb : (b != decide (backward prev p)) = true
        · rw [if_pos hb]
          refine ⟨fun k h => ?_, fun h => by simp at h⟩
          obtain rfl := Option.some.inj h
          refine ⟨⟨hM.mpr hm, ?_⟩, fun j hj => not_reversed_of_knows hk j hj⟩
          obtain ⟨⟨j, hj, hmj⟩, hall⟩ := hk
          refine ⟨j, hj, hmj, ?_⟩
          rw [hall j hj hmj, hB]
          rw [bne_iff_ne, ne_eq] at hb
          intro hiff
          apply hb
          by_cases hbw : backward prev p
          · simp [hbw, hiff.mpr hbw]
          · have : ¬ b = true := fun h => hbw (hiff.mp h)
            simp [hbw, this]
        · rw [if_neg hb]
          have hb' : b = decide (backward prev p) := by
            rw [bne_iff_ne, ne_eq, not_not] at hb; exact hb
          refine next _ (by omega) (by simpa using hq) hr' ⟨⟨i, by omega, hM.mpr hm⟩, ?_⟩
          intro j hj hmj
          by_cases hji : j = i
          · subst hji; rw [hB]; simp
          · rw [hk.2 j (by omega) hmj, hb']
    · rw [if_neg hm]
      refine next d (by omega) (by simpa using hq) hr' ?_
      cases d with
      | none =>
        intro j hj hmj
        by_cases hji : j = i
        · subst hji; exact hm (hM.mp hmj)
        · exact hk j (by omega) hmj
      | some b =>
        refine ⟨by obtain ⟨⟨j, hj, h⟩, _⟩ := hk; exact ⟨j, by omega, h⟩, ?_⟩
        intro j hj hmj
        by_cases hji : j = i
        · subst hji; exact absurd (hM.mp hmj) hm
        · exact hk.2 j (by omega) hmj

/-- **C108**.  For every path, the switch back found is the first pose at which the robot moves in the other direction than
before. -/
theorem switch_index (path : List (Pose ℝ)) (k : Nat) :
    getSwitchIndex path = some k ↔ Reversed path k ∧ ∀ j, j < k → ¬ Reversed path j := by
  have key : (∀ k, getSwitchIndex path = some k → Reversed path k ∧ ∀ j, j < k → ¬ Reversed path j) ∧
      (getSwitchIndex path = none → ∀ k, ¬ Reversed path k) := by
    cases path with
    | nil =>
      refine ⟨fun k h => by simp [getSwitchIndex] at h, fun _ k hr => ?_⟩
      obtain ⟨⟨p, _, _, hp, _⟩, _⟩ := hr
      simp at hp
    | cons p ps =>
      refine switchFrom_spec (p :: ps) ps 1 p none (le_refl _) rfl rfl ?_
      intro j hj hm
      obtain ⟨_, _, h1, _⟩ := hm
      omega
  constructor
  · exact key.1 k
  · rintro ⟨h1, h2⟩
    cases h : getSwitchIndex path with
    | none => exact absurd h1 (key.2 h k)
    | some i =>
      obtain ⟨h3, h4⟩ := key.1 i h
      rcases lt_trichotomy i k with hlt | rfl | hgt
      · exact absurd h3 (h2 i hlt)
      · rfl
      · exact absurd h1 (h4 k hgt)

/-- None is found exactly for the paths that are driven in one direction. -/
theorem no_switch_iff (path : List (Pose ℝ)) :
    getSwitchIndex path = none ↔ ∀ i j, MovesTo path i → MovesTo path j → (BackwardTo path i ↔ BackwardTo path j) := by
  constructor
  · intro h i j hi hj
    by_contra hne
    have hex : ∃ k, Reversed path k := by
      rcases lt_trichotomy i j with hlt | rfl | hgt
      · exact ⟨j, hj, i, hlt, hi, hne⟩
      · exact absurd Iff.rfl hne
      · exact ⟨i, hi, j, hgt, hj, fun he => hne he.symm⟩
    classical
    have := (switch_index path (Nat.find hex)).mpr ⟨Nat.find_spec hex, fun j hj => Nat.find_min hex hj⟩
    rw [h] at this; cases this
  · intro h
    cases hs : getSwitchIndex path with
    | none => rfl
    | some k =>
      obtain ⟨⟨hm, j, _, hmj, hne⟩, _⟩ := (switch_index path k).mp hs
      exact absurd (h j k hmj hm) hne

/-- A path 10 cm forward and 10 cm back: the switch back found is the last pose, after the turn. -/
noncomputable def exPath : List (Pose ℝ) := [⟨0, 0, 0⟩, ⟨1 / 10, 0, 0⟩, ⟨0, 0, 0⟩]

open Classical in
theorem exPath_switch : getSwitchIndex exPath = some 2 := by
  have m1 : moved ⟨0, 0, 0⟩ (⟨1 / 10, 0, 0⟩ : Pose ℝ) := by unfold moved; norm_num
  have m2 : moved ⟨1 / 10, 0, 0⟩ (⟨0, 0, 0⟩ : Pose ℝ) := by unfold moved; norm_num
  have b1 : ¬ backward ⟨0, 0, 0⟩ (⟨1 / 10, 0, 0⟩ : Pose ℝ) := by unfold backward; simp
  have b2 : backward ⟨1 / 10, 0, 0⟩ (⟨0, 0, 0⟩ : Pose ℝ) := by unfold backward; simp
  unfold getSwitchIndex exPath
  dsimp only
  unfold switchFrom
  rw [if_pos m1]
  dsimp only
  unfold switchFrom
  rw [if_pos m2]
  dsimp only
  rw [if_pos (by rw [decide_eq_false b1, decide_eq_true b2]; decide)]

/-- The place remembered as the switch back is not where the robot turns (the pose before), but at least a millimetre after
it. -/
theorem switch_after_turn (path : List (Pose ℝ)) (k : Nat) (h : getSwitchIndex path = some k) :
    ∃ p q, path[k - 1]? = some p ∧ path[k]? = some q ∧ 1 / 1000 < Real.sqrt ((q.x - p.x) ^ 2 + (q.y - p.y) ^ 2) := by
  obtain ⟨⟨⟨p, q, _, hp, hq, hd⟩, _⟩, _⟩ := (switch_index path k).mp h
  exact ⟨p, q, hp, hq, hd⟩

/-! ### The heading test -/

theorem abs_arg_lt_iff (d t : ℝ) :
    |Complex.arg ⟨Real.cos d, Real.sin d⟩| < t ↔ ∃ k : Int, |d + 2 * Real.pi * k| < t := by
  have e : (⟨Real.cos d, Real.sin d⟩ : ℂ) = Complex.exp (d * Complex.I) := by
    apply Complex.ext
    · rw [Complex.exp_ofReal_mul_I_re]
    · rw [Complex.exp_ofReal_mul_I_im]
  have hpi := Real.pi_pos
  rw [e, Complex.arg_exp_mul_I]
  have hmem := toIocMod_mem_Ioc Real.two_pi_pos (-Real.pi) d
  have hself := toIocMod_add_toIocDiv_zsmul Real.two_pi_pos (-Real.pi) d
  rw [zsmul_eq_mul] at hself
  generalize toIocMod Real.two_pi_pos (-Real.pi) d = r at *
  generalize toIocDiv Real.two_pi_pos (-Real.pi) d = n at *
  obtain ⟨h1, h2⟩ := hmem
  constructor
  · intro h
    refine ⟨-n, ?_⟩
    have : d + 2 * Real.pi * ((-n : Int) : ℝ) = r := by push_cast; linarith
    rwa [this]
  · rintro ⟨k, hk⟩
    have hd : d + 2 * Real.pi * k = r + 2 * Real.pi * ((n + k : Int) : ℝ) := by push_cast; linarith
    rw [hd] at hk
    refine lt_of_le_of_lt ?_ hk
    generalize (n + k : Int) = m at *
    have hr : |r| ≤ Real.pi := abs_le.mpr ⟨by linarith, by linarith⟩
    rcases eq_or_ne m 0 with rfl | hm
    · simp
    · have h1m : (1 : ℝ) ≤ |(m : ℝ)| := by exact_mod_cast Int.one_le_abs hm
      have h2m : 2 * Real.pi ≤ |2 * Real.pi * (m : ℝ)| := by
        rw [abs_mul, abs_of_pos (by linarith : (0 : ℝ) < 2 * Real.pi)]
        nlinarith
      have h3 : |2 * Real.pi * (m : ℝ)| ≤ |r + 2 * Real.pi * (m : ℝ)| + |r| := by
        have := abs_sub (r + 2 * Real.pi * (m : ℝ)) r
        rwa [add_sub_cancel_left] at this
      linarith

theorem arrivedAt_iff (c : Cfg) (s w : Pose ℝ) : arrivedAt c s w ↔ At c s w := by
  unfold arrivedAt At
  rw [abs_arg_lt_iff, add_comm ((s.y - w.y) ^ 2)]

/-! ### Turns of the loop -/

theorem turn_none_iff (c : Cfg) (s : St) (o : Obs) :
    (turn c s.next s.node o).2 = none ↔ ¬ Urgent c s o ∧ o.now ≤ s.next := by
  unfold turn Urgent follows
  rw [← arrivedAt_iff]
  dsimp only
  by_cases h1 : o.hasMap = true ∧ o.jump = true
  · rw [if_pos h1]; simp [h1.1, h1.2]
  rw [if_neg h1]
  by_cases h2 : o.hasMap = true ∧ o.updated = true ∧ (o.path.getD s.node.prev).length > 1 ∧
      ((o.path.getD s.node.prev).any o.lethal) = true
  · rw [if_pos h2]
    obtain ⟨a, b, d, e⟩ := h2
    rw [List.any_eq_true] at e
    constructor
    · intro h; simp at h
    · rintro ⟨h, _⟩; exact absurd ⟨a, Or.inr (Or.inl ⟨b, d, e⟩)⟩ h
  rw [if_neg h2]
  by_cases h3 : o.hasMap = true ∧ s.node.isSw = true ∧ arrivedAt c o.start s.node.swPos
  · rw [if_pos h3]
    obtain ⟨a, b, d⟩ := h3
    constructor
    · intro h; simp at h
    · rintro ⟨h, _⟩; exact absurd ⟨a, Or.inr (Or.inr ⟨b, d⟩)⟩ h
  rw [if_neg h3]
  have hu : ¬ (o.hasMap = true ∧ (o.jump = true ∨
    (o.updated = true ∧ 2 ≤ (o.path.getD s.node.prev).length ∧ ∃ p ∈ o.path.getD s.node.prev, o.lethal p = true) ∨
    (s.node.isSw = true ∧ arrivedAt c o.start s.node.swPos))) := by
    rintro ⟨a, b | ⟨b, d, e⟩ | ⟨b, d⟩⟩
    · exact h1 ⟨a, b⟩
    · exact h2 ⟨a, b, d, List.any_eq_true.mpr e⟩
    · exact h3 ⟨a, b, d⟩
  by_cases h4 : o.now > s.next
  · rw [if_pos h4]; simp; intro _; exact h4
  · rw [if_neg h4]; simp only [true_iff]; exact ⟨hu, not_lt.mp h4⟩

theorem turn_time (c : Cfg) (s : St) (o : Obs) (h : (turn c s.next s.node o).2 = some .time) : s.next < o.now := by
  unfold turn at h
  dsimp only at h
  split at h
  · simp at h
  · split at h
    · simp at h
    · split at h
      · simp at h
      · split at h
        · assumption
        · simp at h

/-- **C107**, when.  In every state, a turn of the loop leads to a planning cycle exactly if there is something urgent or the
deadline has passed. -/
theorem plans_iff (c : Cfg) (s : St) (o : Obs) (y : Cycle) :
    (∃ r, (step c s o y).log = s.log ++ [(r, y.now)]) ↔ Urgent c s o ∨ s.next < o.now := by
  have h := turn_none_iff c s o
  unfold step
  rcases ht : turn c s.next s.node o with ⟨n, r⟩
  rw [ht] at h
  cases r with
  | none =>
    dsimp only
    obtain ⟨h1, h2⟩ := h.mp rfl
    constructor
    · rintro ⟨r, hr⟩; simp at hr
    · rintro (h3 | h3)
      · exact absurd h3 h1
      · exact absurd h3 (not_lt.mpr h2)
  | some r =>
    dsimp only
    refine ⟨fun _ => ?_, fun _ => ⟨r, rfl⟩⟩
    by_contra hn
    rw [not_or, not_lt] at hn
    have := h.mpr hn
    cases this

/-- ... and otherwise nothing but the followed path changes. -/
theorem waits (c : Cfg) (s : St) (o : Obs) (y : Cycle) (h1 : ¬ Urgent c s o) (h2 : o.now ≤ s.next) :
    step c s o y = { s with node := { s.node with prev := follows s o } } := by
  have h := (turn_none_iff c s o).mpr ⟨h1, h2⟩
  have e : (turn c s.next s.node o).1 = { s.node with prev := follows s o } := by
    have h' := h
    unfold turn at h' ⊢
    dsimp only at h' ⊢
    split at h'
    · simp at h'
    · rename_i g1
      rw [if_neg g1]
      split at h'
      · simp at h'
      · rename_i g2
        rw [if_neg g2]
        split at h'
        · simp at h'
        · rename_i g3
          rw [if_neg g3]
          split <;> rfl
  unfold step
  rcases ht : turn c s.next s.node o with ⟨n, r⟩
  rw [ht] at h e
  dsimp only at h e
  rw [h, e]

/-- The deadline after a history: the time of the last cycle (or the start) plus the period. -/
theorem deadline (c : Cfg) (t : ℝ) (w : Pose ℝ) (h : List (Obs × Cycle)) :
    (∀ l r u, (run c t w h).log = l ++ [(r, u)] → (run c t w h).next = u + period c (run c t w h).node) ∧
    ((run c t w h).log = [] → (run c t w h).next = t ∧ (run c t w h).node.isSw = false) := by
  induction h using List.reverseRecOn with
  | nil =>
    refine ⟨fun l r u e => ?_, fun _ => ⟨rfl, rfl⟩⟩
    have : (run c t w []).log = [] := rfl
    rw [this] at e
    simp at e
  | append_singleton h e ih =>
    have hrun : run c t w (h ++ [e]) = step c (run c t w h) e.1 e.2 := by
      unfold run; rw [List.foldl_append]; rfl
    rw [hrun]
    generalize run c t w h = s at *
    by_cases hp : Urgent c s e.1 ∨ s.next < e.1.now
    · have hp' := (plans_iff c s e.1 e.2).mpr hp
      unfold step at hp' ⊢
      rcases ht : turn c s.next s.node e.1 with ⟨n, r⟩
      rw [ht] at hp'
      cases r with
      | none => dsimp only at hp'; obtain ⟨r, hr⟩ := hp'; simp at hr
      | some r =>
        dsimp only
        refine ⟨fun l r' u hl => ?_, fun hl => by simp at hl⟩
        have := List.append_inj' hl rfl
        have h2 := (List.cons.inj this.2).1
        have h3 : e.2.now = u := congrArg Prod.snd h2
        rw [h3]
    · rw [not_or, not_lt] at hp
      rw [waits c s e.1 e.2 hp.1 hp.2]
      exact ih

/-- **C107**, latest.  A turn of the loop whose clock is past the last cycle by more than `1 / freq` and, unless a part of the previous path is kept, by more than
`sw_wait`, always plans. -/
theorem plans_in_time (c : Cfg) (t : ℝ) (w : Pose ℝ) (h : List (Obs × Cycle)) (l : List (Reason × ℝ)) (r : Reason) (u : ℝ)
    (o : Obs) (y : Cycle) (hl : (run c t w h).log = l ++ [(r, u)]) (ho : u + max (if c.keep then 1 / c.freq else c.swWait) (1 / c.freq) < o.now) :
    ∃ r', (run c t w (h ++ [(o, y)])).log = l ++ [(r, u), (r', y.now)] := by
  have hrun : run c t w (h ++ [(o, y)]) = step c (run c t w h) o y := by
    unfold run; rw [List.foldl_append]; rfl
  have hd := (deadline c t w h).1 l r u hl
  have hp : period c (run c t w h).node ≤ max (if c.keep then 1 / c.freq else c.swWait) (1 / c.freq) := by
    unfold period; split
    · exact le_max_left _ _
    · exact le_max_right _ _
  obtain ⟨r', hr⟩ := (plans_iff c (run c t w h) o y).mpr (Or.inr (by rw [hd]; linarith))
  exact ⟨r', by rw [hrun, hr, hl]; simp⟩

/-- **C107**, earliest.  A cycle that follows another one without an urgent reason comes later than the period: `1 / freq`, or
the waiting time if the path has a switch back that was not reached. -/
theorem regular_interval (c : Cfg) (t : ℝ) (w : Pose ℝ) (h : List (Obs × Cycle)) (l : List (Reason × ℝ)) (r r' : Reason) (u : ℝ)
    (o : Obs) (y : Cycle) (hl : (run c t w h).log = l ++ [(r, u)]) (hu : ¬ Urgent c (run c t w h) o) (hy : o.now ≤ y.now)
    (hr : (run c t w (h ++ [(o, y)])).log = l ++ [(r, u), (r', y.now)]) :
    u + period c (run c t w h).node < y.now := by
  have hrun : run c t w (h ++ [(o, y)]) = step c (run c t w h) o y := by
    unfold run; rw [List.foldl_append]; rfl
  have hd := (deadline c t w h).1 l r u hl
  rw [hrun] at hr
  have : ∃ r, (step c (run c t w h) o y).log = (run c t w h).log ++ [(r, y.now)] := ⟨r', by rw [hr, hl]; simp⟩
  rcases (plans_iff c _ o y).mp this with h1 | h1
  · exact absurd h1 hu
  · rw [hd] at h1; linarith

/-- The switch back waited for after a cycle that planned: the first reversal of the planned path, if the planner is to wait at
switch backs. -/
theorem switch_remembered (c : Cfg) (n : Node) (y : Cycle) (ha : y.active = true) (hp : y.planned = true) (hk : c.keep = false)
    (hw : 0 < c.swWait) :
    ((plan c n y).isSw = true ↔ ∃ k, Reversed y.path k) ∧
    (∀ k, Reversed y.path k → (∀ j, j < k → ¬ Reversed y.path j) → y.path[k]? = some (plan c n y).swPos) := by
  have hw' : c.wait > 0 := by unfold Cfg.wait; rw [hk]; simpa using hw
  unfold plan
  dsimp only
  rw [if_pos ha, if_pos ⟨hp, hw', hk⟩]
  cases hs : getSwitchIndex y.path with
  | none =>
    have hno : ∀ k, ¬ Reversed y.path k := by
      intro k hrev
      obtain ⟨hm, j, _, hmj, hne⟩ := hrev
      exact hne ((no_switch_iff y.path).mp hs j k hmj hm)
    refine ⟨⟨fun h => by simp at h, fun ⟨k, hk⟩ => absurd hk (hno k)⟩, fun k hk => absurd hk (hno k)⟩
  | some i =>
    obtain ⟨h1, h2⟩ := (switch_index y.path i).mp hs
    refine ⟨⟨fun _ => ⟨i, h1⟩, fun _ => rfl⟩, fun k hk hmin => ?_⟩
    have hki := (switch_index y.path k).mpr ⟨hk, hmin⟩
    rw [hs] at hki
    obtain rfl := Option.some.inj hki
    obtain ⟨_, q, _, _, hq, _⟩ := hk.1
    dsimp only
    rw [hq, List.getD_eq_getElem?_getD, hq]
    rfl

/-- No waiting at switch backs if a part of the previous path is kept, or if the waiting time is zero: after an active cycle the
period is `1 / freq`. -/
theorem no_switch_wait (c : Cfg) (n : Node) (y : Cycle) (ha : y.active = true) (h : c.keep = true ∨ c.swWait ≤ 0) :
    period c (plan c n y) = 1 / c.freq := by
  have : ¬ (y.planned = true ∧ c.wait > 0 ∧ c.keep = false) := by
    rintro ⟨_, hw, hk⟩
    rcases h with h | h
    · rw [hk] at h; cases h
    · unfold Cfg.wait at hw; rw [hk] at hw; simp at hw; linarith
  unfold plan period
  dsimp only
  rw [if_pos ha, if_neg this]
  simp

/-- A cycle without goal, map, position or recent costmap keeps the switch back of the path that is no longer followed: the
planner waits for it, although nothing is planned.  So a goal sent after a cancel can wait `sw_wait` instead of `1 / freq`. -/
theorem stale_switch (c : Cfg) (n : Node) (y : Cycle) (ha : y.active = false) :
    (plan c n y).isSw = n.isSw ∧ (n.isSw = true → period c (plan c n y) = c.wait) := by
  unfold plan period
  dsimp only
  rw [if_neg (by simp [ha])]
  exact ⟨rfl, fun h => by dsimp only; rw [if_pos h]⟩

/-- Arriving uses up the switch back: if a cycle takes place because the robot arrived, it was waiting for a switch back and is there;
and it waits for one again only if the cycle planned a new path that turns back, namely for the first place at which it does. -/
theorem arrival_consumed (c : Cfg) (s : St) (o : Obs) (y : Cycle) (h : (step c s o y).log = s.log ++ [(.arrived, y.now)]) :
    (s.node.isSw = true ∧ At c o.start s.node.swPos) ∧
    ((step c s o y).node.isSw = true → y.active = true ∧ y.planned = true ∧ c.keep = false ∧
      ∃ k, Reversed y.path k ∧ (∀ j, j < k → ¬ Reversed y.path j) ∧ y.path[k]? = some (step c s o y).node.swPos) ∧
    (y.active = false → (step c s o y).next = y.now + 1 / c.freq) := by
  have key : s.node.isSw = true ∧ arrivedAt c o.start s.node.swPos ∧ (turn c s.next s.node o).1.isSw = false ∧
      (turn c s.next s.node o).2 = some .arrived := by
    have ht : (turn c s.next s.node o).2 = some .arrived := by
      unfold step at h
      rcases ht : turn c s.next s.node o with ⟨n, r⟩
      rw [ht] at h
      cases r with
      | none => simp at h
      | some r => simpa using h
    unfold turn at ht ⊢
    dsimp only at ht ⊢
    split at ht
    · simp at ht
    · rename_i g1
      rw [if_neg g1]
      split at ht
      · simp at ht
      · rename_i g2
        rw [if_neg g2]
        split at ht
        · rename_i g3
          rw [if_pos g3]
          exact ⟨g3.2.1, g3.2.2, rfl, rfl⟩
        · split at ht <;> simp at ht
  obtain ⟨h1, h2, h3, h4⟩ := key
  refine ⟨⟨h1, (arrivedAt_iff _ _ _).1 h2⟩, ?_⟩
  unfold step
  rcases ht : turn c s.next s.node o with ⟨n, r⟩
  rw [ht] at h3 h4
  dsimp only at h3 h4
  rw [h4]
  dsimp only
  constructor
  · intro hs
    by_cases ha : y.active = true
    · by_cases hp : y.planned = true ∧ c.wait > 0 ∧ c.keep = false
      · have hw : 0 < c.swWait := by
          have := hp.2.1; unfold Cfg.wait at this; rw [hp.2.2] at this; simpa using this
        obtain ⟨g1, g2⟩ := switch_remembered c n y ha hp.1 hp.2.2 hw
        have hex := g1.1 hs
        classical
        exact ⟨ha, hp.1, hp.2.2, Nat.find hex, Nat.find_spec hex, fun j hj => Nat.find_min hex hj,
          g2 _ (Nat.find_spec hex) fun j hj => Nat.find_min hex hj⟩
      · exfalso
        unfold plan at hs
        dsimp only at hs
        rw [if_pos ha, if_neg hp] at hs
        cases hs
    · rw [(stale_switch c n y (by simpa using ha)).1, h3] at hs
      cases hs
  · intro ha
    unfold period
    rw [(stale_switch c n y ha).1, h3]
    simp

/-! ### A concrete history -/

/-- 4 Hz, 2 s at switch backs. -/
noncomputable def exCfg : Cfg := ⟨4, 2, false, 1 / 20, 1 / 10⟩

/-- A turn in which nothing happens. -/
noncomputable def quiet (now : ℝ) : Obs := ⟨true, false, none, false, fun _ => false, ⟨5, 5, 0⟩, now⟩

/-- A cycle that plans `exPath`. -/
noncomputable def exCycle (now : ℝ) : Cycle := ⟨now, true, true, exPath, exPath⟩

/-- A cycle without goal. -/
noncomputable def idle (now : ℝ) : Cycle := ⟨now, false, false, [], []⟩

theorem ex_first : run exCfg 0 ⟨0, 0, 0⟩ [(quiet 1, exCycle 1)] = ⟨3, ⟨true, ⟨0, 0, 0⟩, exPath⟩, [(.time, 1)]⟩ := by
  have e : run exCfg 0 ⟨0, 0, 0⟩ [(quiet 1, exCycle 1)] = step exCfg (init 0 ⟨0, 0, 0⟩) (quiet 1) (exCycle 1) := rfl
  rw [e]
  unfold step turn quiet init plan exCycle
  simp [exPath_switch, exCfg, Cfg.wait, period]
  constructor
  · norm_num
  · unfold exPath; simp

/-- The path of the first cycle has a switch back, so the next one is due after 2 s: nothing is planned 1.9 s later.  Then the
goal is cancelled; the idle cycle leaves the switch back, and the planner waits another 2 s. -/
example : (run exCfg 0 ⟨0, 0, 0⟩ [(quiet 1, exCycle 1), (quiet (29 / 10), exCycle 3)]).log = [(.time, 1)] ∧
    (run exCfg 0 ⟨0, 0, 0⟩ [(quiet 1, exCycle 1), (quiet 4, idle 4)]).next = 6 := by
  have hu : ∀ v, ¬ Urgent exCfg (run exCfg 0 ⟨0, 0, 0⟩ [(quiet 1, exCycle 1)]) (quiet v) := by
    intro v h
    rw [ex_first] at h
    obtain ⟨_, h | ⟨h, _⟩ | ⟨_, h, _⟩⟩ := h
    · simp [quiet] at h
    · simp [quiet] at h
    · have h5 : (5 : ℝ) ≤ Real.sqrt (((quiet v).start.x - 0) ^ 2 + ((quiet v).start.y - 0) ^ 2) := by
        apply Real.le_sqrt_of_sq_le; unfold quiet; norm_num
      unfold exCfg at h
      dsimp only at h
      linarith
  constructor
  · have e : run exCfg 0 ⟨0, 0, 0⟩ [(quiet 1, exCycle 1), (quiet (29 / 10), exCycle 3)] =
      step exCfg (run exCfg 0 ⟨0, 0, 0⟩ [(quiet 1, exCycle 1)]) (quiet (29 / 10)) (exCycle 3) := rfl
    rw [e, waits _ _ _ _ (hu _) (by rw [ex_first]; unfold quiet; norm_num), ex_first]
  · have e : run exCfg 0 ⟨0, 0, 0⟩ [(quiet 1, exCycle 1), (quiet 4, idle 4)] =
      step exCfg (run exCfg 0 ⟨0, 0, 0⟩ [(quiet 1, exCycle 1)]) (quiet 4) (idle 4) := rfl
    have hs := deadline exCfg 0 ⟨0, 0, 0⟩ [(quiet 1, exCycle 1), (quiet 4, idle 4)]
    obtain ⟨r, hr⟩ := (plans_iff exCfg (run exCfg 0 ⟨0, 0, 0⟩ [(quiet 1, exCycle 1)]) (quiet 4) (idle 4)).mpr
      (Or.inr (by rw [ex_first]; unfold quiet; norm_num))
    rw [← e, ex_first] at hr
    have h6 := hs.1 _ _ _ hr
    rw [h6]
    have hsw : (run exCfg 0 ⟨0, 0, 0⟩ [(quiet 1, exCycle 1), (quiet 4, idle 4)]).node.isSw = true := by
      have hna : ¬ arrivedAt exCfg (quiet 4).start ⟨0, 0, 0⟩ := by
        rw [arrivedAt_iff]
        intro ha
        exact hu 4 ⟨rfl, Or.inr (Or.inr (by rw [ex_first]; exact ⟨rfl, ha⟩))⟩
      rw [e, ex_first]
      unfold step turn
      dsimp only
      rw [if_neg (by simp [quiet]), if_neg (by simp [quiet]), if_neg (by intro h; exact hna h.2.2),
        if_pos (by unfold quiet; norm_num)]
      dsimp only
      rw [(stale_switch exCfg _ (idle 4) rfl).1]
    unfold period
    rw [if_pos hsw]
    unfold idle exCfg Cfg.wait
    norm_num

/-- The robot arrives where the path turns back after one second: the cycle comes at once, and if the goal is cancelled meanwhile the next
one is due after a quarter of a second. -/
example : (run exCfg 0 ⟨0, 0, 0⟩ [(quiet 1, exCycle 1), ({ quiet 2 with start := ⟨0, 0, 0⟩ }, idle 2)]).log = [(.time, 1), (.arrived, 2)] ∧
    (run exCfg 0 ⟨0, 0, 0⟩ [(quiet 1, exCycle 1), ({ quiet 2 with start := ⟨0, 0, 0⟩ }, idle 2)]).next = 9 / 4 := by
  have e : run exCfg 0 ⟨0, 0, 0⟩ [(quiet 1, exCycle 1), ({ quiet 2 with start := ⟨0, 0, 0⟩ }, idle 2)] =
    step exCfg (run exCfg 0 ⟨0, 0, 0⟩ [(quiet 1, exCycle 1)]) { quiet 2 with start := ⟨0, 0, 0⟩ } (idle 2) := rfl
  have ha : arrivedAt exCfg ⟨0, 0, 0⟩ ⟨0, 0, 0⟩ := by
    rw [arrivedAt_iff]
    refine ⟨?_, 0, ?_⟩ <;> norm_num [exCfg]
  have hl : (step exCfg (run exCfg 0 ⟨0, 0, 0⟩ [(quiet 1, exCycle 1)]) { quiet 2 with start := ⟨0, 0, 0⟩ } (idle 2)).log =
      (run exCfg 0 ⟨0, 0, 0⟩ [(quiet 1, exCycle 1)]).log ++ [(.arrived, (idle 2).now)] := by
    rw [ex_first]
    unfold step turn
    dsimp only
    rw [if_neg (by simp [quiet]), if_neg (by simp [quiet]), if_pos ⟨rfl, rfl, ha⟩]
  have h := arrival_consumed _ _ _ _ hl
  rw [e]
  refine ⟨by rw [hl, ex_first]; rfl, ?_⟩
  rw [h.2.2 rfl]
  unfold idle exCfg
  norm_num

end Verif.Replan
