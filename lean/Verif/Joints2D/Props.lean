import Verif.Joints2D.Node
/-! # Obligations of the planner for two serial joints -/
set_option linter.unusedVariables false
set_option linter.unusedSectionVars false
namespace Verif.Joints2D
open Verif.Model3D (cycU cycS)
open Verif.CSpace (lround)
open Verif.Astar.Vec (Search)
variable {K : Type} [Field K] [LinearOrder K] [IsStrictOrderedRing K] [FloorRing K]

/-! ## Parameters for the examples -/

/-- Eight cells per turn, each 3/4 wide ("π" is 3). -/
def par0 : Par ℚ :=
  { res := 8, range := 2, expand := 3 / 2, weight := 1, coef := (1, 1), vmax := (1, 2), mode := .prev, name := (0, 1), pi := 3 }

theorem par0_sane : Sane par0 := by
  constructor <;> norm_num [par0]

/-- No obstacle. -/
def open0 : Int × Int → Int := fun _ => 0

/-- The search fails. -/
def lost : Int × Int → Int × Int → Option (List (Int × Int)) := fun _ _ => none

/-- The joints are at `a`. -/
def at0 (a b : ℚ) : Event ℚ := .joint [0, 1] [a, b] true lost

/-- Move to `(a, b)` within `t`. -/
def to0 (t a b : ℚ) : Event ℚ := .command ⟨[0, 1], [(t, [a, b])]⟩ lost

/-- What an event makes the node publish. -/
def outputs (p : Par K) (m : Int × Int → Int) (h : List (Event K)) (e : Event K) : Option (Option (List (Pt K))) :=
  (run p m h).bind fun s => (step p m s e).map Prod.snd

theorem outputs_some {p : Par K} {m : Int × Int → Int} {h : List (Event K)} {e : Event K} {o} (ho : outputs p m h e = some o) :
    ∃ s s', run p m h = some s ∧ step p m s e = some (s', o) := by
  unfold outputs at ho
  obtain ⟨s, h1, h2⟩ := Option.bind_eq_some_iff.mp ho
  obtain ⟨⟨s', o'⟩, h3, rfl⟩ := Option.map_eq_some_iff.mp h2
  exact ⟨s, s', h1, h3⟩

/-! ## C55: speed limits, the end of the motion -/

/-- Every published trajectory whose times are defined starts from the last reported position and respects both speed limits. -/
theorem limits_respected (p : Par K) (hv : 0 < p.vmax.1 ∧ 0 < p.vmax.2) (m : Int × Int → Int) (h : List (Event K)) (s s' : St K) (e : Event K)
    (tr : List (Pt K)) (hr : run p m h = some s) (hs : step p m s e = some (s', some tr)) (hd : ∀ x ∈ tr, x.time ≠ none) :
    Respects p.vmax s'.cur 0 tr := by
  obtain ⟨t, goal, plan, -, hm, hc, -⟩ := published p hv m s s' e tr (run_pace p hv m h s hr) hs
  rcases hc with ⟨-, rfl⟩ | ⟨path, hp, rfl, ⟨v0, v1, v2⟩, -⟩
  · exact ⟨0, rfl, le_refl _, by simp, by simp, trivial⟩
  · rcases path_start p m _ s'.cur goal plan hm path hp with ⟨x, rfl⟩ | ⟨l, rfl⟩
    · exact trivial
    · unfold trajectory at hd ⊢
      cases l with
      | nil => exact trivial
      | cons x l =>
        have hv0 : s'.avg ≠ 0 := by
          intro h0
          rw [h0] at hd
          exact hd _ List.mem_cons_self (by simp [div?])
        have := points_respects p s'.avg (lt_of_le_of_ne v0 hv0.symm) v1 v2 (x :: l) s'.cur 0
        rwa [zero_div] at this

example : ∃ s s' tr, run par0 open0 [at0 0 0] = some s ∧ step par0 open0 s (to0 1 1 1) = some (s', some tr) ∧ Respects par0.vmax s'.cur 0 tr ∧
    final tr = some (1, 1) := by
  obtain ⟨s, s', h1, h2⟩ := outputs_some (show outputs par0 open0 [at0 0 0] (to0 1 1 1) = some (some [⟨(1, 1), some (0, 0), some 1⟩]) by decide +kernel)
  exact ⟨s, s', _, h1, h2, limits_respected par0 par0_sane.vmax open0 _ s s' _ _ h1 h2 (by simp), rfl⟩

/-- The way-point velocities, where defined, respect the limits as well. -/
theorem velocity_limits (p : Par K) (hv : 0 < p.vmax.1 ∧ 0 < p.vmax.2) (m : Int × Int → Int) (h : List (Event K)) (s s' : St K) (e : Event K)
    (tr : List (Pt K)) (hr : run p m h = some s) (hs : step p m s e = some (s', some tr)) :
    ∀ x ∈ tr, ∀ w, x.vel = some w → |w.1| ≤ p.vmax.1 ∧ |w.2| ≤ p.vmax.2 := by
  obtain ⟨t, goal, plan, -, hm, hc, -⟩ := published p hv m s s' e tr (run_pace p hv m h s hr) hs
  have zero : ∀ w : K × K, some ((0 : K), (0 : K)) = some w → |w.1| ≤ p.vmax.1 ∧ |w.2| ≤ p.vmax.2 := by
    intro w hw
    cases hw
    simp [hv.1.le, hv.2.le]
  rcases hc with ⟨-, rfl⟩ | ⟨path, hp, rfl, ⟨v0, v1, v2⟩, -⟩
  · intro x hx w hw
    rw [hold, List.mem_singleton] at hx
    subst hx
    exact zero w hw
  · generalize s'.avg = v at *
    have hvel : ∀ (a b : K × K) (n : Option (K × K)) (w : K × K), velocity p v a b n = some w → |w.1| ≤ p.vmax.1 ∧ |w.2| ≤ p.vmax.2 := by
      intro a b n w hw
      cases n with
      | none => exact zero w hw
      | some nx =>
        unfold velocity at hw
        dsimp only at hw
        generalize direction p a b nx = d at hw
        unfold div? at hw
        by_cases hvz : v = 0
        · rw [if_pos hvz] at hw; cases hw
        rw [if_neg hvz] at hw
        simp only [Option.bind_some] at hw
        by_cases ht : max |d.1| |d.2| / v = 0
        · rw [if_pos ht] at hw; cases hw
        simp only [if_neg ht, Option.bind_some, Option.map_some] at hw
        cases hw
        have vpos : 0 < v := lt_of_le_of_ne v0 (Ne.symm hvz)
        have mpos : 0 < max |d.1| |d.2| := by
          refine lt_of_le_of_ne (le_max_of_le_left (abs_nonneg _)) ?_
          intro h0
          rw [← h0, zero_div] at ht
          exact ht rfl
        have key : ∀ y : K, |y| ≤ max |d.1| |d.2| → |y / (max |d.1| |d.2| / v)| ≤ v := by
          intro y hy
          rw [abs_div, abs_of_pos (div_pos mpos vpos), div_le_iff₀ (div_pos mpos vpos)]
          have : v * (max |d.1| |d.2| / v) = max |d.1| |d.2| := by field_simp
          rw [this]; exact hy
        exact ⟨(key _ (le_max_left _ _)).trans v1, (key _ (le_max_right _ _)).trans v2⟩
    have hpts : ∀ (l : List (K × K)) (prev : K × K) (sum : K), ∀ x ∈ points p v prev sum l, ∀ w, x.vel = some w →
        |w.1| ≤ p.vmax.1 ∧ |w.2| ≤ p.vmax.2 := by
      intro l
      induction l with
      | nil => intro _ _ x hx; cases hx
      | cons y l ih =>
        intro prev sum x hx w hw
        rcases List.mem_cons.mp hx with rfl | hx
        · exact hvel _ _ _ w hw
        · exact ih _ _ x hx w hw
    cases path with
    | nil => intro x hx; cases hx
    | cons a l => exact hpts l a 0

theorem points_directed (p : Par K) (v : K) (hv : 0 ≤ v) : ∀ (l : List (K × K)) (prev : K × K) (sum : K), Directed p v prev (points p v prev sum l)
  | [], _, _ => trivial
  | [x], _, _ => trivial
  | x :: y :: l, prev, sum => by
    refine ⟨?_, ?_, points_directed p v hv (y :: l) x _⟩
    all_goals
      dsimp only [points, List.head?_cons, velocity]
      rw [show direction p prev x y = chord p prev x y from rfl]
      generalize chord p prev x y = d
      unfold div?
    · intro w hw
      by_cases hvz : v = 0
      · rw [if_pos hvz] at hw; cases hw
      rw [if_neg hvz] at hw
      simp only [Option.bind_some] at hw
      by_cases ht : max |d.1| |d.2| / v = 0
      · rw [if_pos ht] at hw; cases hw
      simp only [if_neg ht, Option.bind_some, Option.map_some] at hw
      cases hw
      have vpos : 0 < v := lt_of_le_of_ne hv (Ne.symm hvz)
      have mpos : 0 < max |d.1| |d.2| := by
        refine lt_of_le_of_ne (le_max_of_le_left (abs_nonneg _)) ?_
        intro h0
        rw [← h0, zero_div] at ht
        exact ht rfl
      refine ⟨v / max |d.1| |d.2|, div_pos vpos mpos, ?_, ?_⟩
      · ext <;> dsimp only <;> field_simp
      · have hq : 0 < max |d.1| |d.2| / v := div_pos mpos vpos
        dsimp only
        rw [abs_div d.1, abs_div d.2, abs_of_pos hq, max_div_div_right hq.le]
        field_simp
    · intro hw
      by_cases hvz : v = 0
      · exact .inl hvz
      right
      rw [if_neg hvz] at hw
      simp only [Option.bind_some] at hw
      by_cases ht : max |d.1| |d.2| / v = 0
      · have h0 : max |d.1| |d.2| = 0 := by
          rcases div_eq_zero_iff.mp ht with h | h
          · exact h
          · exact absurd h hvz
        have h1 := le_max_left |d.1| |d.2|
        have h2 := le_max_right |d.1| |d.2|
        rw [h0] at h1 h2
        exact Prod.ext (abs_nonpos_iff.mp h1) (abs_nonpos_iff.mp h2)
      · simp only [if_neg ht, Option.bind_some, Option.map_some] at hw
        cases hw

/-- The way-point velocities of a published trajectory point along the chord the parameter asks for, the faster joint moving at the common speed. -/
theorem velocity_direction (p : Par K) (hv : 0 < p.vmax.1 ∧ 0 < p.vmax.2) (m : Int × Int → Int) (h : List (Event K)) (s s' : St K) (e : Event K)
    (tr : List (Pt K)) (hr : run p m h = some s) (hs : step p m s e = some (s', some tr)) : Directed p s'.avg s'.cur tr := by
  obtain ⟨t, goal, plan, -, hm, hc, -⟩ := published p hv m s s' e tr (run_pace p hv m h s hr) hs
  rcases hc with ⟨-, rfl⟩ | ⟨path, hp, rfl, ⟨v0, -, -⟩, -⟩
  · exact trivial
  · rcases path_start p m _ s'.cur goal plan hm path hp with ⟨x, rfl⟩ | ⟨l, rfl⟩
    · exact trivial
    · exact points_directed p _ v0 l _ 0

/-- Every published trajectory ends at rest, at the target of the last command: exactly, or an even number of full turns away.  The
exceptions are targets at negative angles exactly half way between two cells, and the stay-where-you-are trajectory that is published
when there is no way. -/
theorem ends_at_target (p : Par K) (hp : Sane p) (m : Int × Int → Int) (ij : Nat × Nat) (h : List (Event K)) (e : Event K)
    (hord : SameOrder p ij (h ++ [e])) (s s' : St K) (tr : List (Pt K)) (hr : run p m h = some s) (hs : step p m s e = some (s', some tr))
    (hf : Sound p m e.found) :
    AtRest tr ∧ ∃ t g, lastTarget p (h ++ [e]) = some (t, g) ∧ (tr = hold s'.cur ∨ ∃ x, final tr = some x ∧
      (¬ NegativeTie p g.1 → SameAngle p.pi x.1 g.1) ∧ (¬ NegativeTie p g.2 → SameAngle p.pi x.2 g.2)) := by
  have hr' : run p m (h ++ [e]) = some s' := by rw [run_snoc, hr, Option.bind_some, hs]; rfl
  have aim := aim_run p m ij (h ++ [e]) hord s' hr'
  obtain ⟨t, goal, plan, ⟨l, i, j, k1, k2, k3⟩, hm, hc, -⟩ := published p hp.vmax m s s' e tr (run_pace p hp.vmax m h s hr) hs
  have hlt : lastTarget p (h ++ [e]) = some (t, goal) := by
    rcases aim with ⟨-, h2, -⟩ | ⟨h1, h2, h3⟩
    · rw [h2] at k1; cases k1
    · rcases h3 with ⟨h3, -⟩ | ⟨l', h3, h4⟩
      · rw [h3] at k1; cases k1
      · rw [h3] at k1
        cases k1
        rw [h2] at k2
        cases k2
        rw [h1]
        rw [show pick (ij.1, ij.2) l = pick ij l from rfl, h4] at k3
        cases k3
        rfl
  rcases hc with ⟨-, rfl⟩ | ⟨path, hpa, rfl, -, -⟩
  · exact ⟨⟨_, rfl, rfl⟩, t, goal, hlt, .inl rfl⟩
  · obtain ⟨l', hne, rfl, x, hx, hx1, hx2⟩ := path_shape p hp m _ hf s'.cur goal plan hm path hpa
    obtain ⟨z, h1, h2, h3, -⟩ := points_last p s'.avg l' s'.cur 0 hne
    refine ⟨⟨z, h1, h2⟩, t, goal, hlt, .inr ⟨x, ?_, hx1, hx2⟩⟩
    unfold final trajectory
    rw [h1, Option.map_some, ← h3, hx]

/-! ### A way around an obstacle -/

/-- A map with one obstacle, at the cell `(x, y)` of the first turn and its images. -/
def post (x y : Int) : Int × Int → Int := fun c => if c.1 % 8 = x ∧ c.2 % 8 = y then 100 else 0

/-- A search that knows one way. -/
def knows (cs : List (Int × Int)) : Int × Int → Int × Int → Option (List (Int × Int)) := fun a b =>
  if cs.head? = some a ∧ cs.getLast? = some b then some cs else none

theorem knows_sound (m : Int × Int → Int) (cs : List (Int × Int)) (h : cs.IsChain (Legal par0 m)) : Sound par0 m (knows cs) := by
  intro a b cs' _ _ hk
  unfold knows at hk
  split at hk
  · rename_i hc; cases hk; exact ⟨hc.1, hc.2, h⟩
  · cases hk

/-- Legality of a concrete move. -/
def legal0 (m : Int × Int → Int) (a d b : Int × Int) : Bool :=
  inMap par0 b && decide (|d.1| ≤ 2 ∧ |d.2| ≤ 2 ∧ (b.1 - a.1 - d.1) % 16 = 0 ∧ (b.2 - a.2 - d.2) % 16 = 0) &&
  (List.range (samples d)).all fun i => decide (m (sample par0 a d i) ≤ 99)

theorem legal0_legal (m : Int × Int → Int) (a d b : Int × Int) (h : legal0 m a d b = true) : Legal par0 m a b := by
  unfold legal0 at h
  simp only [Bool.and_eq_true, decide_eq_true_eq, List.all_eq_true, List.mem_range] at h
  obtain ⟨⟨h1, h2, h3, h4, h5⟩, h6⟩ := h
  refine ⟨h1, d, h2, h3, ⟨⟨(b.1 - a.1 - d.1) / 16, ?_⟩, ⟨(b.2 - a.2 - d.2) / 16, ?_⟩⟩, h6⟩
  · have : par0.res * 2 = 16 := rfl
    rw [this]; omega
  · have : par0.res * 2 = 16 := rfl
    rw [this]; omega

/-- Around an obstacle to the first joint's angle 9/4. -/
def around : Event ℚ := .command ⟨[0, 1], [(0, [9 / 4, 0])]⟩ (knows [(8, 8), (9, 9), (11, 8)])

theorem around_sound : Sound par0 (post 1 0) around.found :=
  knows_sound _ _ (.cons_cons (legal0_legal _ (8, 8) (1, 1) (9, 9) (by decide +kernel))
    (.cons_cons (legal0_legal _ (9, 9) (2, -1) (11, 8) (by decide +kernel)) (.singleton _)))

theorem around_out : outputs par0 (post 1 0) [at0 0 0] around =
    some (some [⟨(3 / 4, 3 / 4), some (1, 1), some (3 / 4)⟩, ⟨(9 / 4, 0), some (0, 0), some (9 / 4)⟩]) := by decide +kernel

example : ∃ s s' tr x, run par0 (post 1 0) [at0 0 0] = some s ∧ step par0 (post 1 0) s around = some (s', some tr) ∧
    AtRest tr ∧ final tr = some x ∧ SameAngle par0.pi x.1 (9 / 4) := by
  obtain ⟨s, s', h1, h2⟩ := outputs_some around_out
  obtain ⟨h3, t, g, h4, h5⟩ := ends_at_target par0 par0_sane (post 1 0) (0, 1) [at0 0 0] around (by
    intro e he
    rcases List.mem_append.mp he with he | he <;> rw [List.mem_singleton] at he <;> subst he
    · trivial
    · show indices par0 [0, 1] = _; decide) s s' _ h1 h2 around_sound
  have hg : lastTarget par0 ([at0 0 0] ++ [around]) = some (0, (9 / 4, 0)) := by decide +kernel
  rw [hg] at h4
  cases h4
  rcases h5 with h5 | ⟨x, h5, h6, -⟩
  · exact absurd (congrArg List.length h5) (by simp [hold])
  · exact ⟨s, s', _, x, h1, h2, h3, h5, h6 (by rintro ⟨h, -⟩; norm_num at h)⟩

/-- On the way around the obstacle the velocity at the way-point points from the start (`prev`). -/
example : ∃ s s' x y, run par0 (post 1 0) [at0 0 0] = some s ∧ step par0 (post 1 0) s around = some (s', some [x, y]) ∧ Directed par0 s'.avg s'.cur [x, y] ∧ x.vel = some (1, 1) := by
  obtain ⟨s, s', h1, h2⟩ := outputs_some around_out
  exact ⟨s, s', _, _, h1, h2, velocity_direction par0 par0_sane.vmax _ _ s s' _ _ h1 h2, rfl⟩

/-! ### Where it fails -/

/-- A command for the present position that asks for a positive duration yields a trajectory without a defined time (0/0), and so do
the trajectories that are published for it later, when the joints have moved away. -/
theorem standstill_undefined :
    outputs par0 open0 [at0 0 0] (to0 1 0 0) = some (some [⟨(0, 0), some (0, 0), none⟩]) ∧
    outputs par0 open0 [at0 0 0, to0 1 0 0] (at0 1 0) = some (some [⟨(0, 0), some (0, 0), none⟩]) := by
  constructor <;> decide +kernel

/-- A negative target half way between two cells, reached by a search, is missed by a cell. -/
theorem negative_tie_missed :
    NegativeTie par0 (-3 / 8) ∧
    outputs par0 (post 0 1) [at0 0 0] (.command ⟨[0, 1], [(0, [-3 / 8, 9 / 4])]⟩ (knows [(8, 8), (7, 9), (7, 11)])) =
      some (some [⟨(-3 / 4, 3 / 4), some (-1, 1), some (3 / 4)⟩, ⟨(-9 / 8, 9 / 4), some (0, 0), some (9 / 4)⟩]) ∧
    Sound par0 (post 0 1) (knows [(8, 8), (7, 9), (7, 11)]) :=
  ⟨⟨by norm_num, -1, by norm_num [par0]⟩, by decide +kernel,
    knows_sound _ _ (.cons_cons (legal0_legal _ (8, 8) (-1, 1) (7, 9) (by decide +kernel))
      (.cons_cons (legal0_legal _ (7, 9) (0, 2) (7, 11) (by decide +kernel)) (.singleton _)))⟩

/-- A way found through the end of the angle range ends two full turns (here 12) from the target. -/
theorem two_turns_away :
    outputs par0 (post 0 0) [at0 (21 / 4) 0] (.command ⟨[0, 1], [(0, [-9 / 2, 0])]⟩ (knows [(15, 8), (0, 9), (2, 8)])) =
      some (some [⟨(6, 3 / 4), some (1, 1), some (3 / 4)⟩, ⟨(-9 / 2 + 12, 0), some (0, 0), some (9 / 4)⟩]) ∧
    Sound par0 (post 0 0) (knows [(15, 8), (0, 9), (2, 8)]) :=
  ⟨by decide +kernel, knows_sound _ _ (.cons_cons (legal0_legal _ (15, 8) (1, 1) (0, 9) (by decide +kernel))
      (.cons_cons (legal0_legal _ (0, 9) (2, -1) (2, 8) (by decide +kernel)) (.singleton _)))⟩

/-! ## C91: the requested duration -/

/-- The last point's time. -/
def duration (tr : List (Pt K)) : Option K := tr.getLast?.bind Pt.time

/-- The trajectory of a new command takes the requested time, or, if the speed limits do not allow that, the shortest time they
allow at equal pace. -/
theorem requested_duration (p : Par K) (hp : Sane p) (m : Int × Int → Int) (h : List (Event K)) (c : Cmd K) (f) (s s' : St K)
    (tr : List (Pt K)) (hr : run p m h = some s) (hs : step p m s (.command c f) = some (s', some tr)) (hf : Sound p m f) (t : K) (g : K × K)
    (hc : target p c = some (t, g)) (ht : 0 < t) (hw : 0 < way s.cur tr) :
    duration tr = some (max t (max (way s.cur tr / p.vmax.1) (way s.cur tr / p.vmax.2))) := by
  obtain ⟨t', goal, plan, -, hm, hc', hfr⟩ := published p hp.vmax m s s' _ tr (run_pace p hp.vmax m h s hr) hs
  obtain ⟨q1, -, -, q4⟩ := hfr c f rfl
  rw [hc] at q1
  cases q1
  rcases hc' with ⟨-, rfl⟩ | ⟨path, hpa, rfl, -, havg⟩
  · rw [q4] at hw; simp [hold, way] at hw
  · obtain ⟨l', hne, rfl, -⟩ := path_shape p hp m _ hf s'.cur g plan hm path hpa
    obtain ⟨z, h1, -, -, h4⟩ := points_last p s'.avg l' s'.cur 0 hne
    unfold trajectory at hw ⊢
    rw [← q4, way_points] at hw ⊢
    unfold duration
    rw [h1, Option.bind_some, h4, havg, zero_add]
    unfold paceAt
    dsimp only
    set T := total (s'.cur :: l') with hT
    obtain ⟨v1, v2⟩ := hp.vmax
    have hsp : speed p t (s'.cur :: l') = min (min (T / t) p.vmax.1) p.vmax.2 := by
      unfold speed
      rw [if_neg (not_le.mpr ht)]
      dsimp only
      rw [← hT]
      by_cases c1 : T / t > p.vmax.1
      · rw [if_pos c1, min_eq_right c1.le]
        by_cases c2 : p.vmax.1 > p.vmax.2
        · rw [if_pos c2, min_eq_right c2.le]
        · rw [if_neg c2, min_eq_left (not_lt.mp c2)]
      · rw [if_neg c1, min_eq_left (not_lt.mp c1)]
        by_cases c2 : T / t > p.vmax.2
        · rw [if_pos c2, min_eq_right c2.le]
        · rw [if_neg c2, min_eq_left (not_lt.mp c2)]
    have hpos : 0 < min (min (T / t) p.vmax.1) p.vmax.2 := lt_min (lt_min (div_pos hw ht) v1) v2
    rw [hsp]
    unfold div?
    rw [if_neg hpos.ne']
    congr 1
    have inv : ∀ a b : K, 0 < a → 0 < b → T / min a b = max (T / a) (T / b) := by
      intro a b ha hb
      rcases le_total a b with hab | hab
      · rw [min_eq_left hab, max_eq_left (div_le_div_of_nonneg_left hw.le ha hab)]
      · rw [min_eq_right hab, max_eq_right (div_le_div_of_nonneg_left hw.le hb hab)]
    rw [inv _ _ (lt_min (div_pos hw ht) v1) v2, inv _ _ (div_pos hw ht) v1, max_assoc]
    congr 1
    field_simp

/-- Without a requested duration, the trajectory of a new command runs at the lower of the two speed limits. -/
theorem free_duration (p : Par K) (hp : Sane p) (m : Int × Int → Int) (h : List (Event K)) (c : Cmd K) (f) (s s' : St K)
    (tr : List (Pt K)) (hr : run p m h = some s) (hs : step p m s (.command c f) = some (s', some tr)) (hf : Sound p m f) (t : K) (g : K × K)
    (hc : target p c = some (t, g)) (ht : t ≤ 0) : duration tr = some (way s.cur tr / min p.vmax.1 p.vmax.2) := by
  obtain ⟨t', goal, plan, -, hm, hc', hfr⟩ := published p hp.vmax m s s' _ tr (run_pace p hp.vmax m h s hr) hs
  obtain ⟨q1, -, -, q4⟩ := hfr c f rfl
  rw [hc] at q1
  cases q1
  rcases hc' with ⟨-, rfl⟩ | ⟨path, hpa, rfl, -, havg⟩
  · rw [q4]; simp [hold, way, duration]
  · obtain ⟨l', hne, rfl, -⟩ := path_shape p hp m _ hf s'.cur g plan hm path hpa
    obtain ⟨z, h1, -, -, h4⟩ := points_last p s'.avg l' s'.cur 0 hne
    unfold trajectory
    rw [← q4, way_points]
    unfold duration
    rw [h1, Option.bind_some, h4, havg, zero_add]
    unfold paceAt speed div?
    dsimp only
    rw [if_pos ht, if_neg (lt_min hp.vmax.1 hp.vmax.2).ne']

/-- The trajectories published later for the same command keep the pace of the first one. -/
theorem same_pace (p : Par K) (hp : Sane p) (m : Int × Int → Int) (h h' : List (Event K)) (c : Cmd K) (f) (e : Event K) (s s1 s2 s3 : St K)
    (tr tr' : List (Pt K)) (hr : run p m h = some s) (hs : step p m s (.command c f) = some (s1, some tr)) (hf : Sound p m f)
    (hj : ∀ x ∈ h' ++ [e], ∃ names pos due g, x = .joint names pos due g) (hr' : run p m (h ++ [.command c f] ++ h') = some s2)
    (hs' : step p m s2 e = some (s3, some tr')) (hf' : Sound p m e.found) (t t' : K) (hw : 0 < way s.cur tr) (hw' : 0 < way s3.cur tr')
    (hd : duration tr = some t) (hd' : duration tr' = some t') : way s.cur tr * t' = way s3.cur tr' * t := by
  have dur : ∀ (s0 s1 : St K) (e : Event K) (tr : List (Pt K)) (t : K), Pace p s0 → step p m s0 e = some (s1, some tr) → Sound p m e.found →
      0 < way s1.cur tr → duration tr = some t → 0 < s1.avg ∧ t * s1.avg = way s1.cur tr := by
    intro s0 s1 e tr t hpc hs hf hw hd
    obtain ⟨t', goal, plan, -, hm, hc', -⟩ := published p hp.vmax m s0 s1 _ tr hpc hs
    rcases hc' with ⟨-, rfl⟩ | ⟨path, hpa, rfl, ⟨a0, -, -⟩, -⟩
    · simp [hold, way] at hw
    · obtain ⟨l', hne, rfl, -⟩ := path_shape p hp m _ hf s1.cur goal plan hm path hpa
      obtain ⟨z, h1, -, -, h4⟩ := points_last p s1.avg l' s1.cur 0 hne
      unfold trajectory at hw hd ⊢
      rw [way_points] at hw ⊢
      unfold duration at hd
      rw [h1, Option.bind_some, h4, zero_add] at hd
      unfold div? at hd
      split at hd
      · cases hd
      · rename_i hz
        cases hd
        exact ⟨lt_of_le_of_ne a0 (Ne.symm hz), by field_simp⟩
  have pc0 := run_pace p hp.vmax m h s hr
  have hcur : s1.cur = s.cur := by
    obtain ⟨_, _, _, -, -, -, hfr⟩ := published p hp.vmax m s s1 _ tr pc0 hs
    exact (hfr c f rfl).2.2.2
  obtain ⟨a1, b1⟩ := dur s s1 _ tr t pc0 hs hf (by rw [hcur]; exact hw) hd
  obtain ⟨a3, b3⟩ := dur s2 s3 e tr' t' (run_pace p hp.vmax m _ s2 hr') hs' hf' hw' hd'
  -- joint states keep a positive speed
  have keep : ∀ (s0 s1 : St K) (e : Event K) (o), (∃ names pos due g, e = .joint names pos due g) → 0 < s0.avg → step p m s0 e = some (s1, o) →
      s1.avg = s0.avg := by
    rintro s0 s1 e o ⟨names, pos, due, g, rfl⟩ h0 hs
    rcases step_out p m s0 s1 _ o hs with ⟨-, h1, -⟩ | ⟨sx, h1, h2⟩
    · exact h1
    · rcases h2 with ⟨_, _, _, _, _, _, -, -, -, rfl⟩ | ⟨_, _, _, _, _, _, _, _, h2, -⟩
      · cases o with
        | none => rw [replan_quiet p m _ _ s1 h1]
        | some tr =>
          obtain ⟨-, _, _, _, _, _, _, -, -, -, -, hc⟩ := replan_out p m _ _ s1 tr h1
          rcases hc with ⟨-, rfl, -⟩ | ⟨path, -, rfl, -⟩
          · rfl
          · dsimp only; rw [if_neg (not_lt.mpr h0.le)]
      · cases h2
  have hrun1 : run p m (h ++ [.command c f]) = some s1 := by rw [run_snoc, hr, Option.bind_some, hs]; rfl
  have havg : ∀ (l : List (Event K)), (∀ x ∈ l, ∃ names pos due g, x = .joint names pos due g) → ∀ s2,
      run p m (h ++ [.command c f] ++ l) = some s2 → s2.avg = s1.avg := by
    intro l
    induction l using List.reverseRecOn with
    | nil => intro _ s2 h2; rw [List.append_nil, hrun1] at h2; cases h2; rfl
    | append_singleton l x ih =>
      intro hl s2 h2
      rw [← List.append_assoc, run_snoc] at h2
      obtain ⟨sx, k1, k2⟩ := Option.bind_eq_some_iff.mp h2
      obtain ⟨⟨sy, o⟩, k3, rfl⟩ := Option.map_eq_some_iff.mp k2
      have := ih (fun y hy => hl y (List.mem_append_left _ hy)) sx k1
      rw [keep sx sy x o (hl x (by simp)) (by rw [this]; exact a1) k3, this]
  have e2 := havg h' (fun x hx => hj x (List.mem_append_left _ hx)) s2 hr'
  have e3 := keep s2 s3 e _ (hj e (by simp)) (by rw [e2]; exact a1) hs'
  rw [← hcur, ← b1, ← b3, e3, e2]
  ring

/-- 2 rad within 4 s; then, half way, again. -/
example : outputs par0 open0 [at0 0 0] (to0 4 (3 / 2) 2) = some (some [⟨(3 / 2, 2), some (0, 0), some 4⟩]) ∧
    outputs par0 open0 [at0 0 0, to0 4 (3 / 2) 2] (at0 (3 / 4) 1) = some (some [⟨(3 / 2, 2), some (0, 0), some 2⟩]) ∧
    outputs par0 open0 [at0 0 0] (to0 1 (3 / 2) 2) = some (some [⟨(3 / 2, 2), some (0, 0), some 2⟩]) ∧
    outputs par0 open0 [at0 0 0] (to0 0 (3 / 2) 2) = some (some [⟨(3 / 2, 2), some (0, 0), some 2⟩]) := by
  refine ⟨?_, ?_, ?_, ?_⟩ <;> decide +kernel

end Verif.Joints2D
