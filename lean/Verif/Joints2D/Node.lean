import Verif.Joints2D.Map
import Mathlib.Data.List.Induction
/-! # The node's invariants -/
set_option linter.unusedVariables false
set_option linter.unusedSectionVars false
namespace Verif.Joints2D
open Verif.CSpace (lround)
variable {K : Type} [Field K] [LinearOrder K] [IsStrictOrderedRing K] [FloorRing K]

theorem steps_zero : steps (0, 0) = 0 := by decide

theorem turn_self (p : Par K) (hr : 0 < p.res) (a : Int × Int) : turn p a a = (0, 0) ∨ p.res = 1 := by
  by_cases h1 : p.res = 1
  · exact .inr h1
  · left
    unfold turn
    refine Prod.ext ?_ ?_
    · exact cycS_small _ 0 0 _ hr (by ring) (by omega) (by omega)
    · exact cycS_small _ 0 0 _ hr (by ring) (by omega) (by omega)

/-- Start and goal in the same cell: no search. -/
theorem same_cell_direct (p : Par K) (h : Sane p) (m : Int × Int → Int) (a : Int × Int) (ha : inMap p a = true) :
    cost p m a a ≥ euclid p (turn p a a) := by
  have hr := h.range
  rcases turn_self p h.res a with e | e
  · unfold cost
    rw [if_neg (by simp [ha]), e]
    dsimp only
    rw [steps_zero]
    simp [along]
  · exfalso; omega

/-- What a plan's path looks like. -/
theorem path_shape (p : Par K) (h : Sane p) (m : Int × Int → Int) (found) (hf : Sound p m found) (sg eg : K × K) (plan : Plan K)
    (hm : makePlan p m found sg eg = some plan) (path : List (K × K)) (hp : plan.path sg eg = some path) :
    ∃ l, l ≠ [] ∧ path = sg :: l ∧ ∃ x, l.getLast? = some x ∧
      (¬ NegativeTie p eg.1 → SameAngle p.pi x.1 eg.1) ∧ (¬ NegativeTie p eg.2 → SameAngle p.pi x.2 eg.2) := by
  unfold makePlan at hm
  dsimp only at hm
  by_cases h1 : inMap p (toGrid p sg) = false
  · rw [if_pos h1] at hm; cases hm
  rw [if_neg h1] at hm
  by_cases h2 : m (toGrid p sg) = 100
  · rw [if_pos h2] at hm; cases hm; cases hp
  rw [if_neg h2] at hm
  by_cases h3 : inMap p (toGrid p eg) = false
  · rw [if_pos h3] at hm; cases hm
  rw [if_neg h3] at hm
  by_cases h4 : m (toGrid p eg) = 100
  · rw [if_pos h4] at hm; cases hm; cases hp
  rw [if_neg h4] at hm
  by_cases h5 : cost p m (toGrid p sg) (toGrid p eg) ≥ euclid p (turn p (toGrid p sg) (toGrid p eg))
  · rw [if_pos h5] at hm; cases hm; cases hp
    exact ⟨[eg], by simp, rfl, eg, rfl, fun _ => ⟨0, by push_cast; ring⟩, fun _ => ⟨0, by push_cast; ring⟩⟩
  rw [if_neg h5] at hm
  cases hfd : found (toGrid p sg) (toGrid p eg) with
  | none => rw [hfd] at hm; cases hm; cases hp
  | some cs =>
    rw [hfd] at hm
    have hg := hf _ _ cs (by simpa using h1) (by simpa using h3) hfd
    have hne : toGrid p sg ≠ toGrid p eg := by
      intro e
      rw [← e] at h5
      exact h5 (same_cell_direct p h m _ (by simpa using h1))
    obtain ⟨g1, g2, g3⟩ := hg
    cases cs with
    | nil => cases g1
    | cons a cs =>
      cases g1
      cases cs with
      | nil => exact absurd (Option.some.inj g2) hne
      | cons b cs =>
        dsimp only [List.tail_cons] at hm
        cases hm
        cases hp
        rw [List.getLast?_cons_cons] at g2
        have hs := unroll_same p m h (b :: cs) (toGrid p sg) (toGrid p sg) ⟨⟨0, by ring⟩, ⟨0, by ring⟩⟩ g3
        obtain ⟨q, hq, hqe⟩ := forall₂_getLast? hs g2
        have hnn : (unroll p (toGrid p sg) (b :: cs)).map (toMetric p) ≠ [] := by simp [unroll]
        refine ⟨fixLast _ ((unroll p (toGrid p sg) (b :: cs)).map (toMetric p)), ?_, fixLast_head _ _ _ hnn, ?_⟩
        · intro e
          have := fixLast_last (fun l : K × K => (l.1 + residual p eg.1, l.2 + residual p eg.2)) ((unroll p (toGrid p sg) (b :: cs)).map (toMetric p))
          rw [e, List.getLast?_map, hq] at this
          cases this
        · refine ⟨_, by rw [fixLast_last, List.getLast?_map, hq]; rfl, ?_, ?_⟩
          · intro ht
            obtain ⟨k, hk⟩ := hqe.1
            refine ⟨k, ?_⟩
            have := residual_eq p h.res h.pi eg.1 ht
            have hres : (p.res : K) ≠ 0 := by have := h.res; exact_mod_cast this.ne'
            conv_rhs => rw [← this]
            simp only [toMetric, toGrid] at hk ⊢
            rw [hk]
            push_cast
            field_simp
            ring
          · intro ht
            obtain ⟨k, hk⟩ := hqe.2
            refine ⟨k, ?_⟩
            have := residual_eq p h.res h.pi eg.2 ht
            have hres : (p.res : K) ≠ 0 := by have := h.res; exact_mod_cast this.ne'
            conv_rhs => rw [← this]
            simp only [toMetric, toGrid] at hk ⊢
            rw [hk]
            push_cast
            field_simp
            ring

/-- The path starts where the joints are, or is a single point. -/
theorem path_start (p : Par K) (m : Int × Int → Int) (found) (sg eg : K × K) (plan : Plan K)
    (hm : makePlan p m found sg eg = some plan) (path : List (K × K)) (hp : plan.path sg eg = some path) :
    (∃ x, path = [x]) ∨ ∃ l, path = sg :: l := by
  unfold makePlan at hm
  dsimp only at hm
  by_cases h1 : inMap p (toGrid p sg) = false
  · rw [if_pos h1] at hm; cases hm
  rw [if_neg h1] at hm
  by_cases h2 : m (toGrid p sg) = 100
  · rw [if_pos h2] at hm; cases hm; cases hp
  rw [if_neg h2] at hm
  by_cases h3 : inMap p (toGrid p eg) = false
  · rw [if_pos h3] at hm; cases hm
  rw [if_neg h3] at hm
  by_cases h4 : m (toGrid p eg) = 100
  · rw [if_pos h4] at hm; cases hm; cases hp
  rw [if_neg h4] at hm
  by_cases h5 : cost p m (toGrid p sg) (toGrid p eg) ≥ euclid p (turn p (toGrid p sg) (toGrid p eg))
  · rw [if_pos h5] at hm; cases hm; cases hp
    exact .inr ⟨[eg], rfl⟩
  rw [if_neg h5] at hm
  cases hfd : found (toGrid p sg) (toGrid p eg) with
  | none => rw [hfd] at hm; cases hm; cases hp
  | some cs =>
    rw [hfd] at hm
    cases hm
    cases hp
    cases hq : (unroll p (toGrid p sg) cs.tail).map (toMetric p) with
    | nil => exact .inl ⟨_, rfl⟩
    | cons a l => exact .inr ⟨_, rfl⟩

/-- A published trajectory. -/
theorem replan_out (p : Par K) (m : Int × Int → Int) (found) (s s' : St K) (tr : List (Pt K)) (h : replan p m found s = some (s', some tr)) :
    s.known = true ∧ ∃ i j t l goal plan, s.ids = (some i, some j) ∧ s.kept = some (t, l) ∧ pick (i, j) l = some goal ∧
      makePlan p m found s.cur goal = some plan ∧
      ((plan.path s.cur goal = none ∧ s' = s ∧ tr = hold s.cur) ∨
       ∃ path, plan.path s.cur goal = some path ∧ s' = { s with avg := if s.avg < 0 then speed p t path else s.avg } ∧
        tr = trajectory p (if s.avg < 0 then speed p t path else s.avg) path) := by
  unfold replan at h
  cases hk : s.known with
  | false => rw [hk] at h; cases h
  | true =>
    rw [hk] at h
    refine ⟨rfl, ?_⟩
    rw [if_neg (by simp)] at h
    rcases hi : s.ids with ⟨_ | i, _ | j⟩
    · rw [hi] at h; cases h
    · rw [hi] at h; cases h
    · rw [hi] at h; cases h
    · rw [hi] at h
      dsimp only at h
      rcases hkept : s.kept with _ | ⟨t, l⟩
      · rw [hkept] at h; cases h
      · rw [hkept] at h
        dsimp only at h
        cases hp : pick (i, j) l with
        | none => rw [hp] at h; cases h
        | some goal =>
          rw [hp] at h
          dsimp only at h
          cases hm : makePlan p m found s.cur goal with
          | none => rw [hm] at h; cases h
          | some plan =>
            rw [hm] at h
            dsimp only at h
            refine ⟨i, j, t, l, goal, plan, rfl, rfl, hp, hm, ?_⟩
            cases hpa : plan.path s.cur goal with
            | none => rw [hpa] at h; cases h; exact .inl ⟨rfl, rfl, rfl⟩
            | some path => rw [hpa] at h; cases h; exact .inr ⟨path, rfl, rfl, rfl⟩

/-- Without a publication nothing changes. -/
theorem replan_quiet (p : Par K) (m : Int × Int → Int) (found) (s s' : St K) (h : replan p m found s = some (s', none)) : s' = s := by
  unfold replan at h
  cases hk : s.known with
  | false => rw [hk] at h; cases h; rfl
  | true =>
    rw [hk, if_neg (by simp)] at h
    rcases hi : s.ids with ⟨_ | i, _ | j⟩
    · rw [hi] at h; cases h; rfl
    · rw [hi] at h; cases h; rfl
    · rw [hi] at h; cases h; rfl
    · rw [hi] at h
      dsimp only at h
      rcases hkept : s.kept with _ | ⟨t, l⟩
      · rw [hkept] at h; cases h
      · rw [hkept] at h
        dsimp only at h
        cases hp : pick (i, j) l with
        | none => rw [hp] at h; cases h
        | some goal =>
          rw [hp] at h
          dsimp only at h
          cases hm : makePlan p m found s.cur goal with
          | none => rw [hm] at h; cases h
          | some plan =>
            rw [hm] at h
            dsimp only at h
            cases hpa : plan.path s.cur goal with
            | none => rw [hpa] at h; cases h
            | some path => rw [hpa] at h; cases h

/-- The state in which the planning of a step takes place. -/
theorem step_out (p : Par K) (m : Int × Int → Int) (s s' : St K) (e : Event K) (o) (h : step p m s e = some (s', o)) :
    (o = none ∧ s'.avg = s.avg ∧ s'.kept = s.kept ∧ s'.last = s.last) ∨
    ∃ s1, replan p m e.found s1 = some (s', o) ∧
      ((∃ names pos f i j g, e = .joint names pos true f ∧ indices p names = (some i, some j) ∧ pick (i, j) pos = some g ∧
          s1 = { s with cur := g, known := true }) ∨
       ∃ c f i j t l rest g, e = .command c f ∧ indices p c.names = (some i, some j) ∧ c.points = (t, l) :: rest ∧ pick (i, j) l = some g ∧
          s.last ≠ (t, g) ∧ s1 = { s with ids := (some i, some j), last := (t, g), kept := some (t, l), avg := -1 }) := by
  cases e with
  | joint names pos due f =>
    unfold step at h
    dsimp only at h
    rcases hi : lookup p 0 names (none, none) with ⟨_ | i, _ | j⟩
    · rw [hi] at h; cases h; exact .inl ⟨rfl, rfl, rfl, rfl⟩
    · rw [hi] at h; cases h; exact .inl ⟨rfl, rfl, rfl, rfl⟩
    · rw [hi] at h; cases h; exact .inl ⟨rfl, rfl, rfl, rfl⟩
    · rw [hi] at h
      dsimp only at h
      cases hp : pick (i, j) pos with
      | none => rw [hp] at h; cases h
      | some g =>
        rw [hp] at h
        dsimp only at h
        cases due with
        | false => rw [if_neg (by simp)] at h; cases h; exact .inl ⟨rfl, rfl, rfl, rfl⟩
        | true =>
          rw [if_pos rfl] at h
          exact .inr ⟨_, h, .inl ⟨names, pos, f, i, j, g, rfl, hi, hp, rfl⟩⟩
  | command c f =>
    unfold step at h
    dsimp only at h
    rcases hi : lookup p 0 c.names (none, none) with ⟨_ | i, _ | j⟩
    · rw [hi] at h; cases h; exact .inl ⟨rfl, rfl, rfl, rfl⟩
    · rw [hi] at h; cases h; exact .inl ⟨rfl, rfl, rfl, rfl⟩
    · rw [hi] at h; cases h; exact .inl ⟨rfl, rfl, rfl, rfl⟩
    · rw [hi] at h
      dsimp only at h
      rcases hpt : c.points with _ | ⟨⟨t, l⟩, rest⟩
      · rw [hpt] at h; cases h
      · rw [hpt] at h
        dsimp only at h
        cases hp : pick (i, j) l with
        | none => rw [hp] at h; cases h
        | some g =>
          rw [hp] at h
          dsimp only at h
          by_cases hl : s.last = (t, g)
          · rw [if_pos hl] at h; cases h; exact .inl ⟨rfl, rfl, rfl, rfl⟩
          · rw [if_neg hl] at h
            exact .inr ⟨_, h, .inr ⟨c, f, i, j, t, l, rest, g, rfl, hi, hpt, hp, hl, rfl⟩⟩

theorem run_snoc (p : Par K) (m : Int × Int → Int) (h : List (Event K)) (e : Event K) :
    run p m (h ++ [e]) = (run p m h).bind fun s => (step p m s e).map Prod.fst := by
  unfold run
  rw [List.foldlM_append]
  cases List.foldlM (fun s e => (step p m s e).map Prod.fst) (init : St K) h with
  | none => rfl
  | some s =>
    simp only [List.foldlM_cons, List.foldlM_nil, Option.bind_eq_bind, Option.bind_some]
    cases (step p m s e).map Prod.fst <;> rfl

/-- The stored speed is unset or within the limits. -/
def Pace (p : Par K) (s : St K) : Prop := s.avg < 0 ∨ (0 ≤ s.avg ∧ s.avg ≤ p.vmax.1 ∧ s.avg ≤ p.vmax.2)

theorem replan_avg (p : Par K) (hv : 0 < p.vmax.1 ∧ 0 < p.vmax.2) (m : Int × Int → Int) (found) (s s' : St K) (o)
    (h : replan p m found s = some (s', o)) (hs : Pace p s) : Pace p s' := by
  cases o with
  | none => rw [replan_quiet p m found s s' h]; exact hs
  | some tr =>
    obtain ⟨-, i, j, t, l, goal, plan, -, -, -, -, hc⟩ := replan_out p m found s s' tr h
    rcases hc with ⟨-, rfl, -⟩ | ⟨path, -, rfl, -⟩
    · exact hs
    · unfold Pace
      dsimp only
      by_cases ha : s.avg < 0
      · rw [if_pos ha]; exact .inr (speed_bounds p hv t path)
      · rw [if_neg ha]; exact hs

theorem step_avg (p : Par K) (hv : 0 < p.vmax.1 ∧ 0 < p.vmax.2) (m : Int × Int → Int) (s s' : St K) (e : Event K) (o)
    (h : step p m s e = some (s', o)) (hs : Pace p s) : Pace p s' := by
  rcases step_out p m s s' e o h with ⟨-, h1, -⟩ | ⟨s1, h1, hc⟩
  · unfold Pace; rw [h1]; exact hs
  · refine replan_avg p hv m _ s1 s' o h1 ?_
    rcases hc with ⟨_, _, _, _, _, _, -, -, -, rfl⟩ | ⟨_, _, _, _, _, _, _, _, -, -, -, -, -, rfl⟩
    · exact hs
    · exact .inl (by norm_num)

theorem run_pace (p : Par K) (hv : 0 < p.vmax.1 ∧ 0 < p.vmax.2) (m : Int × Int → Int) (h : List (Event K)) :
    ∀ s, run p m h = some s → Pace p s := by
  induction h using List.reverseRecOn with
  | nil => intro s hs; cases hs; exact .inl (by norm_num [init])
  | append_singleton h e ih =>
    intro s' hs
    rw [run_snoc] at hs
    obtain ⟨s, h1, h2⟩ := Option.bind_eq_some_iff.mp hs
    obtain ⟨⟨s2, o⟩, h3, rfl⟩ := Option.map_eq_some_iff.mp h2
    exact step_avg p hv m s s2 e o h3 (ih s h1)

/-- The speed used at an event. -/
def paceAt (p : Par K) (s : St K) (t : K) (path : List (K × K)) : Event K → K
  | .command _ _ => speed p t path
  | .joint _ _ _ _ => if s.avg < 0 then speed p t path else s.avg

/-- What is known about a published trajectory. -/
structure Published (p : Par K) (m : Int × Int → Int) (s s' : St K) (e : Event K) (tr : List (Pt K)) (t : K) (goal : K × K) (plan : Plan K) : Prop where
  kept : ∃ l i j, s'.kept = some (t, l) ∧ s'.ids = (some i, some j) ∧ pick (i, j) l = some goal
  made : makePlan p m e.found s'.cur goal = some plan
  out : (plan.path s'.cur goal = none ∧ tr = hold s'.cur) ∨
    ∃ path, plan.path s'.cur goal = some path ∧ tr = trajectory p s'.avg path ∧ (0 ≤ s'.avg ∧ s'.avg ≤ p.vmax.1 ∧ s'.avg ≤ p.vmax.2) ∧
      s'.avg = paceAt p s t path e
  fresh : ∀ c f, e = .command c f → target p c = some (t, goal) ∧ s.last ≠ (t, goal) ∧ s'.last = (t, goal) ∧ s'.cur = s.cur

theorem published (p : Par K) (hv : 0 < p.vmax.1 ∧ 0 < p.vmax.2) (m : Int × Int → Int) (s s' : St K) (e : Event K) (tr : List (Pt K))
    (hpace : Pace p s) (hs : step p m s e = some (s', some tr)) : ∃ t goal plan, Published p m s s' e tr t goal plan := by
  have pace' := step_avg p hv m s s' e _ hs hpace
  rcases step_out p m s s' e _ hs with ⟨h1, -⟩ | ⟨s1, h1, h2⟩
  · cases h1
  · obtain ⟨-, i, j, t, l, goal, plan, e1, e2, e3, hm, hc⟩ := replan_out p m _ s1 s' tr h1
    refine ⟨t, goal, plan, ?_⟩
    have hcur : s'.cur = s1.cur ∧ s'.kept = s1.kept ∧ s'.ids = s1.ids ∧ s'.last = s1.last := by
      rcases hc with ⟨-, rfl, -⟩ | ⟨path, -, rfl, -⟩
      · exact ⟨rfl, rfl, rfl, rfl⟩
      · exact ⟨rfl, rfl, rfl, rfl⟩
    obtain ⟨c1, c2, c3, c4⟩ := hcur
    refine ⟨⟨l, i, j, c2.trans e2, c3.trans e1, e3⟩, by rw [c1]; exact hm, ?_, ?_⟩
    · rw [c1]
      rcases hc with ⟨g1, -, rfl⟩ | ⟨path, g1, rfl, rfl⟩
      · exact .inl ⟨g1, rfl⟩
      · refine .inr ⟨path, g1, rfl, ?_, ?_⟩
        · dsimp only
          by_cases hn : s1.avg < 0
          · rw [if_pos hn]; exact speed_bounds p hv t path
          · rw [if_neg hn]
            have hp1 : Pace p s1 := by
              rcases h2 with ⟨_, _, _, _, _, _, -, -, -, rfl⟩ | ⟨_, _, _, _, _, _, _, _, -, -, -, -, -, rfl⟩
              · exact hpace
              · exact .inl (by norm_num)
            exact hp1.resolve_left hn
        · dsimp only
          rcases h2 with ⟨_, _, _, _, _, _, rfl, -, -, rfl⟩ | ⟨_, _, _, _, _, _, _, _, rfl, -, -, -, -, rfl⟩
          · rfl
          · dsimp only; rw [if_pos (by norm_num)]; rfl
    · intro c f he
      rcases h2 with ⟨_, _, _, _, _, _, rfl, -, -, rfl⟩ | ⟨c', f', i', j', t', l', rest, g', rfl, q1, q2, q3, q4, rfl⟩
      · cases he
      · cases he
        cases e1
        cases e2
        rw [e3] at q3
        cases q3
        refine ⟨?_, q4, by rw [c4], by rw [c1]⟩
        unfold target
        rw [q1, q2]
        dsimp only
        rw [e3]
        rfl

theorem replan_keeps (p : Par K) (m : Int × Int → Int) (found) (s s' : St K) (o) (h : replan p m found s = some (s', o)) :
    s'.ids = s.ids ∧ s'.kept = s.kept ∧ s'.last = s.last ∧ s'.cur = s.cur ∧ s'.known = s.known := by
  cases o with
  | none => rw [replan_quiet p m found s s' h]; exact ⟨rfl, rfl, rfl, rfl, rfl⟩
  | some tr =>
    obtain ⟨-, i, j, t, l, goal, plan, -, -, -, -, hc⟩ := replan_out p m found s s' tr h
    rcases hc with ⟨-, rfl, -⟩ | ⟨path, -, rfl, -⟩ <;> exact ⟨rfl, rfl, rfl, rfl, rfl⟩

theorem joint_keeps (p : Par K) (m : Int × Int → Int) (s s' : St K) (names pos due f) (o)
    (h : step p m s (.joint names pos due f) = some (s', o)) : s'.ids = s.ids ∧ s'.kept = s.kept ∧ s'.last = s.last := by
  unfold step at h
  dsimp only at h
  rcases hi : lookup p 0 names (none, none) with ⟨_ | i, _ | j⟩
  · rw [hi] at h; cases h; exact ⟨rfl, rfl, rfl⟩
  · rw [hi] at h; cases h; exact ⟨rfl, rfl, rfl⟩
  · rw [hi] at h; cases h; exact ⟨rfl, rfl, rfl⟩
  · rw [hi] at h
    dsimp only at h
    cases hp : pick (i, j) pos with
    | none => rw [hp] at h; cases h
    | some g =>
      rw [hp] at h
      dsimp only at h
      cases due with
      | false => rw [if_neg (by simp)] at h; cases h; exact ⟨rfl, rfl, rfl⟩
      | true =>
        rw [if_pos rfl] at h
        obtain ⟨k1, k2, k3, -⟩ := replan_keeps p m f _ s' o h
        exact ⟨k1, k2, k3⟩

/-- The stored command is the last one. -/
def Aim (p : Par K) (ij : Nat × Nat) (h : List (Event K)) (s : St K) : Prop :=
  (lastTarget p h = none ∧ s.kept = none ∧ s.last = (0, (0, 0)) ∧ s.ids = (none, none)) ∨
  (lastTarget p h = some s.last ∧ s.ids = (some ij.1, some ij.2) ∧
    ((s.kept = none ∧ s.last = (0, (0, 0))) ∨ ∃ l, s.kept = some (s.last.1, l) ∧ pick ij l = some s.last.2))

theorem lastTarget_snoc (p : Par K) (h : List (Event K)) (e : Event K) :
    lastTarget p (h ++ [e]) = match e with
      | .command c _ => (target p c).or (lastTarget p h)
      | .joint _ _ _ _ => lastTarget p h := by
  unfold lastTarget
  rw [List.foldl_append]
  cases e <;> rfl

theorem aim_step (p : Par K) (m : Int × Int → Int) (ij : Nat × Nat) (h : List (Event K)) (e : Event K) (s s' : St K) (o)
    (hs : step p m s e = some (s', o)) (ha : Aim p ij h s) (hord : match e with
      | .command c _ => indices p c.names = (some ij.1, some ij.2)
      | .joint _ _ _ _ => True) : Aim p ij (h ++ [e]) s' := by
  unfold Aim at *
  rw [lastTarget_snoc]
  cases e with
  | joint names pos due f =>
    obtain ⟨k1, k2, k3⟩ := joint_keeps p m s s' names pos due f o hs
    rw [k1, k2, k3]
    exact ha
  | command c f =>
    dsimp only at hord ⊢
    right
    unfold step at hs
    dsimp only at hs
    have hord' : lookup p 0 c.names (none, none) = (some ij.1, some ij.2) := hord
    rw [hord'] at hs
    dsimp only at hs
    rcases hpt : c.points with _ | ⟨⟨t, l⟩, rest⟩
    · rw [hpt] at hs; cases hs
    · rw [hpt] at hs
      dsimp only at hs
      cases hp : pick (ij.1, ij.2) l with
      | none => rw [hp] at hs; cases hs
      | some g =>
        rw [hp] at hs
        dsimp only at hs
        have htg : target p c = some (t, g) := by
          unfold target
          rw [hord, hpt]
          dsimp only
          rw [hp]
          rfl
        rw [htg]
        by_cases hl : s.last = (t, g)
        · rw [if_pos hl] at hs
          cases hs
          dsimp only
          rw [hl]
          refine ⟨rfl, rfl, ?_⟩
          rcases ha with ⟨-, h2, h3, -⟩ | ⟨-, -, h3⟩
          · exact .inl ⟨h2, by rw [← hl, h3]⟩
          · rw [hl] at h3; exact h3
        · rw [if_neg hl] at hs
          obtain ⟨k1, k2, k3, -⟩ := replan_keeps p m f _ s' o hs
          rw [k1, k2, k3]
          exact ⟨rfl, rfl, .inr ⟨l, rfl, hp⟩⟩

theorem aim_run (p : Par K) (m : Int × Int → Int) (ij : Nat × Nat) (h : List (Event K)) :
    SameOrder p ij h → ∀ s, run p m h = some s → Aim p ij h s := by
  induction h using List.reverseRecOn with
  | nil => intro _ s hs; cases hs; exact .inl ⟨rfl, rfl, rfl, rfl⟩
  | append_singleton h e ih =>
    intro ho s' hs
    rw [run_snoc] at hs
    obtain ⟨s, h1, h2⟩ := Option.bind_eq_some_iff.mp hs
    obtain ⟨⟨s2, o⟩, h3, rfl⟩ := Option.map_eq_some_iff.mp h2
    refine aim_step p m ij h e s s2 o h3 (ih (fun x hx => ho x (List.mem_append_left _ hx)) s h1) ?_
    have := ho e (by simp)
    cases e with
    | joint => trivial
    | command c f => exact this

end Verif.Joints2D
