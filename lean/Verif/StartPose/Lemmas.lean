import Verif.StartPose.Spec
import Verif.GridMetric.Props
import Verif.Path2D.Props
import Verif.Model3D.Lemmas
/-! # Lemmas on the start pose predictor -/
namespace Verif.StartPose
open Verif.GridMetric (Cell Info metric2Grid metric2GridF isGridCenter grid2Metric)
open Verif.GridMetric.Spec (InSquare NearestHeading SameDirection)
open Verif.CSpace (lround)
open Verif.Path2D (PoseMsg fromMsg toMsg findNearest Goals etas etaLoop stepTime)

/-! ### Cells -/

theorem inCell_cellOf {g : Info ℝ} (hr : 0 < g.res) (ha : 0 < g.ares) (hA : 0 < g.angle) (p : Path2D.Pose) :
    InCell g (cellOf g p) p := by
  obtain ⟨h1, h2⟩ := GridMetric.cell_of_point g hr ha (coords p) (metric2Grid g (coords p)).x (metric2Grid g (coords p)).y
  obtain ⟨⟨k, hk⟩, h3, h4⟩ := Model3D.cycU_spec (metric2Grid g (coords p)).yaw g.angle hA
  exact ⟨h1.mp ⟨rfl, rfl⟩, h3, h4, _, h2, k, hk⟩

theorem lround_near (v : ℝ) (z : Int) (h : |v - z| < 1 / 1000) : |v - (lround v : ℝ)| < 1 / 1000 := by
  rw [abs_lt] at h
  unfold lround
  split
  · have : ⌊v + 1 / 2⌋ = z := by rw [Int.floor_eq_iff]; constructor <;> linarith
    rw [this, abs_lt]; constructor <;> linarith
  · have : ⌊-v + 1 / 2⌋ = -z := by rw [Int.floor_eq_iff]; push_cast; constructor <;> linarith
    rw [this, abs_lt]; push_cast; constructor <;> linarith

theorem centre_iff {g : Info ℝ} (hr : 0 < g.res) (ha : 0 < g.ares) (p : Path2D.Pose) :
    isGridCenter g (coords p) = true ↔ OnCentre g p := by
  constructor
  · intro h
    obtain ⟨h1, h2, h3⟩ := GridMetric.centre_is_near g hr ha (coords p) h
    exact ⟨_, _, _, h1, h2, h3⟩
  · rintro ⟨i, j, w, h1, h2, h3⟩
    have key : ∀ (v o s : ℝ) (z : Int), 0 < s → |v - (((z : ℝ) + 1 / 2) * s + o)| < s / 1000 → |(v - o) / s - 1 / 2 - z| < 1 / 1000 := by
      intro v o s z hs h
      have e : (v - o) / s - 1 / 2 - z = (v - (((z : ℝ) + 1 / 2) * s + o)) / s := by field_simp; ring
      rw [e, abs_div, abs_of_pos hs, div_lt_iff₀ hs]; linarith
    have key2 : |p.yaw / g.ares - w| < 1 / 1000 := by
      have e : p.yaw / g.ares - w = (p.yaw - w * g.ares) / g.ares := by field_simp
      rw [e, abs_div, abs_of_pos ha, div_lt_iff₀ ha]; linarith
    unfold isGridCenter metric2GridF coords
    simp only [Bool.and_eq_true, decide_eq_true_eq]
    exact ⟨⟨lround_near _ i (key _ _ _ _ hr h1), lround_near _ j (key _ _ _ _ hr h2)⟩, lround_near _ w key2⟩

/-! ### Arrival times -/

theorem turn_eq (x : ℝ) (h : |x| ≤ 2 * Real.pi) : |(x : Real.Angle).toReal| = if |x| > Real.pi then 2 * Real.pi - |x| else |x| := by
  have pos : ∀ y : ℝ, 0 ≤ y → y ≤ 2 * Real.pi → |(y : Real.Angle).toReal| = if y > Real.pi then 2 * Real.pi - y else y := by
    intro y h0 h1
    split
    · rename_i h2
      have e : ((y : ℝ) : Real.Angle) = ((-(2 * Real.pi - y) : ℝ) : Real.Angle) := by
        rw [show -(2 * Real.pi - y) = y - 2 * Real.pi by ring, Real.Angle.coe_sub, Real.Angle.coe_two_pi, sub_zero]
      rw [e, Real.Angle.coe_neg, Real.Angle.abs_toReal_neg]
      exact Real.Angle.abs_toReal_coe_eq_self_iff.mpr ⟨by linarith, by linarith⟩
    · rename_i h2
      exact Real.Angle.abs_toReal_coe_eq_self_iff.mpr ⟨h0, not_lt.mp h2⟩
  rcases le_total 0 x with hx | hx
  · rw [abs_of_nonneg hx] at h ⊢; exact pos x hx h
  · rw [abs_of_nonpos hx] at h ⊢
    have := pos (-x) (by linarith) h
    rwa [Real.Angle.coe_neg, Real.Angle.abs_toReal_neg] at this

theorem stepTime_eq (c : Config) (a b : Path2D.Pose) (ha : |a.yaw| ≤ Real.pi) (hb : |b.yaw| ≤ Real.pi) :
    stepTime c.lin c.ang a b = leg c a b := by
  unfold stepTime leg turn
  have h : |a.yaw - b.yaw| ≤ 2 * Real.pi := by
    have := abs_sub a.yaw b.yaw; linarith
  rw [turn_eq _ h]

theorem etas_arrival (c : Config) (Q : List Path2D.Pose) : ∀ (p : Path2D.Pose) (t : ℝ), |p.yaw| ≤ Real.pi →
    (∀ q ∈ Q, |q.yaw| ≤ Real.pi) → ∀ i, i < Q.length + 1 →
    (t :: etaLoop c.lin c.ang p Q t)[i]? = some (t + along c ((p :: Q).take (i + 1))) := by
  induction Q with
  | nil =>
    intro p t hp hQ i hi
    have : i = 0 := by simpa using hi
    subst this
    simp [along]
  | cons q Q ih =>
    intro p t hp hQ i hi
    cases i with
    | zero => simp [along]
    | succ i =>
      rw [List.getElem?_cons_succ]
      unfold etaLoop
      dsimp only
      rw [ih q _ (hQ q (by simp)) (fun x hx => hQ x (by simp [hx])) i (by simpa using hi), stepTime_eq c p q hp (hQ q (by simp))]
      change some (t + leg c p q + along c (q :: List.take i Q)) = some (t + (leg c p q + along c (q :: List.take i Q)))
      rw [add_assoc]

theorem etas_get (c : Config) (robot p : Path2D.Pose) (Q : List Path2D.Pose) (hr : |robot.yaw| ≤ Real.pi)
    (hQ : ∀ q ∈ p :: Q, |q.yaw| ≤ Real.pi) (i : Nat) (hi : i < Q.length + 1) :
    (etas c.lin c.ang (initialEta c robot p) (p :: Q))[i]? = some (arrival c robot (p :: Q) i) := by
  have hp := hQ p (by simp)
  have h : |p.yaw - robot.yaw| ≤ 2 * Real.pi := by
    have := abs_sub p.yaw robot.yaw; linarith
  have e : initialEta c robot p = max (turn p.yaw robot.yaw / c.ang) (‖p.pos - robot.pos‖ / c.lin) := by
    unfold initialEta turn
    rw [turn_eq _ h]
    dsimp only
    congr 2
    apply abs_of_nonneg
    split
    · linarith
    · exact abs_nonneg _
  unfold etas
  rw [etas_arrival c Q p _ hp (fun q hq => hQ q (by simp [hq])) i hi, e]
  rfl

theorem fromMsg_yaw (eps : ℝ) (he : 0 ≤ eps) (ms : List PoseMsg) : ∀ q ∈ fromMsg false eps ms, |q.yaw| ≤ Real.pi := by
  intro q hq
  have hread : ∀ p ∈ ms.map (Path2D.readPose false), |p.yaw| ≤ Real.pi := by
    intro p hp
    obtain ⟨m, _, rfl⟩ := List.mem_map.mp hp
    exact Complex.abs_arg_le_pi _
  rcases (Path2D.convert_faithful he (ms.map (Path2D.readPose false))).2 q hq with h | ⟨-, p, hp, -, hy, -⟩
  · exact hread q h
  · rw [hy]; exact hread p hp

/-! ### The part already passed -/

theorem nearest_cases (P : List Path2D.Pose) (hP : P ≠ []) (t : ℂ) :
    ∃ n d, findNearest P 0 P.length t 0 (1 / 1000000) = some (n, some d) ∧ AtDistance P t n d ∧ n < P.length := by
  have hl : 0 < P.length := List.length_pos_of_ne_nil hP
  obtain ⟨k, d, m, h1, h2, h3, h4, h5, h6, h7⟩ :=
    Path2D.nearest_found (P := P) (b := 0) (e := P.length) (t := t) (range := 0) (eps := 1 / 1000000) (by norm_num) le_rfl hl
  refine ⟨k, d, h1, ?_⟩
  rcases Nat.lt_or_ge P.length 2 with hlt | hge
  · obtain ⟨p, rfl⟩ : ∃ p, P = [p] := List.length_eq_one_iff.mp (by omega)
    have : m = 1 := by simp at h3; omega
    have hk := h5 (by omega)
    subst hk
    refine ⟨.inl ⟨p, rfl, rfl, ?_⟩, by simp⟩
    unfold findNearest at h1
    rw [if_neg (by simp)] at h1
    simp only [List.length_singleton, List.getElem?_cons_zero] at h1
    unfold Path2D.nearestLoop at h1
    rw [if_neg (by omega)] at h1
    simp only [Option.map_some, Option.some.injEq, Prod.mk.injEq] at h1
    exact h1.2.symm
  · have hm : m = P.length := by
      by_contra hne
      have := (h4 m h2 (by omega)).mpr (.inl le_rfl)
      omega
    subst hm
    obtain ⟨a, b, e⟩ := h6 (by omega)
    refine ⟨.inr ⟨hge, a, b, e, fun i hi1 hi2 => ?_⟩, b⟩
    have := h7 i hi1 hi2
    have h8 : ((P.length - 1 - i : Nat) : ℝ) ≤ (P.length : ℝ) := by
      exact_mod_cast (by omega : P.length - 1 - i ≤ P.length)
    linarith

/-- The outcome of `dropPassed` on a nonempty path. -/
theorem dropPassed_cases (c : Config) (t : ℂ) (P : List Path2D.Pose) (hP : P ≠ []) :
    ∃ n d, AtDistance P t n d ∧
      ((c.distStop < d ∧ dropPassed c t P = some none) ∨
       (d ≤ c.distStop ∧ ∃ a, Remains P t n d a ∧ a < P.length ∧ dropPassed c t P = some (some (P.drop a)))) := by
  obtain ⟨n, d, h1, h2, h3⟩ := nearest_cases P hP t
  refine ⟨n, d, h2, ?_⟩
  have hl : 0 < P.length := List.length_pos_of_ne_nil hP
  unfold dropPassed
  rw [h1]
  dsimp only
  by_cases hd : d > c.distStop
  · rw [if_pos hd]; exact .inl ⟨hd, rfl⟩
  · rw [if_neg hd]
    refine .inr ⟨not_lt.mp hd, ?_⟩
    by_cases h4 : P.length = 1
    · rw [if_pos h4]
      have h5 : n = 0 := by omega
      exact ⟨0, .inl ⟨h5.symm, by omega⟩, hl, by simp⟩
    · rw [if_neg h4, List.getElem?_eq_getElem hl]
      dsimp only
      by_cases h5 : n = 1 ∧ |‖t - P[0].pos‖ - d| < 1 / 1000000
      · rw [if_pos h5]
        exact ⟨0, .inr ⟨rfl, h5.1, P[0], List.getElem?_eq_getElem hl, h5.2⟩, hl, by simp⟩
      · rw [if_neg h5]
        refine ⟨n, .inl ⟨rfl, ?_⟩, h3, rfl⟩
        rintro ⟨h6, p, h7, h8⟩
        rw [List.getElem?_eq_getElem hl] at h7
        obtain rfl := Option.some.inj h7
        exact h5 ⟨h6, h8⟩

/-! ### The choice of the start pose -/

theorem switchBack_cases {c : Config} {g : Info ℝ} (hr : 0 < g.res) (ha : 0 < g.ares) (robot : Path2D.Pose) (Q : List Path2D.Pose) (ts : List ℝ)
    (hts : ∀ i < Q.length, ts[i]? = some (arrival c robot Q i)) (gs : List Nat) (hgs : ∀ s ∈ gs, 0 < s ∧ s < Q.length) :
    (∃ k l₁ l₂, gs = l₁ ++ (k + 1) :: l₂ ∧ Soon c g robot Q k ∧ (∀ s ∈ l₁, ¬ Soon c g robot Q (s - 1)) ∧ k < Q.length ∧
      switchBack c g Q ts gs = some (some k)) ∨
    ((∀ s ∈ gs, ¬ Soon c g robot Q (s - 1)) ∧ switchBack c g Q ts gs = some none) := by
  induction gs with
  | nil => exact .inr ⟨by simp, rfl⟩
  | cons s gs ih =>
    obtain ⟨h1, h2⟩ := hgs s (by simp)
    have hq : Q[s - 1]? = some (Q[s - 1]'(by omega)) := List.getElem?_eq_getElem _
    have ht := hts (s - 1) (by omega)
    unfold switchBack
    rw [hq, ht]
    dsimp only
    have hiff : (isGridCenter g (coords (Q[s - 1]'(by omega))) = true ∧ c.predict < arrival c robot Q (s - 1) ∧
        arrival c robot Q (s - 1) < c.switchPredict) ↔ Soon c g robot Q (s - 1) := by
      rw [centre_iff hr ha]
      constructor
      · rintro ⟨a, b, d⟩; exact ⟨⟨_, hq, a, b⟩, d⟩
      · rintro ⟨⟨p, e, a, b⟩, d⟩
        rw [hq] at e; obtain rfl := Option.some.inj e
        exact ⟨a, b, d⟩
    by_cases hs : Soon c g robot Q (s - 1)
    · rw [if_pos (hiff.mpr hs)]
      exact .inl ⟨s - 1, [], gs, by simp; omega, hs, by simp, by omega, rfl⟩
    · rw [if_neg (fun h => hs (hiff.mp h))]
      rcases ih (fun x hx => hgs x (by simp [hx])) with ⟨k, l₁, l₂, a, b, d, e, f⟩ | ⟨a, b⟩
      · refine .inl ⟨k, s :: l₁, l₂, by rw [a]; rfl, b, ?_, e, f⟩
        intro x hx
        rcases List.mem_cons.mp hx with rfl | hx
        · exact hs
        · exact d x hx
      · refine .inr ⟨?_, b⟩
        intro x hx
        rcases List.mem_cons.mp hx with rfl | hx
        · exact hs
        · exact a x hx

theorem expected_cases {c : Config} {g : Info ℝ} (hr : 0 < g.res) (ha : 0 < g.ares) (robot : Path2D.Pose) (Q : List Path2D.Pose) (ts : List ℝ)
    (hts : ∀ i < Q.length, ts[i]? = some (arrival c robot Q i)) (n : Nat) (hn : n < Q.length) : ∀ m i, n - i = m →
    (∀ j < i, ¬ Late c g robot Q j) → i ≤ n →
    (∃ k, k < n ∧ Late c g robot Q k ∧ (∀ j < k, ¬ Late c g robot Q j) ∧ expected c g Q ts n i = some (some k)) ∨
    ((∀ j < n, ¬ Late c g robot Q j) ∧ expected c g Q ts n i = some none) := by
  intro m
  induction m with
  | zero =>
    intro i hm hj hi
    have : i = n := by omega
    subst this
    unfold expected
    rw [if_neg (by omega)]
    exact .inr ⟨hj, rfl⟩
  | succ m ih =>
    intro i hm hj hi
    have hq : Q[i]? = some (Q[i]'(by omega)) := List.getElem?_eq_getElem _
    have ht := hts i (by omega)
    unfold expected
    rw [if_pos (by omega), hq, ht]
    dsimp only
    have hiff : (arrival c robot Q i > c.predict ∧ isGridCenter g (coords (Q[i]'(by omega))) = true) ↔ Late c g robot Q i := by
      rw [centre_iff hr ha]
      constructor
      · rintro ⟨a, b⟩; exact ⟨_, hq, b, a⟩
      · rintro ⟨p, e, a, b⟩
        rw [hq] at e; obtain rfl := Option.some.inj e
        exact ⟨b, a⟩
    by_cases hs : Late c g robot Q i
    · rw [if_pos (hiff.mpr hs)]
      exact .inl ⟨i, by omega, hs, hj, rfl⟩
    · rw [if_neg (fun h => hs (hiff.mp h))]
      refine ih (i + 1) (by omega) ?_ (by omega)
      intro j hj'
      rcases Nat.lt_succ_iff_lt_or_eq.mp hj' with h | rfl
      · exact hj j h
      · exact hs

/-- The local goals of a path are inside of it. -/
theorem goals_inside {Q : List Path2D.Pose} (hQ : Q ≠ []) {gs : List Nat} (h : Goals Q Q.length true false (1 / 1000000) 0 gs) :
    ∀ s ∈ gs, 0 < s ∧ s < Q.length := by
  have hl : 0 < Q.length := List.length_pos_of_ne_nil hQ
  obtain ⟨gs', h1, h2, h3⟩ := Path2D.local_goals (P := Q) (b := 0) (e := Q.length) (sw := true) (tn := false) (eps := 1 / 1000000)
    (by norm_num) le_rfl hl
  obtain rfl := h2 gs h
  intro s hs
  obtain ⟨k, hk, rfl⟩ := List.mem_iff_getElem.mp hs
  obtain ⟨a, b, -, e2, e3, -, -, e5⟩ := h3 k (by omega)
  rw [List.getElem?_append_left hk, List.getElem?_eq_getElem hk] at e2
  obtain rfl := Option.some.inj e2
  exact ⟨by omega, (e5 hk).1⟩

theorem colliding_cases (g : Info ℝ) (cm : Cell → Option Int) (l : List Path2D.Pose) :
    (colliding g cm l = some true ∧ ∃ p ∈ l, cm (cellOf g p) = some 100) ∨
    (colliding g cm l = some false ∧ ∀ p ∈ l, ∃ v, cm (cellOf g p) = some v ∧ v ≠ 100) ∨
    (colliding g cm l = none ∧ ∃ p ∈ l, cm (cellOf g p) = none) := by
  induction l with
  | nil => exact .inr (.inl ⟨rfl, by simp⟩)
  | cons p l ih =>
    unfold colliding
    cases hc : cm (cellOf g p) with
    | none => exact .inr (.inr ⟨rfl, p, by simp, hc⟩)
    | some v =>
      dsimp only
      by_cases hv : v = 100
      · rw [if_pos hv]; exact .inl ⟨rfl, p, by simp, by rw [hc, hv]⟩
      · rw [if_neg hv]
        rcases ih with ⟨a, q, hq, b⟩ | ⟨a, b⟩ | ⟨a, q, hq, b⟩
        · exact .inl ⟨a, q, by simp [hq], b⟩
        · refine .inr (.inl ⟨a, ?_⟩)
          intro q hq
          rcases List.mem_cons.mp hq with rfl | hq
          · exact ⟨v, hc, hv⟩
          · exact b q hq
        · exact .inr (.inr ⟨a, q, by simp [hq], b⟩)

/-- `process` on a nonempty path: too far, or the results built at the selected pose. -/
theorem process_cases {c : Config} {g : Info ℝ} (hr : 0 < g.res) (ha : 0 < g.ares) (cm : Cell → Option Int) (robot : Path2D.Pose)
    (hrob : |robot.yaw| ≤ Real.pi) (gs : List Nat) (msg : List PoseMsg) (hgs : LocalGoals c robot gs msg) :
    let P := fromMsg false (1 / 1000000) msg
    (P = [] ∧ process c g cm robot gs msg = some none) ∨
    (TooFar c robot P ∧ process c g cm robot gs msg = some none) ∨
    ∃ a k, Continues c g robot gs P a k ∧ process c g cm robot gs msg = buildResults g cm (P.drop a) k := by
  intro P
  have hyaw := fromMsg_yaw (1 / 1000000) (by norm_num) msg
  by_cases hP : P = []
  · refine .inl ⟨hP, ?_⟩
    unfold process
    change (if P.isEmpty then _ else _) = _
    rw [hP]; rfl
  right
  have hgs' : ∀ Q, dropPassed c robot.pos P = some (some Q) → Goals Q Q.length true false (1 / 1000000) 0 gs := hgs
  change ∀ q ∈ P, |q.yaw| ≤ Real.pi at hyaw
  have hproc : process c g cm robot gs msg = (match dropPassed c robot.pos P with
    | none => none
    | some none => some none
    | some (some Q) =>
      match Q with
      | [] => none
      | p :: ps =>
        let ts := etas c.lin c.ang (initialEta c robot p) (p :: ps)
        match switchBack c g (p :: ps) ts gs with
        | none => none
        | some (some k) => buildResults g cm (p :: ps) k
        | some none =>
          match expected c g (p :: ps) ts ps.length 0 with
          | none => none
          | some (some k) => buildResults g cm (p :: ps) k
          | some none => buildResults g cm (p :: ps) ps.length) := by
    unfold process
    change (if P.isEmpty then _ else _) = _
    rw [if_neg (by simpa using hP)]
    rfl
  rw [hproc]
  obtain ⟨n, d, h1, ⟨h2, h3⟩ | ⟨h2, a, h3, h4, h5⟩⟩ := dropPassed_cases c robot.pos P hP
  · rw [h3]
    exact .inl ⟨⟨n, d, h1, h2⟩, rfl⟩
  right
  rw [h5]
  have hgoals := hgs' _ h5
  have hne : P.drop a ≠ [] := by
    intro h
    rw [List.drop_eq_nil_iff] at h
    omega
  have hin := goals_inside hne hgoals
  have hlen : (P.drop a).length = P.length - a := List.length_drop
  have hyaw' : ∀ q ∈ P.drop a, |q.yaw| ≤ Real.pi := fun q hq => hyaw q (List.mem_of_mem_drop hq)
  have main : ∃ k, k < (P.drop a).length ∧ Selected c g robot (P.drop a) gs k ∧ (match P.drop a with
      | [] => none
      | p :: ps =>
        let ts := etas c.lin c.ang (initialEta c robot p) (p :: ps)
        match switchBack c g (p :: ps) ts gs with
        | none => none
        | some (some k) => buildResults g cm (p :: ps) k
        | some none =>
          match expected c g (p :: ps) ts ps.length 0 with
          | none => none
          | some (some k) => buildResults g cm (p :: ps) k
          | some none => buildResults g cm (p :: ps) ps.length) = buildResults g cm (P.drop a) k := by
    generalize P.drop a = Q at hne hin hyaw'
    cases Q with
    | nil => exact absurd rfl hne
    | cons p ps =>
      dsimp only
      have hts : ∀ i < (p :: ps).length, (etas c.lin c.ang (initialEta c robot p) (p :: ps))[i]? = some (arrival c robot (p :: ps) i) := by
        intro i hi
        exact etas_get c robot p ps hrob hyaw' i (by simpa using hi)
      rcases switchBack_cases hr ha robot (p :: ps) _ hts gs hin with ⟨k, l₁, l₂, e1, e2, e3, e4, e5⟩ | ⟨e1, e2⟩
      · rw [e5]
        exact ⟨k, e4, .inl ⟨l₁, l₂, e1, e2, e3⟩, rfl⟩
      · rw [e2]
        dsimp only
        rcases expected_cases hr ha robot (p :: ps) _ hts ps.length (by simp) (ps.length - 0) 0 rfl (by simp) (by simp) with
          ⟨k, f1, f2, f3, f4⟩ | ⟨f1, f2⟩
        · rw [f4]
          exact ⟨k, by simp; omega, .inr (.inl ⟨e1, by simp; omega, f2, f3⟩), rfl⟩
        · rw [f2]
          exact ⟨ps.length, by simp, .inr (.inr ⟨e1, by simp, f1⟩), rfl⟩
  obtain ⟨k, m1, m2, m3⟩ := main
  exact ⟨a, k, ⟨n, d, h1, h2, h3, by omega, m2⟩, m3⟩

end Verif.StartPose
