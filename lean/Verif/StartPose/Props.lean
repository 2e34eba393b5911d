import Verif.StartPose.Lemmas
import Verif.SearchPos.Props
/-! # **C96**: the part of the previous path that is kept -/
namespace Verif.StartPose
open Verif.GridMetric (Cell Info metric2Grid metric2GridF grid2Metric grid2MetricF isGridCenter)
open Verif.GridMetric.Spec (InSquare NearestHeading SameDirection)
open Verif.CSpace (lround)
open Verif.Path2D (PoseMsg fromMsg toMsg findNearest Goals)

/-! ## C96: the part of the previous path that is kept -/

/-- The switch backs of the remaining path are determined by the inputs. -/
theorem local_goals_exist (c : Config) (robot : Path2D.Pose) (msg : List PoseMsg) : ∃ gs, LocalGoals c robot gs msg := by
  cases h : dropPassed c robot.pos (fromMsg false (1 / 1000000) msg) with
  | none => exact ⟨[], fun Q hQ => by rw [h] at hQ; cases hQ⟩
  | some o =>
    cases o with
    | none => exact ⟨[], fun Q hQ => by rw [h] at hQ; cases hQ⟩
    | some Q =>
      rcases Nat.eq_zero_or_pos Q.length with h0 | h0
      · refine ⟨[], fun Q' hQ => ?_⟩
        rw [h] at hQ
        obtain rfl := Option.some.inj (Option.some.inj hQ)
        refine .stop ?_
        unfold Path2D.findLocalGoal Path2D.localGoalLoop
        rw [if_neg (by omega)]
      · obtain ⟨gs, h1, -, -⟩ := Path2D.local_goals (P := Q) (b := 0) (e := Q.length) (sw := true) (tn := false)
          (eps := 1 / 1000000) (by norm_num) le_rfl h0
        refine ⟨gs, fun Q' hQ => ?_⟩
        rw [h] at hQ
        obtain rfl := Option.some.inj (Option.some.inj hQ)
        exact h1

/-- **C96**: what is kept is a contiguous part of the previous path which begins at the part nearest to the robot (at most the allowed
distance away); it ends just before the selected pose (see `Selected`), from whose cell the next plan starts; every kept pose lies in a
cell that is read and is not lethal; the reported length is that of the path up to the selected pose. -/
theorem kept_part {c : Config} {g : Info ℝ} (hr : 0 < g.res) (ha : 0 < g.ares) (hA : 0 < g.angle) (cm : Cell → Option Int)
    (robot : Path2D.Pose) (hrob : |robot.yaw| ≤ Real.pi) (gs : List Nat) (msg : List PoseMsg) (hgs : LocalGoals c robot gs msg)
    (r : Result) (h : process c g cm robot gs msg = some (some r)) :
    let P := fromMsg false (1 / 1000000) msg
    ∃ a k e, Continues c g robot gs P a k ∧ P[a + k]? = some e ∧ InCell g r.start e ∧
      r.kept = toMsg false ((P.drop a).take k) ∧ r.len = Path2D.length ((P.drop a).take (k + 1)) ∧
      ∀ p ∈ (P.drop a).take k, ∃ s v, InCell g s p ∧ cm s = some v ∧ v ≠ 100 := by
  intro P
  rcases process_cases hr ha cm robot hrob gs msg hgs with ⟨-, h1⟩ | ⟨-, h1⟩ | ⟨a, k, h1, h2⟩
  · rw [h] at h1; cases h1
  · rw [h] at h1; cases h1
  change Continues c g robot gs P a k at h1
  change process c g cm robot gs msg = buildResults g cm (P.drop a) k at h2
  have hak : a + k < P.length := by obtain ⟨n, d, -, -, -, h, -⟩ := h1; exact h
  have hget : (P.drop a)[k]? = some P[a + k] := by rw [List.getElem?_drop, List.getElem?_eq_getElem hak]
  rw [h] at h2
  unfold buildResults at h2
  rw [hget] at h2
  rcases colliding_cases g cm ((P.drop a).take k) with ⟨h3, -⟩ | ⟨h3, h4⟩ | ⟨h3, -⟩
  · rw [h3] at h2; cases h2
  · rw [h3] at h2
    dsimp only at h2
    obtain rfl := Option.some.inj (Option.some.inj h2)
    refine ⟨a, k, P[a + k], h1, List.getElem?_eq_getElem hak, inCell_cellOf hr ha hA _, ?_, rfl, ?_⟩
    · dsimp only
      unfold toMsg
      have hlen : ((P.drop a).take (k + 1)).length = k + 1 := by rw [List.length_take, List.length_drop]; omega
      rw [← List.map_dropLast, List.dropLast_eq_take, hlen, List.take_take]
      congr 2
      omega
    · intro p hp
      obtain ⟨v, h5, h6⟩ := h4 p hp
      exact ⟨_, v, inCell_cellOf hr ha hA p, h5, h6⟩
  · rw [h3] at h2; cases h2

/-- **C96**: the previous path is given up only if it is empty, the robot is too far from it, or a pose to be kept collides. -/
theorem refused {c : Config} {g : Info ℝ} (hr : 0 < g.res) (ha : 0 < g.ares) (hA : 0 < g.angle) (cm : Cell → Option Int)
    (robot : Path2D.Pose) (hrob : |robot.yaw| ≤ Real.pi) (gs : List Nat) (msg : List PoseMsg) (hgs : LocalGoals c robot gs msg)
    (h : process c g cm robot gs msg = some none) :
    let P := fromMsg false (1 / 1000000) msg
    P = [] ∨ TooFar c robot P ∨ ∃ a k, Continues c g robot gs P a k ∧
      ∃ p ∈ (P.drop a).take k, ∃ s, InCell g s p ∧ cm s = some 100 := by
  intro P
  rcases process_cases hr ha cm robot hrob gs msg hgs with ⟨h1, -⟩ | ⟨h1, -⟩ | ⟨a, k, h1, h2⟩
  · exact .inl h1
  · exact .inr (.inl h1)
  change Continues c g robot gs P a k at h1
  change process c g cm robot gs msg = buildResults g cm (P.drop a) k at h2
  have hak : a + k < P.length := by obtain ⟨n, d, -, -, -, h, -⟩ := h1; exact h
  have hget : (P.drop a)[k]? = some P[a + k] := by rw [List.getElem?_drop, List.getElem?_eq_getElem hak]
  rw [h] at h2
  unfold buildResults at h2
  rw [hget] at h2
  rcases colliding_cases g cm ((P.drop a).take k) with ⟨h3, p, hp, h4⟩ | ⟨h3, -⟩ | ⟨h3, -⟩
  · exact .inr (.inr ⟨a, k, h1, p, hp, _, inCell_cellOf hr ha hA p, h4⟩)
  · rw [h3] at h2; cases h2
  · rw [h3] at h2; cases h2

/-- **C96** (partial: the cells of the previous path are assumed to be on the map, see `leaves_the_map`): nothing is read outside of
the path, the times or the map. -/
theorem defined_partial {c : Config} {g : Info ℝ} (hr : 0 < g.res) (ha : 0 < g.ares) (hA : 0 < g.angle) (cm : Cell → Option Int)
    (robot : Path2D.Pose) (hrob : |robot.yaw| ≤ Real.pi) (gs : List Nat) (msg : List PoseMsg) (hgs : LocalGoals c robot gs msg)
    (hin : ∀ p ∈ fromMsg false (1 / 1000000) msg, ∀ s, InCell g s p → cm s ≠ none) :
    process c g cm robot gs msg ≠ none := by
  rcases process_cases hr ha cm robot hrob gs msg hgs with ⟨-, h1⟩ | ⟨-, h1⟩ | ⟨a, k, h1, h2⟩
  · rw [h1]; simp
  · rw [h1]; simp
  rw [h2]
  unfold buildResults
  have hak : a + k < (fromMsg false (1 / 1000000) msg).length := by obtain ⟨n, d, -, -, -, h, -⟩ := h1; exact h
  rw [List.getElem?_drop, List.getElem?_eq_getElem hak]
  rcases colliding_cases g cm (((fromMsg false (1 / 1000000) msg).drop a).take k) with ⟨h3, -⟩ | ⟨h3, -⟩ | ⟨h3, p, hp, h4⟩
  · rw [h3]; simp
  · rw [h3]; simp
  · exact absurd h4 (hin p (List.mem_of_mem_drop (List.mem_of_mem_take hp)) _ (inCell_cellOf hr ha hA p))

/-- **C96**: when the next plan starts from a switch back, the path really turns back there: the moves into the selected pose and out of
it go in opposite directions. -/
theorem switch_is_reversal {Q : List Path2D.Pose} (hQ : Q ≠ []) {gs : List Nat}
    (h : Goals Q Q.length true false (1 / 1000000) 0 gs) (k : Nat) (hk : k + 1 ∈ gs) : Path2D.ReversesAt Q (k + 1) := by
  have hl : 0 < Q.length := List.length_pos_of_ne_nil hQ
  obtain ⟨gs', h1, h2, h3⟩ := Path2D.local_goals (P := Q) (b := 0) (e := Q.length) (sw := true) (tn := false) (eps := 1 / 1000000)
    (by norm_num) le_rfl hl
  obtain rfl := h2 gs h
  obtain ⟨j, hj, e⟩ := List.mem_iff_getElem.mp hk
  obtain ⟨a, b, -, e2, -, -, -, e5⟩ := h3 j (by omega)
  rw [List.getElem?_append_left hj, List.getElem?_eq_getElem hj, e] at e2
  obtain rfl := Option.some.inj e2
  rcases (e5 hj).2 with ⟨h, -⟩ | ⟨-, -, -, -, h⟩
  · cases h
  · exact h

/-! ### A straight path of three poses, the robot at its beginning -/

/-- Cells of one metre, four headings. -/
noncomputable def g0 : Info ℝ := ⟨1, Real.pi / 2, 0, 0, 4⟩

noncomputable def c0 : Config := { predict := 1 / 2, switchPredict := 0, distStop := 1, lin := 1, ang := 1 }

/-- The centre of cell `(i, 0)`, heading along the path. -/
noncomputable def p (i : ℝ) : Path2D.Pose := ⟨⟨i + 1 / 2, 1 / 2⟩, 0, .nan⟩

noncomputable def m0 : List PoseMsg := [0, 1, 2].map fun i : ℝ => ⟨⟨i + 1 / 2, 1 / 2⟩, 0, 1, .nan⟩

theorem dist_p (i j : ℝ) : ‖(p i).pos - (p j).pos‖ = |i - j| := by
  have : (p i).pos - (p j).pos = ((i - j : ℝ) : ℂ) := by
    apply Complex.ext <;> simp [p]
  rw [this, Complex.norm_real, Real.norm_eq_abs]

theorem path0 : fromMsg false (1 / 1000000) m0 = [p 0, p 1, p 2] := by
  have hread : ∀ i : ℝ, Path2D.readPose false ⟨⟨i + 1 / 2, 1 / 2⟩, 0, 1, .nan⟩ = p i := by
    intro i
    unfold Path2D.readPose p
    simp only [one_pow, mul_one, mul_zero, Path2D.Pose.mk.injEq, true_and]
    refine ⟨?_, by simp⟩
    have : (⟨1 - 0 ^ 2, 0⟩ : ℂ) = ((1 : ℝ) : ℂ) := by apply Complex.ext <;> simp
    rw [this, Complex.arg_ofReal_of_nonneg (by norm_num)]
  unfold fromMsg m0
  rw [List.map_map]
  have : (Path2D.readPose false ∘ fun i : ℝ => (⟨⟨i + 1 / 2, 1 / 2⟩, 0, 1, .nan⟩ : PoseMsg)) = p := funext hread
  rw [this]
  refine Path2D.fromPoses_id (.far ?_ (.far ?_ (.one _)))
  all_goals
    rw [Path2D.far_iff (by norm_num), dist_p]
    norm_num

theorem centre_p (i : Int) : OnCentre g0 (p i) := by
  refine ⟨i, 0, 0, ?_, ?_, ?_⟩ <;> simp [g0, p] <;> positivity

theorem arrival_p (i : ℝ) (l : List Path2D.Pose) : arrival c0 (p 0) (p i :: l) 0 = |i| := by
  unfold arrival
  dsimp only
  rw [dist_p]
  simp [turn, p, c0, along]

theorem arrival_p1 (i j : ℝ) (h : 1 / 1000000 < |i - j|) (l : List Path2D.Pose) :
    arrival c0 (p 0) (p i :: p j :: l) 1 = |i| + |i - j| := by
  unfold arrival
  dsimp only
  rw [dist_p]
  simp only [List.take_succ_cons, List.take_zero, along, leg, dist_p, if_pos h]
  simp [turn, p, c0]

theorem not_soon (Q : List Path2D.Pose) (k : Nat) : ¬ Soon c0 g0 (p 0) Q k := by
  rintro ⟨⟨_, -, -, h1⟩, h2⟩
  simp only [c0] at h1 h2
  linarith

theorem continues0 (gs : List Nat) (a k : Nat) (h : Continues c0 g0 (p 0) gs [p 0, p 1, p 2] a k) : a = 0 ∧ k = 1 := by
  obtain ⟨n, d, h1, -, h2, h3, h4⟩ := h
  have s1 : Path2D.segDist [p 0, p 1, p 2] (p 0).pos 1 = 0 := by
    unfold Path2D.segDist
    exact Metric.infDist_zero_of_mem (left_mem_segment ℝ _ _)
  have s2 : Path2D.segDist [p 0, p 1, p 2] (p 0).pos 2 = 1 := by
    unfold Path2D.segDist
    change Metric.infDist (p 0).pos (segment ℝ (p 1).pos (p 2).pos) = 1
    rw [← Path2D.strip_distance]
    unfold Path2D.stripDistance
    rw [if_pos (by simp [Path2D.dot, p]), dist_p]
    norm_num
  rcases h1 with ⟨x, h, -⟩ | ⟨-, h5, h6, h7, h8⟩
  · cases h
  have hd := h8 1 (by omega) (by simp)
  rw [s1] at hd
  norm_num at hd
  have hn : n = 1 := by
    have h9 : n < 3 := h6
    rcases (by omega : n = 1 ∨ n = 2) with h | h
    · exact h
    · subst h; rw [s2] at h7; subst h7; norm_num at hd
  subst hn
  rw [s1] at h7
  subst h7
  have ha : a = 0 := by
    rcases h2 with ⟨-, h⟩ | ⟨h, -⟩
    · exact absurd ⟨rfl, p 0, rfl, by rw [dist_p]; norm_num⟩ h
    · exact h
  subst ha
  refine ⟨rfl, ?_⟩
  have late1 : Late c0 g0 (p 0) [p 0, p 1, p 2] 1 := by
    refine ⟨p 1, rfl, by simpa using centre_p 1, ?_⟩
    rw [arrival_p1 0 1 (by norm_num)]
    norm_num [c0]
  have late0 : ¬ Late c0 g0 (p 0) [p 0, p 1, p 2] 0 := by
    rintro ⟨x, -, -, h⟩
    rw [arrival_p] at h
    norm_num [c0] at h
  rcases h4 with ⟨_, _, -, h, -⟩ | ⟨-, -, e1, e2⟩ | ⟨-, e1, e2⟩
  · exact absurd h (not_soon _ _)
  · rcases (by omega : k = 0 ∨ k = 1 ∨ 1 < k) with rfl | rfl | h
    · exact absurd e1 late0
    · rfl
    · exact absurd late1 (e2 1 h)
  · simp only [List.drop_zero, List.length_cons, List.length_nil] at e1
    exact absurd late1 (e2 1 (by omega))

theorem inCell_p (s : Cell) (i : Int) (h : InCell g0 s (p i)) : s = ⟨i, 0, 0⟩ := by
  obtain ⟨⟨h1, h2, h3, h4⟩, h5, h6, w, h7, k, h8⟩ := h
  have hpi := Real.pi_pos
  simp only [g0, p, zero_add, mul_one] at h1 h2 h3 h4 h6 h8
  have e1 : s.x = i := by
    have a : s.x < i + 1 := by
      by_contra h
      have : ((i + 1 : Int) : ℝ) ≤ (s.x : ℝ) := by exact_mod_cast not_lt.mp h
      push_cast at this; linarith
    have b : i < s.x + 1 := by
      by_contra h
      have : ((s.x + 1 : Int) : ℝ) ≤ (i : ℝ) := by exact_mod_cast not_lt.mp h
      push_cast at this; linarith
    omega
  have e2 : s.y = 0 := by
    have a : s.y < 1 := by
      by_contra h
      have : ((1 : Int) : ℝ) ≤ (s.y : ℝ) := by exact_mod_cast not_lt.mp h
      push_cast at this; linarith
    have b : -1 < s.y := by
      by_contra h
      have : (s.y : ℝ) ≤ ((-1 : Int) : ℝ) := by exact_mod_cast not_lt.mp h
      push_cast at this; linarith
    omega
  have e3 : w = 0 := by
    unfold NearestHeading at h7
    simp only [g0, p, zero_sub, abs_neg, abs_mul] at h7
    rw [abs_of_pos (show (0 : ℝ) < Real.pi / 2 by positivity)] at h7
    by_contra hne
    have : (1 : ℝ) ≤ |(w : ℝ)| := by exact_mod_cast Int.one_le_abs hne
    nlinarith
  have e4 : s.yaw = 0 := by omega
  obtain ⟨x, y, z⟩ := s
  simp only at e1 e2 e4
  rw [e1, e2, e4]

theorem process0 (cm : Cell → Option Int) (gs : List Nat) (hgs : LocalGoals c0 (p 0) gs m0) :
    process c0 g0 cm (p 0) gs m0 = buildResults g0 cm [p 0, p 1, p 2] 1 := by
  rcases process_cases (g := g0) (by norm_num [g0]) (by simp [g0, Real.pi_pos]) cm (p 0) (by simp [p, Real.pi_pos.le]) gs m0 hgs with
    ⟨h, -⟩ | ⟨h, -⟩ | ⟨a, k, h1, h2⟩
  · rw [path0] at h; cases h
  · rw [path0] at h
    obtain ⟨n, d, h1, h2⟩ := h
    have s1 : Path2D.segDist [p 0, p 1, p 2] (p 0).pos 1 = 0 := by
      unfold Path2D.segDist
      exact Metric.infDist_zero_of_mem (left_mem_segment ℝ _ _)
    rcases h1 with ⟨x, h, -⟩ | ⟨-, -, -, -, h8⟩
    · cases h
    · have hd := h8 1 (by omega) (by simp)
      rw [s1] at hd
      norm_num [c0] at hd h2
      linarith
  · rw [path0] at h1 h2
    obtain ⟨rfl, rfl⟩ := continues0 gs a k h1
    exact h2

theorem cellOf_p (i : Int) : cellOf g0 (p i) = ⟨i, 0, 0⟩ :=
  inCell_p _ i (inCell_cellOf (by norm_num [g0]) (by simp [g0, Real.pi_pos]) (by simp [g0]) _)

theorem cellOf_p0 : cellOf g0 (p 0) = ⟨0, 0, 0⟩ := by simpa using cellOf_p 0
theorem cellOf_p1 : cellOf g0 (p 1) = ⟨1, 0, 0⟩ := by simpa using cellOf_p 1

/-- On a free map the first pose is kept and the next plan starts at the second one: it is the first centre reached after the prediction
time of half a second. -/
example : ∃ gs r, LocalGoals c0 (p 0) gs m0 ∧ process c0 g0 (fun _ => some 0) (p 0) gs m0 = some (some r) ∧
    r.start = ⟨1, 0, 0⟩ ∧ r.kept = toMsg false [p 0] ∧ r.len = 1 := by
  obtain ⟨gs, hgs⟩ := local_goals_exist c0 (p 0) m0
  refine ⟨gs, _, hgs, process0 _ gs hgs, cellOf_p1, rfl, ?_⟩
  simp only [List.take_succ_cons, List.take_zero, Path2D.length, dist_p]
  norm_num

/-- **C96** (a limit): the cell from which the next plan starts is not checked; the kept part is collision free, but the plan may start
in a lethal cell. -/
theorem start_may_be_lethal : ∃ gs r, LocalGoals c0 (p 0) gs m0 ∧
    process c0 g0 (fun s => if s = ⟨1, 0, 0⟩ then some 100 else some 0) (p 0) gs m0 = some (some r) ∧ r.start = ⟨1, 0, 0⟩ := by
  obtain ⟨gs, hgs⟩ := local_goals_exist c0 (p 0) m0
  refine ⟨gs, { start := cellOf g0 (p 1), kept := (toMsg false [p 0, p 1]).dropLast, len := Path2D.length [p 0, p 1] }, hgs, ?_, cellOf_p1⟩
  rw [process0 _ gs hgs]
  simp [buildResults, colliding, cellOf_p0]

/-- A pose to be kept collides: the previous path is given up. -/
example : ∃ gs, LocalGoals c0 (p 0) gs m0 ∧
    process c0 g0 (fun s => if s = ⟨0, 0, 0⟩ then some 100 else some 0) (p 0) gs m0 = some none := by
  obtain ⟨gs, hgs⟩ := local_goals_exist c0 (p 0) m0
  refine ⟨gs, hgs, ?_⟩
  rw [process0 _ gs hgs]
  simp [buildResults, colliding, cellOf_p0]

/-- **C96** (what is missing from `defined_partial`): a previous path that leaves the present map, for instance after a smaller map was
received, makes the predictor read outside of the costmap. -/
theorem leaves_the_map : ∃ gs, LocalGoals c0 (p 0) gs m0 ∧
    process c0 g0 (fun s => if s.x < 1 then none else some 0) (p 0) gs m0 = none := by
  obtain ⟨gs, hgs⟩ := local_goals_exist c0 (p 0) m0
  refine ⟨gs, hgs, ?_⟩
  rw [process0 _ gs hgs]
  simp [buildResults, colliding, cellOf_p0]

end Verif.StartPose
