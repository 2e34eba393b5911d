import Verif.StartPose.Props
/-! # Properties of the start of the next plan

* **C97** start poses of the search
* **C98** the published path is continuous where the old and the new part meet
* **C99** first switch back of a path -/
namespace Verif.StartPose
open Verif.GridMetric (Cell Info metric2Grid metric2GridF grid2Metric grid2MetricF)
open Verif.GridMetric.Spec (InSquare NearestHeading SameDirection)
open Verif.Model3D (cycU cycS)
open Verif.CSpace (lround)
open Verif.Path2D (PoseMsg fromMsg toMsg)

/-! ## C97: start poses of the search -/

theorem valid_iff (m : SearchPos.Map) (c : Cell) : valid m c = true ↔ OnMap m c := by
  unfold valid OnMap
  exact SearchPos.validate_iff _ _ _ _ _ _ _

/-- The robot's own cell. -/
theorem own_cell (pl : Plan) (h : pl.Sane) (robot : Path2D.Pose) : InCell pl.info (ownCell pl robot) robot := by
  have := inCell_cellOf h.res h.ares (by rw [h.same]; exact h.angle) robot
  unfold cellOf at this
  rw [h.same] at this
  exact this

theorem candidate_iff (pl : Plan) (cm : Cell → Int) (robot : Path2D.Pose) (c : Cell) (x : Cell × ℝ) :
    candidate pl cm robot c = some x ↔ OnMap pl.map c ∧ sqDist pl.info robot c ≤ 1 ∧ cm c ≤ 99 ∧
      x = (c, Real.sqrt (((((c.x : ℝ) + 1 / 2 - gx pl.info robot)) * pl.ec0) ^ 2 + (((c.y : ℝ) + 1 / 2 - gy pl.info robot) * pl.ec0) ^ 2) +
        (cm c : ℝ) * pl.weight / 100) := by
  unfold candidate
  dsimp only
  change (if _ then none else if sqDist pl.info robot c > 1 then none else if _ then none else some (c, _)) = some x ↔ _
  rw [← valid_iff]
  by_cases h1 : valid pl.map c = false
  · rw [if_pos h1]
    simp [h1]
  rw [if_neg h1]
  by_cases h2 : sqDist pl.info robot c > 1
  · rw [if_pos h2]
    constructor
    · intro h; cases h
    · rintro ⟨-, h, -⟩; exact absurd h2 (not_lt.mpr h)
  rw [if_neg h2]
  by_cases h3 : cm c > 99
  · rw [if_pos h3]
    constructor
    · intro h; cases h
    · rintro ⟨-, -, h, -⟩; omega
  rw [if_neg h3]
  constructor
  · intro h
    refine ⟨by simpa using h1, not_lt.mp h2, by omega, ?_⟩
    rw [← Option.some.inj h]
    rfl
  · rintro ⟨-, -, -, rfl⟩; rfl

theorem cost_eq (e a b : ℝ) (he : 0 ≤ e) : Real.sqrt ((a * e) ^ 2 + (b * e) ^ 2) = e * Real.sqrt (a ^ 2 + b ^ 2) := by
  rw [show (a * e) ^ 2 + (b * e) ^ 2 = e ^ 2 * (a ^ 2 + b ^ 2) by ring, Real.sqrt_mul (sq_nonneg e), Real.sqrt_sq he]

/-- The second candidate covers every other column (row) whose centre is less than one cell away. -/
theorem side_covers (x : ℝ) (c : Int) (h : |x - ((c : ℝ) + 1 / 2)| < 1) : c - ⌊x⌋ = 0 ∨ c - ⌊x⌋ = side x ⌊x⌋ := by
  have h1 := Int.floor_le x
  have h2 := Int.lt_floor_add_one x
  rw [abs_lt] at h
  have h3 : -2 < c - ⌊x⌋ := by
    by_contra hn
    have : ((c - ⌊x⌋ : Int) : ℝ) ≤ ((-2 : Int) : ℝ) := by exact_mod_cast not_lt.mp hn
    push_cast at this; linarith
  have h4 : c - ⌊x⌋ < 2 := by
    by_contra hn
    have : ((2 : Int) : ℝ) ≤ ((c - ⌊x⌋ : Int) : ℝ) := by exact_mod_cast not_lt.mp hn
    push_cast at this; linarith
  unfold side
  split
  · rename_i hs
    have h5 : c - ⌊x⌋ < 1 := by
      by_contra hn
      have : ((1 : Int) : ℝ) ≤ ((c - ⌊x⌋ : Int) : ℝ) := by exact_mod_cast not_lt.mp hn
      push_cast at this; linarith
    omega
  · rename_i hs
    have h5 : -1 < c - ⌊x⌋ := by
      by_contra hn
      have : ((c - ⌊x⌋ : Int) : ℝ) ≤ ((-1 : Int) : ℝ) := by exact_mod_cast not_lt.mp hn
      push_cast at this; linarith
    omega

/-- Start poses before relocation, with `antialias_start`. -/
theorem near_antialias (pl : Plan) (h : pl.Sane) (cm : Cell → Int) (robot : Path2D.Pose) (ha : pl.antialias = true) (x : Cell × ℝ) :
    (x ∈ nearStarts pl cm robot → OnMap pl.map x.1 ∧ cm x.1 ≤ 99 ∧ x.1.yaw = (ownCell pl robot).yaw ∧ sqDist pl.info robot x.1 ≤ 1 ∧
      x.2 = pl.ec0 * Real.sqrt (sqDist pl.info robot x.1) + (cm x.1 : ℝ) * pl.weight / 100) ∧
    (OnMap pl.map x.1 → cm x.1 ≤ 99 → x.1.yaw = (ownCell pl robot).yaw → sqDist pl.info robot x.1 < 1 →
      x.2 = pl.ec0 * Real.sqrt (sqDist pl.info robot x.1) + (cm x.1 : ℝ) * pl.weight / 100 → x ∈ nearStarts pl cm robot) := by
  have hcost : ∀ c : Cell, Real.sqrt (((((c.x : ℝ) + 1 / 2 - gx pl.info robot)) * pl.ec0) ^ 2 + (((c.y : ℝ) + 1 / 2 - gy pl.info robot) * pl.ec0) ^ 2) =
      pl.ec0 * Real.sqrt (sqDist pl.info robot c) := by
    intro c
    rw [cost_eq _ _ _ h.ec0]
    congr 2
    unfold sqDist; ring
  unfold nearStarts
  simp only [ha, if_true]
  simp only [List.mem_filterMap, List.mem_flatMap, List.mem_map]
  constructor
  · rintro ⟨c, ⟨dx, -, dy, -, rfl⟩, hc⟩
    rw [candidate_iff] at hc
    obtain ⟨h1, h2, h3, rfl⟩ := hc
    exact ⟨h1, h3, rfl, h2, congrArg (· + _) (hcost ⟨_, _, _⟩)⟩
  · intro h1 h2 h3 h4 h5
    have hx : |gx pl.info robot - ((x.1.x : ℝ) + 1 / 2)| < 1 := by
      have : (gx pl.info robot - ((x.1.x : ℝ) + 1 / 2)) ^ 2 < 1 := by
        have := sq_nonneg (gy pl.info robot - ((x.1.y : ℝ) + 1 / 2))
        unfold sqDist at h4; linarith
      rwa [← sq_abs, sq_lt_one_iff₀ (abs_nonneg _)] at this
    have hy : |gy pl.info robot - ((x.1.y : ℝ) + 1 / 2)| < 1 := by
      have : (gy pl.info robot - ((x.1.y : ℝ) + 1 / 2)) ^ 2 < 1 := by
        have := sq_nonneg (gx pl.info robot - ((x.1.x : ℝ) + 1 / 2))
        unfold sqDist at h4; linarith
      rwa [← sq_abs, sq_lt_one_iff₀ (abs_nonneg _)] at this
    refine ⟨x.1, ⟨x.1.x - (ownCell pl robot).x, ?_, x.1.y - (ownCell pl robot).y, ?_, ?_⟩, ?_⟩
    · rcases side_covers _ _ hx with h | h
      · simp only [List.mem_cons]; exact .inl h
      · simp only [List.mem_cons]; exact .inr (.inl h)
    · rcases side_covers _ _ hy with h | h
      · simp only [List.mem_cons]; exact .inl h
      · simp only [List.mem_cons]; exact .inr (.inl h)
    · rw [← h3]
      simp only [add_sub_cancel]
    · rw [candidate_iff]
      refine ⟨h1, h4.le, h2, ?_⟩
      rw [hcost, ← h5]

theorem near_of (pl : Plan) (h : pl.Sane) (cm : Cell → Int) (robot : Path2D.Pose) (ha : pl.antialias = true) (c : Cell)
    (h1 : OnMap pl.map c) (h2 : cm c ≤ 99) (h3 : c.yaw = (ownCell pl robot).yaw) (h4 : sqDist pl.info robot c < 1) :
    (c, pl.ec0 * Real.sqrt (sqDist pl.info robot c) + (cm c : ℝ) * pl.weight / 100) ∈ nearStarts pl cm robot :=
  (near_antialias pl h cm robot ha (c, pl.ec0 * Real.sqrt (sqDist pl.info robot c) + (cm c : ℝ) * pl.weight / 100)).2 h1 h2 h3 h4 rfl

/-- Without it: the robot's own cell, if it is free. -/
theorem near_plain (pl : Plan) (cm : Cell → Int) (robot : Path2D.Pose) (ha : pl.antialias = false) (x : Cell × ℝ) :
    x ∈ nearStarts pl cm robot ↔ x = (ownCell pl robot, 0) ∧ cm (ownCell pl robot) ≤ 99 := by
  unfold nearStarts
  simp only [ha, Bool.false_eq_true, if_false]
  split
  · rename_i h
    simp only [List.mem_singleton]
    constructor
    · intro e; exact ⟨e, by omega⟩
    · exact fun e => e.1
  · rename_i h
    simp only [List.not_mem_nil, false_iff]
    rintro ⟨-, h'⟩; omega

/-- The own cell is a candidate: its centre is less than one cell away. -/
theorem own_near (pl : Plan) (robot : Path2D.Pose) : sqDist pl.info robot (ownCell pl robot) < 1 := by
  have key : ∀ v : ℝ, (v - ((⌊v⌋ : ℝ) + 1 / 2)) ^ 2 ≤ 1 / 4 := by
    intro v
    have h1 := Int.floor_le v
    have h2 := Int.lt_floor_add_one v
    nlinarith
  have h1 := key (gx pl.info robot)
  have h2 := key (gy pl.info robot)
  change (gx pl.info robot - ((⌊gx pl.info robot⌋ : ℝ) + 1 / 2)) ^ 2 + (gy pl.info robot - ((⌊gy pl.info robot⌋ : ℝ) + 1 / 2)) ^ 2 < 1
  linarith

/-- The three outcomes without a previous path. -/
theorem starts_cases (pl : Plan) (h : pl.Sane) (cm : Cell → Int) (robot : Path2D.Pose) (goal : Cell) :
    (¬ OnMap pl.map (ownCell pl robot) ∧ starts pl cm robot goal none = (.occupied, [])) ∨
    (OnMap pl.map (ownCell pl robot) ∧ nearStarts pl cm robot = [] ∧ NoRelocation pl cm (ownCell pl robot) ∧
      starts pl cm robot goal none = (.occupied, [])) ∨
    (OnMap pl.map (ownCell pl robot) ∧ ∃ l, starts pl cm robot goal none =
        (if l.any fun x => finishing pl x.1 goal then .finishing else .normal, l) ∧ l ≠ [] ∧
      (l = nearStarts pl cm robot ∨ (nearStarts pl cm robot = [] ∧ ∃ c, l = [(c, 0)] ∧ Relocated pl cm (ownCell pl robot) c))) := by
  unfold starts
  dsimp only
  rw [← valid_iff]
  by_cases h1 : valid pl.map (ownCell pl robot) = false
  · rw [if_pos h1]; exact .inl ⟨by simp [h1], rfl⟩
  rw [if_neg h1]
  refine .inr ?_
  have h1' : valid pl.map (ownCell pl robot) = true := by simpa using h1
  by_cases h2 : nearStarts pl cm robot = []
  · rw [if_pos h2]
    cases hs : SearchPos.searchAvailablePos pl.map cm pl.dist (ownCell pl robot) pl.tolRange pl.tolAngle with
    | none => exact .inl ⟨h1', h2, (SearchPos.search_fails_iff pl.map h.angle cm pl.dist _ _ _ (-1) 0).mp hs, rfl⟩
    | some c =>
      exact .inr ⟨h1', [(c, 0)], rfl, by simp, .inr ⟨h2, c, rfl, SearchPos.search_returns_nearest pl.map h.angle cm pl.dist _ _ _ (-1) 0 c hs⟩⟩
  · rw [if_neg h2]
    exact .inr ⟨h1', _, rfl, h2, .inl rfl⟩

/-- **C97**: every start pose lies on the map with the margin, in a cell that is not lethal.  It is, with its own heading, a cell whose
centre is at most one cell away from the robot, at the cost of the way to the centre and of the cell; or (without `antialias_start`) the
robot's own cell; or, only if the own cell is lethal, the cell found by relocation. -/
theorem start_cells (pl : Plan) (h : pl.Sane) (cm : Cell → Int) (robot : Path2D.Pose) (goal : Cell) (x : Cell × ℝ)
    (hx : x ∈ (starts pl cm robot goal none).2) :
    OnMap pl.map x.1 ∧ cm x.1 ≤ 99 ∧
    ((pl.antialias = true ∧ x.1.yaw = (ownCell pl robot).yaw ∧ sqDist pl.info robot x.1 ≤ 1 ∧
        x.2 = pl.ec0 * Real.sqrt (sqDist pl.info robot x.1) + (cm x.1 : ℝ) * pl.weight / 100) ∨
     (pl.antialias = false ∧ x = (ownCell pl robot, 0)) ∨
     (100 ≤ cm (ownCell pl robot) ∧ x.2 = 0 ∧ Relocated pl cm (ownCell pl robot) x.1)) := by
  rcases starts_cases pl h cm robot goal with ⟨-, e⟩ | ⟨-, -, -, e⟩ | ⟨hon, l, e, -, hl⟩
  · rw [e] at hx; cases hx
  · rw [e] at hx; cases hx
  rw [e] at hx
  change x ∈ l at hx
  rcases hl with rfl | ⟨hn, c, rfl, hc⟩
  · cases ha : pl.antialias with
    | true =>
      obtain ⟨a1, a2, a3, a4, a5⟩ := (near_antialias pl h cm robot ha x).1 hx
      exact ⟨a1, a2, .inl ⟨rfl, a3, a4, a5⟩⟩
    | false =>
      obtain ⟨rfl, a2⟩ := (near_plain pl cm robot ha x).mp hx
      exact ⟨hon, a2, .inr (.inl ⟨rfl, rfl⟩)⟩
  · rw [List.mem_singleton] at hx
    subst hx
    have hown : 100 ≤ cm (ownCell pl robot) := by
      by_contra hlt
      have hlt : cm (ownCell pl robot) ≤ 99 := by omega
      cases ha : pl.antialias with
      | true =>
        have := near_of pl h cm robot ha _ hon hlt rfl (own_near pl robot)
        rw [hn] at this; cases this
      | false =>
        have := (near_plain pl cm robot ha _).mpr ⟨rfl, hlt⟩
        rw [hn] at this; cases this
    have hon' : OnMap pl.map c ∧ cm c ≤ 99 := by
      have key : ∀ acc : Int, acc ≤ 100 → SearchPos.Nearest pl.map cm pl.dist (ownCell pl robot) pl.tolRange pl.tolAngle 0 acc c →
          OnMap pl.map c ∧ cm c ≤ 99 := by
        rintro acc ha ⟨d, ⟨-, -, ⟨b1, b2, -, -, b3, b4, -, -, b5, b6⟩, b7⟩, -⟩
        exact ⟨⟨⟨b1, b2⟩, ⟨b3, b4⟩, b5, b6⟩, by omega⟩
      rcases hc with hc | ⟨-, hc⟩
      · exact key _ h.acc hc
      · exact key _ le_rfl hc
    exact ⟨hon'.1, hon'.2, .inr (.inr ⟨hown, rfl, hc⟩)⟩

/-- **C97**: with `antialias_start` every free cell of the map with the robot's heading whose centre is less than one cell away is a start
pose. -/
theorem start_complete (pl : Plan) (h : pl.Sane) (cm : Cell → Int) (robot : Path2D.Pose) (goal : Cell) (ha : pl.antialias = true)
    (hon : OnMap pl.map (ownCell pl robot)) (c : Cell) (hc : OnMap pl.map c) (hf : cm c ≤ 99) (hy : c.yaw = (ownCell pl robot).yaw)
    (hd : sqDist pl.info robot c < 1) : ∃ w, (c, w) ∈ (starts pl cm robot goal none).2 := by
  have hmem := near_of pl h cm robot ha c hc hf hy hd
  rcases starts_cases pl h cm robot goal with ⟨h1, -⟩ | ⟨-, h2, -, -⟩ | ⟨-, l, e, -, rfl | ⟨h2, -⟩⟩
  · exact absurd hon h1
  · rw [h2] at hmem; cases hmem
  · rw [e]; exact ⟨_, hmem⟩
  · rw [h2] at hmem; cases hmem

/-- **C97**: the start is reported as occupied exactly if the robot is off the map, or its own cell is lethal (with `antialias_start`: and
so are the cells near it) and no cell is left within the tolerances. -/
theorem start_occupied (pl : Plan) (h : pl.Sane) (cm : Cell → Int) (robot : Path2D.Pose) (goal : Cell) :
    ((starts pl cm robot goal none).1 = .occupied → ¬ OnMap pl.map (ownCell pl robot) ∨
      (100 ≤ cm (ownCell pl robot) ∧ NoRelocation pl cm (ownCell pl robot))) ∧
    (¬ OnMap pl.map (ownCell pl robot) → (starts pl cm robot goal none).1 = .occupied) ∧
    (100 ≤ cm (ownCell pl robot) → NoRelocation pl cm (ownCell pl robot) →
      (pl.antialias = true → ∀ c, OnMap pl.map c → c.yaw = (ownCell pl robot).yaw → sqDist pl.info robot c ≤ 1 → 100 ≤ cm c) →
      (starts pl cm robot goal none).1 = .occupied) := by
  refine ⟨?_, ?_, ?_⟩
  · intro ho
    rcases starts_cases pl h cm robot goal with ⟨h1, -⟩ | ⟨hon, h2, h3, -⟩ | ⟨-, l, e, -, -⟩
    · exact .inl h1
    · refine .inr ⟨?_, h3⟩
      by_contra hlt
      have hlt : cm (ownCell pl robot) ≤ 99 := by omega
      cases ha : pl.antialias with
      | true =>
        have := near_of pl h cm robot ha _ hon hlt rfl (own_near pl robot)
        rw [h2] at this; cases this
      | false =>
        have := (near_plain pl cm robot ha _).mpr ⟨rfl, hlt⟩
        rw [h2] at this; cases this
    · rw [e] at ho
      dsimp only at ho
      split at ho <;> cases ho
  · intro hn
    rcases starts_cases pl h cm robot goal with ⟨-, e⟩ | ⟨h1, -, -, -⟩ | ⟨h1, -⟩
    · rw [e]
    · exact absurd h1 hn
    · exact absurd h1 hn
  · intro h1 h2 h3
    rcases starts_cases pl h cm robot goal with ⟨-, e⟩ | ⟨-, -, -, e⟩ | ⟨-, l, e, hne, rfl | ⟨-, c, -, hc⟩⟩
    · rw [e]
    · rw [e]
    · exfalso
      obtain ⟨x, hx⟩ := List.exists_mem_of_ne_nil _ hne
      cases ha : pl.antialias with
      | true =>
        obtain ⟨a1, a2, a3, a4, -⟩ := (near_antialias pl h cm robot ha x).1 hx
        have := h3 ha x.1 a1 a3 a4
        omega
      | false =>
        obtain ⟨-, a2⟩ := (near_plain pl cm robot ha x).mp hx
        omega
    · exfalso
      rcases hc with ⟨d, hE, -⟩ | ⟨-, d, hE, -⟩
      · exact h2.1 ⟨d, c, hE⟩
      · by_cases h100 : pl.map.acceptable = 100
        · rw [← h100] at hE
          exact h2.1 ⟨d, c, hE⟩
        · exact h2.2 h100 ⟨d, c, hE⟩

/-- For an even number of headings the signed remainder is the smallest turn. -/
theorem within_iff (pl : Plan) (hA : 0 < pl.map.angle) (he : Even pl.map.angle) (s e : Cell) :
    finishing pl s e = true ↔ WithinTolerance pl s e := by
  unfold finishing WithinTolerance
  rw [decide_eq_true_iff]
  have h2 : (s.x - e.x) * (s.x - e.x) + (s.y - e.y) * (s.y - e.y) = (s.x - e.x) ^ 2 + (s.y - e.y) ^ 2 := by ring
  rw [h2, show pl.finLin * pl.finLin = pl.finLin ^ 2 by ring]
  refine and_congr_right fun _ => ?_
  obtain ⟨⟨k, hk⟩, h3, h4⟩ := Model3D.cycS_spec (s.yaw - e.yaw) pl.map.angle hA
  obtain ⟨q, hq⟩ := he
  constructor
  · intro h
    exact ⟨k, by rw [← hk]; exact h⟩
  · rintro ⟨j, hj⟩
    by_cases hjk : j = k
    · rw [hk, ← hjk]; exact hj
    · refine le_trans ?_ hj
      have e1 : s.yaw - e.yaw + j * pl.map.angle = cycS (s.yaw - e.yaw) pl.map.angle + (j - k) * pl.map.angle := by rw [hk]; ring
      rw [e1]
      generalize cycS (s.yaw - e.yaw) pl.map.angle = r at *
      have hlo : -q ≤ r := by omega
      have hhi : r < q := by omega
      rcases Int.lt_or_gt_of_ne hjk with hlt | hgt
      · have : (j - k) * pl.map.angle ≤ (-1) * pl.map.angle := Int.mul_le_mul_of_nonneg_right (by omega) hA.le
        rw [abs_of_nonpos (show r + (j - k) * pl.map.angle ≤ 0 by omega), abs_le]
        constructor <;> omega
      · have : 1 * pl.map.angle ≤ (j - k) * pl.map.angle := Int.mul_le_mul_of_nonneg_right (by omega) hA.le
        rw [abs_of_nonneg (show 0 ≤ r + (j - k) * pl.map.angle by omega), abs_le]
        constructor <;> omega

/-- **C97** (partial: an even number of headings, see `odd_headings`): without a previous path the planner finishes exactly if one of the
start poses is within the tolerances of the goal; with one, exactly if the robot's own cell is. -/
theorem finish_partial (pl : Plan) (h : pl.Sane) (he : Even pl.map.angle) (cm : Cell → Int) (robot : Path2D.Pose) (goal : Cell) :
    ((starts pl cm robot goal none).1 = .finishing ↔ ∃ x ∈ (starts pl cm robot goal none).2, WithinTolerance pl x.1 goal) ∧
    ∀ k, OnMap pl.map (ownCell pl robot) → (starts pl cm robot goal (some (some k))).2 = [(k, 0)] ∧
      ((starts pl cm robot goal (some (some k))).1 = .finishing ↔ WithinTolerance pl (ownCell pl robot) goal) := by
  constructor
  · rcases starts_cases pl h cm robot goal with ⟨-, e⟩ | ⟨-, -, -, e⟩ | ⟨-, l, e, -, -⟩
    · rw [e]; simp
    · rw [e]; simp
    · rw [e]
      dsimp only
      by_cases hl : (l.any fun x => finishing pl x.1 goal) = true
      · rw [if_pos hl]
        simp only [true_iff]
        obtain ⟨x, hx, hf⟩ := List.any_eq_true.mp hl
        exact ⟨x, hx, (within_iff pl h.angle he _ _).mp hf⟩
      · rw [if_neg hl]
        constructor
        · intro h; cases h
        · rintro ⟨x, hx, hf⟩
          exact absurd (List.any_eq_true.mpr ⟨x, hx, (within_iff pl h.angle he _ _).mpr hf⟩) hl
  · intro k hon
    unfold starts
    dsimp only
    rw [if_neg (by rw [(valid_iff _ _).mpr hon]; simp)]
    refine ⟨rfl, ?_⟩
    rw [← within_iff pl h.angle he]
    cases finishing pl (ownCell pl robot) goal <;> simp

/-- **C97**: when the previous path cannot be continued, the start is reported as occupied, and so it is off the map. -/
theorem predictor_failed (pl : Plan) (cm : Cell → Int) (robot : Path2D.Pose) (goal : Cell) :
    starts pl cm robot goal (some none) = (.occupied, []) ∧
    ∀ keep, ¬ OnMap pl.map (ownCell pl robot) → starts pl cm robot goal keep = (.occupied, []) := by
  constructor
  · unfold starts
    dsimp only
    split <;> rfl
  · intro keep hn
    unfold starts
    dsimp only
    rw [if_pos (by rw [← valid_iff] at hn; simpa using hn)]

/-! ### A map of ten by ten cells of one metre, with four headings -/

noncomputable def pl0 (anti : Bool) (angle : Int) : Plan :=
  { info := ⟨1, 1, 0, 0, angle⟩, map := ⟨10, 10, angle, 1, 50⟩, antialias := anti, ec0 := 1, weight := 1, tolRange := 0, tolAngle := 0,
    finLin := 1, finAng := 2, dist := fun _ => 0 }

theorem pl0_sane (anti : Bool) (angle : Int) (h : 0 < angle) : (pl0 anti angle).Sane :=
  ⟨by norm_num [pl0], by norm_num [pl0], h, rfl, by norm_num [pl0], by norm_num [pl0]⟩

theorem own0 (anti : Bool) (angle : Int) (h : 0 < angle) (x y : ℝ) :
    ownCell (pl0 anti angle) ⟨⟨x, y⟩, 0, .nan⟩ = ⟨⌊x⌋, ⌊y⌋, 0⟩ := by
  unfold ownCell metric2GridF coords pl0
  simp only [sub_zero, div_one]
  have : lround (0 : ℝ) = 0 := by simpa using GridMetric.lround_int (K := ℝ) 0
  rw [this, Model3D.cycU_id 0 angle h ⟨le_rfl, h⟩]

/-- The robot stands at (3.2, 3.2): with antialiasing the cell on its left is a start pose too, at the cost of the way to its centre. -/
example : (⟨2, 3, 0⟩, Real.sqrt ((7 / 10) ^ 2 + (3 / 10) ^ 2) + 20 / 100) ∈
    (starts (pl0 true 4) (fun _ => 20) ⟨⟨16 / 5, 16 / 5⟩, 0, .nan⟩ ⟨8, 8, 0⟩ none).2 := by
  have hs := pl0_sane true 4 (by norm_num)
  have hf : ⌊(16 / 5 : ℝ)⌋ = 3 := by rw [Int.floor_eq_iff]; norm_num
  have ho := own0 true 4 (by norm_num) (16 / 5) (16 / 5)
  rw [hf] at ho
  have hd : sqDist (pl0 true 4).info ⟨⟨16 / 5, 16 / 5⟩, 0, .nan⟩ ⟨2, 3, 0⟩ = (7 / 10) ^ 2 + (3 / 10) ^ 2 := by
    norm_num [sqDist, gx, gy, pl0]
  have hon : OnMap (pl0 true 4).map ⟨2, 3, 0⟩ := by norm_num [OnMap, pl0]
  obtain ⟨w, hw⟩ := start_complete (pl0 true 4) hs (fun _ => 20) ⟨⟨16 / 5, 16 / 5⟩, 0, .nan⟩ ⟨8, 8, 0⟩ rfl (by rw [ho]; norm_num [OnMap, pl0])
    ⟨2, 3, 0⟩ hon (by norm_num) (by rw [ho]) (by rw [hd]; norm_num)
  obtain ⟨-, -, h | h | h⟩ := start_cells (pl0 true 4) hs _ _ _ _ hw
  · obtain ⟨-, -, -, h⟩ := h
    dsimp only at h
    rw [hd] at h
    rw [h] at hw
    convert hw using 2
    norm_num [pl0]
  · cases h.1
  · exact absurd h.1 (by norm_num)

/-- The robot stands in a lethal cell and nothing is left for relocation. -/
example : (starts (pl0 false 4) (fun _ => 100) ⟨⟨16 / 5, 16 / 5⟩, 0, .nan⟩ ⟨8, 8, 0⟩ none).1 = .occupied := by
  refine (start_occupied (pl0 false 4) (pl0_sane false 4 (by norm_num)) _ _ _).2.2 le_rfl ⟨?_, ?_⟩ (fun h => by cases h)
  · rintro ⟨d, c, -, -, -, h⟩; norm_num [pl0] at h
  · rintro - ⟨d, c, -, -, -, h⟩; norm_num at h

/-- The robot is at its goal. -/
example : (starts (pl0 false 4) (fun _ => 0) ⟨⟨16 / 5, 16 / 5⟩, 0, .nan⟩ ⟨4, 3, 2⟩ (some (some ⟨7, 7, 0⟩))).1 = .finishing := by
  have hf : ⌊(16 / 5 : ℝ)⌋ = 3 := by rw [Int.floor_eq_iff]; norm_num
  have ho := own0 false 4 (by norm_num) (16 / 5) (16 / 5)
  rw [hf] at ho
  refine ((finish_partial (pl0 false 4) (pl0_sane false 4 (by norm_num)) (by decide) _ _ _).2 _ ?_).2.mpr ?_
  · rw [ho]; norm_num [OnMap, pl0]
  · rw [ho]; exact ⟨by norm_num [pl0], 0, by norm_num [pl0]⟩

/-- **C97** (what is missing from `finish_partial`): with an odd number of headings a robot within the tolerance (two headings of five)
is not recognised as being at the goal. -/
theorem odd_headings : WithinTolerance (pl0 false 5) ⟨3, 3, 2⟩ ⟨3, 3, 0⟩ ∧ finishing (pl0 false 5) ⟨3, 3, 2⟩ ⟨3, 3, 0⟩ = false := by
  refine ⟨⟨by norm_num [pl0], 0, by norm_num [pl0]⟩, ?_⟩
  unfold finishing
  rw [decide_eq_false_iff_not]
  rintro ⟨-, h⟩
  change |cycS (2 - 0) 5| ≤ 2 at h
  revert h
  decide

/-! ## C98: where the old and the new part meet -/

/-- The pose of a message. -/
noncomputable def msgPose (m : PoseMsg) : GridMetric.Pose ℝ := coords (Path2D.readPose false m)

theorem read_kept (msg : List PoseMsg) (q : Path2D.Pose) (hq : q ∈ fromMsg false (1 / 1000000) msg) :
    Path2D.readPose false (Path2D.writePose false q) = q := by
  have hread : ∀ x ∈ msg.map (Path2D.readPose false), x.yaw ∈ Set.Ioc (-Real.pi) Real.pi ∧ x.vel = .nan := by
    intro x hx
    obtain ⟨m, _, rfl⟩ := List.mem_map.mp hx
    exact ⟨⟨Complex.neg_pi_lt_arg _, Complex.arg_le_pi _⟩, by simp [Path2D.readPose]⟩
  have h : q.yaw ∈ Set.Ioc (-Real.pi) Real.pi ∧ q.vel = .nan := by
    rcases (Path2D.convert_faithful (eps := 1 / 1000000) (by norm_num) (msg.map (Path2D.readPose false))).2 q hq with h | ⟨-, x, hx, -, hy, hv⟩
    · exact hread q h
    · rw [hy, hv]; exact hread x hx
  obtain ⟨pos, yaw, vel⟩ := q
  simp only at h
  unfold Path2D.readPose Path2D.writePose
  simp only [Path2D.Pose.mk.injEq, true_and]
  exact ⟨Path2D.read_write_yaw yaw h.1, by simp [h.2]⟩

/-- A pose on a centre is near the centre of the cell it lies in. -/
theorem on_own_centre {g : Info ℝ} (hr : 0 < g.res) (ha : 0 < g.ares) (s : Cell) (e : Path2D.Pose) (hs : InCell g s e) (he : OnCentre g e) :
    |e.pos.re - (grid2Metric g s).x| < g.res / 1000 ∧ |e.pos.im - (grid2Metric g s).y| < g.res / 1000 ∧
    ∃ k : Int, |e.yaw - ((grid2Metric g s).yaw + (k : ℝ) * ((g.angle : ℝ) * g.ares))| < g.ares / 1000 := by
  obtain ⟨⟨h1, h2, h3, h4⟩, -, -, w, h5, k, h6⟩ := hs
  obtain ⟨i, j, w', c1, c2, c3⟩ := he
  have key : ∀ (v o : ℝ) (s i : Int), o + (s : ℝ) * g.res ≤ v → v < o + ((s : ℝ) + 1) * g.res →
      |v - (((i : ℝ) + 1 / 2) * g.res + o)| < g.res / 1000 → i = s := by
    intro v o s i a b c
    rw [abs_lt] at c
    have x1 : i < s + 1 := by
      by_contra hn
      have : ((s + 1 : Int) : ℝ) ≤ (i : ℝ) := by exact_mod_cast not_lt.mp hn
      push_cast at this
      nlinarith
    have x2 : s < i + 1 := by
      by_contra hn
      have : ((i + 1 : Int) : ℝ) ≤ (s : ℝ) := by exact_mod_cast not_lt.mp hn
      push_cast at this
      nlinarith
    omega
  have ei := key _ _ _ _ h1 h2 c1
  have ej := key _ _ _ _ h3 h4 c2
  have ew : w' = w := by
    unfold NearestHeading at h5
    rw [abs_le] at h5
    rw [abs_lt] at c3
    have x1 : w' < w + 1 := by
      by_contra hn
      have : ((w + 1 : Int) : ℝ) ≤ (w' : ℝ) := by exact_mod_cast not_lt.mp hn
      push_cast at this
      nlinarith
    have x2 : w < w' + 1 := by
      by_contra hn
      have : ((w' + 1 : Int) : ℝ) ≤ (w : ℝ) := by exact_mod_cast not_lt.mp hn
      push_cast at this
      nlinarith
    omega
  subst ei ej ew
  refine ⟨c1, c2, -k, ?_⟩
  have : (grid2Metric g s).yaw + ((-k : Int) : ℝ) * ((g.angle : ℝ) * g.ares) = (w' : ℝ) * g.ares := by
    unfold grid2Metric grid2MetricF
    dsimp only
    rw [h6]
    push_cast
    ring
  rw [this]
  exact c3

/-- A pose is within half a cell and half a heading of the centre of the cell it lies in. -/
theorem in_own_cell {g : Info ℝ} (s : Cell) (e : Path2D.Pose) (hs : InCell g s e) :
    |e.pos.re - (grid2Metric g s).x| ≤ g.res / 2 ∧ |e.pos.im - (grid2Metric g s).y| ≤ g.res / 2 ∧
    ∃ k : Int, |e.yaw - ((grid2Metric g s).yaw + (k : ℝ) * ((g.angle : ℝ) * g.ares))| ≤ g.ares / 2 := by
  obtain ⟨⟨h1, h2, h3, h4⟩, -, -, w, h5, k, h6⟩ := hs
  unfold grid2Metric grid2MetricF
  dsimp only
  refine ⟨?_, ?_, -k, ?_⟩
  · rw [abs_le]; constructor <;> linarith
  · rw [abs_le]; constructor <;> linarith
  · rw [h6]
    push_cast
    unfold NearestHeading at h5
    have : ((w : ℝ) + (k : ℝ) * (g.angle : ℝ)) * g.ares + -(k : ℝ) * ((g.angle : ℝ) * g.ares) = (w : ℝ) * g.ares := by ring
    rw [this]
    exact h5

/-- **C98**: the path published after keeping a part of the previous one consists of the kept poses of the previous path, unchanged,
followed by the new plan from the centre of the start cell.  That centre is where the previous path went on: within a thousandth of a
cell and of a heading if the previous path continues after it, and within half a cell and half a heading if it ended there. -/
theorem joint {c : Config} {g : Info ℝ} (hr : 0 < g.res) (ha : 0 < g.ares) (hA : 0 < g.angle) (cm : Cell → Option Int)
    (robot : Path2D.Pose) (hrob : |robot.yaw| ≤ Real.pi) (gs : List Nat) (msg : List PoseMsg) (hgs : LocalGoals c robot gs msg)
    (r : Result) (h : process c g cm robot gs msg = some (some r)) (rest : List (GridMetric.Pose ℝ)) :
    let P := fromMsg false (1 / 1000000) msg
    ∃ a k e, P[a + k]? = some e ∧
      publishedPath g (r.kept.map msgPose) (⟨r.start.x, r.start.y, r.start.yaw⟩ :: rest) =
        ((P.drop a).take k).map coords ++ grid2Metric g r.start :: rest.map (grid2MetricF g) ∧
      (a + k + 1 < P.length →
        |e.pos.re - (grid2Metric g r.start).x| < g.res / 1000 ∧ |e.pos.im - (grid2Metric g r.start).y| < g.res / 1000 ∧
        ∃ n : Int, |e.yaw - ((grid2Metric g r.start).yaw + (n : ℝ) * ((g.angle : ℝ) * g.ares))| < g.ares / 1000) ∧
      |e.pos.re - (grid2Metric g r.start).x| ≤ g.res / 2 ∧ |e.pos.im - (grid2Metric g r.start).y| ≤ g.res / 2 ∧
      ∃ n : Int, |e.yaw - ((grid2Metric g r.start).yaw + (n : ℝ) * ((g.angle : ℝ) * g.ares))| ≤ g.ares / 2 := by
  intro P
  obtain ⟨a, k, e, h1, h2, h3, h4, -, -⟩ := kept_part hr ha hA cm robot hrob gs msg hgs r h
  change P[a + k]? = some e at h2
  refine ⟨a, k, e, h2, ?_, ?_, in_own_cell _ _ h3⟩
  · unfold publishedPath
    rw [GridMetric.append_path, List.map_cons]
    congr 1
    rw [h4]
    unfold toMsg
    rw [List.map_map]
    refine List.map_congr_left fun q hq => ?_
    change coords (Path2D.readPose false (Path2D.writePose false q)) = coords q
    rw [read_kept msg q (List.mem_of_mem_drop (List.mem_of_mem_take hq))]
  · intro hlt
    refine on_own_centre hr ha _ _ h3 ?_
    obtain ⟨n, d, -, -, -, h5, h6⟩ := h1
    change a + k < P.length at h5
    change Selected c g robot (P.drop a) gs k at h6
    have hlate : Late c g robot (P.drop a) k := by
      rcases h6 with ⟨_, _, -, h, -⟩ | ⟨-, -, h, -⟩ | ⟨-, h, -⟩
      · exact h.1
      · exact h
      · rw [List.length_drop] at h; omega
    obtain ⟨e', h7, h8, -⟩ := hlate
    rw [List.getElem?_drop, h2] at h7
    obtain rfl := Option.some.inj h7
    exact h8

/-- The straight path of three poses, continued with a turn at the second one. -/
example : ∃ gs r, ∃ a k : Nat, ∃ e : Path2D.Pose, LocalGoals c0 (p 0) gs m0 ∧ process c0 g0 (fun _ => some 0) (p 0) gs m0 = some (some r) ∧
    (fromMsg false (1 / 1000000) m0)[a + k]? = some e ∧ |e.pos.re - (grid2Metric g0 r.start).x| ≤ 1 / 2 := by
  obtain ⟨gs, hgs⟩ := local_goals_exist c0 (p 0) m0
  have hp := process0 (fun _ => some 0) gs hgs
  obtain ⟨a, k, e, h1, -, -, h2, -⟩ := joint (g := g0) (by norm_num [g0]) (by simp [g0, Real.pi_pos]) (by simp [g0]) (fun _ => some 0) (p 0)
    (by simp [p, Real.pi_pos.le]) gs m0 hgs _ hp []
  exact ⟨gs, _, a, k, e, hgs, hp, h1, h2⟩

/-! ## C99: the first switch back of a path -/

theorem switchLoop_spec (P : List Path2D.Pose) : ∀ (ps : List Path2D.Pose) (i : Nat) (prev : Path2D.Pose) (dir : Option Bool), 0 < i →
    (∀ n, P[i - 1 + n]? = (prev :: ps)[n]?) →
    (dir = none → ∀ j < i, ¬ Moves P j) →
    (∀ d, dir = some d → (∃ j < i, Moves P j) ∧ ∀ j < i, Moves P j → (Backward P j ↔ d = true)) →
    match switchLoop i prev dir ps with
    | some k => Moves P k ∧ (∃ j < k, Moves P j) ∧ ∀ j < k, Moves P j → (Backward P j ↔ ¬ Backward P k)
    | none => ∀ j k, Moves P j → Moves P k → (Backward P j ↔ Backward P k) := by
  intro ps
  induction ps with
  | nil =>
    intro i prev dir hi hP hn hd
    unfold switchLoop
    have hlen : ∀ j, Moves P j → j < i := by
      rintro j ⟨h0, a, b, -, hb, -⟩
      by_contra hge
      have := hP (j - (i - 1))
      rw [show i - 1 + (j - (i - 1)) = j by omega, hb] at this
      obtain ⟨n, hn⟩ : ∃ n, j - (i - 1) = n + 1 := ⟨j - i, by omega⟩
      rw [hn] at this
      simp at this
    intro j k hj hk
    cases dir with
    | none => exact absurd hj (hn rfl j (hlen j hj))
    | some d => rw [(hd d rfl).2 j (hlen j hj) hj, (hd d rfl).2 k (hlen k hk) hk]
  | cons q ps ih =>
    intro i prev dir hi hP hn hd
    have e0 : P[i - 1]? = some prev := by simpa using hP 0
    have e1 : P[i]? = some q := by
      have := hP 1
      rw [show i - 1 + 1 = i by omega] at this
      simpa using this
    have hP' : ∀ n, P[i + 1 - 1 + n]? = (q :: ps)[n]? := by
      intro n
      have := hP (n + 1)
      rw [show i - 1 + (n + 1) = i + 1 - 1 + n by omega] at this
      simpa using this
    have hmv : Moves P i ↔ Complex.normSq (q.pos - prev.pos) > (1 / 1000) ^ 2 := by
      have hsq : Complex.normSq (q.pos - prev.pos) > (1 / 1000) ^ 2 ↔ 1 / 1000 < ‖q.pos - prev.pos‖ := by
        rw [Complex.normSq_eq_norm_sq, gt_iff_lt, pow_lt_pow_iff_left₀ (by norm_num) (norm_nonneg _) (by norm_num)]
      rw [hsq]
      constructor
      · rintro ⟨-, a, b, ha, hb, hab⟩
        rw [e0] at ha; rw [e1] at hb
        obtain rfl := Option.some.inj ha
        obtain rfl := Option.some.inj hb
        exact hab
      · intro h; exact ⟨hi, prev, q, e0, e1, h⟩
    have hbk : Backward P i ↔ Real.cos q.yaw * (q.pos.re - prev.pos.re) + Real.sin q.yaw * (q.pos.im - prev.pos.im) < 0 := by
      have hf : Path2D.forward prev q = Real.cos q.yaw * (q.pos.re - prev.pos.re) + Real.sin q.yaw * (q.pos.im - prev.pos.im) := by
        unfold Path2D.forward; ring
      rw [← hf]
      constructor
      · rintro ⟨a, b, ha, hb, hab⟩
        rw [e0] at ha; rw [e1] at hb
        obtain rfl := Option.some.inj ha
        obtain rfl := Option.some.inj hb
        exact hab
      · intro h; exact ⟨prev, q, e0, e1, h⟩
    unfold switchLoop
    by_cases hm : Complex.normSq (q.pos - prev.pos) > (1 / 1000) ^ 2
    · rw [if_pos hm]
      dsimp only
      have hmi := hmv.mpr hm
      generalize hdd : decide (Real.cos q.yaw * (q.pos.re - prev.pos.re) + Real.sin q.yaw * (q.pos.im - prev.pos.im) < 0) = d
      have hbd : Backward P i ↔ d = true := by rw [hbk, ← hdd, decide_eq_true_iff]
      cases dir with
      | none =>
        refine ih (i + 1) q (some d) (by omega) hP' (fun h => by cases h) ?_
        intro d' h
        obtain rfl := Option.some.inj h
        refine ⟨⟨i, by omega, hmi⟩, ?_⟩
        intro j hj hmj
        rcases Nat.lt_succ_iff_lt_or_eq.mp hj with h | rfl
        · exact absurd hmj (hn rfl j h)
        · exact hbd
      | some d' =>
        obtain ⟨hex, hall⟩ := hd d' rfl
        dsimp only
        by_cases hne : (d' != d) = true
        · rw [if_pos hne]
          refine ⟨hmi, hex, ?_⟩
          intro j hj hmj
          rw [hall j hj hmj, hbd]
          clear * - hne
          revert hne
          cases d <;> cases d' <;> simp
        · rw [if_neg hne]
          have hdd' : d' = d := by
            clear * - hne
            revert hne
            cases d <;> cases d' <;> simp
          subst hdd'
          refine ih (i + 1) q (some d') (by omega) hP' (fun h => by cases h) ?_
          intro d'' h
          obtain rfl := Option.some.inj h
          refine ⟨⟨i, by omega, hmi⟩, ?_⟩
          intro j hj hmj
          rcases Nat.lt_succ_iff_lt_or_eq.mp hj with h | rfl
          · exact hall j h hmj
          · exact hbd
    · rw [if_neg hm]
      have hnm : ¬ Moves P i := fun h => hm (hmv.mp h)
      refine ih (i + 1) q dir (by omega) hP' ?_ ?_
      · intro h j hj
        rcases Nat.lt_succ_iff_lt_or_eq.mp hj with h' | rfl
        · exact hn h j h'
        · exact hnm
      · intro d h
        obtain ⟨⟨j, hj, hmj⟩, hall⟩ := hd d h
        refine ⟨⟨j, by omega, hmj⟩, ?_⟩
        intro j' hj' hmj'
        rcases Nat.lt_succ_iff_lt_or_eq.mp hj' with h' | rfl
        · exact hall j' h' hmj'
        · exact absurd hmj' hnm

/-- **C99**: the reported switch back is the first pose whose move goes in the other direction (forward or backward) than all the moves
before it; moves of up to a millimetre do not count.  None is reported exactly if all moves go in the same direction. -/
theorem switch_index (P : List Path2D.Pose) :
    (∀ k, switchIndex P = some k ↔ Moves P k ∧ (∃ j < k, Moves P j) ∧ ∀ j < k, Moves P j → (Backward P j ↔ ¬ Backward P k)) ∧
    (switchIndex P = none ↔ ∀ j k, Moves P j → Moves P k → (Backward P j ↔ Backward P k)) := by
  have main : match switchIndex P with
      | some k => Moves P k ∧ (∃ j < k, Moves P j) ∧ ∀ j < k, Moves P j → (Backward P j ↔ ¬ Backward P k)
      | none => ∀ j k, Moves P j → Moves P k → (Backward P j ↔ Backward P k) := by
    cases P with
    | nil =>
      intro j k hj
      obtain ⟨-, a, b, h, -⟩ := hj
      simp at h
    | cons q ps =>
      refine switchLoop_spec (q :: ps) ps 1 q none (by omega) (by simp) ?_ (fun d h => by cases h)
      intro _ j hj
      rintro ⟨h, -⟩
      omega
  cases hs : switchIndex P with
  | none =>
    rw [hs] at main
    dsimp only at main
    refine ⟨?_, by simpa using main⟩
    intro k
    constructor
    · intro h; cases h
    · rintro ⟨h1, ⟨j, hj, h2⟩, h3⟩
      have a := main j k h2 h1
      have b := h3 j hj h2
      tauto
  | some i =>
    rw [hs] at main
    dsimp only at main
    obtain ⟨m1, ⟨j, hj, m2⟩, m3⟩ := main
    refine ⟨?_, ?_⟩
    · intro k
      constructor
      · intro h
        obtain rfl := Option.some.inj h
        exact ⟨m1, ⟨j, hj, m2⟩, m3⟩
      · rintro ⟨n1, ⟨l, hl, n2⟩, n3⟩
        congr 1
        rcases Nat.lt_trichotomy i k with h | h | h
        · exfalso
          have a := n3 i h m1
          have b := n3 j (by omega) m2
          have c := m3 j hj m2
          tauto
        · exact h
        · exfalso
          have a := m3 k h n1
          have b := m3 l (by omega) n2
          have c := n3 l hl n2
          tauto
    · constructor
      · intro h; cases h
      · intro h
        have a := h j i m2 m1
        have b := m3 j hj m2
        tauto

/-- Forward by a metre, then back: the switch back is reported at the third pose. -/
example : switchIndex [p 0, p 1, p 0] = some 2 := by
  refine ((switch_index _).1 2).mpr ⟨⟨by omega, p 1, p 0, rfl, rfl, by rw [dist_p]; norm_num⟩, ⟨1, by omega, by omega, p 0, p 1, rfl, rfl, by rw [dist_p]; norm_num⟩, ?_⟩
  have hb : Backward [p 0, p 1, p 0] 2 := ⟨p 1, p 0, rfl, rfl, by norm_num [Path2D.forward, p]⟩
  intro j hj hm
  have : j = 1 := by obtain ⟨h, -⟩ := hm; omega
  subst this
  constructor
  · rintro ⟨a, b, ha, hb, hab⟩
    simp at ha hb
    subst ha hb
    norm_num [Path2D.forward, p] at hab
  · intro h; exact absurd hb h

end Verif.StartPose
