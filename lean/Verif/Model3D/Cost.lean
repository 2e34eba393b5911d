import Verif.Model3D.Lemmas
/-! # What a returned cost says, and which cells are read -/
set_option linter.unusedVariables false
namespace Verif.Model3D
open Spec
open Verif.GridMetric (Cell Pose lround_int)
open Verif.CSpace (lround lround_near)
open Real

/-- The displacement of a move, with the signed heading difference (grid_astar_model_3dof.cpp 177–179). -/
def disp (g : Geo) (cur next : Cell) : Cell := ⟨next.x - cur.x, next.y - cur.y, cycS (next.yaw - cur.yaw) g.angle⟩

/-- The key of the move in the motion cache (224–225, 267–268). -/
def keyOf (g : Geo) (cur next : Cell) : Cell := ⟨next.x - cur.x, next.y - cur.y, cycU next.yaw g.angle⟩

/-- Cells of a cached motion moved to the start. -/
def shifted (cur : Cell) (pg : Page) : List Cell := pg.motion.map fun q => ⟨cur.x + q.x, cur.y + q.y, q.yaw⟩

/-- Cost of the costmap along a motion. -/
noncomputable def alongCost (g : Geo) (c : Wt) (pg : Page) (s h : Int) : ℝ :=
  (s : ℝ) * g.res * pg.distance * c.costmap / (100 * (pg.motion.length : ℝ)) +
    (h : ℝ) * g.res * pg.distance * c.hysteresis / (100 * (pg.motion.length : ℝ))

/-- Deceleration in curves. -/
noncomputable def decelCost (c : Wt) (m : Pose ℝ) (rad : Option (ℝ × ℝ)) : ℝ :=
  open Classical in
  match rad with
  | none => 0
  | some (r1, r2) =>
    if |c.maxVel| > c.maxAngVel * |r1| then lenF m * |(|(r1 + r2) / 2| * c.maxAngVel) / c.maxVel| * c.decel else 0

/-- A finite cost of an in-place turn. -/
structure TurnVal (g : Geo) (c : Wt) (cm : Cell → Option Int) (cur next : Cell) (v : ℝ) : Prop where
  same : next.x - cur.x = 0 ∧ next.y - cur.y = 0
  val : ∃ s t h, turnScan cm c.turnThreshold g.angle (if (disp g cur next).yaw < 0 then -1 else 1)
      (disp g cur next).yaw.natAbs cur 0 = .sums s t h ∧
    v = euclidCost g c (disp g cur next) + c.inPlaceTurn +
      (s : ℝ) * (g.ares * (c.costmapTurn / 100 + c.ec2 / c.ec0 * c.turnHeuristics / 100))

/-- A finite cost of a motion. -/
structure MoveVal (g : Geo) (c : Wt) (u : Bool) (cm hy : Cell → Option Int) (cur next : Cell) (v : ℝ) : Prop where
  moves : ¬ (next.x - cur.x = 0 ∧ next.y - cur.y = 0)
  val : ∃ m rad pg s t h,
    rcGet g cur.yaw ⟨next.x - cur.x + g.range, next.y - cur.y + g.range, next.yaw⟩ = some (m, rad) ∧
    find g cur.yaw (keyOf g cur next) = some pg ∧
    scan cm hy u c.turnThreshold (shifted cur pg) 0 0 0 = .sums s t h ∧
    ∃ add : ℝ, v = (if m.x < 0 then euclidCost g c (disp g cur next) * (1 + c.backward)
        else euclidCost g c (disp g cur next)) + add + alongCost g c pg s h ∧
      (((disp g cur next).yaw = 0 ∧ m.x ≠ 0 ∧ add = c.ec2 * |m.y / m.x| * g.ares / (π * 2)) ∨
       ((disp g cur next).yaw ≠ 0 ∧
        add = decelCost c m rad +
          (t : ℝ) * g.ares * |((disp g cur next).yaw : ℝ)| * c.costmapTurn / (100 * (pg.motion.length : ℝ))))

theorem cost_val (g : Geo) (c : Wt) (u : Bool) (cm hy : Cell → Option Int) (cur next : Cell) (v : ℝ)
    (h : cost g c u cm hy cur next = .val v) :
    Free cm cur ∧ Free cm next ∧ (TurnVal g c cm cur next v ∨ MoveVal g c u cm hy cur next v) := by
  unfold cost at h
  split at h
  · cases h
  · rename_i c0 hc0
    split at h
    · cases h
    · rename_i hle0
      split at h
      · cases h
      · rename_i c1 hc1
        split at h
        · cases h
        · rename_i hle1
          refine ⟨⟨c0, hc0, by omega⟩, ⟨c1, hc1, by omega⟩, ?_⟩
          simp only at h
          split at h
          · rename_i hz
            left
            refine ⟨hz, ?_⟩
            split at h
            · cases h
            · cases h
            · rename_i s t w hsc
              simp only [Res.val.injEq] at h
              exact ⟨s, t, w, hsc, h.symm⟩
          · rename_i hz
            right
            refine ⟨hz, ?_⟩
            split at h
            · cases h
            · rename_i m rad hrc
              split at h
              · rename_i hyaw
                split at h
                · cases h
                · rename_i pg hpg
                  split at h
                  · cases h
                  · cases h
                  · rename_i s t w hsc
                    split at h
                    · cases h
                    · rename_i hmx
                      simp only [Res.val.injEq] at h
                      refine ⟨m, rad, pg, s, t, w, hrc, hpg, hsc, _, ?_, Or.inl ⟨hyaw, hmx, rfl⟩⟩
                      rw [← h]
                      unfold alongCost disp
                      ring
              · rename_i hyaw
                split at h
                · cases h
                · split at h
                  · cases h
                  · rename_i pg hpg
                    split at h
                    · cases h
                    · cases h
                    · rename_i s t w hsc
                      simp only [Res.val.injEq] at h
                      refine ⟨m, rad, pg, s, t, w, hrc, hpg, hsc, _, ?_, Or.inr ⟨hyaw, rfl⟩⟩
                      rw [← h]
                      change (_ + decelCost c m rad + _ + _ + _) = _
                      unfold alongCost disp
                      generalize decelCost c m rad = D
                      ring

/-! ### The range of the cells of a motion -/

theorem len_nonneg_range (g : Geo) (d : Cell) (hr : 0 ≤ g.range) (h : d.x * d.x + d.y * d.y ≤ g.range * g.range) :
    len d ≤ (g.range : ℝ) := by
  unfold len sqlen
  rw [Real.sqrt_le_left (by exact_mod_cast hr)]
  have : ((d.x * d.x + d.y * d.y : Int) : ℝ) ≤ ((g.range * g.range : Int) : ℝ) := by exact_mod_cast h
  push_cast at this ⊢
  nlinarith

theorem straight_cells (g : Geo) (hs : Sane g) (s : Int) (d q : Cell) (hst : IsStraight g s d)
    (hq : q ∈ (page g s d).motion) :
    min 0 d.x ≤ q.x ∧ q.x ≤ max 0 d.x ∧ min 0 d.y ≤ q.y ∧ q.y ≤ max 0 d.y ∧ 0 ≤ q.yaw ∧ q.yaw < g.angle := by
  obtain ⟨k, hk, rfl, -⟩ := (mem_motion g s d q).1 hq
  obtain ⟨h0, h1⟩ := ratio_range g d k hk
  have key : ∀ z : Int, min 0 z ≤ lround ((z : ℝ) * ratioOf g d k) ∧ lround ((z : ℝ) * ratioOf g d k) ≤ max 0 z := by
    intro z
    apply lround_between
    · rcases le_total 0 z with hz | hz
      · rw [min_eq_left hz]
        have : (0 : ℝ) ≤ (z : ℝ) := by exact_mod_cast hz
        push_cast
        positivity
      · rw [min_eq_right hz]
        have : (z : ℝ) ≤ 0 := by exact_mod_cast hz
        nlinarith
    · rcases le_total 0 z with hz | hz
      · rw [max_eq_right hz]
        have : (0 : ℝ) ≤ (z : ℝ) := by exact_mod_cast hz
        nlinarith
      · rw [max_eq_left hz]
        have : (z : ℝ) ≤ 0 := by exact_mod_cast hz
        push_cast
        nlinarith
  unfold sampleAt
  rw [if_pos hst, straightAt_eq g hs]
  unfold cellOf
  simp only
  rw [headings_eq g hs]
  obtain ⟨-, hw1, hw2⟩ := cycU_spec (lround (s : ℝ)) g.angle hs.angle_pos
  exact ⟨(key d.x).1, (key d.x).2, (key d.y).1, (key d.y).2, hw1, hw2⟩

theorem curve_end (x y φ : ℝ) (hsin : sin φ ≠ 0) :
    (x / sin φ - (y + x * cos φ / sin φ)) ^ 2 + 2 * ((y + x * cos φ / sin φ) * (x / sin φ)) * (1 - cos φ) = x ^ 2 + y ^ 2 := by
  have hq := sin_sq_add_cos_sq φ
  have hc : cos φ ^ 2 = 1 - sin φ ^ 2 := by linarith
  field_simp
  ring_nf
  simp only [hc]
  ring

theorem motion_len (g : Geo) (s : Int) (d : Cell) :
    (mcMotion g s d).x ^ 2 + (mcMotion g s d).y ^ 2 = ((d.x : ℝ) ^ 2 + (d.y : ℝ) ^ 2) * g.res ^ 2 := by
  unfold mcMotion rotate
  simp only
  have := sin_sq_add_cos_sq (-(s : ℝ) * g.ares)
  linear_combination (((d.x : ℝ) ^ 2 + (d.y : ℝ) ^ 2) * g.res ^ 2) * this

theorem curve_dist (r1 r2 φ θ ρ R : ℝ) (hρ0 : 0 ≤ ρ) (hρ1 : ρ ≤ 1) (hφ : |φ| ≤ π / 2) (hr : 0 ≤ r1 * r2)
    (hR : 0 ≤ R) (he : (r2 - r1) ^ 2 + 2 * (r1 * r2) * (1 - cos φ) ≤ R ^ 2) :
    |(r1 * (1 - ρ) + r2 * ρ) * sin (θ + ρ * φ) - r1 * sin θ| ≤ R ∧
    |r1 * cos θ - (r1 * (1 - ρ) + r2 * ρ) * cos (θ + ρ * φ)| ≤ R := by
  have hb := curve_bound r1 r2 φ ρ hρ0 hρ1 hφ hr
  have hsq := curve_sq r1 (r1 * (1 - ρ) + r2 * ρ) θ (ρ * φ)
  rw [← hsq] at hb
  generalize (r1 * (1 - ρ) + r2 * ρ) * sin (θ + ρ * φ) - r1 * sin θ = X at hb ⊢
  generalize r1 * cos θ - (r1 * (1 - ρ) + r2 * ρ) * cos (θ + ρ * φ) = Y at hb ⊢
  exact ⟨abs_le_of_sq_le_sq (by nlinarith [sq_nonneg Y]) hR, abs_le_of_sq_le_sq (by nlinarith [sq_nonneg X]) hR⟩

theorem lround_range (Z res : ℝ) (n : Int) (hres : 0 < res) (hZ : |Z| ≤ (n : ℝ) * res) :
    -n ≤ lround (Z / res) ∧ lround (Z / res) ≤ n := by
  rw [abs_le] at hZ
  apply lround_between
  · rw [le_div_iff₀ hres]; push_cast; linarith
  · rw [div_le_iff₀ hres]; linarith

theorem curve_cells (g : Geo) (hs : Sane g) (s : Int) (d q : Cell) (hst : ¬ IsStraight g s d)
    (hφ : |(mcMotion g s d).yaw| ≤ π / 2)
    (hr : 0 ≤ (radii (mcMotion g s d)).1 * (radii (mcMotion g s d)).2)
    (hd : d.x * d.x + d.y * d.y ≤ g.range * g.range) (hq : q ∈ (page g s d).motion) :
    -g.range ≤ q.x ∧ q.x ≤ g.range ∧ -g.range ≤ q.y ∧ q.y ≤ g.range ∧ 0 ≤ q.yaw ∧ q.yaw < g.angle := by
  have hres := hs.res_pos
  have hsin : sin (mcMotion g s d).yaw ≠ 0 := by
    intro h
    apply hst
    unfold IsStraight
    rw [h]; norm_num
  obtain ⟨k, hk, rfl, -⟩ := (mem_motion g s d q).1 hq
  obtain ⟨h0, h1⟩ := ratio_range g d k hk
  unfold sampleAt
  rw [if_neg hst, curveAt_eq g hs s d _ hsin]
  unfold radii at hr
  simp only at hr
  rw [r2_eq _ _ hsin] at hr
  have hrange : (0 : ℝ) ≤ (g.range : ℝ) := by
    have : (0 : Int) ≤ g.range := by have := hs.range_pos; omega
    exact_mod_cast this
  have hdd : ((d.x : ℝ) ^ 2 + (d.y : ℝ) ^ 2) ≤ (g.range : ℝ) ^ 2 := by
    have : ((d.x * d.x + d.y * d.y : Int) : ℝ) ≤ ((g.range * g.range : Int) : ℝ) := by exact_mod_cast hd
    push_cast at this
    nlinarith
  have he := curve_end (mcMotion g s d).x (mcMotion g s d).y (mcMotion g s d).yaw hsin
  rw [motion_len] at he
  have he' := le_trans (le_of_eq he) (mul_le_mul_of_nonneg_right hdd (sq_nonneg g.res))
  rw [← mul_pow] at he'
  obtain ⟨hX, hY⟩ := curve_dist _ _ _ ((s : ℝ) * g.ares) (ratioOf g d k) _ h0 (le_of_lt h1) hφ hr
    (by positivity) he'
  obtain ⟨x1, x2⟩ := lround_range _ _ _ hres hX
  obtain ⟨y1, y2⟩ := lround_range _ _ _ hres hY
  unfold cellOf
  simp only
  rw [headings_eq g hs]
  obtain ⟨-, hw1, hw2⟩ := cycU_spec (lround (((s : ℝ) * g.ares + ratioOf g d k * (mcMotion g s d).yaw) / g.ares)) g.angle
    hs.angle_pos
  exact ⟨x1, x2, y1, y2, hw1, hw2⟩

/-! ### The boundary -/

theorem fold_max (l : List Cell) : ∀ (m : Int × Int),
    m.1 ≤ (l.foldl (fun m pos => (max m.1 |pos.x|, max m.2 |pos.y|)) m).1 ∧
    m.2 ≤ (l.foldl (fun m pos => (max m.1 |pos.x|, max m.2 |pos.y|)) m).2 ∧
    ∀ q ∈ l, |q.x| ≤ (l.foldl (fun m pos => (max m.1 |pos.x|, max m.2 |pos.y|)) m).1 ∧
      |q.y| ≤ (l.foldl (fun m pos => (max m.1 |pos.x|, max m.2 |pos.y|)) m).2 := by
  induction l with
  | nil => intro m; simp
  | cons p ps ih =>
    intro m
    rw [List.foldl_cons]
    obtain ⟨h1, h2, h3⟩ := ih (max m.1 |p.x|, max m.2 |p.y|)
    simp only at h1 h2
    refine ⟨le_trans (le_max_left _ _) h1, le_trans (le_max_left _ _) h2, ?_⟩
    intro q hq
    rcases List.mem_cons.1 hq with rfl | hq
    · exact ⟨le_trans (le_max_right _ _) h1, le_trans (le_max_right _ _) h2⟩
    · exact h3 q hq

theorem lround_top (x : ℝ) (n : Int) (hn : 1 ≤ n) (h1 : (n : ℝ) - 1 / 2 ≤ x) (h2 : x ≤ n) : lround x = n := by
  have hn' : (1 : ℝ) ≤ (n : ℝ) := by exact_mod_cast hn
  unfold lround
  rw [if_pos (by linarith), Int.floor_eq_iff]
  constructor <;> linarith

theorem maxRange_ge (g : Geo) (hs : Sane g) (hev : Even g.angle) : g.range ≤ (maxRange g).1 ∧ g.range ≤ (maxRange g).2 := by
  obtain ⟨n, hn⟩ := hev
  have hA := hs.angle_pos
  have hR := hs.range_pos
  have hRr : (1 : ℝ) ≤ (g.range : ℝ) := by exact_mod_cast hR
  have hgp := hs.ger_pos
  have hgl := hs.ger_le
  have hH := headings_eq g hs
  have hnar : ((n : Int) : ℝ) * g.ares = π := by
    have := angle_ares g hs
    rw [hn] at this
    push_cast at this
    linarith
  have hyaw : ∀ x y : Int, (mcMotion g 0 ⟨x, y, n⟩).yaw = π := by
    intro x y
    unfold mcMotion rotate normAngle
    simp only [Int.cast_zero, neg_zero, zero_mul, add_zero, hnar]
    rw [if_neg (lt_irrefl _), if_neg (by have := Real.pi_pos; linarith)]
  have hst : ∀ x y : Int, IsStraight g 0 ⟨x, y, n⟩ := by
    intro x y
    unfold IsStraight
    rw [hyaw, sin_pi]; norm_num
  -- number of samples
  have htot : ∀ d : Cell, sqlen d = g.range * g.range → 2 * g.range ≤ (totalStep g d : Int) := by
    intro d hd
    have hl : len d = (g.range : ℝ) := by
      unfold len
      rw [hd]
      push_cast
      exact Real.sqrt_mul_self (by linarith)
    have h1 : ((2 * g.range : Int) : ℝ) ≤ len d / g.ger := by
      rw [hl, le_div_iff₀ hgp]
      push_cast
      nlinarith
    have h2 : 2 * g.range ≤ lround (len d / g.ger) := by
      have h := lround_near (len d / g.ger)
      rw [abs_le] at h
      have : ((2 * g.range - 1 : Int) : ℝ) < (lround (len d / g.ger) : ℝ) := by
        push_cast at h1 ⊢; linarith
      have := Int.cast_lt.1 this
      omega
    unfold totalStep
    omega
  have hrat : ∀ d : Cell, sqlen d = g.range * g.range → totalStep g d - 1 < totalStep g d ∧
      (g.range : ℝ) - 1 / 2 ≤ (g.range : ℝ) * ratioOf g d (totalStep g d - 1) ∧
      (g.range : ℝ) * ratioOf g d (totalStep g d - 1) ≤ (g.range : ℝ) := by
    intro d hd
    have ht := htot d hd
    have hlt : totalStep g d - 1 < totalStep g d := by omega
    obtain ⟨h0, h1⟩ := ratio_range g d _ hlt
    refine ⟨hlt, ?_, by nlinarith⟩
    unfold ratioOf
    have htr : (2 : ℝ) * (g.range : ℝ) ≤ (totalStep g d : ℝ) := by exact_mod_cast ht
    have htp : (0 : ℝ) < (totalStep g d : ℝ) := by linarith
    rw [Nat.cast_sub (by omega), ← mul_div_assoc, le_div_iff₀ htp]
    push_cast
    nlinarith
  have key : ∀ x y : Int, (x = g.range ∧ y = 0) ∨ (x = 0 ∧ y = g.range) →
      |x| ≤ (maxRange g).1 ∧ |y| ≤ (maxRange g).2 := by
    intro x y hxy
    have hsq : sqlen ⟨x, y, n⟩ = g.range * g.range := by
      unfold sqlen
      rcases hxy with ⟨rfl, rfl⟩ | ⟨rfl, rfl⟩ <;> simp
    obtain ⟨hlt, hlo, hhi⟩ := hrat ⟨x, y, n⟩ hsq
    have hcell : (⟨x, y, 0⟩ : Cell) ∈ (page g 0 ⟨x, y, n⟩).motion := by
      rw [mem_motion]
      refine ⟨_, hlt, ?_, ?_⟩
      · unfold sampleAt
        rw [if_pos (hst x y), straightAt_eq g hs]
        unfold cellOf
        have hz : cycU (lround ((0 : Int) : ℝ)) (headings g) = 0 := by
          rw [lround_int, hH]
          exact cycU_id 0 g.angle hA ⟨le_refl _, hA⟩
        have h0 : lround (0 : ℝ) = 0 := by simpa using lround_int (K := ℝ) 0
        simp only [hz]
        rcases hxy with ⟨rfl, rfl⟩ | ⟨rfl, rfl⟩
        · simp only [Int.cast_zero, zero_mul, h0, lround_top _ _ hR hlo hhi]
        · simp only [Int.cast_zero, zero_mul, h0, lround_top _ _ hR hlo hhi]
      · intro h
        simp only [Cell.mk.injEq] at h
        omega
    have hkey : (⟨x, y, n⟩ : Cell) ∈ mcKeys g := by
      rw [mem_mcKeys]
      simp only
      have hn' : 0 ≤ n ∧ n < headings g := by rw [hH]; omega
      unfold sqlen at hsq
      simp only at hsq
      rcases hxy with ⟨rfl, rfl⟩ | ⟨rfl, rfl⟩
      · exact ⟨by omega, by omega, by omega, by omega, by omega, by omega, hn'.1, hn'.2⟩
      · exact ⟨by omega, by omega, by omega, by omega, by omega, by omega, hn'.1, hn'.2⟩
    have := (fold_max ((upTo 0 (headings g - 1)).flatMap fun s =>
      ((mcKeys g).filter fun d => @decide (IsStraight g s d) (Classical.propDecidable _)).flatMap fun d =>
        (page g s d).motion) (0, 0)).2.2 ⟨x, y, 0⟩ (by
      rw [List.mem_flatMap]
      refine ⟨0, (mem_upTo _ _ _).2 ⟨le_refl _, by rw [hH]; omega⟩, ?_⟩
      rw [List.mem_flatMap]
      exact ⟨⟨x, y, n⟩, List.mem_filter.2 ⟨hkey, by simpa using hst x y⟩, hcell⟩)
    exact this
  constructor
  · have := (key g.range 0 (Or.inl ⟨rfl, rfl⟩)).1
    rw [abs_of_nonneg (by omega)] at this
    exact this
  · have := (key 0 g.range (Or.inr ⟨rfl, rfl⟩)).2
    rw [abs_of_nonneg (by omega)] at this
    exact this

/-! ### Motion primitives -/

theorem mem_searchList (g : Geo) (hr : 0 ≤ g.range) (p : Cell) : p ∈ searchList g ↔
    p.x * p.x + p.y * p.y ≤ g.range * g.range ∧ 0 ≤ p.yaw ∧ p.yaw < g.angle := by
  unfold searchList
  simp only [List.mem_flatMap, mem_upTo]
  constructor
  · rintro ⟨x, hx, y, hy, h⟩
    split at h
    · simp at h
    · rename_i hc
      simp only [List.mem_map, mem_upTo] at h
      obtain ⟨w, hw, rfl⟩ := h
      exact ⟨by simp only; omega, hw.1, by simp only; omega⟩
  · rintro ⟨h1, h2, h3⟩
    obtain ⟨a, b, c, d⟩ := sq_box hr h1
    refine ⟨p.x, ⟨a, b⟩, p.y, ⟨c, d⟩, ?_⟩
    rw [if_neg (by omega)]
    simp only [List.mem_map, mem_upTo]
    exact ⟨p.yaw, ⟨h2, by omega⟩, rfl⟩

theorem mem_rough (g : Geo) (hr : 0 ≤ g.range) (p : Cell) : p ∈ searchListRough g ↔
    p.x * p.x + p.y * p.y ≤ g.range * g.range ∧ p.yaw = 0 := by
  unfold searchListRough
  simp only [List.mem_flatMap, mem_upTo]
  constructor
  · rintro ⟨x, hx, y, hy, h⟩
    split at h
    · simp at h
    · rename_i hc
      simp only [List.mem_singleton] at h
      subst h
      exact ⟨by simp only; omega, rfl⟩
  · rintro ⟨h1, h2⟩
    obtain ⟨a, b, c, d⟩ := sq_box hr h1
    refine ⟨p.x, ⟨a, b⟩, p.y, ⟨c, d⟩, ?_⟩
    rw [if_neg (by omega)]
    simp only [List.mem_singleton]
    rw [← h2]

theorem nextAngle_spec (g : Geo) (i w : Int) (hi : 0 ≤ i ∧ i < g.angle) (hw : 0 ≤ w ∧ w < g.angle) :
    0 ≤ nextAngle g i w ∧ nextAngle g i w < g.angle ∧ ∃ k : Int, nextAngle g i w = i + w + k * g.angle := by
  unfold nextAngle
  split
  · exact ⟨by omega, by omega, -1, by ring⟩
  · exact ⟨by omega, by omega, 0, by ring⟩

/-- The rotation cache entry for a displacement. -/
theorem rcGet_disp (g : Geo) (hs : Sane g) (i x y w : Int) (hi : 0 ≤ i ∧ i < g.angle) (hw : 0 ≤ w ∧ w < g.angle)
    (hd : x * x + y * y ≤ g.range * g.range) :
    rcGet g i ⟨x + g.range, y + g.range, w⟩ = some (rcEntry g i ⟨x + g.range, y + g.range, w⟩) := by
  have hr : 0 ≤ g.range := by have := hs.range_pos; omega
  obtain ⟨a, b, c, d⟩ := sq_box hr hd
  rw [rcGet_eq g hr i _ (by rw [headings_eq g hs]; exact hi)]
  rw [mem_rcCells, headings_eq g hs]
  exact ⟨by simp only; omega, by simp only; omega, by simp only; omega, by simp only; omega, hw.1, hw.2⟩

/-- The conditions under which a displacement with a change of heading is kept. -/
theorem keep_curve (g : Geo) (hs : Sane g) (c : Wt) (i : Int) (p : Cell) (hi : 0 ≤ i ∧ i < g.angle)
    (hp : p ∈ primitives g c i) (hne : ¬ (p.x = 0 ∧ p.y = 0)) (hw : p.yaw ≠ 0) :
    let m := mcMotion g i ⟨p.x, p.y, nextAngle g i p.yaw⟩
    |m.yaw| < π / 2 - 1e-6 ∧ g.res / 2 ≤ |m.y| ∧ 0 ≤ m.x * m.y * m.yaw ∧ 9 ≤ sqlen p ∧
    ¬ (lround (m.x * (1 / g.res)) = 0 ∧ lround (m.y * (1 / g.res)) ≠ 0) ∧
    (sin m.yaw ≠ 0 → |(radii m).1 - (radii m).2| < g.res * 1.5 ∧ c.minCurveRadius ≤ |((radii m).1 + (radii m).2) / 2|) := by
  have hr : 0 ≤ g.range := by have := hs.range_pos; omega
  unfold primitives at hp
  rw [List.mem_filter] at hp
  obtain ⟨hl, hk⟩ := hp
  obtain ⟨hd, hw1, hw2⟩ := (mem_searchList g hr p).1 hl
  obtain ⟨n1, n2, -⟩ := nextAngle_spec g i p.yaw hi ⟨hw1, hw2⟩
  have hk' : keep g c i p = some true := by simpa using hk
  unfold keep at hk'
  rw [if_neg hne, rcGet_disp g hs i p.x p.y _ hi ⟨n1, n2⟩ hd] at hk'
  unfold rcEntry at hk'
  rw [motionOf_eq] at hk'
  simp only at hk' ⊢
  generalize mcMotion g i ⟨p.x, p.y, nextAngle g i p.yaw⟩ = m at *
  split at hk'
  · cases hk'
  · rename_i c1
    split at hk'
    · cases hk'
    · rename_i c2
      split at hk'
      · cases hk'
      · rename_i c3
        split at hk'
        · cases hk'
        · rename_i c4
          split at hk'
          · cases hk'
          · rename_i c5
            refine ⟨by push Not at c2; linarith, by push Not at c3; exact c3, by push Not at c4; exact c4, by omega, c1, ?_⟩
            intro hsin
            rw [if_neg hsin] at hk'
            simp only at hk'
            split at hk'
            · cases hk'
            · rename_i c6
              split at hk'
              · cases hk'
              · rename_i c7
                push Not at c6 c7
                exact ⟨c6, c7⟩

/-- The two radii of a kept curve have the same sign. -/
theorem keep_radii (m : Pose ℝ) (hφ : |m.yaw| ≤ π / 2) (hsin : sin m.yaw ≠ 0) (hxy : 0 ≤ m.x * m.y * m.yaw) :
    0 ≤ (radii m).1 * (radii m).2 := by
  unfold radii
  simp only
  rw [r2_eq _ _ hsin]
  have hπ := Real.pi_pos
  rw [abs_le] at hφ
  have hc : 0 ≤ cos m.yaw := cos_nonneg_of_mem_Icc ⟨hφ.1, hφ.2⟩
  have hsp : 0 < m.yaw * sin m.yaw := by
    rcases lt_trichotomy m.yaw 0 with h | h | h
    · have := sin_neg_of_neg_of_neg_pi_lt h (by linarith)
      nlinarith
    · rw [h] at hsin; simp at hsin
    · have := sin_pos_of_pos_of_lt_pi h (by linarith)
      nlinarith
  have e : (m.y + m.x * cos m.yaw / sin m.yaw) * (m.x / sin m.yaw) =
      (m.x * m.y * m.yaw) / (m.yaw * sin m.yaw) + m.x ^ 2 * cos m.yaw / sin m.yaw ^ 2 := by
    have hy : m.yaw ≠ 0 := by intro h; rw [h] at hsin; simp at hsin
    field_simp
  rw [e]
  apply add_nonneg
  · exact div_nonneg hxy (le_of_lt hsp)
  · exact div_nonneg (mul_nonneg (sq_nonneg _) hc) (sq_nonneg _)

end Verif.Model3D
