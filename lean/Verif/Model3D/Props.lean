import Verif.Model3D.Cost
/-! # Properties of the motions of the 3-DOF planner -/
set_option linter.unusedVariables false
namespace Verif.Model3D
open Spec
open Verif.GridMetric (Cell Pose lround_int)
open Verif.CSpace (lround lround_near lround_neg)
open Real

/-! ### C57: the caches -/

theorem normAngle_range (v : ℝ) (h1 : -(2 * π) ≤ v) (h2 : v ≤ 2 * π) : -π ≤ normAngle v ∧ normAngle v ≤ π := by
  have := Real.pi_pos
  unfold normAngle
  split
  · constructor <;> linarith
  · split
    · constructor <;> linarith
    · constructor <;> linarith

theorem mcMotion_parts (g : Geo) (i : Int) (p : Cell) :
    (mcMotion g i p).x = ahead g i p ∧ (mcMotion g i p).y = aside g i p ∧
    (mcMotion g i p).yaw = normAngle ((p.yaw : ℝ) * g.ares + -(i : ℝ) * g.ares) := by
  unfold mcMotion rotate ahead aside
  simp only [neg_mul, cos_neg, sin_neg]
  refine ⟨by ring, by ring, trivial⟩

theorem mcMotion_turn (g : Geo) (hs : Sane g) (i : Int) (p : Cell) (hi : 0 ≤ i ∧ i < g.angle)
    (hw : 0 ≤ p.yaw ∧ p.yaw < g.angle) : IsTurn g (p.yaw - i) (mcMotion g i p).yaw := by
  have ha := ares_pos g hs
  have hA := angle_ares g hs
  rw [(mcMotion_parts g i p).2.2]
  have e : (p.yaw : ℝ) * g.ares + -(i : ℝ) * g.ares = ((p.yaw - i : Int) : ℝ) * g.ares := by push_cast; ring
  rw [e]
  have l1 : -(g.angle : ℝ) ≤ ((p.yaw - i : Int) : ℝ) := by
    have : -g.angle ≤ p.yaw - i := by omega
    exact_mod_cast this
  have l2 : ((p.yaw - i : Int) : ℝ) ≤ (g.angle : ℝ) := by
    have : p.yaw - i ≤ g.angle := by omega
    exact_mod_cast this
  obtain ⟨a, b⟩ := normAngle_range (((p.yaw - i : Int) : ℝ) * g.ares) (by nlinarith) (by nlinarith)
  exact ⟨a, b, normAngle_eq _⟩

theorem radii_curve (m : Pose ℝ) (h : sin m.yaw ≠ 0) : IsCurve m.x m.y m.yaw (radii m).1 (radii m).2 := by
  unfold radii IsCurve
  simp only
  rw [r2_eq _ _ h]
  constructor
  · field_simp
  · field_simp; ring

/-- Every displacement of the search square and every pair of headings has its entry in the rotation cache, and the
entry is the displacement seen from the start heading, the turn the short way round, and the radii of the curve between
the two poses (none when start and end headings are parallel). -/
theorem rotation_access (g : Geo) (hs : Sane g) (i x y w : Int) (hi : 0 ≤ i ∧ i < g.angle) (hw : 0 ≤ w ∧ w < g.angle)
    (hx : -g.range ≤ x ∧ x ≤ g.range) (hy : -g.range ≤ y ∧ y ≤ g.range) :
    ∃ m rad, rcGet g i ⟨x + g.range, y + g.range, w⟩ = some (m, rad) ∧
      m.x = ahead g i ⟨x, y, w⟩ ∧ m.y = aside g i ⟨x, y, w⟩ ∧ IsTurn g (w - i) m.yaw ∧
      (sin m.yaw = 0 → rad = none) ∧
      (sin m.yaw ≠ 0 → ∃ r₁ r₂, rad = some (r₁, r₂) ∧ IsCurve m.x m.y m.yaw r₁ r₂) := by
  have hr : 0 ≤ g.range := by have := hs.range_pos; omega
  have hmem : (⟨x + g.range, y + g.range, w⟩ : Cell) ∈ rcCells g := by
    rw [mem_rcCells, headings_eq g hs]
    exact ⟨by simp only; omega, by simp only; omega, by simp only; omega, by simp only; omega, hw.1, hw.2⟩
  refine ⟨_, _, rcGet_eq g hr i _ (by rw [headings_eq g hs]; exact hi) hmem, ?_⟩
  rw [motionOf_eq]
  obtain ⟨h1, h2, -⟩ := mcMotion_parts g i ⟨x, y, w⟩
  refine ⟨h1, h2, mcMotion_turn g hs i ⟨x, y, w⟩ hi hw, ?_, ?_⟩
  · intro h; rw [if_pos h]
  · intro h
    rw [if_neg h]
    exact ⟨_, _, rfl, radii_curve _ h⟩

/-- A motion is found exactly for the displacements within the search range, for every start heading. -/
theorem motion_found_iff (g : Geo) (hs : Sane g) (s : Int) (p : Cell) : (find g s p).isSome ↔
    ¬ (p.x = 0 ∧ p.y = 0) ∧ p.x * p.x + p.y * p.y ≤ g.range * g.range ∧ 0 ≤ p.yaw ∧ p.yaw < g.angle := by
  have hr : 0 ≤ g.range := by have := hs.range_pos; omega
  unfold find
  constructor
  · intro h
    split at h
    · rename_i hm
      obtain ⟨a, b, -, -, -, -, c, d⟩ := (mem_mcKeys g p).1 hm
      rw [headings_eq g hs] at d
      exact ⟨a, b, c, d⟩
    · simp at h
  · rintro ⟨a, b, c, d⟩
    obtain ⟨x1, x2, y1, y2⟩ := sq_box hr b
    rw [if_pos ((mem_mcKeys g p).2 ⟨a, b, x1, x2, y1, y2, c, by rw [headings_eq g hs]; exact d⟩)]
    rfl

theorem cycU_add (e k A : Int) (hA : 0 < A) : cycU (e + k * A) A = cycU e A := by
  obtain ⟨⟨a, ha⟩, a1, a2⟩ := cycU_spec (e + k * A) A hA
  obtain ⟨⟨b, hb⟩, b1, b2⟩ := cycU_spec e A hA
  have : cycU (e + k * A) A - cycU e A = (k + a - b) * A := by rw [ha, hb]; ring
  have := mul_small hA (k := k + a - b) (by omega) (by omega)
  rw [ha, hb]
  have : k = b - a := by omega
  subst this
  ring

/-- The motion found does not change when the start heading is given with whole turns added (negative or not). -/
theorem find_periodic (g : Geo) (hs : Sane g) (s k : Int) (p : Cell) : find g (s + k * g.angle) p = find g s p := by
  unfold find
  rw [headings_eq g hs, cycU_add _ _ _ hs.angle_pos]

/-! ### Motions join their ends -/

theorem totalStep_pos (g : Geo) (hs : Sane g) (d : Cell) (hne : ¬ (d.x = 0 ∧ d.y = 0)) : 2 ≤ totalStep g d := by
  have hsq : 1 ≤ sqlen d := by
    unfold sqlen
    rcases Int.lt_or_le 0 (d.x * d.x + d.y * d.y) with h | h
    · omega
    · exfalso
      apply hne
      have h1 := mul_self_nonneg d.x
      have h2 := mul_self_nonneg d.y
      exact ⟨by nlinarith, by nlinarith⟩
  have hl : 1 ≤ len d := by
    unfold len
    rw [Real.one_le_sqrt]
    exact_mod_cast hsq
  have h2 : ((2 : Int) : ℝ) ≤ len d / g.ger := by
    rw [le_div_iff₀ hs.ger_pos]
    have := hs.ger_le
    push_cast
    linarith
  have := (lround_near (len d / g.ger))
  rw [abs_le] at this
  have h3 : ((1 : Int) : ℝ) < (lround (len d / g.ger) : ℝ) := by push_cast at h2 ⊢; linarith
  have h4 := Int.cast_lt.1 h3
  unfold totalStep
  omega

/-- A motion starts at the centre of its start cell with the start heading. -/
theorem sample_start (g : Geo) (hs : Sane g) (s : Int) (d : Cell) : sampleAt g s d 0 = ⟨0, 0, s⟩ := by
  have ha := ares_pos g hs
  have hres := hs.res_pos
  unfold sampleAt
  split
  · rw [straightAt_eq g hs]; simp
  · rename_i h
    have hsin : sin (mcMotion g s d).yaw ≠ 0 := by
      intro h0; apply h; unfold IsStraight; rw [h0]; norm_num
    rw [curveAt_eq g hs _ _ _ hsin]
    simp only [sub_zero, mul_one, mul_zero, add_zero, zero_mul, sub_self, zero_div]
    congr 1
    field_simp

/-- … and a curved motion ends at the centre of its destination with the destination heading. -/
theorem curve_ends (g : Geo) (hs : Sane g) (s : Int) (d : Cell) (h : ¬ IsStraight g s d) :
    ∃ k : Int, sampleAt g s d 1 = ⟨d.x, d.y, ((d.yaw + k * g.angle : Int) : ℝ)⟩ := by
  have ha := ares_pos g hs
  have hres := hs.res_pos
  have hA := angle_ares g hs
  have hsin : sin (mcMotion g s d).yaw ≠ 0 := by
    intro h0; apply h; unfold IsStraight; rw [h0]; norm_num
  unfold sampleAt
  rw [if_neg h, curveAt_eq g hs _ _ _ hsin]
  simp only [sub_self, mul_zero, mul_one, zero_add, one_mul]
  obtain ⟨e1, e2⟩ := radii_curve _ hsin
  unfold radii at e1 e2
  simp only at e1 e2
  rw [r2_eq _ _ hsin] at e1 e2
  obtain ⟨p1, p2, p3⟩ := mcMotion_parts g s d
  obtain ⟨k, hk⟩ := normAngle_eq ((d.yaw : ℝ) * g.ares + -(s : ℝ) * g.ares)
  rw [← p3] at hk
  refine ⟨k, ?_⟩
  have hsc := sin_sq_add_cos_sq ((s : ℝ) * g.ares)
  generalize hR2 : (mcMotion g s d).x / sin (mcMotion g s d).yaw = R2 at *
  generalize hR1 : (mcMotion g s d).y + (mcMotion g s d).x * cos (mcMotion g s d).yaw / sin (mcMotion g s d).yaw = R1 at *
  rw [sin_add, cos_add]
  unfold ahead at p1
  unfold aside at p2
  congr 1
  · rw [div_eq_iff (ne_of_gt hres)]
    have : R2 * (sin ((s : ℝ) * g.ares) * cos (mcMotion g s d).yaw + cos ((s : ℝ) * g.ares) * sin (mcMotion g s d).yaw) -
        R1 * sin ((s : ℝ) * g.ares) =
        (mcMotion g s d).x * cos ((s : ℝ) * g.ares) - (mcMotion g s d).y * sin ((s : ℝ) * g.ares) := by
      rw [e1, e2]
      ring_nf
    rw [this, p1, p2]
    linear_combination ((d.x : ℝ) * g.res) * hsc
  · rw [div_eq_iff (ne_of_gt hres)]
    have : R1 * cos ((s : ℝ) * g.ares) - R2 * (cos ((s : ℝ) * g.ares) * cos (mcMotion g s d).yaw -
        sin ((s : ℝ) * g.ares) * sin (mcMotion g s d).yaw) =
        (mcMotion g s d).x * sin ((s : ℝ) * g.ares) + (mcMotion g s d).y * cos ((s : ℝ) * g.ares) := by
      rw [e1, e2]
      ring_nf
    rw [this, p1, p2]
    linear_combination ((d.y : ℝ) * g.res) * hsc
  · rw [div_eq_iff (ne_of_gt ha), hk]
    push_cast
    rw [← hA]
    ring

/-- A straight motion ends at the centre of its destination, keeping its heading. -/
theorem straight_ends (g : Geo) (hs : Sane g) (s : Int) (d : Cell) (h : IsStraight g s d) :
    sampleAt g s d 1 = ⟨d.x, d.y, s⟩ := by
  unfold sampleAt
  rw [if_pos h, straightAt_eq g hs]
  simp

/-! ### C11: moves with a cost are safe -/

/-- When a move of the vehicle gets a finite cost, both ends are free and every sampled pose of the motion lies in a
free cell. -/
theorem motion_safe (g : Geo) (hs : Sane g) (c : Wt) (u : Bool) (cm hy : Cell → Option Int) (cur next : Cell) (v : ℝ)
    (hc : 0 ≤ cur.yaw ∧ cur.yaw < g.angle) (hn : 0 ≤ next.yaw ∧ next.yaw < g.angle)
    (hne : ¬ (next.x = cur.x ∧ next.y = cur.y)) (h : cost g c u cm hy cur next = .val v) :
    Free cm cur ∧ Free cm next ∧
    ∀ k < totalStep g ⟨next.x - cur.x, next.y - cur.y, next.yaw⟩,
      Safe g cm (placed cur (sampleAt g cur.yaw ⟨next.x - cur.x, next.y - cur.y, next.yaw⟩
        (ratioOf g ⟨next.x - cur.x, next.y - cur.y, next.yaw⟩ k))) := by
  obtain ⟨hf1, hf2, ht | hm⟩ := cost_val g c u cm hy cur next v h
  · exfalso
    obtain ⟨h1, h2⟩ := ht.same
    exact hne ⟨by omega, by omega⟩
  refine ⟨hf1, hf2, ?_⟩
  obtain ⟨m, rad, pg, s, t, hh, -, hfind, hscan, -⟩ := hm.val
  have hkey : keyOf g cur next = ⟨next.x - cur.x, next.y - cur.y, next.yaw⟩ := by
    unfold keyOf; rw [cycU_id _ _ hs.angle_pos hn]
  rw [hkey] at hfind
  have hpg : pg = page g cur.yaw ⟨next.x - cur.x, next.y - cur.y, next.yaw⟩ := by
    unfold find at hfind
    split at hfind
    · rw [headings_eq g hs, cycU_id _ _ hs.angle_pos hc] at hfind
      exact (Option.some.inj hfind).symm
    · cases hfind
  subst hpg
  intro k hk
  generalize hd : (⟨next.x - cur.x, next.y - cur.y, next.yaw⟩ : Cell) = d at *
  have hnear := cellOf_near g hs (sampleAt g cur.yaw d (ratioOf g d k))
  by_cases he : cellOf g (sampleAt g cur.yaw d (ratioOf g d k)) = d
  · refine ⟨next, hf2, ?_⟩
    rw [he] at hnear
    obtain ⟨n1, n2, n3⟩ := hnear
    unfold placed
    rw [← hd] at n1 n2 n3
    simp only at n1 n2 n3 ⊢
    push_cast at n1 n2
    rw [← hd]
    refine ⟨?_, ?_, n3⟩
    · convert n1 using 2; ring
    · convert n2 using 2; ring
  · have hmem : (⟨cur.x + (cellOf g (sampleAt g cur.yaw d (ratioOf g d k))).x,
        cur.y + (cellOf g (sampleAt g cur.yaw d (ratioOf g d k))).y,
        (cellOf g (sampleAt g cur.yaw d (ratioOf g d k))).yaw⟩ : Cell) ∈ shifted cur (page g cur.yaw d) :=
      List.mem_map.2 ⟨_, (mem_motion g cur.yaw d _).2 ⟨k, hk, rfl, he⟩, rfl⟩
    refine ⟨_, scan_free cm hy u _ _ _ _ _ _ _ _ hscan _ hmem, ?_⟩
    obtain ⟨n1, n2, n3⟩ := hnear
    unfold placed
    simp only
    refine ⟨?_, ?_, n3⟩
    · convert n1 using 2; push_cast; ring
    · convert n2 using 2; push_cast; ring

/-- When a turn in place gets a finite cost, every heading passed on the short way round, both ends included, is free.
(With an odd number of headings a half turn less half a step may be taken the other way round.) -/
theorem turn_safe (g : Geo) (hs : Sane g) (c : Wt) (u : Bool) (cm hy : Cell → Option Int) (cur next : Cell) (v : ℝ)
    (hc : 0 ≤ cur.yaw ∧ cur.yaw < g.angle) (hn : 0 ≤ next.yaw ∧ next.yaw < g.angle)
    (he : next.x = cur.x ∧ next.y = cur.y) (h : cost g c u cm hy cur next = .val v) :
    ∃ n : Int, 2 * |n| ≤ g.angle + 1 ∧ (∃ k : Int, next.yaw = cur.yaw + n + k * g.angle) ∧
      ∀ j : Int, min 0 n ≤ j → j ≤ max 0 n → ∃ w, 0 ≤ w ∧ w < g.angle ∧ (∃ k : Int, w = cur.yaw + j + k * g.angle) ∧
        Free cm ⟨cur.x, cur.y, w⟩ := by
  have hA := hs.angle_pos
  obtain ⟨hf1, hf2, ht | hm⟩ := cost_val g c u cm hy cur next v h
  swap
  · exfalso
    exact hm.moves ⟨by omega, by omega⟩
  obtain ⟨s, t, hh, hscan, -⟩ := ht.val
  obtain ⟨⟨k, hk⟩, l1, l2⟩ := cycS_spec (next.yaw - cur.yaw) g.angle hA
  have hfr := turnScan_free cm _ _ _ _ _ _ _ _ _ hscan
  unfold disp at hfr
  simp only at hfr
  generalize cycS (next.yaw - cur.yaw) g.angle = n at *
  refine ⟨n, ?_, ⟨-k, by rw [hk]; ring⟩, ?_⟩
  · rcases abs_cases n with ⟨e, _⟩ | ⟨e, _⟩ <;> omega
  intro j j1 j2
  by_cases hj : j = n
  · refine ⟨next.yaw, hn.1, hn.2, ⟨-k, by rw [hj, hk]; ring⟩, ?_⟩
    rw [← he.1, ← he.2]
    exact hf2
  · have hlt : j.natAbs < n.natAbs := by omega
    have hdir : (if n < 0 then (-1 : Int) else 1) = 1 ∨ (if n < 0 then (-1 : Int) else 1) = -1 := by split <;> simp
    obtain ⟨w1, w2, q, hq⟩ := turnYaw_spec g.angle (if n < 0 then -1 else 1) hA hdir j.natAbs cur.yaw hc.1 hc.2
    refine ⟨_, w1, w2, ⟨q, ?_⟩, hfr j.natAbs hlt⟩
    rw [hq]
    have : (j.natAbs : Int) * (if n < 0 then -1 else 1) = j := by
      split <;> omega
    rw [this]

/-! ### C81: evaluating an offered move never reads outside the map or the caches -/

/-- The displacement of a reached cell, in the form the cost function uses it. -/
theorem reach_disp (g : Geo) (hs : Sane g) (h2 : 2 ≤ g.angle) (cur p next : Cell) (hr : Reaches g cur p next) :
    next.x - cur.x = p.x ∧ next.y - cur.y = p.y ∧
    (cycS (next.yaw - cur.yaw) g.angle = 0 → 0 ≤ cur.yaw ∧ cur.yaw < g.angle → next.yaw = cur.yaw) ∧
    (cycS (next.yaw - cur.yaw) g.angle ≠ 0 → p.yaw ≠ 0) := by
  have hA := hs.angle_pos
  obtain ⟨h1, h2, ⟨k, hk⟩, h4, h5⟩ := hr
  obtain ⟨⟨j, hj⟩, l1, l2⟩ := cycS_spec (next.yaw - cur.yaw) g.angle hA
  refine ⟨by omega, by omega, ?_, ?_⟩
  · intro h0 hc
    rw [h0] at hj
    have := mul_small hA (k := j) (by omega) (by omega)
    subst this
    omega
  · intro hne hp
    apply hne
    have : cycS (next.yaw - cur.yaw) g.angle = (k + j) * g.angle := by rw [hj, hk, hp]; ring
    have h0 := mul_small hA (k := k + j) (by omega) (by omega)
    rw [this, h0]; ring

theorem mem_searchGrids (g : Geo) (c : Wt) (lr : Int) (starts : List Cell) (cur p : Cell)
    (h : p ∈ searchGrids g c lr starts cur) : p ∈ primitives g c cur.yaw ∨ p ∈ searchListRough g := by
  unfold searchGrids at h
  split at h
  · exact Or.inl h
  · exact Or.inr h

theorem grid_disc (g : Geo) (hs : Sane g) (c : Wt) (lr : Int) (starts : List Cell) (cur p : Cell)
    (h : p ∈ searchGrids g c lr starts cur) : p.x * p.x + p.y * p.y ≤ g.range * g.range := by
  have hr : 0 ≤ g.range := by have := hs.range_pos; omega
  rcases mem_searchGrids g c lr starts cur p h with h | h
  · unfold primitives at h
    exact ((mem_searchList g hr p).1 (List.mem_filter.1 h).1).1
  · exact ((mem_rough g hr p).1 h).1

/-- The move starts too close to the border of the map for a turning motion. -/
def AtBorder (g : Geo) (cur : Cell) : Prop :=
  cur.x < (maxRange g).1 ∨ cur.y < (maxRange g).2 ∨ cur.x ≥ g.width - (maxRange g).1 ∨ cur.y ≥ g.height - (maxRange g).2

theorem straight_zero (g : Geo) (i x y : Int) : (mcMotion g i ⟨x, y, i⟩).yaw = 0 := by
  have hp := Real.pi_pos
  rw [(mcMotion_parts g i ⟨x, y, i⟩).2.2]
  have : (i : ℝ) * g.ares + -(i : ℝ) * g.ares = 0 := by ring
  simp only [this]
  unfold normAngle
  rw [if_neg (by linarith), if_neg (by linarith)]

theorem cells_inmap (g : Geo) (hs : Sane g) (hev : Even g.angle) (c : Wt) (lr : Int) (starts : List Cell)
    (cur p next : Cell) (hc : InMap g cur) (hn : InMap g next) (hp : p ∈ searchGrids g c lr starts cur)
    (hr : Reaches g cur p next) (hne' : ¬ (p.x = 0 ∧ p.y = 0))
    (hb : cycS (next.yaw - cur.yaw) g.angle ≠ 0 → ¬ AtBorder g cur) :
    ∀ q ∈ shifted cur (page g cur.yaw ⟨p.x, p.y, next.yaw⟩), InMap g q := by
  have hA := hs.angle_pos
  have h2A : 2 ≤ g.angle := by obtain ⟨n, hn⟩ := hev; omega
  have hR : 0 ≤ g.range := by have := hs.range_pos; omega
  have hdisc := grid_disc g hs c lr starts cur p hp
  obtain ⟨ex, ey, hyaw0, hyaw1⟩ := reach_disp g hs h2A cur p next hr
  obtain ⟨cx0, cx1, cy0, cy1, cw0, cw1⟩ := hc
  obtain ⟨nx0, nx1, ny0, ny1, nw0, nw1⟩ := hn
  intro q hq
  obtain ⟨q', hq', rfl⟩ := List.mem_map.1 hq
  by_cases hst : IsStraight g cur.yaw ⟨p.x, p.y, next.yaw⟩
  · obtain ⟨a1, a2, a3, a4, a5, a6⟩ := straight_cells g hs _ _ _ hst hq'
    simp only at a1 a2 a3 a4
    refine ⟨?_, ?_, ?_, ?_, a5, a6⟩ <;> simp only <;> omega
  · have hz : cycS (next.yaw - cur.yaw) g.angle ≠ 0 := by
      intro hz
      apply hst
      unfold IsStraight
      rw [hyaw0 hz ⟨cw0, cw1⟩, straight_zero, sin_zero]
      norm_num
    have hb := hb hz
    have hpy := hyaw1 hz
    obtain ⟨m1, m2⟩ := maxRange_ge g hs hev
    have hprim : p ∈ primitives g c cur.yaw := by
      rcases mem_searchGrids g c lr starts cur p hp with h | h
      · exact h
      · exact absurd ((mem_rough g hR p).1 h).2 hpy
    have hpyr : 0 ≤ p.yaw ∧ p.yaw < g.angle := by
      have h := hprim
      unfold primitives at h
      exact ((mem_searchList g hR p).1 (List.mem_filter.1 h).1).2
    have hna : nextAngle g cur.yaw p.yaw = next.yaw := by
      obtain ⟨e1, e2, k, hk⟩ := nextAngle_spec g cur.yaw p.yaw ⟨cw0, cw1⟩ hpyr
      obtain ⟨-, -, ⟨k', hk'⟩, -, -⟩ := hr
      have : nextAngle g cur.yaw p.yaw - next.yaw = (k - k') * g.angle := by rw [hk, hk']; ring
      have h0 := mul_small hA (k := k - k') (by omega) (by omega)
      rw [h0] at this
      omega
    have hk := keep_curve g hs c cur.yaw p ⟨cw0, cw1⟩ hprim hne' hpy
    rw [hna] at hk
    obtain ⟨k1, k2, k3, -⟩ := hk
    have hφ : |(mcMotion g cur.yaw ⟨p.x, p.y, next.yaw⟩).yaw| ≤ π / 2 := by
      have : (0 : ℝ) < 1e-6 := by norm_num
      linarith
    have hsin : sin (mcMotion g cur.yaw ⟨p.x, p.y, next.yaw⟩).yaw ≠ 0 := by
      intro h0; apply hst; unfold IsStraight; rw [h0]; norm_num
    obtain ⟨a1, a2, a3, a4, a5, a6⟩ := curve_cells g hs _ _ _ hst hφ (keep_radii _ hφ hsin k3) hdisc hq'
    unfold AtBorder at hb
    push Not at hb
    refine ⟨?_, ?_, ?_, ?_, a5, a6⟩ <;> simp only <;> omega

/-- Evaluating a move that the search offers, between two cells of the map, reads only cells of the map and entries of
the caches. -/
theorem cost_defined (g : Geo) (hs : Sane g) (hev : Even g.angle) (c : Wt) (u : Bool) (cm hy : Cell → Option Int)
    (hcm : Covers g cm) (hhy : Covers g hy) (lr : Int) (starts : List Cell) (cur p next : Cell)
    (hc : InMap g cur) (hn : InMap g next) (hp : p ∈ searchGrids g c lr starts cur) (hr : Reaches g cur p next) :
    cost g c u cm hy cur next ≠ .undefined := by
  have hA := hs.angle_pos
  have h2A : 2 ≤ g.angle := by obtain ⟨n, hn⟩ := hev; omega
  have hR : 0 ≤ g.range := by have := hs.range_pos; omega
  have hdisc := grid_disc g hs c lr starts cur p hp
  obtain ⟨ex, ey, hyaw0, hyaw1⟩ := reach_disp g hs h2A cur p next hr
  obtain ⟨c0, h0⟩ := hcm cur hc
  obtain ⟨c1, h1⟩ := hcm next hn
  have hcells := cells_inmap g hs hev c lr starts cur p next hc hn hp hr
  obtain ⟨cx0, cx1, cy0, cy1, cw0, cw1⟩ := hc
  obtain ⟨nx0, nx1, ny0, ny1, nw0, nw1⟩ := hn
  unfold cost
  rw [h0]
  simp only [h1]
  split
  · exact fun h => by cases h
  split
  · exact fun h => by cases h
  split
  · -- turn in place
    have := turnScan_defined cm c.turnThreshold g.angle (if cycS (next.yaw - cur.yaw) g.angle < 0 then -1 else 1) hA
      (by split <;> simp) (cycS (next.yaw - cur.yaw) g.angle).natAbs cur 0 cw0 cw1
      (fun w w0 w1 => hcm _ ⟨cx0, cx1, cy0, cy1, w0, w1⟩)
    split
    · rename_i hu; exact absurd hu this
    · exact fun h => by cases h
    · exact fun h => by cases h
  · rename_i hne
    have hne' : ¬ (p.x = 0 ∧ p.y = 0) := by rw [← ex, ← ey]; exact hne
    rw [ex, ey, rcGet_disp g hs cur.yaw p.x p.y next.yaw ⟨cw0, cw1⟩ ⟨nw0, nw1⟩ hdisc]
    unfold rcEntry
    simp only
    rw [cycU_id next.yaw g.angle hA ⟨nw0, nw1⟩,
      find_some g hR cur.yaw ⟨p.x, p.y, next.yaw⟩ hne' hdisc (by rw [headings_eq g hs]; exact ⟨nw0, nw1⟩)]
    simp only
    rw [headings_eq g hs, cycU_id cur.yaw g.angle hA ⟨cw0, cw1⟩]
    split
    · rename_i hz
      have := scan_defined cm hy u c.turnThreshold _ 0 0 0
        (fun q hq => ⟨hcm q (hcells hne' (fun h => absurd hz h) q hq), hhy q (hcells hne' (fun h => absurd hz h) q hq)⟩)
      split
      · rename_i hu; exact absurd hu this
      · exact fun h => by cases h
      · split
        · exact fun h => by cases h
        · exact fun h => by cases h
    · rename_i hz
      split
      · exact fun h => by cases h
      · rename_i hb
        have := scan_defined cm hy u c.turnThreshold _ 0 0 0
          (fun q hq => ⟨hcm q (hcells hne' (fun _ => hb) q hq), hhy q (hcells hne' (fun _ => hb) q hq)⟩)
        split
        · rename_i hu; exact absurd hu this
        · exact fun h => by cases h
        · exact fun h => by cases h

/-! ### Moves in free space are accepted -/

theorem scan_sums (cm hy : Cell → Option Int) (u : Bool) (thr : Int) : ∀ (l : List Cell) (s t h : Int),
    (∀ p ∈ l, Free cm p ∧ ∃ c, hy p = some c) → ∃ s' t' h', scan cm hy u thr l s t h = .sums s' t' h' := by
  intro l
  induction l with
  | nil => intro s t h _; exact ⟨s, t, h, rfl⟩
  | cons q l ih =>
    intro s t h hd
    obtain ⟨⟨c, hc, hle⟩, v, hv⟩ := hd q (List.mem_cons_self ..)
    simp only [scan, hc, hv]
    rw [if_neg (by omega)]
    split
    · exact ih _ _ _ fun p hp => hd p (List.mem_cons_of_mem _ hp)
    · exact ih _ _ _ fun p hp => hd p (List.mem_cons_of_mem _ hp)

theorem turnScan_sums (cm : Cell → Option Int) (thr A dir : Int) (hA : 0 < A) (hdir : dir = 1 ∨ dir = -1) :
    ∀ (n : Nat) (pos : Cell) (s : Int), 0 ≤ pos.yaw → pos.yaw < A →
    (∀ w, 0 ≤ w → w < A → Free cm { pos with yaw := w }) → ∃ s' t' h', turnScan cm thr A dir n pos s = .sums s' t' h' := by
  intro n
  induction n with
  | zero => intro pos s _ _ _; exact ⟨_, _, _, rfl⟩
  | succ n ih =>
    intro pos s h1 h2 hcm
    obtain ⟨c, hc, hle⟩ := hcm pos.yaw h1 h2
    have hc' : cm pos = some c := hc
    simp only [turnScan, hc']
    rw [if_neg (by omega)]
    apply ih
    · simp only; split
      · omega
      · split <;> omega
    · simp only; split
      · rcases hdir with rfl | rfl <;> omega
      · split
        · rcases hdir with rfl | rfl <;> omega
        · omega
    · intro w w0 w1
      exact hcm w w0 w1

/-- In free space every motion primitive that leads to a cell of the map gets a finite cost, except that turning motions
are refused close to the border of the map. -/
theorem free_move_accepted (g : Geo) (hs : Sane g) (hev : Even g.angle) (c : Wt) (u : Bool) (cm hy : Cell → Option Int)
    (hcm : ∀ p, InMap g p → Free cm p) (hhy : Covers g hy) (cur p next : Cell)
    (hc : InMap g cur) (hn : InMap g next) (hp : p ∈ primitives g c cur.yaw) (hr : Reaches g cur p next)
    (hb : ¬ (p.x = 0 ∧ p.y = 0) → p.yaw ≠ 0 → ¬ AtBorder g cur) :
    ∃ v, cost g c u cm hy cur next = .val v := by
  have hA := hs.angle_pos
  have h2A : 2 ≤ g.angle := by obtain ⟨n, hn⟩ := hev; omega
  have hR : 0 ≤ g.range := by have := hs.range_pos; omega
  -- put the primitive in the search list
  have hgrid : p ∈ searchGrids g c 1 [cur] cur := by
    unfold searchGrids
    rw [if_pos]
    · exact hp
    · simp [sqlen]
  have hdisc := grid_disc g hs c 1 [cur] cur p hgrid
  obtain ⟨ex, ey, hyaw0, hyaw1⟩ := reach_disp g hs h2A cur p next hr
  obtain ⟨c0, h0, l0⟩ := hcm cur hc
  obtain ⟨c1, h1, l1⟩ := hcm next hn
  have hcells := cells_inmap g hs hev c 1 [cur] cur p next hc hn hgrid hr
  obtain ⟨cx0, cx1, cy0, cy1, cw0, cw1⟩ := hc
  obtain ⟨nx0, nx1, ny0, ny1, nw0, nw1⟩ := hn
  unfold cost
  rw [h0]
  simp only [h1]
  rw [if_neg (by omega), if_neg (by omega)]
  split
  · obtain ⟨s', t', h', hsum⟩ := turnScan_sums cm c.turnThreshold g.angle
      (if cycS (next.yaw - cur.yaw) g.angle < 0 then -1 else 1) hA (by split <;> simp)
      (cycS (next.yaw - cur.yaw) g.angle).natAbs cur 0 cw0 cw1 (fun w w0 w1 => hcm _ ⟨cx0, cx1, cy0, cy1, w0, w1⟩)
    rw [hsum]
    exact ⟨_, rfl⟩
  · rename_i hne
    have hne' : ¬ (p.x = 0 ∧ p.y = 0) := by rw [← ex, ← ey]; exact hne
    rw [ex, ey, rcGet_disp g hs cur.yaw p.x p.y next.yaw ⟨cw0, cw1⟩ ⟨nw0, nw1⟩ hdisc]
    unfold rcEntry
    simp only
    rw [cycU_id next.yaw g.angle hA ⟨nw0, nw1⟩,
      find_some g hR cur.yaw ⟨p.x, p.y, next.yaw⟩ hne' hdisc (by rw [headings_eq g hs]; exact ⟨nw0, nw1⟩)]
    simp only
    rw [headings_eq g hs, cycU_id cur.yaw g.angle hA ⟨cw0, cw1⟩]
    have hsum := fun hbd => scan_sums cm hy u c.turnThreshold
      (shifted cur (page g cur.yaw ⟨p.x, p.y, next.yaw⟩)) 0 0 0
      (fun q hq => ⟨hcm q (hcells hne' hbd q hq), hhy q (hcells hne' hbd q hq)⟩)
    unfold shifted at hsum
    split
    · rename_i hz
      obtain ⟨s', t', h', hsum⟩ := hsum (fun h => absurd hz h)
      rw [hsum]
      simp only
      have hyy := hyaw0 hz ⟨cw0, cw1⟩
      have hpr := hp
      unfold primitives at hpr
      obtain ⟨hl, hk⟩ := List.mem_filter.1 hpr
      obtain ⟨-, p0, p1⟩ := (mem_searchList g hR p).1 hl
      have hp0 : p.yaw = 0 := by
        obtain ⟨-, -, ⟨k, hk⟩, -, -⟩ := hr
        have : p.yaw = (-k) * g.angle := by rw [hyy] at hk; linarith
        have h0 := mul_small hA (k := -k) (by omega) (by omega)
        rw [this, h0]; ring
      have hmx : (motionOf g cur.yaw ⟨p.x + g.range, p.y + g.range, next.yaw⟩).x ≠ 0 := by
        intro h0
        have hk' : keep g c cur.yaw p = some true := by simpa using hk
        have hna : nextAngle g cur.yaw p.yaw = next.yaw := by
          unfold nextAngle
          rw [hp0, hyy, if_neg (by omega)]; ring
        unfold keep at hk'
        rw [if_neg hne', hna, rcGet_disp g hs cur.yaw p.x p.y next.yaw ⟨cw0, cw1⟩ ⟨nw0, nw1⟩ hdisc] at hk'
        unfold rcEntry at hk'
        simp only [h0, zero_mul, hp0, if_true] at hk'
        have hl0 : lround (0 : ℝ) = 0 := by simpa using lround_int (K := ℝ) 0
        simp only [hl0, if_true] at hk'
        split at hk'
        · cases hk'
        · split at hk'
          · cases hk'
          · cases hk'
      rw [if_neg hmx]
      exact ⟨_, rfl⟩
    · rename_i hz
      have hbd := hb hne' (hyaw1 hz)
      obtain ⟨s', t', h', hsum⟩ := hsum (fun _ => hbd)
      have : ¬ (cur.x < (maxRange g).1 ∨ cur.y < (maxRange g).2 ∨ cur.x ≥ g.width - (maxRange g).1 ∨
          cur.y ≥ g.height - (maxRange g).2) := hbd
      rw [if_neg this, hsum]
      exact ⟨_, rfl⟩

/-! ### C82: costs -/

theorem downLoop_spec (A : Int) (hA : 0 < A) : ∀ (n : Nat) (a : Int), (a - A.tdiv 2).toNat = n →
    downLoop A a ≤ A / 2 ∧ (A / 2 - A < a → A / 2 - A < downLoop A a) ∧ (∃ k : Int, downLoop A a = a + k * A) ∧
    (a ≤ A / 2 → downLoop A a = a) := by
  have ht : A.tdiv 2 = A / 2 := Int.tdiv_eq_ediv_of_nonneg (by omega)
  intro n
  induction n using Nat.strongRecOn with
  | _ n ih =>
    intro a hn
    unfold downLoop
    split
    · rename_i h
      obtain ⟨h1, h2, ⟨k, hk⟩, h4⟩ := ih (a - A - A.tdiv 2).toNat (by omega) (a - A) rfl
      exact ⟨h1, fun h' => h2 (by omega), ⟨k - 1, by rw [hk]; ring⟩, fun h' => by omega⟩
    · rename_i h
      push Not at h
      have := h hA
      exact ⟨by omega, fun h => h, ⟨0, by ring⟩, fun _ => rfl⟩

theorem upLoop_spec (A : Int) (hA : 0 < A) : ∀ (n : Nat) (a : Int), ((-A).tdiv 2 - a).toNat = n → a ≤ A / 2 →
    -(A / 2) ≤ upLoop A a ∧ upLoop A a ≤ A / 2 ∧ ∃ k : Int, upLoop A a = a + k * A := by
  have ht : (-A).tdiv 2 = -(A / 2) := by
    rw [Int.neg_tdiv, Int.tdiv_eq_ediv_of_nonneg (by omega)]
  intro n
  induction n using Nat.strongRecOn with
  | _ n ih =>
    intro a hn ha
    unfold upLoop
    split
    · rename_i h
      obtain ⟨h1, h2, ⟨k, hk⟩⟩ := ih ((-A).tdiv 2 - (a + A)).toNat (by omega) (a + A) rfl (by omega)
      exact ⟨h1, h2, ⟨k + 1, by rw [hk]; ring⟩⟩
    · rename_i h
      push Not at h
      have := h hA
      exact ⟨by omega, ha, ⟨0, by ring⟩⟩

theorem emod_of (a r A k : Int) (hA : 0 < A) (h : r = a + k * A) (h0 : 0 ≤ r) (h1 : r < A) : a % A = r := by
  have : a = r + (-k) * A := by rw [h]; ring
  rw [this, Int.add_mul_emod_self_right, Int.emod_eq_of_lt h0 h1]

theorem short_turn (A a b r k : Int) (hA : 0 < A) (hr : r = a - b + k * A) (h1 : -(A / 2) ≤ r) (h2 : r ≤ A / 2) :
    |r| = turn A a b := by
  unfold turn
  rcases lt_trichotomy r 0 with h | h | h
  · rw [abs_of_neg h, emod_of (a - b) (r + A) A (k + 1) hA (by rw [hr]; ring) (by omega) (by omega),
      emod_of (b - a) (-r) A (-k) hA (by rw [hr]; ring) (by omega) (by omega)]
    omega
  · rw [h, emod_of (a - b) 0 A k hA (by rw [← h, hr]) (by omega) (by omega),
      emod_of (b - a) 0 A (-k) hA (by have : (0 : Int) = -r := by omega
                                      rw [this, hr]; ring) (by omega) (by omega)]
    simp
  · rw [abs_of_pos h, emod_of (a - b) r A k hA hr (by omega) (by omega),
      emod_of (b - a) (A - r) A (1 - k) hA (by rw [hr]; ring) (by omega) (by omega)]
    omega

theorem norm_heading (A a b : Int) (hA : 0 < A) (d k : Int) (hd : d = a - b + k * A) :
    |((upLoop A (downLoop A d) : Int) : ℝ)| = ((turn A a b : Int) : ℝ) := by
  obtain ⟨h1, -, ⟨j, hj⟩, -⟩ := downLoop_spec A hA _ d rfl
  obtain ⟨u1, u2, ⟨i, hi⟩⟩ := upLoop_spec A hA _ (downLoop A d) rfl h1
  rw [← Int.cast_abs, short_turn A a b _ (k + j + i) hA (by rw [hi, hj, hd]; ring) u1 u2]

theorem euclidCostRough_eq (c : Wt) (v : Cell) : euclidCostRough c v = cellDist ⟨0, 0, 0⟩ v * c.ec0 := by
  unfold euclidCostRough linCache cellDist
  simp only
  have : (0 + v.x * v.x + v.y * v.y : Int) = (v.x - 0) ^ 2 + (v.y - 0) ^ 2 := by ring
  rw [this]
  split <;> rfl

/-- The basic cost of a move: its length and the number of heading steps, the short way round, with their weights. -/
theorem euclidCost_eq (g : Geo) (hs : Sane g) (c : Wt) (hw : 0 ≤ c.ec2) (cur next : Cell) :
    euclidCost g c (disp g cur next) = c.ec0 * cellDist cur next + c.ec2 * ((turn g.angle next.yaw cur.yaw : Int) : ℝ) := by
  obtain ⟨⟨k, hk⟩, -, -⟩ := cycS_spec (next.yaw - cur.yaw) g.angle hs.angle_pos
  unfold euclidCost
  rw [euclidCostRough_eq, abs_mul, abs_of_nonneg hw]
  rw [norm_heading g.angle next.yaw cur.yaw hs.angle_pos (disp g cur next).yaw k hk]
  have : cellDist ⟨0, 0, 0⟩ (disp g cur next) = cellDist cur next := by
    unfold cellDist disp
    simp
  rw [this]
  ring

theorem turn_nonneg (A a b : Int) (hA : 0 < A) : 0 ≤ turn A a b := by
  unfold turn
  have h1 := Int.emod_nonneg (a - b) (by omega : A ≠ 0)
  have h2 := Int.emod_nonneg (b - a) (by omega : A ≠ 0)
  omega

theorem lenF_nonneg (v : Pose ℝ) : 0 ≤ lenF v := Real.sqrt_nonneg _

theorem fold_len_nonneg (g : Geo) (d : Cell) : ∀ (pts : List (Nat × Pose ℝ)) (acc : ℝ × Pose ℝ), 0 ≤ acc.1 →
    0 ≤ (pts.foldl (fun (acc : ℝ × Pose ℝ) kp =>
      (if ratioOf g d kp.1 > 0 then acc.1 + lenF ⟨kp.2.x - acc.2.x, kp.2.y - acc.2.y, 0⟩ else acc.1, kp.2)) acc).1 := by
  intro pts
  induction pts with
  | nil => intro acc h; exact h
  | cons p ps ih =>
    intro acc h
    rw [List.foldl_cons]
    apply ih
    simp only
    split
    · exact add_nonneg h (lenF_nonneg _)
    · exact h

theorem distance_nonneg (g : Geo) (s : Int) (d : Cell) : 0 ≤ (page g s d).distance := by
  unfold page
  simp only
  split
  · exact Real.sqrt_nonneg _
  · unfold curveLength
    simp only
    exact add_nonneg (fold_len_nonneg g d _ _ (le_refl _)) (lenF_nonneg _)

/-- The cells a motion is checked against are never none: averages over them are well defined. -/
theorem motion_nonempty (g : Geo) (hs : Sane g) (s : Int) (d : Cell) (hne : ¬ (d.x = 0 ∧ d.y = 0)) :
    (page g s d).motion ≠ [] := by
  intro h
  have ht := totalStep_pos g hs d hne
  have hm : cellOf g (sampleAt g s d (ratioOf g d 0)) ∈ (page g s d).motion := by
    rw [mem_motion]
    refine ⟨0, by omega, rfl, ?_⟩
    intro he
    have h0 : ratioOf g d 0 = 0 := by unfold ratioOf; simp
    rw [h0, sample_start g hs] at he
    unfold cellOf at he
    have hl0 : lround (0 : ℝ) = 0 := by simpa using lround_int (K := ℝ) 0
    simp only [hl0] at he
    apply hne
    rw [← he]
    exact ⟨rfl, rfl⟩
  rw [h] at hm
  simp at hm

/-- No move is cheaper than its length and its turn: a finite cost is at least the basic cost of the move (so costs are
never negative, and only `-1` stands for a blocked move). -/
theorem cost_lower_bound (g : Geo) (hs : Sane g) (c : Wt) (hw : Nonneg c) (u : Bool) (cm hy : Cell → Option Int)
    (hcm : ∀ p x, cm p = some x → 0 ≤ x) (hhy : ∀ p x, hy p = some x → 0 ≤ x) (cur next : Cell) (v : ℝ)
    (h : cost g c u cm hy cur next = .val v) :
    c.ec0 * cellDist cur next + c.ec2 * ((turn g.angle next.yaw cur.yaw : Int) : ℝ) ≤ v ∧ 0 ≤ v := by
  have ha := ares_pos g hs
  have hres := hs.res_pos
  have hp := Real.pi_pos
  have hb := euclidCost_eq g hs c hw.ec2 cur next
  have hb0 : 0 ≤ euclidCost g c (disp g cur next) := by
    rw [hb]
    have h1 : 0 ≤ cellDist cur next := Real.sqrt_nonneg _
    have h2 : (0 : ℝ) ≤ ((turn g.angle next.yaw cur.yaw : Int) : ℝ) := by exact_mod_cast turn_nonneg _ _ _ hs.angle_pos
    have := hw.ec0
    have := hw.ec2
    positivity
  rw [← hb]
  suffices euclidCost g c (disp g cur next) ≤ v from ⟨this, le_trans hb0 this⟩
  obtain ⟨-, -, ht | hm⟩ := cost_val g c u cm hy cur next v h
  · obtain ⟨s, t, hh, hscan, rfl⟩ := ht.val
    have hs0 := turnScan_nonneg cm _ _ _ hcm _ _ _ _ _ _ (le_refl 0) hscan
    have hs' : (0 : ℝ) ≤ (s : ℝ) := by exact_mod_cast hs0
    have e1 := hw.inPlaceTurn
    have e2 : 0 ≤ (s : ℝ) * (g.ares * (c.costmapTurn / 100 + c.ec2 / c.ec0 * c.turnHeuristics / 100)) := by
      have := hw.costmapTurn
      have := hw.ec2
      have := hw.ec0
      have := hw.turnHeuristics
      positivity
    linarith
  · obtain ⟨m, rad, pg, s, t, hh, -, hfind, hscan, add, rfl, hadd⟩ := hm.val
    obtain ⟨s0, t0, h0⟩ := scan_nonneg cm hy u _ hcm hhy _ _ _ _ _ _ _ (le_refl 0) (le_refl 0) (le_refl 0) hscan
    have s0' : (0 : ℝ) ≤ (s : ℝ) := by exact_mod_cast s0
    have t0' : (0 : ℝ) ≤ (t : ℝ) := by exact_mod_cast t0
    have h0' : (0 : ℝ) ≤ (hh : ℝ) := by exact_mod_cast h0
    have hd : 0 ≤ pg.distance := by
      unfold find at hfind
      split at hfind
      · rw [← Option.some.inj hfind]; exact distance_nonneg _ _ _
      · cases hfind
    have hal : 0 ≤ alongCost g c pg s hh := by
      unfold alongCost
      have := hw.costmap
      have := hw.hysteresis
      positivity
    have hbase : euclidCost g c (disp g cur next) ≤ (if m.x < 0 then euclidCost g c (disp g cur next) * (1 + c.backward)
        else euclidCost g c (disp g cur next)) := by
      have := hw.backward
      split
      · nlinarith
      · exact le_refl _
    have hadd0 : 0 ≤ add := by
      rcases hadd with ⟨-, -, rfl⟩ | ⟨-, rfl⟩
      · have := hw.ec2
        positivity
      · have h1 : 0 ≤ decelCost c m rad := by
          unfold decelCost
          split
          · exact le_refl _
          · split
            · have := hw.decel
              have := lenF_nonneg m
              positivity
            · exact le_refl _
        have := hw.costmapTurn
        positivity
    linarith

theorem sqrt_triangle (a b c d : ℝ) : √((a + c) ^ 2 + (b + d) ^ 2) ≤ √(a ^ 2 + b ^ 2) + √(c ^ 2 + d ^ 2) := by
  have h1 := Real.sq_sqrt (by positivity : 0 ≤ a ^ 2 + b ^ 2)
  have h2 := Real.sq_sqrt (by positivity : 0 ≤ c ^ 2 + d ^ 2)
  have p1 := Real.sqrt_nonneg (a ^ 2 + b ^ 2)
  have p2 := Real.sqrt_nonneg (c ^ 2 + d ^ 2)
  rw [Real.sqrt_le_left (by positivity)]
  have hcs : a * c + b * d ≤ √(a ^ 2 + b ^ 2) * √(c ^ 2 + d ^ 2) := by
    rw [← Real.sqrt_mul (by positivity)]
    apply Real.le_sqrt_of_sq_le
    nlinarith [sq_nonneg (a * d - b * c)]
  nlinarith

theorem dist_triangle (a b c : Cell) : cellDist a c ≤ cellDist a b + cellDist b c := by
  have h := sqrt_triangle ((b.x : ℝ) - a.x) ((b.y : ℝ) - a.y) ((c.x : ℝ) - b.x) ((c.y : ℝ) - b.y)
  unfold cellDist
  push_cast
  convert h using 4
  · ring
  · ring

/-- The estimate of the planner without headings never exceeds what a move costs plus the estimate after the move: no
path is cheaper than its estimate. -/
theorem estim2D_consistent (g : Geo) (hs : Sane g) (c : Wt) (hw : Nonneg c) (rough : Cell → Option Int)
    (hcm : ∀ p x, rough p = some x → 0 ≤ x) (cur next goal : Cell) (v : ℝ) (h : cost2D g c rough cur next = .val v) :
    costEstim2D c cur goal ≤ v + costEstim2D c next goal ∧ c.ec0 * cellDist cur next ≤ v := by
  have hres := hs.res_pos
  unfold cost2D at h
  simp only at h
  split at h
  · cases h
  · rename_i pg hpg
    split at h
    · cases h
    · cases h
    · rename_i s t hh hscan
      have hv := (Res.val.inj h).symm
      obtain ⟨s0, -, -⟩ := scan_nonneg rough rough false _ hcm hcm _ _ _ _ _ _ _ (le_refl 0) (le_refl 0) (le_refl 0) hscan
      have s0' : (0 : ℝ) ≤ (s : ℝ) := by exact_mod_cast s0
      have hd : 0 ≤ pg.distance := by
        unfold find at hpg
        split at hpg
        · rw [← Option.some.inj hpg]; exact distance_nonneg _ _ _
        · cases hpg
      have hal : 0 ≤ (s : ℝ) * g.res * pg.distance * c.costmap / (100 * (pg.motion.length : ℝ)) := by
        have := hw.costmap
        positivity
      have e : ∀ (a b : Cell) (w : Int), euclidCostRough c ⟨b.x - a.x, b.y - a.y, w⟩ = cellDist a b * c.ec0 := by
        intro a b w
        rw [euclidCostRough_eq]
        unfold cellDist
        simp
      unfold costEstim2D
      rw [e] at hv ⊢
      rw [e]
      have htri := dist_triangle cur next goal
      have := hw.ec0
      constructor
      · nlinarith
      · nlinarith

/-! ### C83: the published path -/

theorem interp_head (g : Geo) (hs : Sane g) (s : Int) (d : Cell) (hne : ¬ (d.x = 0 ∧ d.y = 0)) :
    ∃ rest, (page g s d).interp = ⟨0, 0, (s : ℝ)⟩ :: rest := by
  have ht := totalStep_pos g hs d hne
  unfold page
  simp only
  obtain ⟨n, hn⟩ : ∃ n, totalStep g d = n + 1 := ⟨totalStep g d - 1, by omega⟩
  generalize htt : totalStep g d = T at *
  subst hn
  rw [List.range_succ_eq_map, List.filter_cons]
  simp only [Nat.zero_mod, beq_self_eq_true, if_true, List.map_cons]
  have h0 : ratioOf g d 0 = 0 := by unfold ratioOf; simp
  rw [h0, sample_start g hs]
  exact ⟨_, rfl⟩

theorem interpolate_cons (g : Geo) (hs : Sane g) (a b : Cell) (rest : List Cell)
    (ha : 0 ≤ a.yaw ∧ a.yaw < g.angle) :
    ∃ mid, interpolatePath g (a :: b :: rest) = poseOf a :: mid ++ interpolatePath g (b :: rest) ∧
      ∀ q ∈ mid, ¬ (a.x = b.x ∧ a.y = b.y) ∧ (find g a.yaw ⟨b.x - a.x, b.y - a.y, b.yaw⟩).isSome ∧
        ∃ k < totalStep g ⟨b.x - a.x, b.y - a.y, b.yaw⟩, q = placed a (sampleAt g a.yaw ⟨b.x - a.x, b.y - a.y, b.yaw⟩
          (ratioOf g ⟨b.x - a.x, b.y - a.y, b.yaw⟩ k)) := by
  rw [interpolatePath]
  split
  · exact ⟨[], rfl, by simp⟩
  · rename_i hne
    split
    · exact ⟨[], rfl, by simp⟩
    · rename_i p hp
      have hne' : ¬ ((⟨b.x - a.x, b.y - a.y, b.yaw⟩ : Cell).x = 0 ∧ (⟨b.x - a.x, b.y - a.y, b.yaw⟩ : Cell).y = 0) := by
        simp only; omega
      have hpg : p = page g a.yaw ⟨b.x - a.x, b.y - a.y, b.yaw⟩ := by
        unfold find at hp
        split at hp
        · rw [headings_eq g hs, cycU_id _ _ hs.angle_pos ha] at hp
          exact (Option.some.inj hp).symm
        · cases hp
      obtain ⟨r, hr⟩ := interp_head g hs a.yaw ⟨b.x - a.x, b.y - a.y, b.yaw⟩ hne'
      have hsub : ∀ q ∈ r, q ∈ (page g a.yaw ⟨b.x - a.x, b.y - a.y, b.yaw⟩).interp := by
        intro q hq; rw [hr]; exact List.mem_cons_of_mem _ hq
      rw [hpg, hr]
      refine ⟨r.map fun q => ⟨(a.x : ℝ) + q.x, (a.y : ℝ) + q.y, q.yaw⟩, ?_, ?_⟩
      · simp [poseOf]
      · intro q hq
        obtain ⟨q', hq', rfl⟩ := List.mem_map.1 hq
        refine ⟨hne, by rw [hp]; rfl, ?_⟩
        have := hsub q' hq'
        unfold page at this
        simp only [List.mem_map, List.mem_filter, List.mem_range] at this
        obtain ⟨k, ⟨hk, -⟩, rfl⟩ := this
        exact ⟨k, hk, rfl⟩

/-- The interpolated path starts at the first cell, ends at the last, and passes through every cell of the grid path in
order. -/
theorem interpolate_through (g : Geo) (hs : Sane g) : ∀ (path : List Cell),
    (∀ a ∈ path, 0 ≤ a.yaw ∧ a.yaw < g.angle) →
    (path.map poseOf).Sublist (interpolatePath g path) ∧
    (interpolatePath g path).head? = (path.map poseOf).head? ∧
    (interpolatePath g path).getLast? = (path.map poseOf).getLast? := by
  intro path
  induction path with
  | nil => intro _; simp [interpolatePath]
  | cons a rest ih =>
    intro h
    cases rest with
    | nil => simp [interpolatePath, poseOf]
    | cons b rest =>
      obtain ⟨mid, he, -⟩ := interpolate_cons g hs a b rest (h a (List.mem_cons_self ..))
      obtain ⟨i1, i2, i3⟩ := ih (fun x hx => h x (List.mem_cons_of_mem _ hx))
      rw [he]
      have hne : interpolatePath g (b :: rest) ≠ [] := by
        intro h0
        rw [h0] at i2
        simp at i2
      refine ⟨?_, by simp, ?_⟩
      · rw [List.map_cons]
        simp only [List.cons_append]
        exact List.Sublist.cons_cons _ (i1.trans (List.sublist_append_right _ _))
      · rw [List.getLast?_append, i3]
        simp only [List.map_cons]
        rw [List.getLast?_cons_cons]
        cases hx : (poseOf b :: List.map poseOf rest).getLast? with
        | none => simp at hx
        | some y => rfl

/-- When every move of the grid path has a finite cost and the path's only cell, if it is alone, is free, every pose of
the interpolated path lies in a free cell. -/
theorem interpolate_safe (g : Geo) (hs : Sane g) (c : Wt) (u : Bool) (cm hy : Cell → Option Int) : ∀ (path : List Cell),
    (∀ a ∈ path, 0 ≤ a.yaw ∧ a.yaw < g.angle) → (∀ a, path = [a] → Free cm a) →
    path.IsChain (fun a b => ∃ v, cost g c u cm hy a b = .val v) →
    ∀ q ∈ interpolatePath g path, Safe g cm q := by
  have hself : ∀ a, Free cm a → Safe g cm (poseOf a) := by
    intro a ha
    refine ⟨a, ha, ?_, ?_, 0, ?_⟩ <;> simp [poseOf]
  intro path
  induction path with
  | nil => intro _ _ _ q hq; simp [interpolatePath] at hq
  | cons a rest ih =>
    intro h h1 hch q hq
    cases rest with
    | nil =>
      simp only [interpolatePath, List.mem_singleton] at hq
      rw [hq]
      exact hself a (h1 a rfl)
    | cons b rest =>
      rw [List.isChain_cons_cons] at hch
      obtain ⟨⟨v, hv⟩, hch⟩ := hch
      have hya := h a (List.mem_cons_self ..)
      have hyb := h b (List.mem_cons_of_mem _ (List.mem_cons_self ..))
      obtain ⟨fa, fb, -⟩ := cost_val g c u cm hy a b v hv
      obtain ⟨mid, he, hmid⟩ := interpolate_cons g hs a b rest hya
      rw [he] at hq
      rcases List.mem_append.1 hq with hq | hq
      · rcases List.mem_cons.1 hq with rfl | hq
        · exact hself a fa
        · obtain ⟨hne, -, k, hk, rfl⟩ := hmid q hq
          exact (motion_safe g hs c u cm hy a b v hya hyb (fun hh => hne ⟨hh.1.symm, hh.2.symm⟩) hv).2.2 k hk
      · refine ih (fun x hx => h x (List.mem_cons_of_mem _ hx)) ?_ hch q hq
        intro x hx
        rw [List.cons.injEq] at hx
        rw [← hx.1]
        exact fb

/-! ### C84: the offered moves are exactly the feasible ones -/

theorem lround_zero_iff (x : ℝ) : lround x = 0 ↔ |x| < 1 / 2 := by
  constructor
  · intro h
    unfold lround at h
    split at h
    · rename_i hx
      rw [Int.floor_eq_iff] at h
      rw [abs_of_nonneg hx]
      push_cast at h
      linarith [h.2]
    · rename_i hx
      have h' : ⌊-x + 1 / 2⌋ = 0 := by omega
      rw [Int.floor_eq_iff] at h'
      rw [abs_of_neg (by linarith)]
      push_cast at h'
      linarith [h'.2]
  · intro h
    rw [abs_lt] at h
    unfold lround
    split
    · rename_i hx
      rw [Int.floor_eq_iff]
      push_cast
      constructor <;> linarith
    · rename_i hx
      have : ⌊-x + 1 / 2⌋ = 0 := by
        rw [Int.floor_eq_iff]
        push_cast
        constructor <;> linarith
      omega

theorem lround_res (x res : ℝ) (hres : 0 < res) : lround (x * (1 / res)) = 0 ↔ ¬ (res / 2 ≤ |x|) := by
  rw [lround_zero_iff, abs_mul, abs_of_pos (by positivity : 0 < 1 / res), not_le, mul_one_div, div_lt_iff₀ hres]
  constructor <;> intro h <;> linarith

/-- Building the primitives never reads outside the rotation cache. -/
theorem keep_defined (g : Geo) (hs : Sane g) (c : Wt) (i : Int) (p : Cell) (hi : 0 ≤ i ∧ i < g.angle)
    (hp : p ∈ searchList g) : keep g c i p ≠ none := by
  have hr : 0 ≤ g.range := by have := hs.range_pos; omega
  obtain ⟨hd, hw1, hw2⟩ := (mem_searchList g hr p).1 hp
  obtain ⟨n1, n2, -⟩ := nextAngle_spec g i p.yaw hi ⟨hw1, hw2⟩
  unfold keep
  split
  · simp
  rw [rcGet_disp g hs i p.x p.y _ hi ⟨n1, n2⟩ hd]
  simp only
  split
  · simp
  split
  · simp
  split
  · split
    · simp
    split <;> simp
  split
  · simp
  split
  · simp
  split
  · simp
  split
  · simp
  split
  · simp
  split <;> simp

theorem turn_unique (g : Geo) (n : Int) (φ ψ : ℝ) (h1 : IsTurn g n φ) (h2 : |ψ| < π) (h3 : ∃ k : Int, ψ = (n : ℝ) * g.ares + k * (2 * π)) :
    φ = ψ := by
  obtain ⟨a, b, k, hk⟩ := h1
  obtain ⟨j, hj⟩ := h3
  have hp := Real.pi_pos
  rw [abs_lt] at h2
  have e : φ - ψ = ((k - j : Int) : ℝ) * (2 * π) := by rw [hk, hj]; push_cast; ring
  have l1 : ((k - j : Int) : ℝ) < ((1 : Int) : ℝ) := by
    push_cast at e ⊢
    by_contra hh
    push Not at hh
    nlinarith
  have l2 : ((-1 : Int) : ℝ) < ((k - j : Int) : ℝ) := by
    push_cast at e ⊢
    by_contra hh
    push Not at hh
    nlinarith
  have l1' := Int.cast_lt.1 l1
  have l2' := Int.cast_lt.1 l2
  have : k - j = 0 := by omega
  rw [this] at e
  push_cast at e
  linarith

/-- The moves offered near the start are exactly the feasible ones: turning in place, driving straight ahead or back
(with a limited slant), and curves of less than a quarter turn and at least the minimum radius. -/
theorem primitive_iff (g : Geo) (hs : Sane g) (c : Wt) (i : Int) (p : Cell) (hi : 0 ≤ i ∧ i < g.angle) :
    p ∈ primitives g c i ↔ Feasible g c i p := by
  have hA := hs.angle_pos
  have hres := hs.res_pos
  have hpi := Real.pi_pos
  have hr : 0 ≤ g.range := by have := hs.range_pos; omega
  have h6 : (0 : ℝ) < 1e-6 := by norm_num
  unfold primitives Feasible
  rw [List.mem_filter, mem_searchList g hr]
  rw [and_assoc, and_assoc]
  apply and_congr_right
  intro hd
  apply and_congr_right
  intro hw1
  apply and_congr_right
  intro hw2
  have hk : (keep g c i p == some true) = true ↔ keep g c i p = some true := by simp
  rw [hk]
  obtain ⟨n1, n2, j, hj⟩ := nextAngle_spec g i p.yaw hi ⟨hw1, hw2⟩
  by_cases hz : p.x = 0 ∧ p.y = 0
  · unfold keep
    rw [if_pos hz]
    constructor
    · intro h; left; exact ⟨hz.1, hz.2, by simpa using h⟩
    · rintro (h | h)
      · simpa using h.2.2
      · exact absurd hz h.1
  unfold keep
  rw [if_neg hz, rcGet_disp g hs i p.x p.y _ hi ⟨n1, n2⟩ hd]
  unfold rcEntry
  rw [motionOf_eq]
  obtain ⟨px, py, pw⟩ := mcMotion_parts g i ⟨p.x, p.y, nextAngle g i p.yaw⟩
  have ht := mcMotion_turn g hs i ⟨p.x, p.y, nextAngle g i p.yaw⟩ hi ⟨n1, n2⟩
  have eX : ahead g i ⟨p.x, p.y, nextAngle g i p.yaw⟩ = ahead g i p := rfl
  have eY : aside g i ⟨p.x, p.y, nextAngle g i p.yaw⟩ = aside g i p := rfl
  rw [eX] at px
  rw [eY] at py
  have hcurve := radii_curve (mcMotion g i ⟨p.x, p.y, nextAngle g i p.yaw⟩)
  have hyaw0 : p.yaw = 0 → (mcMotion g i ⟨p.x, p.y, nextAngle g i p.yaw⟩).yaw = 0 := by
    intro h0
    have : nextAngle g i p.yaw = i := by
      unfold nextAngle; rw [h0, if_neg (by omega)]; ring
    rw [this, straight_zero]
  have ht' : IsTurn g p.yaw (mcMotion g i ⟨p.x, p.y, nextAngle g i p.yaw⟩).yaw := by
    obtain ⟨a, b, k, hk⟩ := ht
    refine ⟨a, b, k + j, ?_⟩
    rw [hk]
    simp only [hj]
    push_cast
    have := angle_ares g hs
    rw [← this]
    ring
  simp only
  generalize mcMotion g i ⟨p.x, p.y, nextAngle g i p.yaw⟩ = m at *
  rw [px, py] at hcurve
  simp only [px, py]
  simp only [ne_eq, lround_res _ _ hres]
  have hleft : ¬ (p.x = 0 ∧ p.y = 0 ∧ p.yaw ≠ 0) := fun h => hz ⟨h.1, h.2.1⟩
  by_cases h0 : p.yaw = 0
  · -- no turn
    have hm0 := hyaw0 h0
    rw [hm0]
    constructor
    · intro h
      right
      refine ⟨hz, Or.inl ⟨h0, ?_⟩⟩
      split at h
      · cases h
      · rename_i c1
        split at h
        · cases h
        · split at h
          · cases h
          · rename_i c2
            split at h
            · cases h
            · rename_i c3
              push Not at c2 c3
              exact ⟨c2, c3⟩
    · rintro (h | ⟨-, h | h⟩)
      · exact absurd h hleft
      · obtain ⟨-, a1, a2⟩ := h
        rw [if_neg (by push Not; intro h; exact absurd h (by linarith)), if_neg, if_pos h0, if_neg (by push Not; exact a1),
          if_neg (by push Not; exact a2)]
        simp only [abs_zero]
        linarith [Real.two_le_pi]
      · exact absurd h0 h.1
  · constructor
    · intro h
      right
      refine ⟨hz, Or.inr ⟨h0, ?_⟩⟩
      split at h
      · cases h
      · rename_i c1
        split at h
        · cases h
        · rename_i c2
          split at h
          · cases h
          · rename_i c3
            split at h
            · cases h
            · rename_i c4
              split at h
              · cases h
              · rename_i c5
                push Not at c1 c2 c3 c4
                have hφ : |m.yaw| < π / 2 - 1e-6 := by linarith
                have hsin : sin m.yaw ≠ 0 := by
                  intro hs0
                  have hm0 : m.yaw = 0 := by
                    rw [abs_lt] at hφ
                    rw [Real.sin_eq_zero_iff_of_lt_of_lt (by linarith) (by linarith)] at hs0
                    exact hs0
                  -- then the heading does not change
                  obtain ⟨-, -, k, hk⟩ := ht'
                  rw [hm0, ← angle_ares g hs] at hk
                  have ha := ares_pos g hs
                  have e : (p.yaw : ℝ) = ((-k * g.angle : Int) : ℝ) := by
                    push_cast
                    have : ((p.yaw : ℝ) + k * g.angle) * g.ares = 0 := by linarith
                    rcases mul_eq_zero.1 this with h | h
                    · linarith
                    · linarith
                  have e' := Int.cast_injective e
                  have h00 := mul_small hA (k := -k) (by omega) (by omega)
                  rw [h00] at e'
                  omega
                rw [if_neg hsin] at h
                simp only at h
                split at h
                · cases h
                · rename_i c6
                  split at h
                  · cases h
                  · rename_i c7
                    push Not at c6 c7
                    have hx : g.res / 2 ≤ |ahead g i p| := by
                      by_contra hh
                      push Not at hh
                      exact absurd c3 (by have := c1 hh; linarith)
                    unfold sqlen at c5
                    exact ⟨by omega, c3, hx, m.yaw, _, _, ht', hφ, hcurve hsin, c4, c6, c7⟩
    · rintro (h | ⟨-, h | h⟩)
      · exact absurd h hleft
      · exact absurd h.1 h0
      · obtain ⟨-, q1, q2, q3, φ, r1, r2, hφt, hφ, hcv, q4, q5, q6⟩ := h
        have hφ' : |φ| < π := by linarith
        have hmφ : m.yaw = φ := turn_unique g p.yaw _ _ ht' hφ' hφt.2.2
        have hsin : sin m.yaw ≠ 0 := by
          intro hs0
          rw [hmφ] at hs0
          have hp0 : φ = 0 := by
            rw [abs_lt] at hφ
            rw [Real.sin_eq_zero_iff_of_lt_of_lt (by linarith) (by linarith)] at hs0
            exact hs0
          obtain ⟨e1, e2⟩ := hcv
          rw [hp0, sin_zero] at e1
          rw [e1] at q3
          simp at q3
          linarith
        obtain ⟨f1, f2⟩ := hcurve hsin
        obtain ⟨e1, e2⟩ := hcv
        rw [hmφ] at f1 f2 hsin
        have hr2 : (radii m).2 = r2 := by
          have : (radii m).2 * sin φ = r2 * sin φ := by rw [← f1, ← e1]
          exact mul_right_cancel₀ hsin this
        have hr1 : (radii m).1 = r1 := by rw [hr2] at f2; linarith
        have hφ2 : ¬ (|φ| ≥ 2 * π / 4 - 1e-6) := by push Not; linarith
        have hsq : ¬ (sqlen p < 3 * 3) := by unfold sqlen; omega
        rw [hmφ, if_neg (by push Not; intro h; exact absurd h (by linarith)), if_neg hφ2, if_neg h0,
          if_neg (by push Not; exact q2), if_neg (by push Not; exact q4), if_neg hsq, if_neg hsin]
        simp only [hr1, hr2]
        rw [if_neg (by push Not; exact q5), if_neg (by push Not; exact q6)]

/-! ### Examples -/

/-- Eight headings, unit cells, motions of up to five cells. -/
noncomputable def g0 : Geo := ⟨30, 30, 8, 1, π / 4, 5, 1 / 2, 1 / 10⟩

theorem g0_sane : Sane g0 := by
  refine ⟨by norm_num [g0], ?_, by norm_num [g0], by norm_num [g0], by norm_num [g0], by norm_num [g0]⟩
  simp only [g0]; push_cast; ring

noncomputable def w0 : Wt := ⟨1, 1, 1, 1, 1, 1, 1, 1, 1, 2, 1, 1, 4, 50⟩

/-- A map without obstacles. -/
def empty0 : Cell → Option Int := fun p =>
  if 0 ≤ p.x ∧ p.x < 30 ∧ 0 ≤ p.y ∧ p.y < 30 ∧ 0 ≤ p.yaw ∧ p.yaw < 8 then some 0 else none

theorem empty0_free : ∀ p, InMap g0 p → Free empty0 p := by
  intro p h
  refine ⟨0, ?_, by omega⟩
  unfold InMap g0 at h
  unfold empty0
  simp only at h
  rw [if_pos h]

/-- Curve: four ahead and two to the left, turning by 45°. -/
example : (⟨4, 2, 1⟩ : Cell) ∈ primitives g0 w0 0 := by
  rw [primitive_iff g0 g0_sane w0 0 _ ⟨by omega, by norm_num [g0]⟩]
  have hs2 : √2 * √2 = 2 := Real.mul_self_sqrt (by norm_num)
  have h2 : (14 / 10 : ℝ) < √2 := by rw [Real.lt_sqrt (by norm_num)]; norm_num
  have h3 : √2 < (15 / 10 : ℝ) := by rw [Real.sqrt_lt' (by norm_num)]; norm_num
  have hp := Real.two_le_pi
  have hx : ahead g0 0 ⟨4, 2, 1⟩ = 4 := by simp [ahead, g0]
  have hy : aside g0 0 ⟨4, 2, 1⟩ = 2 := by simp [aside, g0]
  refine ⟨by norm_num [g0], by norm_num, by norm_num [g0], Or.inr ⟨by norm_num, Or.inr ⟨by norm_num, by norm_num, ?_, ?_, ?_⟩⟩⟩
  · rw [hy]; norm_num [g0]
  · rw [hx]; norm_num [g0]
  · rw [hx, hy]
    refine ⟨π / 4, 6, 4 * √2, ⟨by linarith, by linarith, 0, by simp [g0]⟩, ?_, ⟨?_, ?_⟩, by linarith, ?_, ?_⟩
    · rw [abs_of_pos (by linarith)]; norm_num; linarith
    · rw [sin_pi_div_four]; linarith
    · rw [cos_pi_div_four]; linarith
    · rw [abs_lt]; simp only [g0]; constructor <;> linarith
    · rw [abs_of_pos (by linarith)]; simp only [w0]; linarith

/-- Driving one cell ahead is offered and, in free space, gets a cost: the hypotheses of the theorems above are met. -/
example : ∃ v, cost g0 w0 true empty0 empty0 ⟨10, 10, 0⟩ ⟨11, 10, 0⟩ = .val v := by
  refine free_move_accepted g0 g0_sane ⟨4, by norm_num [g0]⟩ w0 true empty0 empty0 empty0_free
    (fun p hp => by obtain ⟨c, h, -⟩ := empty0_free p hp; exact ⟨c, h⟩) ⟨10, 10, 0⟩ ⟨1, 0, 0⟩ ⟨11, 10, 0⟩
    (by norm_num [InMap, g0]) (by norm_num [InMap, g0]) ?_ ⟨by norm_num, by norm_num, ⟨0, by norm_num⟩, by norm_num, by norm_num [g0]⟩
    (fun _ h => absurd rfl h)
  rw [primitive_iff g0 g0_sane w0 0 _ ⟨by omega, by norm_num [g0]⟩]
  have hx : ahead g0 0 ⟨1, 0, 0⟩ = 1 := by simp [ahead, g0]
  have hy : aside g0 0 ⟨1, 0, 0⟩ = 0 := by simp [aside, g0]
  refine ⟨by norm_num [g0], by norm_num, by norm_num [g0], Or.inr ⟨by norm_num, Or.inl ⟨rfl, ?_, ?_⟩⟩⟩
  · rw [hx]; norm_num [g0]
  · intro h; exact absurd hy h

example : Nonneg w0 := by
  constructor <;> norm_num [w0]

end Verif.Model3D
