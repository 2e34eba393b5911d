import Verif.Pipeline.SensedSpec
import Verif.Pipeline.Props
import Verif.Layers.Dynamic
/-! # From the sensors to the path: published paths keep clear of sensed obstacles -/
namespace Verif.Pipeline
open Verif.CSpace Verif.CSpace.Spec Verif.Layers Verif.Layers.Spec Verif.Polygon Verif.Polygon.Spec
open Verif.Model3D (Geo Wt ofVec planProb interpolatePath)
open Verif.Model3D.Spec (Sane Safe)
open Verif.Astar.Vec (Search)
open Verif.GridMetric (Cell Pose grid2MetricF)

/-- `lround` is off by at most one half. -/
theorem lround_near (x : ℝ) : |x - lround x| ≤ 1 / 2 := by
  unfold lround
  split
  · have h1 := Int.floor_le (x + 1 / 2)
    have h2 := Int.lt_floor_add_one (x + 1 / 2)
    rw [abs_le]; constructor <;> linarith
  · have h1 := Int.floor_le (-x + 1 / 2)
    have h2 := Int.lt_floor_add_one (-x + 1 / 2)
    push_cast
    rw [abs_le]; constructor <;> linarith

/-- No integer is nearer than `lround`. -/
theorem lround_nearest (x : ℝ) (k : Int) : |x - lround x| ≤ |x - k| := by
  by_cases h : lround x = k
  · rw [h]
  · have h0 := lround_near x
    have h1 : (1 : ℝ) ≤ |((lround x - k : Int) : ℝ)| := by
      have : (1 : Int) ≤ |lround x - k| := Int.one_le_abs (by omega)
      rw [← Int.cast_abs]
      exact_mod_cast this
    have h2 : |((lround x - k : Int) : ℝ)| ≤ |x - lround x| + |x - k| := by
      have e : ((lround x - k : Int) : ℝ) = (x - k) - (x - lround x) := by push_cast; ring
      rw [e]
      linarith [abs_sub (x - (k : ℝ)) (x - lround x)]
    linarith

/-- Every coordinate is on the lattice up to half a cell. -/
theorem onLattice_half {r : ℝ} (hr : 0 < r) (a b : ℝ) : OnLattice (r / 2) r a b := by
  refine ⟨lround ((a - b) / r), ?_⟩
  have h := lround_near ((a - b) / r)
  have e : a - b - (lround ((a - b) / r) : ℝ) * r = ((a - b) / r - lround ((a - b) / r)) * r := by
    rw [sub_mul, div_mul_cancel₀ _ hr.ne']
  rw [e, abs_mul, abs_of_pos hr]
  nlinarith

/-- The grid is shifted by at most `δ`. -/
theorem off_near {δ r go mo : ℝ} (hr : 0 < r) (h : OnLattice δ r go mo) : |go - mo - (lround ((go - mo) / r) : ℝ) * r| ≤ δ := by
  obtain ⟨k, hk⟩ := h
  have h := lround_nearest ((go - mo) / r) k
  have e : ∀ j : Int, go - mo - (j : ℝ) * r = ((go - mo) / r - j) * r := by
    intro j
    rw [sub_mul, div_mul_cancel₀ _ hr.ne']
  rw [e, abs_mul, abs_of_pos hr] at *
  exact le_trans (mul_le_mul_of_nonneg_right h hr.le) hk

/-- A cell that contains a point well inside the grid belongs to its window. -/
theorem in_window {δ r go mo p : ℝ} {x : Int} {n : Nat} (hr : 0 < r) (hl : OnLattice δ r go mo) (h1 : mo + x * r ≤ p) (h2 : p ≤ mo + (x + 1) * r)
    (h3 : go + δ < p) (h4 : p < go + n * r - δ) : lround ((go - mo) / r) ≤ x ∧ x < lround ((go - mo) / r) + n := by
  have h := abs_le.mp (off_near hr hl)
  generalize lround ((go - mo) / r) = k at *
  constructor
  · have : (k : ℝ) * r < (x + 1) * r := by linarith [h.1, h.2]
    have := lt_of_mul_lt_mul_right this hr.le
    have : k < x + 1 := by exact_mod_cast this
    omega
  · have : (x : ℝ) * r < (k + n) * r := by linarith [h.1, h.2]
    have := lt_of_mul_lt_mul_right this hr.le
    exact_mod_cast this

/-- The map cell of a cell of the grid that contains a point well inside the map is a cell of the map. -/
theorem cell_in {δ r go mo c : ℝ} {k : Int} {g n : Nat} (hr : 0 < r) (hk : -δ ≤ go - mo - k * r ∧ go - mo - k * r ≤ δ)
    (c1 : go + g * r ≤ c) (c2 : c ≤ go + (g + 1) * r) (c3 : mo + δ < c) (c4 : c < mo + n * r - δ) :
    0 ≤ (g : Int) + k ∧ (g : Int) + k < n := by
  constructor
  · have h0 : (0 : ℝ) * r < ((g : ℝ) + k + 1) * r := by linarith [hk.1, hk.2]
    have h1 := lt_of_mul_lt_mul_right h0 hr.le
    have h2 : (0 : Int) < (g : Int) + k + 1 := by exact_mod_cast h1
    omega
  · have h0 : ((g : ℝ) + k) * r < n * r := by linarith [hk.1, hk.2]
    have h1 := lt_of_mul_lt_mul_right h0 hr.le
    exact_mod_cast h1

/-- The distance of the map cells, from the distance of a point in the one and a point in the cell of the grid that belongs to the other. -/
theorem shifted_near {δ r ox oy vx vy : ℝ} {kx ky : Int} {p z : Pt ℝ} {x y gx gy : Nat} (hr : 0 < r)
    (hx : -δ ≤ vx - ox - kx * r ∧ vx - ox - kx * r ≤ δ) (hy : -δ ≤ vy - oy - ky * r ∧ vy - oy - ky * r ≤ δ)
    (p1 : ox + x * r ≤ p.1) (p2 : p.1 ≤ ox + (x + 1) * r) (p3 : oy + y * r ≤ p.2) (p4 : p.2 ≤ oy + (y + 1) * r)
    (z1 : vx + gx * r ≤ z.1) (z2 : z.1 ≤ vx + (gx + 1) * r) (z3 : vy + gy * r ≤ z.2) (z4 : z.2 ≤ vy + (gy + 1) * r) :
    hypot (((x : Int) - ((gx : Int) + kx) : Int) * r) (((y : Int) - ((gy : Int) + ky) : Int) * r) ≤
      hypot (p.1 - z.1) (p.2 - z.2) + Real.sqrt 2 * (r + δ) := by
  have g1 : |(x : ℝ) * r + r / 2 + ox - p.1| ≤ r / 2 := by rw [abs_le]; constructor <;> linarith
  have g2 : |(y : ℝ) * r + r / 2 + oy - p.2| ≤ r / 2 := by rw [abs_le]; constructor <;> linarith
  have g3 : |z.1 - (vx + gx * r + r / 2)| ≤ r / 2 := by rw [abs_le]; constructor <;> linarith
  have g4 : |z.2 - (vy + gy * r + r / 2)| ≤ r / 2 := by rw [abs_le]; constructor <;> linarith
  have t1 := hypot_triangle (p.1 - z.1) (p.2 - z.2) (x * r + r / 2 + ox - p.1) (y * r + r / 2 + oy - p.2)
  have t2 := hypot_triangle (p.1 - z.1 + (x * r + r / 2 + ox - p.1)) (p.2 - z.2 + (y * r + r / 2 + oy - p.2)) (z.1 - (vx + gx * r + r / 2))
    (z.2 - (vy + gy * r + r / 2))
  have t3 := hypot_triangle (p.1 - z.1 + (x * r + r / 2 + ox - p.1) + (z.1 - (vx + gx * r + r / 2)))
    (p.2 - z.2 + (y * r + r / 2 + oy - p.2) + (z.2 - (vy + gy * r + r / 2))) (vx - ox - kx * r) (vy - oy - ky * r)
  have k1 := hypot_half hr.le g1 g2
  have k2 := hypot_half hr.le g3 g4
  have k3 := hypot_half (r := 2 * δ) (by linarith [hx.1, hx.2]) (by rw [mul_div_cancel_left₀ _ (two_ne_zero)]; exact abs_le.mpr hx)
    (by rw [mul_div_cancel_left₀ _ (two_ne_zero)]; exact abs_le.mpr hy)
  have e1 : p.1 - z.1 + (x * r + r / 2 + ox - p.1) + (z.1 - (vx + gx * r + r / 2)) + (vx - ox - kx * r) = (((x : Int) - ((gx : Int) + kx) : Int) : ℝ) * r := by
    push_cast; ring
  have e2 : p.2 - z.2 + (y * r + r / 2 + oy - p.2) + (z.2 - (vy + gy * r + r / 2)) + (vy - oy - ky * r) = (((y : Int) - ((gy : Int) + ky) : Int) : ℝ) * r := by
    push_cast; ring
  rw [e1, e2] at t3
  linarith

/-- The update carries the value for the planner. -/
theorem received_at {K : Type} {m : Info K} {c : Cells} {u : Layers.Update} (h : Content m c u) {x y a : Int} (hr : Reports u x y a) :
    PlannerMap.Covers (received u) ⟨x, y, a⟩ ∧ (received u).at ⟨x, y, a⟩ = c x y a := by
  unfold Reports at hr
  rcases h with ⟨h1, h2, -⟩ | ⟨h1, h2, h3, h4, h5, h6, h7, h8, -, h10⟩
  · omega
  · have hv := h10 x y a hr
    unfold PlannerMap.Covers PlannerMap.Update.at received
    simp only
    have e1 : ((u.x.toNat : Nat) : Int) = u.x := Int.toNat_of_nonneg h1
    have e2 : ((u.y.toNat : Nat) : Int) = u.y := Int.toNat_of_nonneg h4
    have e3 : ((u.yaw.toNat : Nat) : Int) = u.yaw := Int.toNat_of_nonneg (by omega)
    have e4 : ((u.width.toNat : Nat) : Int) = u.width := Int.toNat_of_nonneg (by omega)
    have e5 : ((u.height.toNat : Nat) : Int) = u.height := Int.toNat_of_nonneg (by omega)
    have e6 : ((u.angle.toNat : Nat) : Int) = u.angle := Int.toNat_of_nonneg (by omega)
    rw [e1, e2, e3, e4, e5, e6]
    refine ⟨by omega, ?_⟩
    unfold value? at hv
    rw [List.getD_eq_getElem?_getD, hv]
    rfl

section
variable (big : ℝ) (f : Foot) (mode : Mode) (ang : Nat) (root : Kind ℝ) (pre post : List (Kind ℝ)) (ρ δ : ℝ)

/-- Wherever the planner's costmap is not lethal inside the area of the last overlay, the robot's centre is as far away from every occupied cell
of that overlay as the expansion demands. -/
theorem sensed_clearance_at (hang : 1 ≤ ang) (hroot : NotUpdate root) (hpre : ∀ k ∈ pre, NotUpdate k) (hpost : ∀ k ∈ post, Raises k)
    (he : 0 < f.expand) (hs : 0 ≤ f.spread) (hρ : 0 ≤ ρ) (hm0 : 0 ≤ f.minCost) (hm1 : f.minCost ≤ 100) (hc : Core f.pts ρ)
    (b v : Msg ℝ) (hres : 0 < b.grid.res) (hmt : Matches δ b v) (u : Layers.Update)
    (hsen : Senses ang root (pre ++ sensorKind big f mode :: post) pre.length b v u)
    (unk : Int) (cm0 : Cell → Int) (hrec : HasUpdate unk ang b u cm0)
    (x y a : Nat) (hxw : x < b.grid.w) (hyw : y < b.grid.h) (haw : a < ang) (hfree : cm0 ⟨x, y, a⟩ ≤ 99)
    (p : Pt ℝ) (hp : InCell b x y p) (hpw : Within δ v p)
    (gx gy : Nat) (hocc : Occupied v gx gy) (z : Pt ℝ) (hz : InCell v gx gy z) (hzw : Within δ b z) :
    ρ + f.expand - Real.sqrt 2 * (b.grid.res + δ) ≤ hypot (p.1 - z.1) (p.2 - z.2) := by
  obtain ⟨z0, es, s, s', o, o', hes, hrun, hlast, hstep, hu⟩ := hsen
  obtain ⟨h, ps, msg, ov, hsmall, hps, hbase, hupd, mw, mh, ma, rfl⟩ := hrec
  obtain ⟨hfr, hr, hlen, hlx, hly⟩ := hmt
  have hpos := hres
  by_contra hn
  push Not at hn
  obtain ⟨o1, o2, o3⟩ := hocc
  -- where the grid lies in the map
  have hox := abs_le.mp (off_near hpos hlx)
  have hoy := abs_le.mp (off_near hpos hly)
  have eox : offX v.grid (infoOf ang b) = lround ((v.grid.ox - b.grid.ox) / b.grid.res) := rfl
  have eoy : offY v.grid (infoOf ang b) = lround ((v.grid.oy - b.grid.oy) / b.grid.res) := rfl
  obtain ⟨⟨z1, z2⟩, z3, z4⟩ := hz
  obtain ⟨⟨p1, p2⟩, p3, p4⟩ := hp
  obtain ⟨⟨w1, w2⟩, w3, w4⟩ := hpw
  obtain ⟨⟨y1, y2⟩, y3, y4⟩ := hzw
  rw [hr] at z1 z2 z3 z4 w2 w4
  have hwx := in_window (x := (x : Int)) (n := v.grid.w) hpos hlx (by push_cast; exact p1) (by push_cast; exact p2) w1 w2
  have hwy := in_window (x := (y : Int)) (n := v.grid.h) hpos hly (by push_cast; exact p3) (by push_cast; exact p4) w3 w4
  rw [← eox] at hwx hox
  rw [← eoy] at hwy hoy
  generalize hkx : offX v.grid (infoOf ang b) = kx at *
  generalize hky : offY v.grid (infoOf ang b) = ky at *
  -- the obstacle's map cell
  have hgx := cell_in hpos hox z1 z2 y1 y2
  have hgy := cell_in hpos hoy z3 z4 y3 y4
  -- distance of the cells
  have hd : hypot (((x : Int) - ((gx : Int) + kx) : Int) * b.grid.res) (((y : Int) - ((gy : Int) + ky) : Int) * b.grid.res) < ρ + f.expand := by
    have hcl := shifted_near (x := x) (y := y) (gx := gx) (gy := gy) hpos hox hoy p1 p2 p3 p4 z1 z2 z3 z4
    exact lt_of_le_of_lt hcl (by linarith only [hn])
  -- what the layer does
  have hgen : ∀ c, 100 ≤ generate mode false false (f.rangeMax (infoOf ang b).res)
      (fun x y a => f.template big (infoOf ang b).res (2 * Real.pi / ((infoOf ang b).ang : ℝ)) x y a) v.grid (infoOf ang b) c x y a := by
    intro c
    unfold generate
    rw [if_pos (show 0 ≤ (a : Int) ∧ (a : Int) < (infoOf ang b).ang from ⟨by omega, by simp only [infoOf]; omega⟩)]
    refine conservative_disc big f _ ρ he hs hρ hm0 hm1 hc v.grid (infoOf ang b) hres hr hlen _ x y a ((gx : Int) + kx) ((gy : Int) + ky) ?_ ?_ ?_ hd
    · unfold inMap infoOf
      rw [decide_eq_true_iff]
      simp only
      omega
    · unfold InWindow
      rw [hkx, hky]
      omega
    · have hi : gy * v.grid.w + gx < v.grid.data.length := by
        rw [hlen]
        have : (gy + 1) * v.grid.w ≤ v.grid.h * v.grid.w := Nat.mul_le_mul_right _ o2
        rw [Nat.add_mul, one_mul] at this
        rw [Nat.mul_comm v.grid.w]
        omega
      obtain ⟨ex, ey⟩ := cell_eq v.grid (infoOf ang b) hr hres.ne' (gy * v.grid.w + gx)
      refine ⟨gy * v.grid.w + gx, hi, o3, ?_, ?_, ?_⟩
      · rw [ex, hkx, Nat.mul_comm, Nat.mul_add_mod, Nat.mod_eq_of_lt o1]
      · rw [ey, hky, Nat.mul_comm, Nat.mul_add_div (by omega), Nat.div_eq_of_lt o1]; simp
      · unfold infoOf
        simp only
        omega
  -- the rectangle of the message
  have hlr : ∀ n : Nat, lround ((n : ℝ) * v.grid.res / (infoOf ang b).res) = n := by
    intro n
    rw [hr, show (infoOf ang b).res = b.grid.res from rfl, mul_div_assoc, div_self hpos.ne', mul_one]
    exact lround_nat n
  have hcov : Region.Spec.Covers (window (infoOf ang b) v) ⟨x, y, a⟩ := by
    unfold Region.Spec.Covers window
    simp only
    rw [hlr, hlr, hkx, hky, show (infoOf ang b).ang = ang from rfl]
    omega
  obtain ⟨hcont, hrep, h100⟩ := overlay_blocks hang z0 hroot hpre hpost hes hlast (by rw [hr]; exact hpos.le) hfr hrun hstep
    (show In (infoOf ang b) x y a by unfold In infoOf; simp only; omega) hcov hgen hu
  obtain ⟨r1, r2⟩ := received_at hcont hrep
  have hcmp := PlannerMap.costmap_is_base_with_last_update unk h hsmall ps hps _ hbase ⟨x, y, a⟩ (by
    rw [mw, mh, ma]
    unfold PlannerMap.InMap
    simp only
    omega)
  have hge : 100 ≤ ps.cm ⟨x, y, a⟩ := by
    rw [hcmp]
    unfold PlannerMap.expected
    rw [hupd]
    simp only [PlannerMap.overlay]
    rw [if_pos r1, r2]
    split
    · rw [if_pos (by omega)]; exact h100
    · exact le_trans h100 (le_max_right _ _)
  omega

/-- **C136**, in terms of distances.  The costmap node (any root, any layers before the sensor's footprint layer, raising layers after it) runs
through any history and receives an overlay message `v` with the resolution and frame of the map; the planner receives the update published for
it (overwriting or not) and plans on a costmap that is nowhere lower; the footprint has an inscribed disc of radius `ρ`.  Then the robot's centre
on every pose of the path, as far as it lies in the area of the message, is from every point of every occupied cell of the message that lies on
the map at least `ρ` plus the layer's expansion minus `√2` times the cell width and the misalignment `δ`
of the two grids away. -/
theorem sensed_clearance (hang : 1 ≤ ang) (hroot : NotUpdate root) (hpre : ∀ k ∈ pre, NotUpdate k) (hpost : ∀ k ∈ post, Raises k)
    (he : 0 < f.expand) (hs : 0 ≤ f.spread) (hρ : 0 ≤ ρ) (hm0 : 0 ≤ f.minCost) (hm1 : f.minCost ≤ 100) (hc : Core f.pts ρ)
    (b v : Msg ℝ) (hres : 0 < b.grid.res) (hmt : Matches δ b v) (u : Layers.Update)
    (hsen : Senses ang root (pre ++ sensorKind big f mode :: post) pre.length b v u)
    (unk : Int) (cm0 : Cell → Int) (hrec : HasUpdate unk ang b u cm0)
    (g : Geo) (hsane : Sane g) (hev : Even g.angle) (hgeo : SameGeo g ang b) (hmap : 0 < g.width ∧ 0 < g.height)
    (cm : Cell → Option Int) (hcm : Raised g cm0 cm) (q : Pose ℝ) (hplan : Plans g cm q)
    (hin : Within δ v ((pose ang b q).x, (pose ang b q).y))
    (gx gy : Nat) (hocc : Occupied v gx gy) (z : Pt ℝ) (hz : InCell v gx gy z) (hzw : Within δ b z) :
    ρ + f.expand - Real.sqrt 2 * (b.grid.res + δ) ≤ hypot ((pose ang b q).x - z.1) ((pose ang b q).y - z.2) := by
  obtain ⟨w, us, hy, lr, ss, junk, estim, startEstim, starts, goal, leave, tasks, limit, rb, found, why, path, hhy, hg, hst, hfound, hlong, hq⟩ := hplan
  obtain ⟨hcov, hcm⟩ := hcm
  obtain ⟨gw, gh, ga, gr⟩ := hgeo
  have hsafe := (Model3D.plan_safe g hsane hev hmap w us cm hy hcov hhy lr ss junk estim startEstim starts goal leave tasks limit hg hst
    hfound).2.2 hlong q hq
  obtain ⟨p, ⟨v', hv, hv99⟩, hqx, hqy, -⟩ := hsafe
  obtain ⟨⟨px0, px1, py0, py1, pa0, pa1⟩, hpv⟩ := hcm p v' hv
  obtain ⟨x, hx⟩ := Int.eq_ofNat_of_zero_le px0
  obtain ⟨y, hyy⟩ := Int.eq_ofNat_of_zero_le py0
  obtain ⟨a, haa⟩ := Int.eq_ofNat_of_zero_le pa0
  obtain ⟨pxx, pyy, paa⟩ := p
  simp only at hx hyy haa
  subst hx; subst hyy; subst haa
  simp only [Int.cast_natCast] at hqx hqy
  simp only at px0 px1 py0 py1 pa0 pa1
  have emx : (pose ang b q).x = (q.x + 1 / 2) * b.grid.res + b.grid.ox := rfl
  have emy : (pose ang b q).y = (q.y + 1 / 2) * b.grid.res + b.grid.oy := rfl
  rw [abs_le] at hqx hqy
  refine sensed_clearance_at big f mode ang root pre post ρ δ hang hroot hpre hpost he hs hρ hm0 hm1 hc b v hres hmt u hsen unk cm0 hrec x y a
    (by omega) (by omega) (by omega) (by have := le_trans hpv hv99; exact this) ((pose ang b q).x, (pose ang b q).y) ?_ hin gx gy hocc z hz hzw
  rw [emx, emy]
  refine ⟨⟨?_, ?_⟩, ?_, ?_⟩ <;> simp only <;> nlinarith

/-- **C136**: if the layer's expansion exceeds the difference between the footprint's circumscribed and inscribed radius by more than `√2` times
the cell width and the misalignment of the grids (at most half a cell), the robot on no pose of the path in the area of the message touches any point of an occupied cell of the message. -/
theorem sensed_clear (hang : 1 ≤ ang) (hroot : NotUpdate root) (hpre : ∀ k ∈ pre, NotUpdate k) (hpost : ∀ k ∈ post, Raises k)
    (he : 0 < f.expand) (hs : 0 ≤ f.spread) (hρ : 0 ≤ ρ) (hm0 : 0 ≤ f.minCost) (hm1 : f.minCost ≤ 100) (hc : Core f.pts ρ)
    (b v : Msg ℝ) (hres : 0 < b.grid.res) (hcomp : radius (close f.pts) - ρ + Real.sqrt 2 * (b.grid.res + δ) < f.expand)
    (hmt : Matches δ b v) (u : Layers.Update)
    (hsen : Senses ang root (pre ++ sensorKind big f mode :: post) pre.length b v u)
    (unk : Int) (cm0 : Cell → Int) (hrec : HasUpdate unk ang b u cm0)
    (g : Geo) (hsane : Sane g) (hev : Even g.angle) (hgeo : SameGeo g ang b) (hmap : 0 < g.width ∧ 0 < g.height)
    (cm : Cell → Option Int) (hcm : Raised g cm0 cm) (q : Pose ℝ) (hplan : Plans g cm q)
    (hin : Within δ v ((pose ang b q).x, (pose ang b q).y))
    (gx gy : Nat) (hocc : Occupied v gx gy) (z : Pt ℝ) (hz : InCell v gx gy z) (hzw : Within δ b z) :
    ¬ Touches f (pose ang b q) z := by
  intro ht
  have h1 := touches_near ht
  have h2 := sensed_clearance big f mode ang root pre post ρ δ hang hroot hpre hpost he hs hρ hm0 hm1 hc b v hres hmt u hsen unk cm0 hrec g hsane
    hev hgeo hmap cm hcm q hplan hin gx gy hocc z hz hzw
  linarith

end

end Verif.Pipeline
