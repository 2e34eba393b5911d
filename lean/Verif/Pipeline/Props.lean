import Verif.Pipeline.Spec
import Verif.Layers.Static
import Verif.CSpace.Core
import Verif.PlannerMap.Props
import Verif.Model3D.Plan
/-! # From the map to the path: published paths keep clear of occupied cells -/
namespace Verif.Pipeline
open Verif.CSpace Verif.CSpace.Spec Verif.Layers Verif.Layers.Spec Verif.Polygon Verif.Polygon.Spec
open Verif.Model3D (Geo Wt ofVec planProb interpolatePath)
open Verif.Model3D.Spec (Sane Safe)
open Verif.Astar.Vec (Search)
open Verif.GridMetric (Cell Pose grid2MetricF)

/-- A footprint that touches a point is placed within its radius of it. -/
theorem touches_near {f : Foot} {p : Pose ℝ} {z : Pt ℝ} (h : Touches f p z) :
    hypot (p.x - z.1) (p.y - z.2) ≤ radius (close f.pts) := by
  rcases h with h | h
  · apply covers_near f.pts (p.x - z.1) (p.y - z.2) p.yaw
    rw [move_split] at h ⊢
    have h1 := inside_translate (close (f.pts.map (place 0 0 p.yaw))) (-(p.x - z.1), -(p.y - z.2)) (p.x - z.1) (p.y - z.2)
    have h2 := inside_translate (close (f.pts.map (place 0 0 p.yaw))) (-(p.x - z.1), -(p.y - z.2)) p.x p.y
    simp only [neg_add_cancel] at h1
    rw [h1, ← h2]
    convert h using 2
    ext <;> simp
  · obtain ⟨b, hb, e⟩ := onOutline_place' _ _ _ _ _ h
    have h1 := onOutline_radius f.pts b hb
    have h2 := dist_place p.x p.y p.yaw (0, 0) b
    rw [← e] at h2
    have h3 : Polygon.dist (place p.x p.y p.yaw (0, 0)) z = hypot (p.x - z.1) (p.y - z.2) := by
      unfold Polygon.dist; simp [place]
    have h4 : Polygon.dist (0, 0) b = hypot b.1 b.2 := by unfold Polygon.dist hypot; simp
    rw [← h3, h2, h4]
    exact h1

theorem hypot_half {a b r : ℝ} (hr : 0 ≤ r) (ha : |a| ≤ r / 2) (hb : |b| ≤ r / 2) : hypot a b ≤ Real.sqrt 2 / 2 * r := by
  have h2 := Real.sq_sqrt (show (0 : ℝ) ≤ 2 by norm_num)
  rw [hypot_le_iff (by positivity)]
  have h3 : a ^ 2 ≤ (r / 2) ^ 2 := sq_le_sq' (by linarith [(abs_le.mp ha).1]) (abs_le.mp ha).2
  have h4 : b ^ 2 ≤ (r / 2) ^ 2 := sq_le_sq' (by linarith [(abs_le.mp hb).1]) (abs_le.mp hb).2
  have e : (Real.sqrt 2 / 2 * r) ^ 2 = Real.sqrt 2 ^ 2 / 4 * r ^ 2 := by ring
  rw [e, h2]
  nlinarith

/-- Cell centres are at most `√2` cells farther apart than points of the cells. -/
theorem cells_close {r ox oy qx qy x y gx gy : ℝ} {z : Pt ℝ} (hr : 0 < r) (hx : -(1 / 2) ≤ qx - x ∧ qx - x ≤ 1 / 2)
    (hy : -(1 / 2) ≤ qy - y ∧ qy - y ≤ 1 / 2) (z1 : ox + gx * r ≤ z.1) (z2 : z.1 ≤ ox + (gx + 1) * r) (z3 : oy + gy * r ≤ z.2)
    (z4 : z.2 ≤ oy + (gy + 1) * r) :
    hypot ((x - gx) * r) ((y - gy) * r) ≤ Real.sqrt 2 * r + hypot ((qx + 1 / 2) * r + ox - z.1) ((qy + 1 / 2) * r + oy - z.2) := by
  have t1 := hypot_triangle ((x - qx) * r) ((y - qy) * r)
    (((qx + 1 / 2) * r + ox - z.1) + (z.1 - (ox + (gx + 1 / 2) * r)))
    (((qy + 1 / 2) * r + oy - z.2) + (z.2 - (oy + (gy + 1 / 2) * r)))
  have t2 := hypot_triangle ((qx + 1 / 2) * r + ox - z.1) ((qy + 1 / 2) * r + oy - z.2)
    (z.1 - (ox + (gx + 1 / 2) * r)) (z.2 - (oy + (gy + 1 / 2) * r))
  have hh : ∀ a b : ℝ, -(1 / 2) ≤ a - b ∧ a - b ≤ 1 / 2 → |(b - a) * r| ≤ r / 2 := by
    intro a b h
    rw [abs_mul, abs_of_pos hr]
    have : |b - a| ≤ 1 / 2 := by rw [abs_le]; constructor <;> linarith
    nlinarith
  have t3 : hypot ((x - qx) * r) ((y - qy) * r) ≤ Real.sqrt 2 / 2 * r := hypot_half hr.le (hh _ _ hx) (hh _ _ hy)
  have t4 : hypot (z.1 - (ox + (gx + 1 / 2) * r)) (z.2 - (oy + (gy + 1 / 2) * r)) ≤ Real.sqrt 2 / 2 * r := by
    apply hypot_half hr.le <;> (rw [abs_le]; constructor <;> linarith)
  have e1 : (x - qx) * r + (((qx + 1 / 2) * r + ox - z.1) + (z.1 - (ox + (gx + 1 / 2) * r))) = (x - gx) * r := by ring
  have e2 : (y - qy) * r + (((qy + 1 / 2) * r + oy - z.2) + (z.2 - (oy + (gy + 1 / 2) * r))) = (y - gy) * r := by ring
  rw [e1, e2] at t1
  linarith

/-- The root layer blocks every known cell near an occupied one. -/
theorem root_blocks (big : ℝ) (f : Foot) (mode : Mode) (ang : Nat) (ρ : ℝ) (he : 0 < f.expand) (hs : 0 ≤ f.spread) (hρ : 0 ≤ ρ)
    (hm0 : 0 ≤ f.minCost) (hm1 : f.minCost ≤ 100) (hc : Core f.pts ρ) (b : Msg ℝ) (hres : 0 < b.grid.res)
    (hlen : b.grid.data.length = b.grid.w * b.grid.h) (x y gx gy : Nat) (a : Int) (hx : x < b.grid.w) (hy : y < b.grid.h)
    (ha : 0 ≤ a ∧ a < ang) (hk : Known b x y) (hocc : Occupied b gx gy)
    (hd : hypot (((x : Int) - (gx : Int) : Int) * b.grid.res) (((y : Int) - (gy : Int) : Int) * b.grid.res) < ρ + f.expand) :
    100 ≤ rootCells (fun m => f.rangeMax m.res) (fun m x y a => f.template big m.res (2 * Real.pi / (m.ang : ℝ)) x y a) mode false
      (infoOf ang b) b x y a := by
  obtain ⟨o1, o2, o3⟩ := hocc
  have hoff : offX b.grid (infoOf ang b) = 0 ∧ offY b.grid (infoOf ang b) = 0 := by
    unfold offX offY infoOf lround
    simp only [sub_self, zero_div, le_refl, if_true, zero_add]
    norm_num
  unfold rootCells
  simp only
  rw [if_neg]
  · unfold generate
    rw [if_pos (show 0 ≤ a ∧ a < (infoOf ang b).ang from ha)]
    unfold clearTravelable
    rw [if_pos (Or.inr rfl)]
    refine conservative_disc big f _ ρ he hs hρ hm0 hm1 hc b.grid (infoOf ang b) hres rfl hlen _ x y a gx gy ?_ ?_ ?_ hd
    · unfold inMap infoOf
      rw [decide_eq_true_iff]
      simp only
      omega
    · unfold InWindow
      rw [hoff.1, hoff.2]
      omega
    · have hi : gy * b.grid.w + gx < b.grid.data.length := by
        rw [hlen]
        have : (gy + 1) * b.grid.w ≤ b.grid.h * b.grid.w := Nat.mul_le_mul_right _ o2
        rw [Nat.add_mul, one_mul] at this
        rw [Nat.mul_comm b.grid.w]
        omega
      obtain ⟨ex, ey⟩ := cell_eq b.grid (infoOf ang b) rfl hres.ne' (gy * b.grid.w + gx)
      refine ⟨gy * b.grid.w + gx, hi, o3, ?_, ?_, ?_⟩
      · rw [ex, hoff.1, Nat.mul_comm, Nat.mul_add_mod, Nat.mod_eq_of_lt o1, add_zero]
      · rw [ey, hoff.2, Nat.mul_comm, Nat.mul_add_div (by omega), Nat.div_eq_of_lt o1]; simp
      · unfold infoOf
        simp only
        omega
  · unfold Known at hk
    simp only [infoOf, Int.toNat_natCast]
    omega

/-- What the planner reads of the published map. -/
theorem message_get (m : Info ℝ) (st : Nat) (c : Cells) (unk : Int) (x y a : Nat) (hx : x < m.w) (hy : y < m.h) (ha : a < m.ang) :
    (message m st c).at unk ⟨x, y, a⟩ = if c x y a < 0 then unk else c x y a := by
  have e : (((a : Int) * (m.h : Int) + y) * m.w + x).toNat = (a * m.h + y) * m.w + x := by
    have : ((a : Int) * (m.h : Int) + y) * m.w + x = (((a * m.h + y) * m.w + x : Nat) : Int) := by push_cast; ring
    rw [this, Int.toNat_natCast]
  have hg : (flat m c)[(a * m.h + y) * m.w + x]? = some (c x y a) := by
    rw [flat_eq_rows, rows_get c 0 0 0 m.w m.h m.ang x y a hx hy ha]
    simp
  unfold PlannerMap.BaseMap.at message
  simp only
  rw [e, List.getD_eq_getElem?_getD, hg]
  simp only [Option.getD_some]

theorem message_at (m : Info ℝ) (st : Nat) (c : Cells) (unk : Int) (x y a : Nat) (hx : x < m.w) (hy : y < m.h) (ha : a < m.ang)
    (h : 0 ≤ c x y a) : (message m st c).at unk ⟨x, y, a⟩ = c x y a := by
  rw [message_get m st c unk x y a hx hy ha, if_neg (by omega)]

section
variable (big : ℝ) (f : Foot) (mode : Mode) (ang : Nat) (ks : List (Kind ℝ)) (ρ : ℝ)

/-- Wherever the planner's costmap is not lethal, the robot's centre is as far away from every occupied cell as the expansion demands: `p` lies in the square of the cell in column
`x`, row `y`, and the received costmap has a value below 100 there for some heading. -/
theorem clearance_at (he : 0 < f.expand) (hs : 0 ≤ f.spread) (hρ : 0 ≤ ρ) (hm0 : 0 ≤ f.minCost) (hm1 : f.minCost ≤ 100)
    (hc : Core f.pts ρ) (hks : StaticMax ks) (b : Msg ℝ) (hb : GoodMap b)
    (msg : PlannerMap.BaseMap) (hpub : Publishes big f mode ang ks b msg)
    (unk : Int) (cm0 : Cell → Int) (hrec : Receives unk msg cm0)
    (x y a : Nat) (hxw : x < b.grid.w) (hyw : y < b.grid.h) (haw : a < ang) (hfree : cm0 ⟨x, y, a⟩ ≤ 99)
    (p : Pt ℝ) (hp : InCell b x y p)
    (gx gy : Nat) (hocc : Occupied b gx gy) (z : Pt ℝ) (hz : InCell b gx gy z) (hknown : KnownAt b p) :
    ρ + f.expand - Real.sqrt 2 * b.grid.res ≤ hypot (p.1 - z.1) (p.2 - z.2) := by
  obtain ⟨z0, es, e, s, s', o, o', st, c, hrun, hstep, hpub, hb1, rfl⟩ := hpub
  obtain ⟨h, ps, hsmall, hps, hpast, hmax, rfl⟩ := hrec
  obtain ⟨hres, hlen⟩ := hb
  obtain ⟨b', hb', hinfo, hblk⟩ := static_map_blocks ang z0 _ _ mode false ks hks es e s s' o o' hrun hstep st c hpub
  rw [hb1] at hb'
  obtain rfl : b = b' := by simpa using hb'
  by_contra hn
  push_neg at hn
  have hk : Known b x y := hknown x y hxw hyw hp
  have hd : hypot (((x : Int) - (gx : Int) : Int) * b.grid.res) (((y : Int) - (gy : Int) : Int) * b.grid.res) < ρ + f.expand := by
    obtain ⟨⟨z1, z2⟩, z3, z4⟩ := hz
    obtain ⟨⟨p1, p2⟩, p3, p4⟩ := hp
    have half : ∀ v o : ℝ, ∀ k : Nat, o + k * b.grid.res ≤ v → v ≤ o + (k + 1) * b.grid.res →
        (-(1 / 2) ≤ ((v - o) / b.grid.res - 1 / 2) - (k : ℝ) ∧ ((v - o) / b.grid.res - 1 / 2) - (k : ℝ) ≤ 1 / 2) ∧
        ((v - o) / b.grid.res - 1 / 2 + 1 / 2) * b.grid.res + o = v := by
      intro v o k h1 h2
      have e1 : (k : ℝ) ≤ (v - o) / b.grid.res := by rw [le_div_iff₀ hres]; linarith
      have e2 : (v - o) / b.grid.res ≤ k + 1 := by rw [div_le_iff₀ hres]; linarith
      refine ⟨⟨by linarith, by linarith⟩, ?_⟩
      rw [sub_add_cancel, div_mul_cancel₀ _ hres.ne']
      ring
    obtain ⟨hx1, hx2⟩ := half p.1 b.grid.ox x p1 p2
    obtain ⟨hy1, hy2⟩ := half p.2 b.grid.oy y p3 p4
    have := cells_close (ox := b.grid.ox) (oy := b.grid.oy) hres hx1 hy1 z1 z2 z3 z4
    rw [hx2, hy2] at this
    push_cast
    linarith
  have hroot := root_blocks big f mode ang ρ he hs hρ hm0 hm1 hc b hres hlen x y gx gy a hxw hyw ⟨by omega, by omega⟩ hk hocc hd
  have hc100 := hblk x y a hroot
  have hat := message_at s'.info st c unk x y a (by rw [hinfo]; exact hxw) (by rw [hinfo]; exact hyw) (by rw [hinfo]; exact haw) (by omega)
  have hcmp := PlannerMap.costmap_is_base_with_last_update unk h hsmall ps hps _ hpast ⟨x, y, a⟩ (by
    rw [hinfo]
    unfold PlannerMap.InMap message infoOf
    simp only
    omega)
  have hge : 100 ≤ ps.cm ⟨x, y, a⟩ := by
    rw [hcmp]
    unfold PlannerMap.expected
    cases hl : (PlannerMap.past h).last with
    | none => simp only; rw [hat]; exact hc100
    | some ou =>
      obtain ⟨ov, uu⟩ := ou
      have := hmax ov uu hl
      subst this
      simp only [PlannerMap.overlay, Bool.false_eq_true, if_false, hat]
      split
      · exact le_trans hc100 (le_max_left _ _)
      · exact hc100
  omega

/-- **C117**, in terms of distances.  The costmap node (any static layers that combine by maximum, any dynamic layers) runs
through any history and publishes a map; the planner receives it and any further updates (not in overwriting mode) and
plans on a costmap that is nowhere lower; the footprint has an inscribed disc of radius `ρ`.  Then the robot's centre on
every pose of the path sent to the controller stays, from every point of every occupied cell of the base map, at least `ρ`
plus the configured expansion minus `√2` cells away, wherever the map is known. -/
theorem path_clearance (he : 0 < f.expand) (hs : 0 ≤ f.spread) (hρ : 0 ≤ ρ) (hm0 : 0 ≤ f.minCost) (hm1 : f.minCost ≤ 100)
    (hc : Core f.pts ρ) (hks : StaticMax ks) (b : Msg ℝ) (hb : GoodMap b)
    (msg : PlannerMap.BaseMap) (hpub : Publishes big f mode ang ks b msg)
    (unk : Int) (cm0 : Cell → Int) (hrec : Receives unk msg cm0)
    (g : Geo) (hsane : Sane g) (hev : Even g.angle) (hgeo : SameGeo g ang b) (cm : Cell → Option Int) (hcm : Raised g cm0 cm)
    (q : Pose ℝ) (hplan : Plans g cm q)
    (gx gy : Nat) (hocc : Occupied b gx gy) (z : Pt ℝ) (hz : InCell b gx gy z)
    (hknown : KnownAt b ((pose ang b q).x, (pose ang b q).y)) :
    ρ + f.expand - Real.sqrt 2 * b.grid.res ≤ hypot ((pose ang b q).x - z.1) ((pose ang b q).y - z.2) := by
  obtain ⟨w, u, hy, lr, ss, junk, estim, startEstim, starts, goal, leave, tasks, limit, rb, found, why, path, hhy, hg, hst, hfound, hlong, hq⟩ := hplan
  obtain ⟨hcov, hcm⟩ := hcm
  have hres := hb.1
  obtain ⟨gw, gh, ga, gr⟩ := hgeo
  have hmap : 0 < g.width ∧ 0 < g.height := by rw [gw, gh]; obtain ⟨o1, o2, -⟩ := hocc; omega
  have hsafe := (Model3D.plan_safe g hsane hev hmap w u cm hy hcov hhy lr ss junk estim startEstim starts goal leave tasks limit hg hst
    hfound).2.2 hlong q hq
  obtain ⟨p, ⟨v, hv, hv99⟩, hqx, hqy, -⟩ := hsafe
  obtain ⟨⟨px0, px1, py0, py1, pa0, pa1⟩, hpv⟩ := hcm p v hv
  obtain ⟨x, hx⟩ := Int.eq_ofNat_of_zero_le px0
  obtain ⟨y, hyy⟩ := Int.eq_ofNat_of_zero_le py0
  obtain ⟨a, haa⟩ := Int.eq_ofNat_of_zero_le pa0
  obtain ⟨pxx, pyy, paa⟩ := p
  simp only at hx hyy haa
  subst hx; subst hyy; subst haa
  simp only [Int.cast_natCast] at hqx hqy
  simp only at px0 px1 py0 py1 pa0 pa1
  have emx : (pose ang b q).x = (q.x + 1 / 2) * b.grid.res + b.grid.ox := rfl
  have emy : (pose ang b q).y = (q.y + 1 / 2) * b.grid.res + b.grid.oy := rfl
  rw [abs_le] at hqx hqy
  refine clearance_at big f mode ang ks ρ he hs hρ hm0 hm1 hc hks b hb msg hpub unk cm0 hrec x y a (by omega) (by omega) (by omega)
    (by have := le_trans hpv hv99; exact this) ((pose ang b q).x, (pose ang b q).y) ?_ gx gy hocc z hz hknown
  rw [emx, emy]
  refine ⟨⟨?_, ?_⟩, ?_, ?_⟩ <;> simp only <;> nlinarith

/-- **C117**: if the expansion exceeds the difference between the footprint's circumscribed and inscribed radius by more
than `√2` cells, the robot on no pose of a published path touches any point of an occupied cell. -/
theorem path_clear (he : 0 < f.expand) (hs : 0 ≤ f.spread) (hρ : 0 ≤ ρ) (hm0 : 0 ≤ f.minCost) (hm1 : f.minCost ≤ 100)
    (hc : Core f.pts ρ) (hks : StaticMax ks) (b : Msg ℝ) (hb : GoodMap b)
    (hcomp : radius (close f.pts) - ρ + Real.sqrt 2 * b.grid.res < f.expand)
    (msg : PlannerMap.BaseMap) (hpub : Publishes big f mode ang ks b msg)
    (unk : Int) (cm0 : Cell → Int) (hrec : Receives unk msg cm0)
    (g : Geo) (hsane : Sane g) (hev : Even g.angle) (hgeo : SameGeo g ang b) (cm : Cell → Option Int) (hcm : Raised g cm0 cm)
    (q : Pose ℝ) (hplan : Plans g cm q)
    (gx gy : Nat) (hocc : Occupied b gx gy) (z : Pt ℝ) (hz : InCell b gx gy z)
    (hknown : KnownAt b ((pose ang b q).x, (pose ang b q).y)) :
    ¬ Touches f (pose ang b q) z := by
  intro ht
  have h1 := touches_near ht
  have h2 := path_clearance big f mode ang ks ρ he hs hρ hm0 hm1 hc hks b hb msg hpub unk cm0 hrec g hsane hev hgeo cm hcm q hplan
    gx gy hocc z hz hknown
  linarith

end

end Verif.Pipeline
