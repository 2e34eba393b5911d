import Verif.Scene.ClearProps
import Verif.Pipeline.SensedExample
/-! # C136: every path the planner publishes keeps clear of what the sensors reported last -/
namespace Verif.Scene
open Verif.Model3D Verif.Model3D.Spec
open Verif.GridMetric (Cell Pose grid2Metric grid2MetricF)
open Verif.PlannerNode (World Event Cfg St run step worlds published finalPose Out)

open Verif.Pipeline Verif.CSpace Verif.CSpace.Spec Verif.Polygon Verif.Polygon.Spec in
/-- **C136**: from the sensor to the published path.  The costmap node runs through any history and receives a report `v` for one of its layers (layers that combine by maximum follow); the
planner has received the update published for it as its last one, and plans on a costmap that is nowhere lower; the layer's expansion exceeds the difference between the footprint's circumscribed
and inscribed radius by more than `√2` times the cell width and the misalignment of the grids.  Then, whatever the state of the planner and whatever happens, the robot on no pose of a path the
planner publishes that lies in the area of the report touches any point of a reported cell on the map, except possibly on the final pose alone. -/
theorem robot_touches_nothing_sensed (big : ℝ) (f : Foot) (mode : Mode) (ang : Nat) (root : Layers.Kind ℝ) (pre post : List (Layers.Kind ℝ)) (ρ δ : ℝ)
    (hang : 1 ≤ ang) (hroot : Layers.Spec.NotUpdate root) (hpre : ∀ k ∈ pre, Layers.Spec.NotUpdate k) (hpost : ∀ k ∈ post, Layers.Spec.Raises k)
    (he : 0 < f.expand) (hs : 0 ≤ f.spread) (hρ : 0 ≤ ρ) (hm0 : 0 ≤ f.minCost) (hm1 : f.minCost ≤ 100) (hc : Core f.pts ρ)
    (b v : Layers.Msg ℝ) (hres : 0 < b.grid.res) (hcomp : radius (close f.pts) - ρ + Real.sqrt 2 * (b.grid.res + δ) < f.expand)
    (hmt : Matches δ b v) (u : Layers.Update) (hsen : Senses ang root (pre ++ sensorKind big f mode :: post) pre.length b v u)
    (unk : Int) (cm0 : Cell → Int) (hrec : HasUpdate unk ang b u cm0)
    (s s' : St P) (e : Event P) (hstep : step s e = some s')
    (hsc : ∀ w ∈ worlds e, ∃ sc B m best stopped, Shows sc m best stopped w ∧ Good sc B ∧ SameGeo sc.g ang b ∧
      sc.pl.info = metric (Layers.infoOf ang b) ∧ ∀ a, InMap sc.g a → cm0 a ≤ sc.cm a)
    (ps : List P) (hp : Out.path ps ∈ published s s') (hfin : s'.phase = .finishing → ps ≠ [finalPose s'])
    (q : P) (hq : q ∈ ps) (hin : Within δ v (q.x, q.y))
    (gx gy : Nat) (hocc : Occupied v gx gy) (z : Pt ℝ) (hz : InCell v gx gy z) (hzw : Within δ b z) : ¬ Touches f q z := by
  intro ht
  rcases published_path_clear s s' e hstep ps hp with h | ⟨h1, h2⟩ | ⟨w, hw, hcl⟩
  · rw [h] at hq; cases hq
  · exact hfin h1 h2
  obtain ⟨sc, B, m, best, stopped, hshow, good, ⟨gw, gh, ga, gr⟩, hinfo, hraise⟩ := hsc w hw
  obtain ⟨a, hina, hfree, hx, hy, -⟩ := (hcl sc B m best stopped good hshow).1 q hq
  have hcm := hraise a hina
  obtain ⟨px0, px1, py0, py1, pa0, pa1⟩ := hina
  obtain ⟨ax, ay, aa⟩ := a
  obtain ⟨x, rfl⟩ := Int.eq_ofNat_of_zero_le px0
  obtain ⟨y, rfl⟩ := Int.eq_ofNat_of_zero_le py0
  obtain ⟨t, rfl⟩ := Int.eq_ofNat_of_zero_le pa0
  simp only at px1 py1 pa1
  rw [hinfo] at hx hy
  simp only [grid2Metric, metric, Layers.infoOf, grid2MetricF, Int.cast_natCast] at hx hy
  rw [abs_le] at hx hy
  have h2 := sensed_clearance_at big f mode ang root pre post ρ δ hang hroot hpre hpost he hs hρ hm0 hm1 hc b v hres hmt u hsen unk cm0 hrec x y t (by omega) (by omega)
    (by omega) (le_trans hcm hfree) (q.x, q.y) ⟨⟨by nlinarith, by nlinarith⟩, by nlinarith, by nlinarith⟩ hin gx gy hocc z hz hzw
  have h1 := touches_near ht
  linarith

open Verif.Pipeline (row sq blank sensorKind rootKind g4) in
/-- The sensor reports the last of four cells as occupied, the costmap node publishes an update, the planner receives it, is given a goal and sends a path that is not empty; the robot on no pose
of it in the area touches the obstacle. -/
example : ∃ (u : Layers.Update) (cm0 : Cell → Int) (s s' : St P) (w : World P) (ps : List P),
    Pipeline.Senses 2 (rootKind 10 sq .max) ([] ++ sensorKind 10 sq .max :: []) ([] : List (Layers.Kind ℝ)).length blank row u ∧ Pipeline.HasUpdate 0 2 blank u cm0 ∧
    run tightCfg goalR (historyOf goalR) = some s ∧ step s (.cycle 1 w) = some s' ∧ Out.path ps ∈ published s s' ∧ ps ≠ [] ∧
    ∀ q ∈ ps, Pipeline.Within 0 row (q.x, q.y) → ∀ z, Pipeline.InCell row 3 0 z → Pipeline.Within 0 blank z → ¬ Pipeline.Touches sq q z := by
  obtain ⟨u, hu, hc, hw, hh⟩ := Pipeline.sensed_senses
  obtain ⟨cm0, hcm, hval⟩ := Pipeline.sensed_receives hc hw hh
  obtain ⟨s, s', w, ps, h1, h2, hmem, h4, hph, m, best, stopped, hw⟩ := runR
  refine ⟨u, cm0, s, s', w, ps, hu, hcm, h1, h2, hmem, h4, fun q hq hin z hz hzw => ?_⟩
  refine robot_touches_nothing_sensed 10 sq .max 2 (rootKind 10 sq .max) [] [] (1 / 5) 0 (by norm_num) (by simp [rootKind, Layers.Spec.NotUpdate]) (by simp) (by simp)
    (by norm_num [Pipeline.sq]) (by norm_num [Pipeline.sq]) (by norm_num) (by norm_num [Pipeline.sq]) (by norm_num [Pipeline.sq]) Pipeline.sq_core blank row
    (by norm_num [blank]) ?_ ⟨rfl, rfl, rfl, ⟨0, by norm_num [row, blank]⟩, ⟨0, by norm_num [row, blank]⟩⟩ u hu 0 cm0 hcm s s' (.cycle 1 w) h2
    ?_ ps hmem (fun k => absurd k hph) q hq hin 3 0 ⟨by simp [row], by simp [row], by simp [row]⟩ z hz hzw
  · rw [add_zero]
    exact Pipeline.sq_compact
  · intro w' hw'
    rw [List.mem_singleton.mp hw']
    refine ⟨sceneR, 2, m, best, stopped, hw, good_sceneR, ⟨by norm_num [sceneR, g4, g1, blank], by norm_num [sceneR, g4, g1, blank], by norm_num [sceneR, g4, g1],
      by norm_num [sceneR, g4, g1, blank]⟩, rfl, fun a ha => ?_⟩
    obtain ⟨x, y, t⟩ := a
    simp only [InMap, sceneR, g4, g1] at ha
    obtain rfl : y = 0 := by omega
    simp only [sceneR, cm4I]
    split
    · exact hval x t 0 (by omega) (by omega) (by omega) (by omega)
    · exact hval x t 100 (by omega) (by omega) (by omega) (by omega)

end Verif.Scene
