import Verif.Scene.ClearProps
import Verif.Model3D.SpacingProps
import Verif.Hyst.Props
/-! # C134: neighbouring poses of a published path are close to each other -/
namespace Verif.Scene
open Verif.Model3D Verif.Model3D.Spec
open Verif.GridMetric (Cell Pose grid2Metric grid2MetricF appendPath)
open Verif.DistMap (DM)
open Verif.DistMap.Grid (Pos)
open Verif.PlannerNode (World Event Cfg St run step worlds published finalPose Out)

/-- The largest gap of a path in metres. -/
noncomputable def gap (sc : Scene) : ℝ := sc.pl.info.res * (16 / 3 * max sc.g.ger (sc.g.ires + sc.g.ger / 2))

theorem metric_apart {sc : Scene} (hr : 0 < sc.pl.info.res) (p q : Pose ℝ) :
    Model3D.Spec.apart (grid2MetricF sc.pl.info p) (grid2MetricF sc.pl.info q) = sc.pl.info.res * Model3D.Spec.apart p q := by
  unfold Model3D.Spec.apart grid2MetricF
  rw [← Real.sqrt_sq hr.le, ← Real.sqrt_mul (sq_nonneg _), Real.sqrt_sq hr.le]
  congr 1
  ring

theorem outcome_spaced {sc : Scene} {B : Rat} (hg : Good sc B) {m : DM Pos Rat} {p : P} {best stopped found : Bool} {ps : List P}
    (h : Outcome sc m best p stopped found ps) : ps.IsChain (fun p q => Model3D.Spec.apart p q ≤ gap sc) := by
  have hin : ∀ x ∈ (starts sc p).2, InMap sc.g x.1 := fun x hx => inMap_of hg (start_free hg hx).2.1
  cases h with
  | same h =>
    rw [GridMetric.append_path]
    exact List.IsChain.singleton _
  | @search junk sE tasks why r hne ht hE hs ha =>
    obtain ⟨b, path⟩ := r
    have hst : ∀ s ∈ ((starts sc p).2.map fun x => (toVec x.1, (x.2 : WithTop ℝ))), 0 ≤ s.2 ∧ Verif.Astar.Vec.Spec.InMap [sc.g.width, sc.g.height, sc.g.angle] s.1 := by
      intro s hs
      obtain ⟨y, hy, rfl⟩ := List.mem_map.mp hs
      exact ⟨WithTop.coe_nonneg.mpr (start_free hg hy).1, Guide.inMap_toVec (hin y hy)⟩
    obtain ⟨hall, hch⟩ := plan_moves sc.g hg.g hg.even hg.size sc.c sc.u (known sc) sc.hy (known_covers sc) hg.hy.1 sc.lr _ junk _ sE _ (toVec (cell sc p)) _ tasks 0
      rfl hst hs
    have hmod : (path.map ofVec).IsChain (Moderate sc.g) := by
      refine List.IsChain.imp_of_mem_imp ?_ hch
      rintro a b hma hmb ⟨⟨q, hq, hr⟩, -⟩
      exact offered_moderate sc.g hg.g sc.c sc.lr _ a q b (hall a hma).2.2.2.2 hq hr
    have := interpolated_spacing sc.g hg.g (path.map ofVec) (fun a ha => (hall a ha).2.2.2.2) hmod
    simp only [GridMetric.append_path, List.nil_append]
    rw [List.isChain_map]
    refine this.imp (fun p q hpq => ?_)
    rw [metric_apart hg.pl.res]
    exact mul_le_mul_of_nonneg_left hpq hg.pl.res.le

/-- **C134**: whatever state the node is in and whatever happens, neighbouring poses of a path it publishes are not further apart than `gap`: about five times the larger of the interpolation resolution and
the sampling resolution. -/
theorem published_path_spaced (s s' : St P) (e : Event P) (hs : step s e = some s') (ps : List P) (hp : Out.path ps ∈ published s s') :
    ps = [] ∨ (s'.phase = .finishing ∧ ps = [finalPose s']) ∨
    ∃ w ∈ worlds e, ∀ sc B m best stopped, Good sc B → Shows sc m best stopped w →
      ps.IsChain (fun p q => Model3D.Spec.apart p q ≤ gap sc) := by
  have key := PlannerNode.origin_step (fun ps => ps = [] ∨ (s'.phase = .finishing ∧ ps = [finalPose s']) ∨
      ∃ w ∈ worlds e, ∃ o g, w.starts g ≠ none ∧ ps = w.poses o g) e (.inl rfl)
    (fun w hw o g hg => .inr (.inr ⟨w, hw, o, g, hg, rfl⟩)) s s' hs (fun h => .inr (.inl ⟨h, rfl⟩))
  obtain ⟨l, h1, h2⟩ := key
  rw [PlannerNode.published_of h1] at hp
  rcases h2 ps hp with h | h | ⟨w, hw, o, g, hg, rfl⟩
  · exact .inl h
  · exact .inr (.inl h)
  · exact .inr (.inr ⟨w, hw, fun sc B m best stopped good hsc => outcome_spaced good (hsc.search o g hg)⟩)

/-- **C134**: with the interpolation in use, a planned path is dense enough for the costs of leaving it (C105) to be exact. -/
theorem planned_path_dense (g : Geo) (hs : Sane g) (c : Hyst.Cfg) (hc : 0 ≤ c.range) (h1 : g.ger ≤ 4 / 5) (h2 : g.ires + g.ger / 2 ≤ 4 / 5) (path : List Cell) (hy : ∀ p ∈ path, 0 ≤ p.yaw ∧ p.yaw < g.angle)
    (hm : path.IsChain (Moderate g)) : Hyst.Dense c (interpolatePath g path) := by
  rintro a b ⟨l, r, e⟩
  have h := interpolated_spacing g hs path hy hm
  rw [e, List.isChain_append] at h
  have h := (List.isChain_cons_cons.mp h.2.1).1
  have hb : max g.ger (g.ires + g.ger / 2) ≤ 4 / 5 := max_le h1 h2
  have hr : (0 : ℝ) ≤ (c.range : ℝ) := by exact_mod_cast hc
  have e2 : Model3D.Spec.apart a b = √((a.x - b.x) ^ 2 + (a.y - b.y) ^ 2) := by
    unfold Model3D.Spec.apart
    congr 1
    ring
  rw [e2] at h
  linarith

/-- In the row of four cells the planner is given a goal and sends a path, spaced as stated. -/
example : ∃ (s s' : St P) (w : World P) (ps : List P), run tightCfg goalR (historyOf goalR) = some s ∧ step s (.cycle 1 w) = some s' ∧ Out.path ps ∈ published s s' ∧ ps ≠ [] ∧
    ps.IsChain (fun p q => Model3D.Spec.apart p q ≤ gap sceneR) := by
  obtain ⟨m, hm, hpos⟩ := mapR
  have hfree : sceneR.cm (own sceneR) ≤ 99 := by rw [own_sceneR]; decide
  obtain ⟨s, s', w, n, ps, h1, h2, hw, h3, h4⟩ := shown_run good_sceneR mem_cells4 (by rw [own_sceneR]; norm_num [StartPose.OnMap, sceneR]) hfree (drivableR hm hpos) (by
    intro x hx
    have hxo : x.1 = own sceneR := by
      rcases (StartPose.start_cells sceneR.pl good_sceneR.pl sceneR.cm sceneR.robot (cell sceneR goalR) x hx).2.2 with ⟨k, -⟩ | ⟨-, k⟩ | ⟨k, -⟩
      · cases k
      · rw [k]; rfl
      · unfold own at hfree; omega
    rw [hxo, own_sceneR]
    simp only [apart, cell_goalR]
    decide)
  have hmem : Out.path ps ∈ published s s' := by rw [h3]; simp
  refine ⟨s, s', w, ps, h1, h2, hmem, h4, ?_⟩
  rcases published_path_spaced s s' _ h2 ps hmem with h | ⟨-, h⟩ | ⟨w', hw', h⟩
  · exact absurd h h4
  · rw [h]; exact List.IsChain.singleton _
  · rw [List.mem_singleton.mp hw'] at h
    exact h sceneR 2 _ _ _ good_sceneR hw

/-- The defaults: an interpolation resolution of half a cell and a sampling resolution of a tenth. -/
example : g0.ger ≤ 4 / 5 ∧ g0.ires + g0.ger / 2 ≤ 4 / 5 := by norm_num [g0]

end Verif.Scene
