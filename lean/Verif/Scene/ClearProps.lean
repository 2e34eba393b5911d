import Verif.Scene.Props
import Verif.PlannerNode.Origin
import Verif.Pipeline.Example
/-! # C132: every path the planner publishes is clear of obstacles -/
namespace Verif.Scene
open Verif.Model3D Verif.Model3D.Spec
open Verif.GridMetric (Cell Pose grid2Metric grid2MetricF)
open Verif.DistMap (DM)
open Verif.DistMap.Grid (Pos)
open Verif.PlannerNode (World Event Cfg St run step worlds published finalPose Out)

/-- **C132**: whatever state the node is in and whatever happens, every path it publishes is empty, or the final pose alone (the robot being about to finish), or all its poses are clear of
obstacles in what the node knows at that moment, and it begins at most one cell away from the robot if the robot's own cell is free.  This covers goals given up, temporary goals, searches stopped before
their end, and the path to the nearest known place (`find_best`). -/
theorem published_path_clear (s s' : St P) (e : Event P) (hs : step s e = some s') (ps : List P) (hp : Out.path ps ∈ published s s') :
    ps = [] ∨ (s'.phase = .finishing ∧ ps = [finalPose s']) ∨
    ∃ w ∈ worlds e, ∀ sc B m best stopped, Good sc B → Shows sc m best stopped w →
      (∀ q ∈ ps, Clear sc q) ∧ (StartPose.OnMap sc.pl.map (own sc) → sc.cm (own sc) ≤ 99 → Begins sc ps) := by
  by_cases h0 : ps = []
  · exact .inl h0
  have key := PlannerNode.origin_step (fun ps => ps = [] ∨ (s'.phase = .finishing ∧ ps = [finalPose s']) ∨
      ∃ w ∈ worlds e, ∃ o g, w.starts g ≠ none ∧ ps = w.poses o g) e (.inl rfl)
    (fun w hw o g hg => .inr (.inr ⟨w, hw, o, g, hg, rfl⟩)) s s' hs (fun h => .inr (.inl ⟨h, rfl⟩))
  obtain ⟨l, h1, h2⟩ := key
  rw [PlannerNode.published_of h1] at hp
  rcases h2 ps hp with h | h | ⟨w, hw, o, g, hg, rfl⟩
  · exact .inl h
  · exact .inr (.inl h)
  · refine .inr (.inr ⟨w, hw, fun sc B m best stopped good hsc => ?_⟩)
    obtain ⟨k1, k2⟩ := outcome_any good (hsc.search o g hg)
    refine ⟨k1, fun hon hfree => ?_⟩
    obtain ⟨x, hx, k3⟩ := k2 h0
    exact ⟨x.1, k3, ((own_start good hon hfree g).2.2 x hx).2.2.2⟩

open Verif.Pipeline Verif.CSpace Verif.CSpace.Spec Verif.Polygon Verif.Polygon.Spec in
/-- **C132**: from the map to the published path.  The costmap node (any static layers that combine by maximum, any dynamic layers) runs through any history and publishes a map, the planner
receives it and any further updates (not in overwriting mode), and plans on a costmap that is nowhere lower; the expansion exceeds the difference between the footprint's circumscribed and
inscribed radius by more than `√2` cells.  Then, whatever the state of the planner and whatever happens, the robot on no pose of a path the planner publishes touches any point of an occupied cell, if its
centre is on known cells, except possibly on the final pose alone. -/
theorem robot_touches_nothing (big : ℝ) (f : Foot) (mode : Mode) (ang : Nat) (ks : List (Layers.Kind ℝ)) (ρ : ℝ)
    (he : 0 < f.expand) (hs : 0 ≤ f.spread) (hρ : 0 ≤ ρ) (hm0 : 0 ≤ f.minCost) (hm1 : f.minCost ≤ 100)
    (hc : Core f.pts ρ) (hks : Layers.Spec.StaticMax ks) (b : Layers.Msg ℝ) (hb : GoodMap b)
    (hcomp : radius (close f.pts) - ρ + Real.sqrt 2 * b.grid.res < f.expand)
    (msg : PlannerMap.BaseMap) (hpub : Publishes big f mode ang ks b msg)
    (unk : Int) (cm0 : Cell → Int) (hrec : Receives unk msg cm0)
    (s s' : St P) (e : Event P) (hstep : step s e = some s')
    (hsc : ∀ w ∈ worlds e, ∃ sc B m best stopped, Shows sc m best stopped w ∧ Good sc B ∧ SameGeo sc.g ang b ∧
      sc.pl.info = metric (Layers.infoOf ang b) ∧ ∀ a, InMap sc.g a → cm0 a ≤ sc.cm a)
    (ps : List P) (hp : Out.path ps ∈ published s s') (hfin : s'.phase = .finishing → ps ≠ [finalPose s'])
    (q : P) (hq : q ∈ ps) (hknown : KnownAt b (q.x, q.y))
    (gx gy : Nat) (hocc : Occupied b gx gy) (z : Pt ℝ) (hz : InCell b gx gy z) : ¬ Touches f q z := by
  intro ht
  rcases published_path_clear s s' e hstep ps hp with h | ⟨h1, h2⟩ | ⟨w, hw, hcl⟩
  · rw [h] at hq; cases hq
  · exact hfin h1 h2
  obtain ⟨sc, B, m, best, stopped, hshow, good, ⟨gw, gh, ga, gr⟩, hinfo, hraise⟩ := hsc w hw
  obtain ⟨a, hin, hfree, hx, hy, -⟩ := (hcl sc B m best stopped good hshow).1 q hq
  have hcm := hraise a hin
  obtain ⟨px0, px1, py0, py1, pa0, pa1⟩ := hin
  obtain ⟨ax, ay, aa⟩ := a
  obtain ⟨x, rfl⟩ := Int.eq_ofNat_of_zero_le px0
  obtain ⟨y, rfl⟩ := Int.eq_ofNat_of_zero_le py0
  obtain ⟨t, rfl⟩ := Int.eq_ofNat_of_zero_le pa0
  simp only at px1 py1 pa1
  rw [hinfo] at hx hy
  simp only [grid2Metric, metric, Layers.infoOf, grid2MetricF, Int.cast_natCast] at hx hy
  rw [abs_le] at hx hy
  have h2 := clearance_at big f mode ang ks ρ he hs hρ hm0 hm1 hc hks b hb msg hpub unk cm0 hrec x y t (by omega) (by omega) (by omega) (le_trans hcm hfree)
    (q.x, q.y) ⟨⟨by nlinarith, by nlinarith⟩, by nlinarith, by nlinarith⟩ gx gy hocc z hz hknown
  have h1 := touches_near ht
  linarith

/-- **C132**, the limit: the final pose is published without looking at the costmap.  While the robot is about to finish and its heading is not there yet, each cycle
sends the final pose, whatever the world is like. -/
theorem final_pose_unchecked (s : St P) (now : Int) (w : World P) (hc : s.cfg.trigger = false) (hm : s.hasMap = true) (hg : s.hasGoal = true) (hst : s.hasStart = true)
    (hr : s.cacheReady = true) (hp : s.phase = .finishing) (hf : ¬ PlannerNode.Stale s now) (ht : s.tol.active = false) (hy : s.cfg.angFinish ≤ |w.heading (finalPose s)|) :
    ∃ s', step s (.cycle now w) = some s' ∧ published s s' = [.path [finalPose s], .status .finishing s.error] := by
  have h1 : PlannerNode.planFinish w { s with switchback := false } =
      some (PlannerNode.publishStatus (PlannerNode.finishPath { s with switchback := false })) := by
    unfold PlannerNode.planFinish
    simp only [ht, Bool.false_eq_true, if_false]
    unfold finalPose at hy
    rw [if_neg (not_lt.mpr hy)]
  refine ⟨PlannerNode.publishStatus (PlannerNode.finishPath { s with switchback := false }), ?_, ?_⟩
  · change (if s.cfg.trigger = true then some s else PlannerNode.planPath now w s) = _
    rw [if_neg (by rw [hc]; decide)]
    unfold PlannerNode.planPath
    rw [if_neg (by rw [hr]; simp)]
    simp only [Option.bind_some]
    rw [if_neg hf, if_pos (by rw [hm, hg, hst]; rfl), if_pos hp]
    exact h1
  · rw [← hp]
    exact PlannerNode.published_of (by
      simp only [PlannerNode.publishStatus, PlannerNode.finishPath, PlannerNode.emit, List.append_assoc]
      rfl)

/-- The robot has reached the goal's cell, not its heading: the final pose is sent on a floor where every cell is an obstacle. -/
example : ∃ (s s' : St P), run tightCfg ⟨0, 0, 0⟩ (historyOf ⟨0, 0, 0⟩ ++ [Event.cycle 1 { emptyFloor with starts := fun _ => some [(0, 0)] }]) = some s ∧ s.phase = .finishing ∧
    step s (.cycle 2 { emptyFloor with heading := fun _ => 3, lethal := fun _ => true }) = some s' ∧ Out.path [finalPose s] ∈ published s s' := by
  have e1 : (run tightCfg ⟨0, 0, 0⟩ (historyOf ⟨0, 0, 0⟩ ++ [Event.cycle 1 { emptyFloor with starts := fun _ => some [(0, 0)] }])).isSome = true := rfl
  obtain ⟨s, hs⟩ := Option.isSome_iff_exists.mp e1
  have get : ∀ {α : Type} (f : St P → α) (v : α),
      (run tightCfg ⟨0, 0, 0⟩ (historyOf ⟨0, 0, 0⟩ ++ [Event.cycle 1 { emptyFloor with starts := fun _ => some [(0, 0)] }])).map f = some v → f s = v := by
    intro α f v hv
    rw [hs] at hv
    exact Option.some.inj hv
  have hc : s.cfg = tightCfg := get (·.cfg) tightCfg rfl
  have hph : s.phase = .finishing := get (·.phase) .finishing rfl
  obtain ⟨s', h1, h2⟩ := final_pose_unchecked s 2 { emptyFloor with heading := fun _ => 3, lethal := fun _ => true } (by rw [hc]; rfl) (get (·.hasMap) true rfl)
    (get (·.hasGoal) true rfl) (get (·.hasStart) true rfl) (get (·.cacheReady) true rfl) hph
    (by unfold PlannerNode.Stale; rw [hc, show s.lastCostmap = 0 from get (·.lastCostmap) 0 rfl]; decide) (get (·.tol.active) false rfl) (by rw [hc]; show tightCfg.angFinish ≤ |(3 : ℚ)|; decide +kernel)
  exact ⟨s, s', hs, hph, h1, by rw [h2]; simp⟩

/-! ### Cases: the robot in the first of four cells in a row, the last one occupied -/

open Verif.Guide (cfgW cfgW_good)
open Verif.Pipeline (g4 cm4 row sq g4_sane cm4_covers cm4_nonneg wide_ahead)

/-- Two free cells, two blocked ones. -/
def cm4I : Cell → Int := fun p => if p.x < 2 then 0 else 100

noncomputable def sceneR : Scene where
  pl := { info := Pipeline.metric (Layers.infoOf 2 row), map := ⟨4, 1, 2, 0, 50⟩, antialias := false, ec0 := 1, weight := 1, tolRange := 2, tolAngle := 0,
          finLin := 0, finAng := 0, dist := fun _ => 0 }
  g := g4
  c := w0
  cm := cm4I
  u := true
  hy := cm4
  lr := 0
  d := { cfgW 2 with h := 1 }
  robot := ⟨⟨1 / 2, 1 / 2⟩, 0, .nan⟩

theorem known_sceneR : known sceneR = cm4 := by
  funext a
  unfold known cm4
  simp only [sceneR, g4, g1, cm4I]
  rfl

theorem good_sceneR : Good sceneR 2 where
  pl := ⟨by norm_num [sceneR, Pipeline.metric, Layers.infoOf, row], by
      have := Real.pi_pos
      simp only [sceneR, Pipeline.metric, Layers.infoOf]; positivity, by norm_num [sceneR], rfl, by norm_num [sceneR], by norm_num [sceneR]⟩
  g := g4_sane
  even := ⟨1, by norm_num [sceneR, g4, g1]⟩
  ger := by norm_num [sceneR, g4, g1]
  size := ⟨by norm_num [sceneR, g4, g1], by norm_num [sceneR, g4, g1]⟩
  same := ⟨rfl, rfl, rfl, by norm_num [sceneR], fun a ha => known_some.mpr ⟨ha, rfl⟩⟩
  wt := by constructor <;> norm_num [sceneR, w0]
  weight := by norm_num [sceneR]
  cm := fun a => by simp only [sceneR, cm4I]; split <;> decide
  hy := ⟨cm4_covers g4 (.inr rfl), cm4_nonneg⟩
  fits := ⟨rfl, rfl, fun a v _ h => by
    rw [known_sceneR] at h
    refine le_trans (b := 0) ?_ (cm4_nonneg a v h)
    change Guide.lethalRow 2 _ ≤ 0
    unfold Guide.lethalRow
    rw [if_neg (by omega)]⟩
  cfg := ⟨(cfgW_good 2).ec0, (cfgW_good 2).res, (cfgW_good 2).wc, (cfgW_good 2).wr, (cfgW_good 2).over, (cfgW_good 2).eu, (cfgW_good 2).gl, (cfgW_good 2).cm,
    (cfgW_good 2).hist, (cfgW_good 2).ec0_lt⟩
  tasks := by decide
  moderate := by
    refine ⟨by norm_num, ?_, by decide +kernel⟩
    rintro p x w ⟨eu, hd⟩
    refine Guide.moderateW.step p x w ⟨eu, ?_⟩
    simp only [DistMap.Grid.env, List.mem_map, List.mem_filter] at hd ⊢
    obtain ⟨d, ⟨h1, h2⟩, he⟩ := hd
    refine ⟨d, ⟨h1, ?_⟩, he⟩
    have := of_decide_eq_true h2
    refine decide_eq_true ⟨this.1, this.2.1, this.2.2.1, lt_trans this.2.2.2 (show (1 : Int) < 6 by decide)⟩

theorem own_sceneR : own sceneR = ⟨0, 0, 0⟩ := by
  have f1 : ⌊(1 / 2 : ℝ)⌋ = 0 := by rw [Int.floor_eq_iff]; norm_num
  unfold own StartPose.ownCell GridMetric.metric2GridF StartPose.coords sceneR Pipeline.metric Layers.infoOf row
  simp only [sub_zero, div_one, zero_div]
  have : Verif.CSpace.lround (0 : ℝ) = 0 := by simpa using GridMetric.lround_int (K := ℝ) 0
  rw [this, Model3D.cycU_id 0 2 (by norm_num) ⟨le_rfl, by norm_num⟩]
  simp
  norm_num

/-- The centre of the second cell. -/
noncomputable def goalR : P := ⟨3 / 2, 1 / 2, 0⟩

theorem cell_goalR : cell sceneR goalR = ⟨1, 0, 0⟩ := by
  have f1 : ⌊(1 / 2 : ℝ)⌋ = 0 := by rw [Int.floor_eq_iff]; norm_num
  have f3 : ⌊(3 / 2 : ℝ)⌋ = 1 := by rw [Int.floor_eq_iff]; norm_num
  unfold cell GridMetric.metric2Grid goalR sceneR Pipeline.metric Layers.infoOf row
  simp only [sub_zero, div_one, zero_div, f1, f3]
  have : Verif.CSpace.lround (0 : ℝ) = 0 := by simpa using GridMetric.lround_int (K := ℝ) 0
  rw [this, Model3D.cycU_id 0 2 (by norm_num) ⟨le_rfl, by norm_num⟩]

def cells4 : List Pos := [(0, 0), (1, 0), (2, 0), (3, 0)]

theorem mem_cells4 (v : Pos) (h : DistMap.Grid.inMap sceneR.d v = true) : v ∈ cells4 := by
  obtain ⟨h1, h2, h3, h4⟩ := of_decide_eq_true h
  have h2 : v.1 < 4 := h2
  have h4 : v.2 < 1 := h4
  obtain ⟨x, y⟩ := v
  simp only at h1 h2 h3 h4
  obtain rfl : y = 0 := by omega
  have : x = 0 ∨ x = 1 ∨ x = 2 ∨ x = 3 := by omega
  rcases this with rfl | rfl | rfl | rfl <;> decide

theorem inR (v : Pos) (h : 0 ≤ v.1 ∧ v.1 < 4 ∧ 0 ≤ v.2 ∧ v.2 < 1) : DistMap.Grid.inMap sceneR.d v = true :=
  decide_eq_true h

theorem mapR : ∃ m : DM Pos Rat, DistMap.Spec.Hist (DistMap.Grid.env sceneR.d) cells4 (1, 0) (0, 0) m ∧ ∀ v, 0 ≤ m.g v := by
  obtain ⟨m, h1⟩ : ∃ m, DistMap.createD (DistMap.Grid.env sceneR.d) 60 (0, 0) (1, 0) DistMap.initDM = some m :=
    Option.isSome_iff_exists.mp (by
      change (DistMap.createD (DistMap.Grid.env { cfgW 2 with h := 1 }) 60 (0, 0) (1, 0) DistMap.initDM).isSome = true
      decide +kernel)
  have hh : DistMap.Spec.Hist (DistMap.Grid.env sceneR.d) cells4 (1, 0) (0, 0) m := by
    refine .create ?_ ?_ (DistMap.createD_create _ _ _ _ _ h1)
    · exact inR (0, 0) ⟨by norm_num, by norm_num, by norm_num, by norm_num⟩
    · exact inR (1, 0) ⟨by norm_num, by norm_num, by norm_num, by norm_num⟩
  exact ⟨m, hh, (Guide.goal_zero good_sceneR.cfg (by decide) mem_cells4 hh).2⟩

theorem aheadR (ss : List Cell) : Guide.Drive g4 w0 true cm4 cm4 0 ss ⟨0, 0, 0⟩ ⟨1, 0, 0⟩ := by
  have hprim : (⟨1, 0, 0⟩ : Cell) ∈ primitives g4 w0 0 := by
    rw [primitive_iff _ g4_sane w0 0 _ ⟨by omega, by norm_num [g4, g1]⟩]
    have hx : ahead g4 0 ⟨1, 0, 0⟩ = 1 := by simp [ahead, g4, g1]
    have hy : aside g4 0 ⟨1, 0, 0⟩ = 0 := by simp [aside, g4, g1]
    refine ⟨by norm_num [g4, g1], by norm_num, by norm_num [g4, g1], Or.inr ⟨by norm_num, Or.inl ⟨rfl, ?_, ?_⟩⟩⟩
    · rw [hx]; norm_num [g4, g1]
    · intro h; exact absurd hy h
  refine ⟨by norm_num [InMap, g4, g1], by norm_num [InMap, g4, g1], ⟨⟨1, 0, 0⟩, ?_, by norm_num, by norm_num, ⟨0, by norm_num⟩, by norm_num, by norm_num [g4, g1]⟩, ?_⟩
  · unfold searchGrids
    split
    · exact hprim
    · exact (mem_rough g4 (by norm_num [g4, g1]) _).2 ⟨by norm_num [g4, g1], rfl⟩
  · obtain ⟨v, -, hv⟩ := wide_ahead
    exact ⟨v, hv⟩

theorem drivableR {m : DM Pos Rat} (hh : DistMap.Spec.Hist (DistMap.Grid.env sceneR.d) cells4 (1, 0) (0, 0) m) (hpos : ∀ v, 0 ≤ m.g v) :
    Drivable sceneR m cells4 ⟨0, 0, 0⟩ goalR where
  onMap := by rw [cell_goalR]; norm_num [StartPose.OnMap, sceneR]
  free := by rw [cell_goalR]; decide
  map := by rw [cell_goalR]; exact hh
  apart := by rw [cell_goalR]; decide
  here := by
    rw [cell_goalR, own_sceneR]
    obtain ⟨w, hw1, hw2⟩ : ∃ w : Rat, DistMap.Spec.Step (DistMap.Grid.env { cfgW 2 with h := 1 }) (1, 0) (0, 0) w ∧ w ≤ 2 :=
      ⟨1, ⟨1, by decide +kernel⟩, by norm_num⟩
    refine ⟨_, .step .goal hw1, ?_⟩
    have := hpos (0, 0)
    change -(1 : Rat) * (1 / 2) + w ≤ m.g (0, 0) + 4
    linarith
  way := by
    rw [cell_goalR, own_sceneR, known_sceneR]
    exact .single ⟨aheadR _, _, .goal, by
      have := hpos (0, 0)
      change -(1 : Rat) * (1 / 2) ≤ m.g (0, 0) + 4
      linarith⟩

/-- The planner is given the goal in the second cell and sends a path that is not empty, before it is about to finish. -/
theorem runR : ∃ (s s' : St P) (w : World P) (ps : List P), run tightCfg goalR (historyOf goalR) = some s ∧ step s (.cycle 1 w) = some s' ∧
    Out.path ps ∈ published s s' ∧ ps ≠ [] ∧ s'.phase ≠ .finishing ∧ ∃ m best stopped, Shows sceneR m best stopped w := by
  obtain ⟨m, hm, hpos⟩ := mapR
  have hfree : sceneR.cm (own sceneR) ≤ 99 := by rw [own_sceneR]; decide
  obtain ⟨s, s', w, n, ps, h1, h2, hw, h3, h4⟩ := shown_run good_sceneR mem_cells4 (by rw [own_sceneR]; norm_num [StartPose.OnMap, sceneR]) hfree (drivableR hm hpos) (by
    intro x hx
    have hxo : x.1 = own sceneR := by
      rcases (StartPose.start_cells sceneR.pl good_sceneR.pl sceneR.cm sceneR.robot (cell sceneR goalR) x hx).2.2 with ⟨k, -⟩ | ⟨-, k⟩ | ⟨k, -⟩
      · cases k
      · rw [k]; rfl
      · unfold own at hfree; omega
    rw [hxo, own_sceneR]
    simp only [apart, cell_goalR]
    decide)
  have hmem : Out.path ps ∈ published s s' := by rw [h3]; simp
  have hph : s'.phase ≠ .finishing := by
    intro hfin
    have hplan : PlannerNode.planPath 1 w s = some s' := by
      have : (if s.cfg.trigger = true then some s else PlannerNode.planPath 1 w s) = some s' := h2
      rwa [if_neg (by
        have e1 : (run tightCfg goalR (historyOf goalR)).map (·.cfg.trigger) = some false := rfl
        rw [h1] at e1
        rw [show s.cfg.trigger = false from Option.some.inj e1]; decide)] at this
    rcases PlannerNode.planPath_last 1 w s s' hplan with k | k
    · rw [hfin] at k; cases k
    · have h5 : s'.log.getLast? = some (.status .doing .goingWell) := by
        have : (published s s').getLast? = some (.status .doing .goingWell) := by rw [h3]; simp
        unfold published at this
        rw [List.getLast?_drop] at this
        split at this
        · cases this
        · exact this
      rw [h5, hfin] at k
      cases k
  exact ⟨s, s', w, ps, h1, h2, hmem, h4, hph, _, _, _, hw⟩

/-- The costmap node publishes, the planner receives, is given a goal and sends a path that is not empty; the robot on no pose of it touches the occupied cell. -/
example : ∃ (c : CSpace.Cells) (cm0 : Cell → Int) (s s' : St P) (w : World P) (ps : List P),
    Pipeline.Publishes 10 sq .max 2 [.staticOut] row (Pipeline.message (Layers.infoOf 2 row) 7 c) ∧ Pipeline.Receives 0 (Pipeline.message (Layers.infoOf 2 row) 7 c) cm0 ∧
    run tightCfg goalR (historyOf goalR) = some s ∧ step s (.cycle 1 w) = some s' ∧ Out.path ps ∈ published s s' ∧ ps ≠ [] ∧
    ∀ q ∈ ps, ∀ z, Pipeline.InCell row 3 0 z → ¬ Pipeline.Touches sq q z := by
  obtain ⟨c, hc, hp⟩ := Pipeline.row_publishes
  obtain ⟨s, s', w, ps, h1, h2, hmem, h4, hph, m, best, stopped, hw⟩ := runR
  refine ⟨c, _, s, s', w, ps, hp, Pipeline.row_receives c, h1, h2, hmem, h4, fun q hq z hz => ?_⟩
  refine robot_touches_nothing 10 sq .max 2 [.staticOut] (1 / 5) (by norm_num [Pipeline.sq]) (by norm_num [Pipeline.sq]) (by norm_num) (by norm_num [Pipeline.sq]) (by norm_num [Pipeline.sq])
    Pipeline.sq_core ⟨[], [], rfl, by simp, by simp⟩ row ⟨by norm_num [row], by simp [row]⟩ Pipeline.sq_compact _ hp 0 _ (Pipeline.row_receives c) s s' (.cycle 1 w) h2
    ?_ ps hmem (fun k => absurd k hph) q hq ?_ 3 0 ⟨by simp [row], by simp [row], by simp [row]⟩ z hz
  · intro w' hw'
    rw [List.mem_singleton.mp hw']
    refine ⟨sceneR, 2, m, best, stopped, hw, good_sceneR, ⟨by norm_num [sceneR, g4, g1, row], by norm_num [sceneR, g4, g1, row], by norm_num [sceneR, g4, g1],
      by norm_num [sceneR, g4, g1, row]⟩, rfl, fun a ha => ?_⟩
    exact ((Pipeline.row_raised c hc).2 a (cm4I a) (by rw [← known_sceneR]; exact known_some.mpr ⟨ha, rfl⟩)).2
  · intro x y hx hy _
    simp only [row] at hx hy
    have : x = 0 ∨ x = 1 ∨ x = 2 ∨ x = 3 := by omega
    obtain rfl : y = 0 := by omega
    rcases this with rfl | rfl | rfl | rfl <;> simp [Pipeline.Known, row]

end Verif.Scene
