import Verif.Scene.Lemmas
import Verif.Model3D.Ends
import Verif.PlannerNode.Deliver
/-! # C131: a goal the robot can drive to gets a clear path -/
namespace Verif.Scene
open Verif.Model3D Verif.Model3D.Spec
open Verif.GridMetric (Cell Pose grid2Metric grid2MetricF appendPath)
open Verif.DistMap (DM)
open Verif.DistMap.Grid (Pos env inMap)
open Verif.Guide (column Drive InRange)
open Verif.Astar.Vec (Search Why)
open Verif.PlannerNode (World Event Cfg St run step Undisturbed Looks Recent Patient Stands NearGoal goalTolerance published Calm)

/-- **C131**: a goal that the robot can drive to gets a path, and the robot can drive it.  The node pursues a goal (for the other conditions see C130), what it knows is the scene
`sc`, and wherever the goal may stand, the robot can drive there within the computed part of the distance map and is not there yet.  Then the next planning cycle, in both modes, sends
(after nothing but empty paths) a path that is not empty, all of whose poses are clear of obstacles, that begins at most one cell away from the robot, and that ends in the goal's
cell or, if the goal is far away, well on the way to it. -/
theorem drivable_goal_gets_path (c : Cfg) (p : P) (h : List (Event P)) (e : Event P) (s s' : St P) (now : Int) (w : World P)
    (sc : Scene) (B : Rat) (m : Option P → DM Pos Rat) (best : Bool) (stopped : Option P → P → Bool) (cells : List Pos) (eye : Cell)
    (hr : run c p h = some s) (hu : Undisturbed c p h) (he : Looks s now w e) (hf : Recent s (h ++ [e]) now)
    (hg : s.hasGoal = true) (hph : s.phase ≠ .finishing) (hn : s.escaping = .no) (hp : Patient s)
    (hsc : Shows sc m best stopped w) (good : Good sc B) (hcells : ∀ v, inMap sc.d v = true → v ∈ cells)
    (hon : StartPose.OnMap sc.pl.map (own sc)) (hfree : sc.cm (own sc) ≤ 99)
    (hdrive : ∀ g, Stands (h ++ [e]) s.goalOriginal g → ¬ NearGoal w g (goalTolerance s) ∧ Drivable sc (m (some g)) cells eye g ∧ stopped (some g) g = false)
    (hs : step s e = some s') :
    ∃ g n ps, Stands (h ++ [e]) s.goalOriginal g ∧
      published s s' = List.replicate n (.path []) ++ [.path ps, .status s.phase .goingWell] ∧
      ps ≠ [] ∧ (∀ q ∈ ps, Clear sc q) ∧ Begins sc ps ∧ Ends sc (m (some g)) g ps := by
  have hst : ∀ g, w.starts g ≠ none := fun g => by
    rw [hsc.starts, if_neg (own_start good hon hfree g).1]; simp
  have hcalm : Calm w s.goalOriginal := by
    have hd := (hdrive _ (.inl rfl)).2.1
    rw [Calm, hsc.start, hsc.goal, place_free hon hfree, place_free hd.onMap hd.free]
    simp
  have hout : ∀ g, Stands (h ++ [e]) s.goalOriginal g → w.found (some g) g = true := fun g hgs => by
    have ho := hsc.search (some g) g (hst g)
    rw [(hdrive g hgs).2.2] at ho
    exact outcome_found good hcells hon hfree (hdrive g hgs).2.1 ho
  obtain ⟨g, n, h1, h2⟩ := PlannerNode.path_delivered c p h e s s' now w hr hu he hf hcalm hg hph hn hp (fun g hgs =>
    ⟨Option.ne_none_iff_exists'.mp (hst g), (hdrive g hgs).1, hsc.unreachable _ _ _ (succeeds_from good hcells (hdrive g hgs).2.1).1, hout g hgs⟩) hs
  have ho := hsc.search (some g) g (hst g)
  rw [hout g h1] at ho
  obtain ⟨k1, k2, ⟨x, hx, k3⟩, a, k4, k5⟩ := outcome_path good ho
  obtain ⟨-, -, hnear⟩ := own_start good hon hfree g
  exact ⟨g, n, _, h1, h2, k1, k2, ⟨x.1, k3, (hnear x hx).2.2.2⟩, a, k4,
    k5.imp_right fun k => k.imp_right fun ⟨⟨y, hy, e⟩, k⟩ => ⟨e ▸ (hnear y hy).2.2.2, k⟩⟩

/-- **C89**: in a world that shows a scene the node never returns to an occupied original goal: the hypothesis of `PlannerNode.never_undefined` holds. -/
theorem shown_consistent {sc : Scene} {m : Option P → DM Pos Rat} {best : Bool} {stopped : Option P → P → Bool} {w : World P} (h : Shows sc m best stopped w) :
    PlannerNode.Consistent w := by
  intro c o k1 k2
  rw [h.goal] at k2
  exact absurd (h.crowd c o k1) (not_lt.mpr (place_rock k2))

/-- **C89**: whatever the scenes (costmaps, poses, parameters) at the events of a history, the node does not run into undefined behaviour. -/
theorem never_undefined (c : Cfg) (p : P) (h : List (Event P)) (hh : ∀ e ∈ h, ∀ w ∈ PlannerNode.worlds e, ∃ sc m best stopped, Shows sc m best stopped w) :
    ∃ s, run c p h = some s :=
  PlannerNode.never_undefined c p h fun e he w hw => by
    obtain ⟨sc, m, best, stopped, k⟩ := hh e he w hw
    exact shown_consistent k

/-! ### Scenes can be shown -/

/-- Every good scene is that of some world: the search always ends. -/
theorem exists_world {sc : Scene} {B : Rat} (hg : Good sc B) (m : Option P → DM Pos Rat) (best : Bool) (stopped : Option P → P → Bool)
    (w0 : World P) (hw0 : ∀ c p, w0.crowd c p ≠ .original) : ∃ w, Shows sc m best stopped w ∧ w.waits = w0.waits ∧ w.crowd = w0.crowd ∧ w.simple = w0.simple ∧ w.turns = w0.turns := by
  have key : ∀ o p, ∃ b ps, Outcome sc (m o) best p (stopped o p) b ps := by
    intro o p
    by_cases h : ∃ x ∈ (starts sc p).2, x.1 = cell sc p
    · exact ⟨_, _, .same h⟩
    · push Not at h
      have hE : Rounds sc (m o) p (fun v => match Guide.startEstim sc.g sc.c (m o) (cell sc p) (ofVec v) with | none => ⊤ | some k => (((k : Int) : ℝ) : WithTop ℝ)) := by
        intro a k hk
        show (match Guide.startEstim sc.g sc.c (m o) (cell sc p) a with | none => ⊤ | some k => (((k : Int) : ℝ) : WithTop ℝ)) = _
        rw [hk]
      obtain ⟨why, r, hw, hs⟩ := (plan_ends sc.g ⟨hg.size.1, hg.size.2, hg.g.angle_pos⟩ sc.c sc.u (known sc) sc.hy sc.lr ((starts sc p).2.map Prod.fst) 0
        (Guide.searchEstim sc.g sc.c (m o) (cell sc p)) _ ((starts sc p).2.map fun x => (toVec x.1, (x.2 : WithTop ℝ))) (toVec (cell sc p))
        (fun q raw => open Classical in decide (q < raw + (rangeLimit sc (m o) : WithTop ℝ))) 1 0 rfl (by
          intro s hs
          obtain ⟨y, hy, rfl⟩ := List.mem_map.mp hs
          exact ⟨WithTop.coe_nonneg.mpr (start_free hg hy).1, rfl⟩)).2 best
      exact ⟨_, _, .search h Nat.one_pos hE hs (fun k => absurd k hw)⟩
  choose fb fp hfp using key
  exact ⟨{ w0 with
    start := place sc (own sc)
    goal := fun p => place sc (cell sc p)
    starts := fun p => if (starts sc p).1 = .occupied then none else some ((starts sc p).2.map fun x => apart sc p x.1)
    unreachable := fun o p => (Guide.goalUnreachable (m o) (known sc) (own sc) (cell sc p)).getD false
    found := fb
    poses := fp }, ⟨rfl, fun _ => rfl, fun _ => rfl, fun o p b h => by simp [h], fun c p h => absurd h (hw0 c p), fun o p _ => hfp o p⟩, rfl, rfl, rfl, rfl⟩

open Verif.Guide (gW gW_sane cmW cmWI cfgW cfgW_good cells24 mem_cells24 moderateW plW plW_sane ownW fitsW aheadW cmW_inside lethalRow)

/-- The 4×6 map of `Verif.Guide` without walls, the robot at (1.5, 2.5). -/
noncomputable def sceneW : Scene where
  pl := plW false
  g := gW
  c := w0
  cm := cmWI 2
  u := true
  hy := cmW 2
  lr := 0
  d := cfgW 2
  robot := ⟨⟨3 / 2, 5 / 2⟩, 0, .nan⟩

theorem known_sceneW : known sceneW = cmW 2 := rfl

theorem own_sceneW : own sceneW = ⟨1, 2, 0⟩ := by
  have f1 : ⌊(3 / 2 : ℝ)⌋ = 1 := by rw [Int.floor_eq_iff]; norm_num
  have f2 : ⌊(5 / 2 : ℝ)⌋ = 2 := by rw [Int.floor_eq_iff]; norm_num
  have ho := ownW false (3 / 2) (5 / 2)
  rw [f1, f2] at ho
  exact ho

theorem good_sceneW : Good sceneW 2 where
  pl := plW_sane false
  g := gW_sane
  even := ⟨1, by norm_num [sceneW, gW]⟩
  ger := by norm_num [sceneW, gW]
  size := ⟨by norm_num [sceneW, gW], by norm_num [sceneW, gW]⟩
  same := ⟨rfl, rfl, rfl, by norm_num [sceneW, plW], fun a ha => known_some.mpr ⟨ha, rfl⟩⟩
  wt := by constructor <;> norm_num [sceneW, w0]
  weight := by norm_num [sceneW, plW]
  cm := fun a => by simp only [sceneW, cmWI, lethalRow]; split <;> decide
  hy := ⟨fun a ha => ⟨_, if_pos ha⟩, fun a v h => by
    simp only [sceneW, cmW] at h
    split at h
    · cases h; unfold lethalRow; split <;> decide
    · cases h⟩
  fits := fitsW 2
  cfg := cfgW_good 2
  tasks := by decide
  moderate := moderateW

/-- The centre of the cell (2, 2). -/
noncomputable def goalW : P := ⟨5 / 2, 5 / 2, 0⟩

theorem cell_goalW : cell sceneW goalW = ⟨2, 2, 0⟩ := by
  have f : ⌊(5 / 2 : ℝ)⌋ = 2 := by rw [Int.floor_eq_iff]; norm_num
  unfold cell GridMetric.metric2Grid goalW sceneW plW
  simp only [sub_zero, div_one, f]
  have : Verif.CSpace.lround (0 : ℝ) = 0 := by simpa using GridMetric.lround_int (K := ℝ) 0
  rw [this, Model3D.cycU_id 0 2 (by norm_num) ⟨le_rfl, by norm_num⟩]

/-- Nothing is known of the floor before. -/
def emptyFloor : World P where
  start := .ok
  goal := fun _ => .ok
  simple := none
  crowd := fun _ _ => .nothing
  starts := fun _ => some [(100, 0)]
  unreachable := fun _ _ => false
  waits := fun _ _ => 0
  found := fun _ _ => true
  poses := fun _ g => [g]
  turns := fun _ => false
  heading := fun _ => 0
  lethal := fun _ => false

def readyP : List (Event P) := [.map 1 emptyFloor (some ⟨0, true, true, emptyFloor⟩), .located true]

/-- A map, the robot located, the goal `p` requested. -/
def historyOf (p : P) : List (Event P) := readyP ++ [Event.baseGoal false ⟨1, p, true⟩ emptyFloor]

/-- The parameters, with tolerances smaller than a cell. -/
def tightCfg : Cfg := { PlannerNode.someCfg with tolLin := 0, tolAng := 0 }

theorem mapW : ∃ m : DM Pos Rat, DistMap.Spec.Hist (env (cfgW 2)) cells24 (2, 2) (1, 2) m ∧ ∀ v, 0 ≤ m.g v := by
  obtain ⟨m, h1⟩ : ∃ m, DistMap.createD (env (cfgW 2)) 60 (1, 2) (2, 2) DistMap.initDM = some m :=
    Option.isSome_iff_exists.mp (by decide +kernel)
  have hh : DistMap.Spec.Hist (env (cfgW 2)) cells24 (2, 2) (1, 2) m :=
    .create (by decide +kernel) (by decide +kernel) (DistMap.createD_create _ _ _ _ _ h1)
  exact ⟨m, hh, (Guide.goal_zero (cfgW_good 2) (by decide) mem_cells24 hh).2⟩

theorem drivableW {m : DM Pos Rat} (hh : DistMap.Spec.Hist (env (cfgW 2)) cells24 (2, 2) (1, 2) m) (hpos : ∀ v, 0 ≤ m.g v) :
    Drivable sceneW m cells24 ⟨1, 2, 0⟩ goalW where
  onMap := by rw [cell_goalW]; norm_num [StartPose.OnMap, sceneW, plW]
  free := by rw [cell_goalW]; decide
  map := by rw [cell_goalW]; exact hh
  apart := by rw [cell_goalW]; decide
  here := by
    rw [cell_goalW, own_sceneW]
    obtain ⟨w, hw1, hw2⟩ : ∃ w : Rat, DistMap.Spec.Step (env (cfgW 2)) (2, 2) (1, 2) w ∧ w ≤ 2 :=
      ⟨1, ⟨1, by decide +kernel⟩, by norm_num⟩
    refine ⟨_, .step .goal hw1, ?_⟩
    have := hpos (1, 2)
    change -(1 : Rat) * (1 / 2) + w ≤ m.g (1, 2) + 4
    linarith
  way := by
    rw [cell_goalW, own_sceneW]
    exact .single ⟨aheadW 2 _, _, .goal, by
      have := hpos (1, 2)
      change -(1 : Rat) * (1 / 2) ≤ m.g (1, 2) + 4
      linarith⟩

/-- A run in a given scene with a goal the robot can drive to: a path is sent. -/
theorem shown_run {sc : Scene} {B : Rat} {m : DM Pos Rat} {cells : List Pos} {eye : Cell} {p : P} (good : Good sc B) (hcells : ∀ v, inMap sc.d v = true → v ∈ cells)
    (hon : StartPose.OnMap sc.pl.map (own sc)) (hfree : sc.cm (own sc) ≤ 99) (hd : Drivable sc m cells eye p)
    (hnear : ∀ x ∈ (starts sc p).2, ¬ (apart sc p x.1).1 ≤ 0) :
    ∃ (s s' : St P) (w : World P) (n : Nat) (ps : List P), run tightCfg p (historyOf p) = some s ∧ step s (.cycle 1 w) = some s' ∧
      Shows sc (fun _ => m) false (fun _ _ => false) w ∧
      published s s' = List.replicate n (.path []) ++ [.path ps, .status .doing .goingWell] ∧ ps ≠ [] := by
  obtain ⟨w, hw, -, -, hsimple, -⟩ := exists_world good (fun _ => m) false (fun _ _ => false) emptyFloor (fun _ _ => by simp [emptyFloor])
  have e1 : (run tightCfg p (historyOf p)).isSome = true := rfl
  obtain ⟨s, hs⟩ := Option.isSome_iff_exists.mp e1
  have get : ∀ {α : Type} (f : St P → α) (v : α), (run tightCfg p (historyOf p)).map f = some v → f s = v := by
    intro α f v hv
    rw [hs] at hv
    exact Option.some.inj hv
  have a1 : s.hasMap = true := get (·.hasMap) true rfl
  have a2 : s.hasStart = true := get (·.hasStart) true rfl
  have a3 : s.cfg = tightCfg := get (·.cfg) tightCfg rfl
  have a4 : s.hasGoal = true := get (·.hasGoal) true rfl
  have a5 : s.phase = .doing := get (·.phase) .doing rfl
  have a6 : s.escaping = .no := get (·.escaping) .no rfl
  have a7 : s.stuck = 0 := get (·.stuck) 0 rfl
  have a8 : s.goalOriginal = p := get (·.goalOriginal) p rfl
  have a9 : s.tol.active = false := get (·.tol.active) false rfl
  obtain ⟨s', hs'⟩ : ∃ s', step s (.cycle 1 w) = some s' :=
    PlannerNode.step_defined s (.cycle 1 w) (PlannerNode.inv_run _ _ _ s hs) (fun v hv => by
      rw [List.mem_singleton.mp hv]; exact shown_consistent hw)
  have hmoved : ∀ g, Stands ((historyOf p) ++ [.cycle 1 w]) s.goalOriginal g → g = p := by
    intro g hg
    rw [a8] at hg
    rcases hg with rfl | ⟨e, he, v, hv, hk⟩
    · rfl
    · exfalso
      simp only [historyOf, readyP, List.cons_append, List.nil_append, List.mem_cons, List.not_mem_nil, or_false] at he
      rcases he with rfl | rfl | rfl | rfl
      · simp only [PlannerNode.worlds, Option.map_some, Option.toList_some, List.mem_cons, List.not_mem_nil, or_false] at hv
        rcases hv with rfl | rfl <;> cases hk
      · simp [PlannerNode.worlds] at hv
      · rw [List.mem_singleton.mp hv] at hk; cases hk
      · rw [List.mem_singleton.mp hv, hw.goal, place_free hd.onMap hd.free] at hk
        cases hk
  obtain ⟨g, n, ps, -, h2, h3, -⟩ := drivable_goal_gets_path tightCfg p (historyOf p) (.cycle 1 w) s s' 1 w sc B (fun _ => m) false
    (fun _ _ => false) cells eye hs (by
      intro h1 e h2 t hh hr hd
      rcases h1 with _ | ⟨e1, _ | ⟨e2, _ | ⟨e3, h1⟩⟩⟩ <;>
        simp only [historyOf, readyP, List.cons_append, List.nil_append, List.cons.injEq] at hh
      · obtain ⟨rfl, -⟩ := hh
        cases hr; exact absurd (show false = true from hd.1) (by decide)
      · obtain ⟨rfl, rfl, -⟩ := hh
        exact hd
      · obtain ⟨rfl, rfl, rfl, -⟩ := hh
        cases hr; exact absurd (show true = false from hd.2) (by decide)
      · exact absurd hh.2.2.2.symm (by simp))
    ⟨a1, rfl, rfl, by rw [a3]; rfl, a2⟩ (fun _ => by rw [a3]; show (1 : Int) - 0 ≤ 5; decide) a4 (by rw [a5]; decide) a6
    (.inr (by rw [a3, a7]; decide)) hw good hcells hon hfree (fun g hg => by
      rw [hmoved g hg]
      refine ⟨?_, hd, rfl⟩
      rintro ⟨ds, k1, d, k2, k3, -⟩
      rw [hw.starts, if_neg (own_start good hon hfree p).1] at k1
      cases k1
      obtain ⟨x, hx, rfl⟩ := List.mem_map.mp k2
      simp only [goalTolerance, a9, a3] at k3
      exact hnear x hx k3) hs'
  rw [a5] at h2
  exact ⟨s, s', w, n, ps, hs, hs', hw, h2, h3⟩

theorem near_sceneW : ∀ x ∈ (starts sceneW goalW).2, ¬ (apart sceneW goalW x.1).1 ≤ 0 := by
  intro x hx
  have hxo : x.1 = own sceneW := by
    rcases (StartPose.start_cells sceneW.pl good_sceneW.pl sceneW.cm sceneW.robot (cell sceneW goalW) x hx).2.2 with ⟨k, -⟩ | ⟨-, k⟩ | ⟨k, -⟩
    · cases k
    · rw [k]; rfl
    · have hfree : sceneW.cm (own sceneW) ≤ 99 := by rw [own_sceneW]; decide
      unfold own at hfree; omega
  rw [hxo, own_sceneW]
  simp only [apart, cell_goalW]
  decide

/-- A robot on the map without walls, a goal one cell ahead: the cycle sends a clear path to the goal. -/
example : ∃ (s s' : St P) (w : World P) (n : Nat) (ps : List P), run tightCfg goalW (historyOf goalW) = some s ∧ step s (.cycle 1 w) = some s' ∧
    published s s' = List.replicate n (.path []) ++ [.path ps, .status .doing .goingWell] ∧ ps ≠ [] := by
  obtain ⟨m, hm, hpos⟩ := mapW
  obtain ⟨s, s', w, n, ps, h1, h2, -, h3, h4⟩ := shown_run good_sceneW mem_cells24 (by rw [own_sceneW]; norm_num [StartPose.OnMap, sceneW, plW])
    (by rw [own_sceneW]; decide) (drivableW hm hpos) near_sceneW
  exact ⟨s, s', w, n, ps, h1, h2, h3, h4⟩

end Verif.Scene
