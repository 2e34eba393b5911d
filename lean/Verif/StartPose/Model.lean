import Verif.Path2D.Model
import Verif.GridMetric.Model
import Verif.SearchPos.Model
/-! # Where the next plan starts

`planner_cspace/src/start_pose_predictor.cpp` (which part of the previous path is kept) and `buildStartPoses`, `isPathFinishing`,
`getSwitchIndex` and the assembly of the published path in `planner_cspace/src/planner_3d.cpp`.

Exact real numbers.  A costmap is a partial function on cells; reading outside its domain is the outcome `none`. -/
namespace Verif.StartPose
open Verif.GridMetric (Cell Info metric2Grid metric2GridF isGridCenter grid2MetricF)
open Verif.Model3D (cycU cycS)
open Verif.CSpace (lround)
open Verif.Path2D (PoseMsg fromMsg toMsg findNearest Goals etas)

/-- `StartPosePredictor::Config`, start_pose_predictor.h:52–59. -/
structure Config where
  predict : ℝ
  switchPredict : ℝ
  distStop : ℝ
  lin : ℝ
  ang : ℝ

/-- Coordinates of a path pose. -/
def coords (p : Path2D.Pose) : GridMetric.Pose ℝ := ⟨p.pos.re, p.pos.im, p.yaw⟩

/-- `metric2Grid` followed by `cycleUnsigned`, start_pose_predictor.cpp:145–148 and 181–184. -/
noncomputable def cellOf (g : Info ℝ) (p : Path2D.Pose) : Cell :=
  let c := metric2Grid g (coords p)
  ⟨c.x, c.y, cycU c.yaw g.angle⟩

/-- `removeAlreadyPassed`, start_pose_predictor.cpp:83–120: the rest of the path, `none` when the robot is too far from it.  The outer
`none` is a read outside of the path. -/
noncomputable def dropPassed (c : Config) (robot : ℂ) (P : List Path2D.Pose) : Option (Option (List Path2D.Pose)) :=
  match findNearest P 0 P.length robot 0 (1 / 1000000) with
  | none => none
  | some (_, none) => some none
  | some (n, some d) =>
    if d > c.distStop then some none
    else if P.length = 1 then some (some P)
    else
      match P[0]? with
      | none => none
      | some p0 =>
        if n = 1 ∧ |‖robot - p0.pos‖ - d| < 1 / 1000000 then some (some P)
        else some (some (P.drop n))

/-- `getInitialETA`, start_pose_predictor.cpp:122–130. -/
noncomputable def initialEta (c : Config) (robot : Path2D.Pose) (p : Path2D.Pose) : ℝ :=
  let d := |p.yaw - robot.yaw|
  let d := if d > Real.pi then 2 * Real.pi - d else d
  max (|d| / c.ang) (‖p.pos - robot.pos‖ / c.lin)

/-- `getSwitchBack`, start_pose_predictor.cpp:194–228: the index of the pose before a local goal `g`, among the local goals `gs` of
`enumerateLocalGoals`.  The inner `none` is `end()`, the outer one a read outside of an array. -/
noncomputable def switchBack (c : Config) (g : Info ℝ) (P : List Path2D.Pose) (ts : List ℝ) : List Nat → Option (Option Nat)
  | [] => some none
  | k :: gs =>
    match P[k - 1]?, ts[k - 1]? with
    | some p, some t =>
      if isGridCenter g (coords p) ∧ c.predict < t ∧ t < c.switchPredict then some (some (k - 1))
      else switchBack c g P ts gs
    | _, _ => none

/-- `getExpectedPose`, start_pose_predictor.cpp:230–244, from index `i` on; `n` is `size() - 1`. -/
noncomputable def expected (c : Config) (g : Info ℝ) (P : List Path2D.Pose) (ts : List ℝ) (n i : Nat) : Option (Option Nat) :=
  if i < n then
    match P[i]?, ts[i]? with
    | some p, some t =>
      if t > c.predict ∧ isGridCenter g (coords p) then some (some i) else expected c g P ts n (i + 1)
    | _, _ => none
  else some none
termination_by n - i

/-- `isPathColliding`, start_pose_predictor.cpp:176–192; `none`: the costmap is read outside of the map. -/
noncomputable def colliding (g : Info ℝ) (cm : Cell → Option Int) : List Path2D.Pose → Option Bool
  | [] => some false
  | p :: ps =>
    match cm (cellOf g p) with
    | none => none
    | some v => if v = 100 then some true else colliding g cm ps

/-- What the predictor keeps: the start cell of the next plan, the preserved path and its length. -/
structure Result where
  start : Cell
  kept : List PoseMsg
  len : ℝ

/-- `buildResults`, start_pose_predictor.cpp:132–163, with the expected start pose at index `k`. -/
noncomputable def buildResults (g : Info ℝ) (cm : Cell → Option Int) (P : List Path2D.Pose) (k : Nat) : Option (Option Result) :=
  match colliding g cm (P.take k), P[k]? with
  | some true, _ => some none
  | some false, some e =>
    some (some { start := cellOf g e, kept := (toMsg false (P.take (k + 1))).dropLast, len := Path2D.length (P.take (k + 1)) })
  | _, _ => none

/-- `process`, start_pose_predictor.cpp:42–74.  `gs` are the results of `enumerateLocalGoals` on the remaining path (see `Process`).
The inner `none` is `return false`. -/
noncomputable def process (c : Config) (g : Info ℝ) (cm : Cell → Option Int) (robot : Path2D.Pose) (gs : List Nat)
    (msg : List PoseMsg) : Option (Option Result) :=
  let P := fromMsg false (1 / 1000000) msg
  if P.isEmpty then some none
  else
    match dropPassed c robot.pos P with
    | none => none
    | some none => some none
    | some (some Q) =>
      match Q with
      | [] => none
      | p :: ps =>
        let ts := etas c.lin c.ang (initialEta c robot p) (p :: ps)
        match switchBack c g (p :: ps) ts gs with
        | none => none
        | some (some k) => buildResults g cm (p :: ps) k
        | some none =>
          match expected c g (p :: ps) ts ps.length 0 with
          | none => none
          | some (some k) => buildResults g cm (p :: ps) k
          | some none => buildResults g cm (p :: ps) ps.length

/-- `gs` are the local goals (switch backs) of the path that remains. -/
def LocalGoals (c : Config) (robot : Path2D.Pose) (gs : List Nat) (msg : List PoseMsg) : Prop :=
  ∀ Q, dropPassed c robot.pos (fromMsg false (1 / 1000000) msg) = some (some Q) → Goals Q Q.length true false (1 / 1000000) 0 gs

/-! ### Start poses -/

/-- What `buildStartPoses` uses: the map, `antialias_start_`, the weights, the tolerances of `searchAvailablePos` and of
`isPathFinishing`. -/
structure Plan where
  info : Info ℝ
  map : SearchPos.Map
  antialias : Bool
  ec0 : ℝ
  weight : ℝ
  tolRange : Int
  tolAngle : Int
  finLin : Int
  finAng : Int
  dist : Cell → ℝ

/-- `cm_.validate(p, range_)`. -/
def valid (m : SearchPos.Map) (c : Cell) : Bool := Gridmap.validateLoop m.range 2 [c.x, c.y, c.yaw] [m.width, m.height, m.angle]

/-- `isPathFinishing`, planner_3d.cpp:1787–1808, for given tolerances. -/
def finishing (pl : Plan) (s e : Cell) : Bool :=
  decide ((s.x - e.x) * (s.x - e.x) + (s.y - e.y) * (s.y - e.y) ≤ pl.finLin * pl.finLin ∧
    |cycS (s.yaw - e.yaw) pl.map.angle| ≤ pl.finAng)

/-- `StartPoseStatus`. -/
inductive Status where
  | occupied | finishing | normal
deriving DecidableEq

/-- planner_3d.cpp:1816–1821: the robot's exact grid coordinates and its cell. -/
noncomputable def ownCell (pl : Plan) (robot : Path2D.Pose) : Cell :=
  let sf := metric2GridF pl.info (coords robot)
  ⟨⌊sf.x⌋, ⌊sf.y⌋, cycU (lround sf.yaw) pl.map.angle⟩

/-- planner_3d.cpp:1850–1851: the second candidate in one direction. -/
noncomputable def side (x : ℝ) (c : Int) : Int := if x - (c : ℝ) < 1 / 2 then -1 else 1

/-- planner_3d.cpp:1856–1871: one candidate with its cost. -/
noncomputable def candidate (pl : Plan) (cm : Cell → Int) (robot : Path2D.Pose) (p : Cell) : Option (Cell × ℝ) :=
  let sf := metric2GridF pl.info (coords robot)
  if valid pl.map p = false then none
  else if (sf.x - ((p.x : ℝ) + 1 / 2)) ^ 2 + (sf.y - ((p.y : ℝ) + 1 / 2)) ^ 2 > 1 then none
  else if cm p > 99 then none
  else some (p, Real.sqrt ((((p.x : ℝ) + 1 / 2 - sf.x) * pl.ec0) ^ 2 + (((p.y : ℝ) + 1 / 2 - sf.y) * pl.ec0) ^ 2) +
    (cm p : ℝ) * pl.weight / 100)

/-- planner_3d.cpp:1848–1876: the start poses before relocation. -/
noncomputable def nearStarts (pl : Plan) (cm : Cell → Int) (robot : Path2D.Pose) : List (Cell × ℝ) :=
  let sf := metric2GridF pl.info (coords robot)
  let s := ownCell pl robot
  if pl.antialias then
    ([0, side sf.x s.x].flatMap fun dx => [0, side sf.y s.y].map fun dy => (⟨s.x + dx, s.y + dy, s.yaw⟩ : Cell)).filterMap
      (candidate pl cm robot)
  else if cm s < 100 then [(s, 0)] else []

/-- `buildStartPoses`, planner_3d.cpp:1810–1898.  `keep` is the result of the start pose predictor when a part of the previous path is
to be kept (`keep_a_part_of_previous_path_` and a previous path exists), `none` otherwise; its inner `none` is `return false`. -/
noncomputable def starts (pl : Plan) (cm : Cell → Int) (robot : Path2D.Pose) (goal : Cell) (keep : Option (Option Cell)) :
    Status × List (Cell × ℝ) :=
  let s := ownCell pl robot
  if valid pl.map s = false then (.occupied, [])
  else
    match keep with
    | some (some k) => (if finishing pl s goal then .finishing else .normal, [(k, 0)])
    | some none => (.occupied, [])
    | none =>
      let l := nearStarts pl cm robot
      let r := if l = [] then (SearchPos.searchAvailablePos pl.map cm pl.dist s pl.tolRange pl.tolAngle).map fun s' => [(s', 0)] else some l
      match r with
      | none => (.occupied, [])
      | some l => (if l.any fun x => finishing pl x.1 goal then .finishing else .normal, l)

/-- planner_3d.cpp:2026–2028: the published path: the preserved part, then the interpolated new plan. -/
noncomputable def publishedPath (g : Info ℝ) (kept : List (GridMetric.Pose ℝ)) (plan : List (GridMetric.Pose ℝ)) : List (GridMetric.Pose ℝ) :=
  GridMetric.appendPath g plan kept

/-! ### Switch backs of the published path -/

/-- Loop of `getSwitchIndex`, planner_3d.cpp:2331–2363: `i` is the index of the next pose, `dir` is `dir_prev` when `dir_set`. -/
noncomputable def switchLoop : Nat → Path2D.Pose → Option Bool → List Path2D.Pose → Option Nat
  | _, _, _, [] => none
  | i, prev, dir, p :: ps =>
    if Complex.normSq (p.pos - prev.pos) > (1 / 1000) ^ 2 then
      let d := decide (Real.cos p.yaw * (p.pos.re - prev.pos.re) + Real.sin p.yaw * (p.pos.im - prev.pos.im) < 0)
      match dir with
      | some d' => if d' != d then some i else switchLoop (i + 1) p (some d) ps
      | none => switchLoop (i + 1) p (some d) ps
    else switchLoop (i + 1) p dir ps

/-- `getSwitchIndex`, planner_3d.cpp:2331–2363; `none` is −1. -/
noncomputable def switchIndex : List Path2D.Pose → Option Nat
  | [] => none
  | p :: ps => switchLoop 1 p none ps

end Verif.StartPose
