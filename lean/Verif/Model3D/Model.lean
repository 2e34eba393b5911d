import Verif.GridMetric.Model
import Mathlib.Analysis.SpecialFunctions.Trigonometric.Basic
import Mathlib.Analysis.SpecialFunctions.Sqrt
/-! # Motions of the 3-DOF planner: caches, motion primitives and costs

`planner_cspace/src/rotation_cache.cpp`, `rotation_cache.h`, `motion_cache.cpp`, `motion_cache.h`,
`motion_primitive_builder.cpp`, `grid_astar_model_3dof.cpp`, and the `float` members of `cyclic_vec.h`.

`float`/`double` are real numbers (exact arithmetic and exact trigonometry).  Where the code produces an infinity or a NaN
the model says so explicitly.  A `char` costmap cell is an integer; a costmap is a partial function on cells, and reading
outside its domain is the outcome `undefined`. -/
set_option linter.unusedVariables false
namespace Verif.Model3D
open Verif.GridMetric (Cell Pose)
open Verif.CSpace (lround)
open Real

/-! ### Vectors -/

/-- `normalizeFloatAngle`, cyclic_vec.h 65–71. -/
noncomputable def normAngle (v : ℝ) : ℝ :=
  if v > π then v - 2 * π else if v < -π then v + 2 * π else v

/-- `CyclicVecFloat::rotate`, cyclic_vec.h 268–278. -/
noncomputable def rotate (v : Pose ℝ) (a : ℝ) : Pose ℝ :=
  ⟨cos a * v.x - sin a * v.y, sin a * v.x + cos a * v.y, normAngle (v.yaw + a)⟩

/-- `CyclicVecFloat::len`, cyclic_vec.h 240–252. -/
noncomputable def lenF (v : Pose ℝ) : ℝ := √(v.x * v.x + v.y * v.y)

/-- `CyclicVecInt::sqlen`, cyclic_vec.h 240–248. -/
def sqlen (d : Cell) : Int := d.x * d.x + d.y * d.y

/-- `CyclicVecInt::len`. -/
noncomputable def len (d : Cell) : ℝ := √((sqlen d : Int) : ℝ)

/-- `cycleUnsigned` of one element (see `Verif.CyclicVec`); the modulus is not zero where this is used. -/
def cycU (e angle : Int) : Int := (CyclicVec.cycleUnsignedElement e angle).getD e

/-- `cycle` of one element. -/
def cycS (e angle : Int) : Int := (CyclicVec.cycleElement e angle).getD e

/-- `std::copysign` (no negative zero in exact arithmetic). -/
noncomputable def copysign (a b : ℝ) : ℝ := if b < 0 then -|a| else |a|

/-- The integers `a … b` of a counting loop. -/
def upTo (a b : Int) : List Int := (List.range (b - a + 1).toNat).map fun (k : Nat) => a + (k : Int)

/-! ### The rotation cache -/

/-- Map geometry and search range: `map_info_`, `range_`. `angle` is `map_info_.angle`. -/
structure Geo where
  width : Int
  height : Int
  angle : Int
  res : ℝ
  ares : ℝ
  range : Int
  /-- `path_interpolation_resolution` -/
  ires : ℝ
  /-- `grid_enumeration_resolution` -/
  ger : ℝ

/-- rotation_cache.cpp 60, motion_cache.cpp 53: the number of headings computed from the angular resolution. -/
noncomputable def headings (g : Geo) : Int := lround (π * 2 / g.ares)

/-- rotation_cache.cpp 83–88, motion_cache.cpp 121–124: the signed turning radii that fit the start and the end heading
of a displacement in the frame of the start. Meaningful when `sin v.yaw ≠ 0`. -/
noncomputable def radii (v : Pose ℝ) : ℝ × ℝ :=
  (v.y + v.x * cos v.yaw / sin v.yaw,
   copysign (√(v.x ^ 2 + (v.x * cos v.yaw / sin v.yaw) ^ 2)) (v.x * sin v.yaw))

/-- rotation_cache.cpp 76–80: the displacement `d - range` seen from heading `i`. -/
noncomputable def motionOf (g : Geo) (i : Int) (d : Cell) : Pose ℝ :=
  rotate ⟨((d.x - g.range : Int) : ℝ) * g.res, ((d.y - g.range : Int) : ℝ) * g.res, (d.yaw : ℝ) * g.ares⟩
    (-(i : ℝ) * g.ares)

open Classical in
/-- An entry: the motion and its radii; the radii are not finite (`none`) when the sine vanishes. -/
noncomputable def rcEntry (g : Geo) (i : Int) (d : Cell) : Pose ℝ × Option (ℝ × ℝ) :=
  (motionOf g i d, if sin (motionOf g i d).yaw = 0 then none else some (radii (motionOf g i d)))

/-- `RotationCache::Page::addr`, rotation_cache.h 56–62, with size `(2 range + 1, 2 range + 1, headings)`. -/
def rcAddr (range : Int) (p : Cell) : Int := (p.yaw * (range * 2 + 1) + p.y) * (range * 2 + 1) + p.x

/-- The loops of rotation_cache.cpp 70–74. -/
noncomputable def rcCells (g : Geo) : List Cell :=
  (upTo 0 (g.range * 2)).flatMap fun x => (upTo 0 (g.range * 2)).flatMap fun y =>
    (upTo 0 (headings g - 1)).map fun w => ⟨x, y, w⟩

/-- One page filled by the loops: what each address holds (`none`: not written or outside). -/
noncomputable def rcPage (g : Geo) (i : Int) : Int → Option (Pose ℝ × Option (ℝ × ℝ)) :=
  (rcCells g).foldl (fun pg d => fun a => if a = rcAddr g.range d then some (rcEntry g i d) else pg a) (fun _ => none)

/-- `getMotion`/`getRadiuses`, rotation_cache.h 88–99; `none` is an access outside the cache. -/
noncomputable def rcGet (g : Geo) (start : Int) (end_ : Cell) : Option (Pose ℝ × Option (ℝ × ℝ)) :=
  if 0 ≤ start ∧ start < headings g then rcPage g start (rcAddr g.range end_) else none

/-! ### The motion cache -/

/-- `MotionCache::Page`, motion_cache.h 47–69. -/
structure Page where
  motion : List Cell
  interp : List (Pose ℝ)
  distance : ℝ

/-- motion_cache.cpp 88: number of samples. -/
noncomputable def totalStep (g : Geo) (d : Cell) : Nat := (lround (len d / g.ger)).toNat

/-- motion_cache.cpp 89–90. -/
noncomputable def interpStep (g : Geo) : Nat := (max 1 (lround (g.ires / g.ger))).toNat

/-- motion_cache.cpp 73–86: the displacement in the frame of the start. -/
noncomputable def mcMotion (g : Geo) (syaw : Int) (d : Cell) : Pose ℝ :=
  rotate ⟨(d.x : ℝ) * g.res, (d.y : ℝ) * g.res, (d.yaw : ℝ) * g.ares⟩ (-(syaw : ℝ) * g.ares)

/-- motion_cache.cpp 91: handled as a straight motion. -/
def IsStraight (g : Geo) (syaw : Int) (d : Cell) : Prop := |sin (mcMotion g syaw d).yaw| < 0.1

/-- motion_cache.cpp 95–99: sample of a straight motion at a fraction of the way, in grid coordinates. -/
noncomputable def straightAt (g : Geo) (syaw : Int) (d : Cell) (ratio : ℝ) : Pose ℝ :=
  ⟨(d.x : ℝ) * g.res * ratio / g.res, (d.y : ℝ) * g.res * ratio / g.res, (syaw : ℝ) * g.ares / g.ares⟩

/-- motion_cache.cpp 126–149: sample of a curved motion. -/
noncomputable def curveAt (g : Geo) (syaw : Int) (d : Cell) (ratio : ℝ) : Pose ℝ :=
  let r := radii (mcMotion g syaw d)
  let yaw := (syaw : ℝ) * g.ares
  let yawE := (d.yaw : ℝ) * g.ares
  let dyaw0 := yawE - yaw
  let dyaw := if dyaw0 < -π then dyaw0 + 2 * π else if dyaw0 > π then dyaw0 - 2 * π else dyaw0
  let cx := (d.x : ℝ) * g.res + r.2 * cos (yawE + π / 2)
  let cy := (d.y : ℝ) * g.res + r.2 * sin (yawE + π / 2)
  let cxs := r.1 * cos (yaw + π / 2)
  let cys := r.1 * sin (yaw + π / 2)
  let rr := r.1 * (1 - ratio) + r.2 * ratio
  let cx2 := cxs * (1 - ratio) + cx * ratio
  let cy2 := cys * (1 - ratio) + cy * ratio
  let cyaw := yaw + ratio * dyaw
  ⟨(cx2 - rr * cos (cyaw + π / 2)) / g.res, (cy2 - rr * sin (cyaw + π / 2)) / g.res, cyaw / g.ares⟩

open Classical in
/-- A sample of either kind. -/
noncomputable def sampleAt (g : Geo) (syaw : Int) (d : Cell) (ratio : ℝ) : Pose ℝ :=
  if IsStraight g syaw d then straightAt g syaw d ratio else curveAt g syaw d ratio

/-- motion_cache.cpp 100–101, 150–151: the cell of a sample (conversion to `int` is `lround`, cyclic_vec.h 60–63). -/
noncomputable def cellOf (g : Geo) (p : Pose ℝ) : Cell := ⟨lround p.x, lround p.y, cycU (lround p.yaw) (headings g)⟩

/-- The fraction of step `k`. -/
noncomputable def ratioOf (g : Geo) (d : Cell) (k : Nat) : ℝ := (k : ℝ) / (totalStep g d : ℝ)

/-- motion_cache.cpp 103–109, 152–156: cells are recorded once, and the destination is not recorded.  (`registered`
holds `d` and the recorded cells.) -/
def record (d : Cell) (motion : List Cell) (pos : Cell) : List Cell :=
  if pos ≠ d ∧ pos ∉ motion then motion ++ [pos] else motion

/-- motion_cache.cpp 161–166: length of a curved motion: the sum of the distances between samples. -/
noncomputable def curveLength (g : Geo) (syaw : Int) (d : Cell) : ℝ :=
  let pts := (List.range (totalStep g d)).map fun k => (k, sampleAt g syaw d (ratioOf g d k))
  let r := pts.foldl (fun (acc : ℝ × Pose ℝ) kp =>
    (if ratioOf g d kp.1 > 0 then acc.1 + lenF ⟨kp.2.x - acc.2.x, kp.2.y - acc.2.y, 0⟩ else acc.1, kp.2)) (0, ⟨0, 0, 0⟩)
  r.1 + lenF ⟨(d.x : ℝ) - r.2.x, (d.y : ℝ) - r.2.y, 0⟩

open Classical in
/-- The body of the loops of motion_cache.cpp 62–168 for one start heading and displacement.  (The later sorting of the
recorded cells, 171–187, permutes them; only their set, number and integer sums are used.) -/
noncomputable def page (g : Geo) (syaw : Int) (d : Cell) : Page :=
  { motion := (List.range (totalStep g d)).foldl (fun m k => record d m (cellOf g (sampleAt g syaw d (ratioOf g d k)))) []
    interp := ((List.range (totalStep g d)).filter (fun k => k % interpStep g == 0)).map
      fun k => sampleAt g syaw d (ratioOf g d k)
    distance := if IsStraight g syaw d then len d else curveLength g syaw d }

/-- The loops of motion_cache.cpp 58–70: the displacements with an entry. -/
noncomputable def mcKeys (g : Geo) : List Cell :=
  ((upTo (-g.range) g.range).flatMap fun x => (upTo (-g.range) g.range).flatMap fun y =>
    if (x = 0 ∧ y = 0) ∨ x * x + y * y > g.range * g.range then []
    else (upTo 0 (headings g - 1)).map fun w => ⟨x, y, w⟩)

/-- `MotionCache::find(start_yaw, goal)`, motion_cache.h 76–84. -/
noncomputable def find (g : Geo) (startYaw : Int) (goal : Cell) : Option Page :=
  if goal ∈ mcKeys g then some (page g (cycU startYaw (headings g)) goal) else none

open Classical in
/-- motion_cache.cpp 55, 106–107: the largest coordinates over the cells of all straight motions. -/
noncomputable def maxRange (g : Geo) : Int × Int :=
  ((upTo 0 (headings g - 1)).flatMap fun s => ((mcKeys g).filter fun d => decide (IsStraight g s d)).flatMap fun d =>
    (page g s d).motion).foldl (fun m pos => (max m.1 |pos.x|, max m.2 |pos.y|)) (0, 0)

/-- `interpolatePath`, motion_cache.cpp 192–229.  (The result of `find` is compared with the end iterator of another
heading's table, 213; the end iterators of the standard library's hash tables compare equal, and the model follows
that.) -/
noncomputable def interpolatePath (g : Geo) : List Cell → List (Pose ℝ)
  | [] => []
  | [a] => [⟨a.x, a.y, a.yaw⟩]
  | a :: b :: rest =>
    (if a.x = b.x ∧ a.y = b.y then [⟨a.x, a.y, a.yaw⟩]
     else match find g a.yaw ⟨b.x - a.x, b.y - a.y, b.yaw⟩ with
      | none => [⟨a.x, a.y, a.yaw⟩]
      | some p => p.interp.map fun q => ⟨(a.x : ℝ) + q.x, (a.y : ℝ) + q.y, q.yaw⟩) ++
      interpolatePath g (b :: rest)

/-! ### Motion primitives -/

/-- `CostCoeff`, grid_astar_model.h 51–70, and `euclid_cost_coef_`. -/
structure Wt where
  /-- `euclid_cost_coef_[0]`, `[2]` -/
  ec0 : ℝ
  ec2 : ℝ
  decel : ℝ
  backward : ℝ
  costmap : ℝ
  costmapTurn : ℝ
  turnHeuristics : ℝ
  hysteresis : ℝ
  inPlaceTurn : ℝ
  minCurveRadius : ℝ
  maxVel : ℝ
  maxAngVel : ℝ
  aspect : ℝ
  turnThreshold : Int

/-- motion_primitive_builder.cpp 54–69. -/
def searchList (g : Geo) : List Cell :=
  (upTo (-g.range) g.range).flatMap fun x => (upTo (-g.range) g.range).flatMap fun y =>
    if x * x + y * y > g.range * g.range then [] else (upTo 0 (g.angle - 1)).map fun w => ⟨x, y, w⟩

/-- motion_primitive_builder.cpp 87–91. -/
def nextAngle (g : Geo) (i w : Int) : Int := if i + w ≥ g.angle then i + w - g.angle else i + w

open Classical in
/-- The body of the loop of motion_primitive_builder.cpp 77–156: is the displacement kept?  `none` is an access outside
the rotation cache.  `|motion[0] / motion[1]|` is infinite when the denominator is zero (the numerator is not zero then). -/
noncomputable def keep (g : Geo) (c : Wt) (i : Int) (p : Cell) : Option Bool :=
  if p.x = 0 ∧ p.y = 0 then some (decide (p.yaw ≠ 0))
  else match rcGet g i ⟨p.x + g.range, p.y + g.range, nextAngle g i p.yaw⟩ with
    | none => none
    | some (m, rad) =>
      if lround (m.x * (1 / g.res)) = 0 ∧ lround (m.y * (1 / g.res)) ≠ 0 then some false
      else if |m.yaw| ≥ 2 * π / 4 - 1e-6 then some false
      else if p.yaw = 0 then
        if lround (m.x * (1 / g.res)) = 0 then some false
        else if m.y ≠ 0 ∧ |m.x / m.y| < c.aspect then some false
        else some true
      else if |m.y| < g.res / 2 then some false
      else if m.x * m.y * m.yaw < 0 then some false
      else if sqlen p < 3 * 3 then some false
      else match rad with
        | none => some true
        | some (r1, r2) =>
          if |r1 - r2| ≥ g.res * 1.5 then some false
          else if |(r1 + r2) / 2| < c.minCurveRadius then some false
          else some true

/-- `MotionPrimitiveBuilder::build`, motion_primitive_builder.cpp 44–161, the list for start heading `i`; an access
outside the cache drops the displacement here, and is shown not to happen. -/
noncomputable def primitives (g : Geo) (c : Wt) (i : Int) : List Cell :=
  (searchList g).filter fun p => keep g c i p == some true

/-! ### Costs -/

/-- `createEuclidCostCache`, grid_astar_model_3dof.cpp 137–144. -/
noncomputable def linCache (c : Wt) (rootsum : Int) : ℝ := √(rootsum : ℝ) * c.ec0

/-- `euclidCostRough`, 157–169 (the cache has 1024 entries). -/
noncomputable def euclidCostRough (c : Wt) (v : Cell) : ℝ :=
  let rootsum := 0 + v.x * v.x + v.y * v.y
  if rootsum < 1024 then linCache c rootsum else √(rootsum : ℝ) * c.ec0

/-- `while (angle > A / 2) angle -= A;` (150–151, 312–313; does not terminate for `A = 0`, which is left out). -/
def downLoop (A a : Int) : Int := if h : 0 < A ∧ a > A.tdiv 2 then downLoop A (a - A) else a
termination_by (a - A.tdiv 2).toNat
decreasing_by omega

/-- `while (angle < -A / 2) angle += A;` (152–153, 314–315). -/
def upLoop (A a : Int) : Int := if h : 0 < A ∧ a < (-A).tdiv 2 then upLoop A (a + A) else a
termination_by ((-A).tdiv 2 - a).toNat
decreasing_by omega

/-- `euclidCost`, 145–156. -/
noncomputable def euclidCost (g : Geo) (c : Wt) (v : Cell) : ℝ :=
  euclidCostRough c v + |c.ec2 * ((upLoop g.angle (downLoop g.angle v.yaw) : Int) : ℝ)|

/-- Result of scanning cells: an access outside the costmap, a cell above 99, or the sums (all cells, cells at or above
the turn threshold, hysteresis map). -/
inductive Scan where
  | undefined
  | blocked
  | sums (sum turn hyst : Int)

/-- The loops of 236–249 and 275–293 over the cells of a cached motion. -/
def scan (cm hy : Cell → Option Int) (useHyst : Bool) (thr : Int) : List Cell → Int → Int → Int → Scan
  | [], s, t, h => .sums s t h
  | pos :: ps, s, t, h =>
    match cm pos with
    | none => .undefined
    | some c =>
      if c > 99 then .blocked
      else
        let t' := if c ≥ thr then t + c else t
        if useHyst then
          match hy pos with
          | none => .undefined
          | some v => scan cm hy useHyst thr ps (s + c) t' (h + v)
        else scan cm hy useHyst thr ps (s + c) t' h

/-- The loop of 188–203: turning in place by `n` headings in direction `dir` from `pos`. -/
def turnScan (cm : Cell → Option Int) (thr angle dir : Int) : Nat → Cell → Int → Scan
  | 0, _, s => .sums s s 0
  | n + 1, pos, s =>
    match cm pos with
    | none => .undefined
    | some c =>
      if c > 99 then .blocked
      else
        let w := pos.yaw + dir
        let w := if w < 0 then w + angle else if w ≥ angle then w - angle else w
        turnScan cm thr angle dir n { pos with yaw := w } (if c ≥ thr then s + c else s)

/-- What `cost` returns: undefined behaviour, `-1`, an infinite value, or a finite value. -/
inductive Res where
  | undefined
  | blocked
  | infinite
  | val (c : ℝ)

open Classical in
/-- `GridAstarModel3D::cost`, grid_astar_model_3dof.cpp 170–304.  `min_boundary_`/`max_boundary_` are 95–100. -/
noncomputable def cost (g : Geo) (c : Wt) (useHyst : Bool) (cm hy : Cell → Option Int) (cur next : Cell) : Res :=
  match cm cur with
  | none => .undefined
  | some c0 =>
    if c0 > 99 then .blocked
    else match cm next with
    | none => .undefined
    | some c1 =>
      if c1 > 99 then .blocked
      else
        let d : Cell := ⟨next.x - cur.x, next.y - cur.y, cycS (next.yaw - cur.yaw) g.angle⟩
        let base := euclidCost g c d
        if d.x = 0 ∧ d.y = 0 then
          match turnScan cm c.turnThreshold g.angle (if d.yaw < 0 then -1 else 1) d.yaw.natAbs cur 0 with
          | .undefined => .undefined
          | .blocked => .blocked
          | .sums s _ _ =>
            .val (base + c.inPlaceTurn +
              (s : ℝ) * (g.ares * (c.costmapTurn / 100 + c.ec2 / c.ec0 * c.turnHeuristics / 100)))
        else
          match rcGet g cur.yaw ⟨d.x + g.range, d.y + g.range, next.yaw⟩ with
          | none => .undefined
          | some (m, rad) =>
            let base := if m.x < 0 then base * (1 + c.backward) else base
            let goal : Cell := ⟨d.x, d.y, cycU next.yaw g.angle⟩
            let shift : Page → List Cell := fun pg => pg.motion.map fun q => ⟨cur.x + q.x, cur.y + q.y, q.yaw⟩
            if d.yaw = 0 then
              match find g cur.yaw goal with
              | none => .blocked
              | some pg =>
                match scan cm hy useHyst c.turnThreshold (shift pg) 0 0 0 with
                | .undefined => .undefined
                | .blocked => .blocked
                | .sums s _ h =>
                  if m.x = 0 then .infinite
                  else .val (base + c.ec2 * |m.y / m.x| * g.ares / (π * 2) +
                    (s : ℝ) * g.res * pg.distance * c.costmap / (100 * (pg.motion.length : ℝ)) +
                    (h : ℝ) * g.res * pg.distance * c.hysteresis / (100 * (pg.motion.length : ℝ)))
            else if cur.x < (maxRange g).1 ∨ cur.y < (maxRange g).2 ∨
                cur.x ≥ g.width - (maxRange g).1 ∨ cur.y ≥ g.height - (maxRange g).2 then .blocked
            else
              let decel := match rad with
                | none => 0
                | some (r1, r2) =>
                  if |c.maxVel| > c.maxAngVel * |r1| then
                    lenF m * |(|(r1 + r2) / 2| * c.maxAngVel) / c.maxVel| * c.decel
                  else 0
              match find g cur.yaw goal with
              | none => .blocked
              | some pg =>
                match scan cm hy useHyst c.turnThreshold (shift pg) 0 0 0 with
                | .undefined => .undefined
                | .blocked => .blocked
                | .sums s t h =>
                  .val (base + decel +
                    (s : ℝ) * g.res * pg.distance * c.costmap / (100 * (pg.motion.length : ℝ)) +
                    (t : ℝ) * g.ares * |(d.yaw : ℝ)| * c.costmapTurn / (100 * (pg.motion.length : ℝ)) +
                    (h : ℝ) * g.res * pg.distance * c.hysteresis / (100 * (pg.motion.length : ℝ)))

/-- `GridAstarModel2D::cost`, 346–371: a displacement without heading; `rough` is the costmap without headings. -/
noncomputable def cost2D (g : Geo) (c : Wt) (rough : Cell → Option Int) (cur next : Cell) : Res :=
  let d : Cell := ⟨next.x - cur.x, next.y - cur.y, 0⟩
  match find g 0 d with
  | none => .blocked
  | some pg =>
    match scan rough rough false 0 (pg.motion.map fun q => ⟨cur.x + q.x, cur.y + q.y, 0⟩) 0 0 0 with
    | .undefined => .undefined
    | .blocked => .blocked
    | .sums s _ _ =>
      .val (euclidCostRough c d + (s : ℝ) * g.res * pg.distance * c.costmap / (100 * (pg.motion.length : ℝ)))

/-- `GridAstarModel3D::costEstim`, 305–322; `none` is `numeric_limits<float>::max()` in the distance map. -/
noncomputable def costEstim (g : Geo) (c : Wt) (estim : Cell → Option ℝ) (cur goal : Cell) : Option ℝ :=
  (estim ⟨cur.x, cur.y, 0⟩).map fun e =>
    e + c.ec2 * |((upLoop g.angle (downLoop g.angle (cur.yaw - goal.yaw)) : Int) : ℝ)|

/-- `GridAstarModel2D::costEstim`, 372–379. -/
noncomputable def costEstim2D (c : Wt) (cur goal : Cell) : ℝ :=
  euclidCostRough c ⟨goal.x - cur.x, goal.y - cur.y, goal.yaw - cur.yaw⟩

/-- The list of the constructor, 107–118 (`search_list_rough_`). -/
def searchListRough (g : Geo) : List Cell :=
  (upTo (-g.range) g.range).flatMap fun x => (upTo (-g.range) g.range).flatMap fun y =>
    if x * x + y * y > g.range * g.range then [] else [⟨x, y, 0⟩]

open Classical in
/-- `GridAstarModel3D::searchGrids`, 323–339. -/
noncomputable def searchGrids (g : Geo) (c : Wt) (localRange : Int) (starts : List Cell) (p : Cell) : List Cell :=
  if starts.any fun s => decide (sqlen ⟨s.x - p.x, s.y - p.y, s.yaw - p.yaw⟩ < localRange * localRange) then
    primitives g c p.yaw
  else searchListRough g

end Verif.Model3D
