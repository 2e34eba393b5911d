import Verif.Model3D.Model
import Verif.Astar.Vec
/-! # The planner for two serial joints

`planner_cspace/src/planner_2dof_serial_joints.cpp`, `grid_astar_model_2dof_joints.cpp`.

`float`/`double` are elements of an ordered field with exact arithmetic; `pi` is a parameter.  A division by zero (infinity or
NaN in the code) is the outcome `none`.  The collision test of the links (`LinkBody::isCollide`) is an arbitrary predicate on the two
joint angles here; it is modelled in `LinkModel`. -/
set_option linter.unusedVariables false
namespace Verif.Joints2D
open Verif.Model3D (cycU cycS upTo)
open Verif.CSpace (lround)

variable {K : Type} [Field K] [LinearOrder K] [IsStrictOrderedRing K] [FloorRing K]

/-- `enum PointVelMode`, planner_2dof_serial_joints.cpp 83–89. -/
inductive VelMode where
  | prev | next | avg

/-- Parameters, planner_2dof_serial_joints.cpp 396–511.  Link names are numbers. -/
structure Par (K : Type) where
  res : Int
  range : Int
  expand : K
  weight : K
  coef : K × K
  vmax : K × K
  mode : VelMode
  name : Nat × Nat
  pi : K

/-- `grid2Metric`, 520–526. -/
def toMetric (p : Par K) (c : Int × Int) : K × K :=
  (((c.1 - p.res : Int) : K) * 2 * p.pi / (p.res : K), ((c.2 - p.res : Int) : K) * 2 * p.pi / (p.res : K))

/-- `metric2Grid`, 527–533. -/
def toGrid (p : Par K) (g : K × K) : Int × Int :=
  (lround (g.1 * (p.res : K) / (2 * p.pi)) + p.res, lround (g.2 * (p.res : K) / (2 * p.pi)) + p.res)

/-- Whether a cell lies in the map of `2 * resolution` cells per joint. -/
def inMap (p : Par K) (c : Int × Int) : Bool := decide (0 ≤ c.1 ∧ c.1 < p.res * 2 ∧ 0 ≤ c.2 ∧ c.2 < p.res * 2)

/-! ### The costmap of joint angles -/

/-- The cells in the order of the loops 463–466, 478–481. -/
def cells (p : Par K) : List (Int × Int) :=
  (upTo 0 (p.res * 2 - 1)).flatMap fun a => (upTo 0 (p.res * 2 - 1)).map fun b => (a, b)

/-- 463–477: before the expansion. -/
def baseMap (p : Par K) (collide : K → K → Bool) (c : Int × Int) : Int :=
  if collide (toMetric p c).1 (toMetric p c).2 then 100 else 0

/-- 486: the radius of the expansion in cells. -/
def reach (p : Par K) : Int := lround (p.expand * (p.res : K) / (2 * p.pi))

/-- The displacements of the loops 487–489. -/
def ring (r : Int) : List (Int × Int) := (upTo (-r) r).flatMap fun a => (upTo (-r) r).map fun b => (a, b)

/-- 495–496. -/
def raised (r : Int) (d : Int × Int) : Int := ⌊(100 * (r - max |d.1| |d.2| : Int) : ℚ) / (r : ℚ)⌋

/-- 491–498: one cell around a lethal cell.  (The unsigned comparison is a range check.) -/
def raise1 (p : Par K) (r : Int) (c : Int × Int) (m : Int × Int → Int) (d : Int × Int) : Int × Int → Int :=
  let q := (c.1 + d.1, c.2 + d.2)
  if inMap p q = false then m
  else if m q < raised r d then fun x => if x = q then raised r d else m x
  else m

/-- 482–500: one cell; `none` when the conversion of a NaN (0/0) to `int` is reached. -/
def raiseCell (p : Par K) (m : Int × Int → Int) (c : Int × Int) : Option (Int × Int → Int) :=
  if m c ≠ 100 then some m
  else if reach p = 0 then none
  else some ((ring (reach p)).foldl (raise1 p (reach p) c) m)

/-- The constructor's costmap, 463–502. -/
def buildMap (p : Par K) (collide : K → K → Bool) : Option (Int × Int → Int) :=
  (cells p).foldlM (raiseCell p) (baseMap p collide)

/-! ### Costs -/

/-- `euclidCost`, grid_astar_model_2dof_joints.cpp 64–73. -/
def euclid (p : Par K) (d : Int × Int) : K := |p.coef.1 * (d.1 : K)| + |p.coef.2 * (d.2 : K)|

/-- `cycle(resolution_, resolution_)` of a difference (80–81). -/
def turn (p : Par K) (a b : Int × Int) : Int × Int := (cycS (b.1 - a.1) p.res, cycS (b.2 - a.2) p.res)

/-- `dist = std::hypot(d[0], d[1])` converted to `int`, 85–88. -/
def steps (d : Int × Int) : Nat := Nat.sqrt (d.1 * d.1 + d.2 * d.2).toNat

/-- 90–99, 104–105: the `i`-th cell looked at on the way.  (The code adds the step `i` times.) -/
def sample (p : Par K) (cur d : Int × Int) (i : Nat) : Int × Int :=
  (cycU (lround ((cur.1 : K) + (i : K) * ((d.1 : K) / (steps d : K)))) p.res,
   cycU (lround ((cur.2 : K) + (i : K) * ((d.2 : K) / (steps d : K)))) p.res)

/-- 95–106: the sum of the costs, `none` as soon as a cell is lethal. -/
def along (m : Int × Int → Int) : List (Int × Int) → Int → Option Int
  | [], acc => some acc
  | c :: cs, acc => if m c > 99 then none else along m cs (acc + m c)

/-- `cost`, 74–109. -/
def cost (p : Par K) (m : Int × Int → Int) (cur next : Int × Int) : K :=
  if inMap p next = false then -1
  else
    let d := turn p cur next
    match along m ((List.range (steps d)).map (sample p cur d)) 0 with
    | none => -1
    | some sum => euclid p d + (sum : K) * p.weight / 100

/-- `costEstim`, 111–116. -/
def estim (p : Par K) (cur goal : Int × Int) : K := euclid p (goal.1 - cur.1, goal.2 - cur.2)

/-- `searchGrids`, 56–63 and 117–123. -/
def moves (p : Par K) : List (Int × Int) := ring p.range

/-! ### Planning -/

/-- planner_2dof_serial_joints.cpp 600–622: the way-points of the cells after the first, unrolled from the start cell. -/
def unroll (p : Par K) : Int × Int → List (Int × Int) → List (Int × Int)
  | _, [] => []
  | q, n :: ns =>
    let d := turn p q n
    let n2 := (q.1 + d.1, q.2 + d.2)
    n2 :: unroll p n2 ns

/-- `fmod` for a positive divisor: the result has the sign of the first argument. -/
def fmod (x y : K) : K := if 0 ≤ x then x - y * ⌊x / y⌋ else x - y * ⌈x / y⌉

/-- 623–630: what is added to the last way-point of one joint. -/
def residual (p : Par K) (eg : K) : K :=
  let prec := 2 * p.pi / (p.res : K)
  let egp := if eg < 0 then eg + (⌈-eg / p.pi * 2⌉ : K) * p.pi * 2 else eg
  fmod (egp + prec / 2) prec - prec / 2

/-- 629–630: the last way-point is corrected.  (The list is not empty: the start has been put in front.) -/
def fixLast (f : K × K → K × K) : List (K × K) → List (K × K)
  | [] => []
  | [x] => [f x]
  | x :: y :: l => x :: fixLast f (y :: l)

/-- What `makePlan` finds. -/
inductive Plan (K : Type) where
  | failed
  | direct
  | searched (path : List (K × K))

/-- `makePlan`, 546–660.  `found a b` is the result of `as_.search` from cell `a` to cell `b` (see `Verif.Astar`), if it is called.  `none`: the costmap is read
outside its memory. -/
def makePlan (p : Par K) (m : Int × Int → Int) (found : Int × Int → Int × Int → Option (List (Int × Int))) (sg eg : K × K) : Option (Plan K) :=
  let s := toGrid p sg
  let e := toGrid p eg
  if inMap p s = false then none
  else if m s = 100 then some .failed
  else if inMap p e = false then none
  else if m e = 100 then some .failed
  else if cost p m s e ≥ euclid p (turn p s e) then some .direct
  else
    match found s e with
    | none => some .failed
    | some cs =>
      let path := sg :: (unroll p s cs.tail).map (toMetric p)
      some (.searched (fixLast (fun l => (l.1 + residual p eg.1, l.2 + residual p eg.2)) path))

/-- The path, 574–575, 600–630. -/
def Plan.path (sg eg : K × K) : Plan K → Option (List (K × K))
  | .failed => none
  | .direct => some [sg, eg]
  | .searched l => some l

/-! ### Timing -/

/-- 264–267, 306–309: the longer of the two joints' ways. -/
def span (a b : K × K) : K := max |b.1 - a.1| |b.2 - a.2|

/-- 257–270. -/
def total : List (K × K) → K
  | a :: b :: l => span a b + total (b :: l)
  | _ => 0

/-- 255–283: the common speed, for a requested duration `t`. -/
def speed (p : Par K) (t : K) (path : List (K × K)) : K :=
  if t ≤ 0 then min p.vmax.1 p.vmax.2
  else
    let v := total path / t
    let v := if v > p.vmax.1 then p.vmax.1 else v
    if v > p.vmax.2 then p.vmax.2 else v

/-- A trajectory point; `none` where the code divides by zero. -/
structure Pt (K : Type) where
  pos : K × K
  vel : Option (K × K)
  time : Option K
deriving DecidableEq

/-- Division, undefined for a zero divisor. -/
def div? (a b : K) : Option K := if b = 0 then none else some (a / b)

/-- 319–334: the direction taken for the velocity at a way-point. -/
def direction (p : Par K) (prev cur next : K × K) : K × K :=
  match p.mode with
  | .prev => (cur.1 - prev.1, cur.2 - prev.2)
  | .next => (next.1 - cur.1, next.2 - cur.2)
  | .avg => (next.1 - prev.1, next.2 - prev.2)

/-- 312–341: the velocity at a way-point between `prev` and `next`. -/
def velocity (p : Par K) (v : K) (prev cur : K × K) (next : Option (K × K)) : Option (K × K) :=
  match next with
  | none => some (0, 0)
  | some nx =>
    let dir := direction p prev cur nx
    (div? (max |dir.1| |dir.2|) v).bind fun t => (div? dir.1 t).bind fun a => (div? dir.2 t).map fun b => (a, b)

/-- 291–346: the points after `prev`, reached after way `sum`. -/
def points (p : Par K) (v : K) : K × K → K → List (K × K) → List (Pt K)
  | _, _, [] => []
  | prev, sum, x :: l =>
    let sum := sum + span prev x
    ⟨x, velocity p v prev x l.head?, div? sum v⟩ :: points p v x sum l

/-- The trajectory of a path. -/
def trajectory (p : Par K) (v : K) : List (K × K) → List (Pt K)
  | [] => []
  | a :: l => points p v a 0 l

/-! ### The node -/

/-- A command: joint names and points (duration and positions). -/
structure Cmd (K : Type) where
  names : List Nat
  points : List (K × List K)

/-- State, planner_2dof_serial_joints.cpp 64–190.  `ids` are the indices found by the last command (`none`: −1); `kept` is the
first point of `traj_prev_`, `none` while that message has no points; `avg` is `avg_vel_`. -/
structure St (K : Type) where
  cur : K × K
  known : Bool
  last : K × (K × K)
  kept : Option (K × List K)
  ids : Option Nat × Option Nat
  avg : K

/-- The state after construction, 432–435, and `cmd_prev_` value-initialised (191).  (`avg_vel_` is uninitialised; −1 here.) -/
def init : St K := { cur := (0, 0), known := false, last := (0, (0, 0)), kept := none, ids := (none, none), avg := -1 }

/-- 168–174, 197–205: the indices of the two joints; the last occurrence counts. -/
def lookup (p : Par K) : Nat → List Nat → Option Nat × Option Nat → Option Nat × Option Nat
  | _, [], r => r
  | i, n :: l, r => lookup p (i + 1) l (if n = p.name.1 then (some i, r.2) else if n = p.name.2 then (r.1, some i) else r)

/-- Reading the positions of both joints; `none`: outside the array. -/
def pick (ids : Nat × Nat) (l : List K) : Option (K × K) :=
  match l[ids.1]?, l[ids.2]? with
  | some a, some b => some (a, b)
  | _, _ => none

/-- 349–364: when no path is found, the joints are told to stay. -/
def hold (cur : K × K) : List (Pt K) := [⟨cur, some (0, 0), some 0⟩]

/-- `replan`, 226–370, with the trajectory it publishes, if any.  `none`: memory is read outside an array. -/
def replan (p : Par K) (m : Int × Int → Int) (found : Int × Int → Int × Int → Option (List (Int × Int))) (s : St K) :
    Option (St K × Option (List (Pt K))) :=
  if !s.known then some (s, none)
  else
    match s.ids with
    | (some i, some j) =>
      match s.kept with
      | none => none
      | some (t, l) =>
        match pick (i, j) l with
        | none => none
        | some goal =>
          match makePlan p m found s.cur goal with
          | none => none
          | some plan =>
            match plan.path s.cur goal with
            | none => some (s, some (hold s.cur))
            | some path =>
              let v := if s.avg < 0 then speed p t path else s.avg
              some ({ s with avg := v }, some (trajectory p v path))
    | _ => some (s, none)

/-- Events: a joint state message (with `due`: the replan interval is positive and has passed, 184–186) and a command; `found` gives the
result of the search, if one is made. -/
inductive Event (K : Type) where
  | joint (names : List Nat) (pos : List K) (due : Bool) (found : Int × Int → Int × Int → Option (List (Int × Int)))
  | command (c : Cmd K) (found : Int × Int → Int × Int → Option (List (Int × Int)))

/-- `cbJoint`, 165–190, and `cbTrajectory`, 194–224. -/
def step (p : Par K) (m : Int × Int → Int) (s : St K) : Event K → Option (St K × Option (List (Pt K)))
  | .joint names pos due found =>
    match lookup p 0 names (none, none) with
    | (some i, some j) =>
      match pick (i, j) pos with
      | none => none
      | some cur =>
        let s := { s with cur := cur, known := true }
        if due then replan p m found s else some (s, none)
    | _ => some (s, none)
  | .command c found =>
    let ids := lookup p 0 c.names (none, none)
    let s := { s with ids := ids }
    match ids with
    | (some i, some j) =>
      match c.points with
      | [] => none
      | (t, l) :: _ =>
        match pick (i, j) l with
        | none => none
        | some goal =>
          if s.last = (t, goal) then some (s, none)
          else replan p m found { s with last := (t, goal), kept := some (t, l), avg := -1 }
    | _ => some (s, none)

/-- A history: the state after it. -/
def run (p : Par K) (m : Int × Int → Int) (h : List (Event K)) : Option (St K) :=
  h.foldlM (fun s e => (step p m s e).map Prod.fst) init

end Verif.Joints2D
