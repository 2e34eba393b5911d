import Verif.Hyst.Model
import Verif.Polygon.Spec
import Mathlib.Order.Bounds.Basic
/-! # Specification of the hysteresis costs -/
namespace Verif.Hyst
open Verif.GridMetric (Cell Pose)
open Verif.Polygon (Pt)
open Verif.Polygon.Spec (OnSegment)

/-- Distance in the plane, in cells. -/
noncomputable def planeDist (p : Cell) (q : Pt ℝ) : ℝ := Real.sqrt (((p.x : ℝ) - q.1) ^ 2 + ((p.y : ℝ) - q.2) ^ 2)

/-- `a` and `b` follow each other on the path. -/
def Consecutive (path : List (Pose ℝ)) (a b : Pose ℝ) : Prop := ∃ l r, path = l ++ a :: b :: r

/-- The heading of a pose of the path falls into heading cell `k` (rounded to the nearest, modulo a full turn). -/
def HasHeading (m : Map) (a : Pose ℝ) (k : Int) : Prop := ∃ n : Int, CSpace.lround a.yaw = k + n * m.angle

/-- `q` is a point of the path where the path has the heading of `p` (at one end of the piece at least). -/
def Passes (m : Map) (path : List (Pose ℝ)) (p : Cell) (q : Pt ℝ) : Prop :=
  ∃ a b, Consecutive path a b ∧ (HasHeading m a p.yaw ∨ HasHeading m b p.yaw) ∧ OnSegment (a.x, a.y) (b.x, b.y) q

/-- The cost at a distance of `d` cells: 0 up to `expand`, 100 from `expand + max` on, linear in between, rounded. -/
noncomputable def costAt (m : Map) (c : Cfg) (d : ℝ) : Int :=
  ⌊100 * max 0 (min 1 ((d * m.res - c.expand) / c.maxDist)) + 1 / 2⌋

/-- `v` is the hysteresis cost of cell `p` for a path: the cost at the distance to the nearest point where the path has
the heading of the cell, or 100 if the path never has this heading. -/
def IsCost (m : Map) (c : Cfg) (path : List (Pose ℝ)) (p : Cell) (v : Int) : Prop :=
  ((∀ q, ¬ Passes m path p q) ∧ v = 100) ∨
  ∃ d, IsLeast {r | ∃ q, Passes m path p q ∧ r = planeDist p q} d ∧ v = costAt m c d

/-- A cell of the map. -/
def InMap (m : Map) (p : Cell) : Prop :=
  0 ≤ p.x ∧ p.x < m.width ∧ 0 ≤ p.y ∧ p.y < m.height ∧ 0 ≤ p.yaw ∧ p.yaw < m.angle

/-- The points of the path are not further apart than the search range (plus 4.5 cells). -/
def Dense (c : Cfg) (path : List (Pose ℝ)) : Prop :=
  ∀ a b, Consecutive path a b → Real.sqrt ((a.x - b.x) ^ 2 + (a.y - b.y) ^ 2) ≤ (c.range : ℝ) + 9 / 2

/-- Sensible parameters. -/
def Sane (c : Cfg) : Prop := 0 < c.maxDist ∧ 0 ≤ c.expand ∧ 0 ≤ c.range

/-- Sensible events. -/
def Ev.Ok : Ev → Prop
  | .map m => 0 < m.res ∧ 0 < m.angle
  | .plan c path => Sane c ∧ Dense c path
  | _ => True

/-- What the planner should remember: the map and, if there is one, the path to stay close to. -/
structure Mem where
  map : Map
  path : Option (Cfg × List (Pose ℝ))

open Classical in
/-- The path to stay close to is the last one planned; a new map and a new goal drop it, and so does an obstacle at a
place whose cost for this path is 0. -/
noncomputable def recall (x : Mem) : Ev → Mem
  | .map m => ⟨m, none⟩
  | .goal => ⟨x.map, none⟩
  | .plan c path => ⟨x.map, some (c, path)⟩
  | .update blocked =>
    match x.path with
    | none => x
    | some (c, path) =>
      if ∃ p ∈ blocked, IsCost x.map c path p 0 then ⟨x.map, none⟩ else x

/-- The memory after a history. -/
noncomputable def recallAll (m : Map) (es : List Ev) : Mem := es.foldl recall ⟨m, none⟩

/-- The updates report cells of the map they arrive for. -/
def BlocksInMap (x : Mem) : Ev → Prop
  | .update blocked => ∀ p ∈ blocked, InMap x.map p
  | _ => True

/-- All events of a history are sensible. -/
def Sensible (m : Map) : List Ev → Prop :=
  fun es => 0 < m.res ∧ 0 < m.angle ∧ ∀ l e r, es = l ++ e :: r → e.Ok ∧ BlocksInMap (recallAll m l) e

end Verif.Hyst
