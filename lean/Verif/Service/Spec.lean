import Verif.Service.Model
import Verif.SearchPos.Spec
import Verif.Model3D.Spec
import Mathlib.Algebra.BigOperators.Group.Finset.Basic
/-! # What the `make_plan` service must answer -/
namespace Verif.Service
open Verif.GridMetric (Cell Pose)
open Verif.CSpace (lround)
open Verif.Model3D.Spec (Sane Nonneg)
open Verif.SearchPos (Nearest Exists)

/-- A cell of the map without headings. -/
def OnRough (n : Node) (c : Cell) : Prop := 0 ≤ c.x ∧ c.x < n.geo.width ∧ 0 ≤ c.y ∧ c.y < n.geo.height ∧ c.yaw = 0

/-- A node as it runs: sane geometry and a non-empty map, weights without negative entries, and costs between 0 and 100. -/
structure Runs (n : Node) : Prop where
  geo : Sane n.geo
  width : 0 < n.geo.width
  height : 0 < n.geo.height
  wt : Nonneg n.wt
  nonneg : ∀ c, OnRough n c → 0 ≤ n.rough c
  le100 : ∀ c, OnRough n c → n.rough c ≤ 100
  acceptable : n.acceptable ≤ 100

/-- The costmap without headings is at most the one with headings (it is the least cost over the headings, unless an update has
overwritten costs by smaller ones: `Verif.PlannerMap`). -/
def RoughBelow (n : Node) : Prop := ∀ c : Cell, Model3D.Spec.InMap n.geo c → n.rough ⟨c.x, c.y, 0⟩ ≤ n.cm c

/-- The point `(x, y)` lies in the square of the cell `(i, j)`. -/
def InCell (n : Node) (x y : ℝ) (i j : Int) : Prop :=
  n.ox + i * n.geo.res ≤ x ∧ x < n.ox + (i + 1) * n.geo.res ∧ n.oy + j * n.geo.res ≤ y ∧ y < n.oy + (j + 1) * n.geo.res

/-- The cell is farther from the border than the search range. -/
def Inner (n : Node) (i j : Int) : Prop :=
  n.geo.range ≤ i ∧ i < n.geo.width - n.geo.range ∧ n.geo.range ≤ j ∧ j < n.geo.height - n.geo.range

/-- `c` is a cell the service may take for the pose `p`: the cell of its position (without its heading) if that one is not
lethal, else the nearest cheap cell within the tolerance, else the nearest one that is not lethal. -/
def Takes (n : Node) (tolerance : ℝ) (p : Pose ℝ) (c : Cell) : Prop :=
  ∃ i j, InCell n p.x p.y i j ∧ Inner n i j ∧
    ((n.rough ⟨i, j, 0⟩ ≠ 100 ∧ c = ⟨i, j, 0⟩) ∨
     (n.rough ⟨i, j, 0⟩ = 100 ∧
      (Nearest n.map n.cm (Model3D.euclidCost n.geo n.wt) ⟨i, j, 0⟩ (lround (tolerance / n.geo.res)) n.tolAngle 0 n.acceptable c ∨
       (¬ Exists n.map n.cm ⟨i, j, 0⟩ (lround (tolerance / n.geo.res)) n.tolAngle 0 n.acceptable ∧
        Nearest n.map n.cm (Model3D.euclidCost n.geo n.wt) ⟨i, j, 0⟩ (lround (tolerance / n.geo.res)) n.tolAngle 0 100 c))))

/-- The cell `(i, j)` is on the map and not lethal for some heading. -/
def Open (n : Node) (i j : Int) : Prop :=
  0 ≤ i ∧ i < n.geo.width ∧ 0 ≤ j ∧ j < n.geo.height ∧ n.rough ⟨i, j, 0⟩ ≤ 99

/-- Number of points at which a displacement is sampled. -/
noncomputable def samples (n : Node) (dx dy : Int) : Int := lround (√((dx * dx + dy * dy : Int) : ℝ) / n.geo.ger)

/-- A straight move from `a` to `b`: not farther than the search range, heading kept, on the map, and the cell nearest to each
sampled point of the segment is open, but for `b` itself. -/
def Leg (n : Node) (a b : Cell) : Prop :=
  ¬ (a.x = b.x ∧ a.y = b.y) ∧ (b.x - a.x) ^ 2 + (b.y - a.y) ^ 2 ≤ n.geo.range ^ 2 ∧ b.yaw = a.yaw ∧
  (0 ≤ b.x ∧ b.x < n.geo.width ∧ 0 ≤ b.y ∧ b.y < n.geo.height) ∧
  ∀ k : Nat, (k : Int) < samples n (b.x - a.x) (b.y - a.y) →
    let i := a.x + lround (((b.x - a.x : Int) : ℝ) * ((k : ℝ) / (samples n (b.x - a.x) (b.y - a.y) : ℝ)))
    let j := a.y + lround (((b.y - a.y : Int) : ℝ) * ((k : ℝ) / (samples n (b.x - a.x) (b.y - a.y) : ℝ)))
    (i = b.x ∧ j = b.y) ∨ Open n i j

/-- The pose lies in the closed square of an open cell. -/
def OnFree (n : Node) (p : Pose ℝ) : Prop :=
  ∃ i j, Open n i j ∧ |p.x - (n.ox + (i + 1 / 2) * n.geo.res)| ≤ n.geo.res / 2 ∧
    |p.y - (n.oy + (j + 1 / 2) * n.geo.res)| ≤ n.geo.res / 2

/-- The centre of a cell with its heading. -/
noncomputable def centre (n : Node) (c : Cell) : Pose ℝ :=
  ⟨n.ox + (c.x + 1 / 2) * n.geo.res, n.oy + (c.y + 1 / 2) * n.geo.res, c.yaw * n.geo.ares⟩

/-- There is a way of straight moves from `s` to another cell `e`. -/
def Way (n : Node) (s e : Cell) : Prop := s ≠ e ∧ Relation.ReflTransGen (Leg n) s e

/-- The cells crossed by a straight move, without its end. -/
noncomputable def crossed (n : Node) (a b : Cell) : Finset (Int × Int) :=
  ((Finset.range (samples n (b.x - a.x) (b.y - a.y)).toNat).image fun (k : Nat) =>
    (a.x + lround (((b.x - a.x : Int) : ℝ) * ((k : ℝ) / (samples n (b.x - a.x) (b.y - a.y) : ℝ))),
     a.y + lround (((b.y - a.y : Int) : ℝ) * ((k : ℝ) / (samples n (b.x - a.x) (b.y - a.y) : ℝ))))).erase (b.x, b.y)

/-- The cost of a straight move: its length times the weight of distances, and its length times the mean cost (as a fraction of 100) of
the cells crossed times the weight of costs. -/
noncomputable def legCost (n : Node) (a b : Cell) : ℝ :=
  let length := √(((b.x - a.x) ^ 2 + (b.y - a.y) ^ 2 : Int) : ℝ)
  length * n.wt.ec0 +
    length * n.geo.res * n.wt.costmap * (((∑ c ∈ crossed n a b, (n.rough ⟨c.1, c.2, 0⟩ : ℝ)) / (crossed n a b).card) / 100)

/-- The cost of a way. -/
noncomputable def wayCost (n : Node) : List Cell → ℝ
  | a :: b :: rest => legCost n a b + wayCost n (b :: rest)
  | _ => 0

/-- A list of cells from `s` to `e`, each reached from the one before by a straight move. -/
structure Leads (n : Node) (s e : Cell) (cells : List Cell) : Prop where
  first : cells.head? = some s
  last : cells.getLast? = some e
  legs : cells.IsChain (Leg n)

end Verif.Service
