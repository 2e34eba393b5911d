import Mathlib.Algebra.Order.Field.Basic
import Mathlib.Algebra.Order.Floor.Ring
/-!
# Model of `obj_to_pointcloud/src/obj_to_pointcloud.cpp`: `convertObj`

Exact arithmetic.  The random engine is a stream `rand : Nat → K` of numbers in `[0, 1)` consumed in order; the triangle
area (`std::sqrt` of a sum of squares) is a parameter.  File parsing (PCL) and the final voxel-grid down-sampling
(PCL) are not modelled: the result is the cloud before down-sampling.
-/
namespace Verif.Mesh

variable {K : Type} [Field K] [LinearOrder K] [IsStrictOrderedRing K] [FloorRing K]

structure P3 (K : Type) where
  x : K
  y : K
  z : K
deriving DecidableEq

/-- obj_to_pointcloud.cpp:49-72 -/
def P3.sub (a b : P3 K) : P3 K := ⟨a.x - b.x, a.y - b.y, a.z - b.z⟩
def P3.add (a b : P3 K) : P3 K := ⟨a.x + b.x, a.y + b.y, a.z + b.z⟩
def P3.smul (a : P3 K) (k : K) : P3 K := ⟨a.x * k, a.y * k, a.z * k⟩

/-- A loaded file: a cloud (`pcd`) or a mesh (`obj`) of vertices and polygons given by vertex indices. -/
inductive File (K : Type) where
  | pcd (ps : List (P3 K))
  | obj (vs : List (P3 K)) (polys : List (List Nat))

structure Cfg (K : Type) where
  ppmsq : K
  offset : P3 K
  scale : K
  area : P3 K → P3 K → P3 K → K

/-- The number of samples of a triangle, obj_to_pointcloud.cpp:206-209: `numf` truncated, plus one with probability the
fraction. -/
def count (numf r : K) : Nat := if numf - ⌊numf⌋ > r then (⌊numf⌋ + 1).toNat else ⌊numf⌋.toNat

/-- One sample, obj_to_pointcloud.cpp:212-219. -/
def sample (off p0 p1 p2 : P3 K) (r0 r1 : K) : P3 K :=
  let a := p1.sub p0
  let b := p2.sub p0
  let r := if r0 + r1 > 1 then (1 - r0, 1 - r1) else (r0, r1)
  (p0.add ((a.smul r.1).add (b.smul r.2))).add off

/-- One triangle, obj_to_pointcloud.cpp:198-221, with `k` random numbers consumed before. -/
def triangle (c : Cfg K) (rand : Nat → K) (k : Nat) (p0 p1 p2 : P3 K) : List (P3 K) × Nat :=
  let n := count (c.ppmsq * c.area p0 p1 p2) (rand k)
  ((List.range n).map fun i => sample c.offset p0 p1 p2 (rand (k + 1 + 2 * i)) (rand (k + 2 + 2 * i)), k + 1 + 2 * n)

/-- Result of the conversion. -/
inductive Res (α : Type) where
  | ok (a : α)
  /-- the node shuts down and publishes an empty message (a polygon is no triangle) -/
  | shutdown
  /-- a vertex index out of range: undefined behaviour -/
  | undefined

/-- The polygons of a mesh, obj_to_pointcloud.cpp:186-222. -/
def polys (c : Cfg K) (rand : Nat → K) (vs : List (P3 K)) : Nat → List (List Nat) → Res (List (P3 K) × Nat)
  | k, [] => .ok ([], k)
  | k, [i0, i1, i2] :: ps =>
    match vs[i0]?, vs[i1]?, vs[i2]? with
    | some p0, some p1, some p2 =>
      let (s, k') := triangle c rand k p0 p1 p2
      match polys c rand vs k' ps with
      | .ok (t, k'') => .ok (s ++ t, k'')
      | .shutdown => .shutdown
      | .undefined => .undefined
    | _, _, _ => .undefined
  | _, _ :: _ => .shutdown

/-- One file, obj_to_pointcloud.cpp:148-223. -/
def file (c : Cfg K) (rand : Nat → K) (k : Nat) : File K → Res (List (P3 K) × Nat)
  | .pcd ps => .ok (ps.map (fun p => (p.smul c.scale).add c.offset), k)
  | .obj vs ps => polys c rand (vs.map (·.smul c.scale)) k ps

/-- `convertObj` up to line 227. -/
def convert (c : Cfg K) (rand : Nat → K) : Nat → List (File K) → Res (List (P3 K))
  | _, [] => .ok []
  | k, f :: fs =>
    match file c rand k f with
    | .ok (s, k') =>
      match convert c rand k' fs with
      | .ok t => .ok (s ++ t)
      | .shutdown => .shutdown
      | .undefined => .undefined
    | .shutdown => .shutdown
    | .undefined => .undefined

end Verif.Mesh
