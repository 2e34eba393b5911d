/-!
# Model of the blocked grid map
(`planner_cspace/include/planner_cspace/blockmem_gridmap.h`, class `BlockMemGridmap`)

* `int`/`size_t` are `Int` (no wrap-around).  For a negative `int` position C++ converts to
  `size_t`; masking and shifting agree with `Int` `%`/`/` by a power of two (floor), and an offset that
  is negative here is a huge `size_t` there: both are outside the buffer.
* Uninitialised memory (`new T[n]`) is an arbitrary function, given as a parameter `fresh`.
* Reading or writing outside `[0, ser_capacity_)` is undefined behaviour: outcome `none`.
* A position/size vector is the list of its `DIM` elements, `nonc` is `NONCYCLIC`,
  `BLOCK_WIDTH = 2^bit`.
-/
namespace Verif.Gridmap

/-- Members of `BlockMemGridmap`, blockmem_gridmap.h:81-93. `c_` is `mem`. -/
structure GM (α : Type) where
  bit : Nat
  nonc : Nat
  validation : Bool
  size : List Int
  bsize : List Int
  serSize : Int
  cap : Int
  bser : Int
  bnum : Int
  mem : Int → α
  dummy : α

variable {α : Type}

/-- Default constructor, blockmem_gridmap.h:238-242: only `ser_capacity_` (0) and `dummy_` are set; the
vectors are zero by `CyclicVecBase()`.  The scalar members are indeterminate in C++ (here 0); the
specification forbids using a map before its first `reset`. -/
def init (bit nonc : Nat) (validation : Bool) (maxv : α) (fresh : Int → α) : GM α :=
  { bit, nonc, validation, size := [], bsize := [], serSize := 0, cap := 0, bser := 0, bnum := 0,
    mem := fresh, dummy := maxv }

/-- `block_addr`, blockmem_gridmap.h:95-111, returns `(baddr, addr)`. -/
def blockAddr (bit : Nat) : Nat → List Int → List Int → List Int → Int → Int → Int × Int
  | n + 1, p :: ps, _ :: ss, b :: bs, baddr, addr =>
    blockAddr bit n ps ss bs (baddr * b + p / 2 ^ bit) (addr * 2 ^ bit + p % 2 ^ bit)
  | 0, p :: ps, s :: ss, _ :: bs, baddr, addr =>
    blockAddr bit 0 ps ss bs baddr (addr * s + p)
  | _, _, _, _, baddr, addr => (baddr, addr)

/-- Offset computed in `operator[]`, blockmem_gridmap.h:245-247 and 257-259. -/
def GM.offset (g : GM α) (p : List Int) : Int :=
  let r := blockAddr g.bit g.nonc p g.size g.bsize 0 0
  r.1 * g.bser + r.2

/-- Dimension loop of `reset`, blockmem_gridmap.h:196-225: returns
`(block_ser_size_, block_num_, block_size_)`. -/
def resetLoop (w : Int) : Nat → List Int → Int × Int × List Int → Int × Int × List Int
  | _, [], acc => acc
  | n + 1, s :: ss, (bser, bnum, bs) =>
    let st := if s < w then w else s
    let b := (st + w - 1).tdiv w
    resetLoop w n ss (bser * w, bnum * b, bs ++ [b])
  | 0, s :: ss, (bser, bnum, bs) => resetLoop w 0 ss (bser * s, bnum * 1, bs ++ [1])

/-- `reset`, blockmem_gridmap.h:195-232.  `fresh` is the content of newly allocated memory. -/
def GM.reset (g : GM α) (size : List Int) (fresh : Int → α) : GM α :=
  let r := resetLoop (2 ^ g.bit) g.nonc size (1, 1, [])
  let ser := r.1 * r.2.1
  if ser < g.cap / 2 ∨ g.cap < ser then
    { g with bser := r.1, bnum := r.2.1, bsize := r.2.2, serSize := ser, cap := ser, mem := fresh,
             size := size }
  else
    { g with bser := r.1, bnum := r.2.1, bsize := r.2.2, serSize := ser, size := size }

/-- const `operator[]`, blockmem_gridmap.h:255-266.  `maxv` is `numeric_limits<T>::max()`. -/
def GM.get (g : GM α) (maxv : α) (p : List Int) : Option α :=
  let a := g.offset p
  if g.validation = true ∧ (a < 0 ∨ g.serSize ≤ a) then some maxv
  else if 0 ≤ a ∧ a < g.cap then some (g.mem a) else none

/-- Assignment through non-const `operator[]`, blockmem_gridmap.h:243-254. -/
def GM.set (g : GM α) (p : List Int) (v : α) : Option (GM α) :=
  let a := g.offset p
  if g.validation = true ∧ (a < 0 ∨ g.serSize ≤ a) then some { g with dummy := v }
  else if 0 ≤ a ∧ a < g.cap then
    some { g with mem := fun i => if i = a then v else g.mem i }
  else none

/-- `clear`, blockmem_gridmap.h:129-135 (loop over `0 ≤ i < ser_size_`; writing beyond the capacity
would be undefined). -/
def GM.clear (g : GM α) (v : α) : Option (GM α) :=
  if g.serSize ≤ g.cap then
    some { g with mem := fun i => if 0 ≤ i ∧ i < g.serSize then v else g.mem i }
  else none

/-- `clear_positive`, blockmem_gridmap.h:282-289; `nonneg x` is `x >= 0`. -/
def GM.clearPositive (g : GM α) (nonneg : α → Bool) (v : α) : Option (GM α) :=
  if g.serSize ≤ g.cap then
    some { g with mem := fun i =>
      if 0 ≤ i ∧ i < g.serSize then (if nonneg (g.mem i) then v else g.mem i) else g.mem i }
  else none

/-- `for (i = lo; i <= hi; ++i)`. -/
def intRange (lo hi : Int) : List Int := (List.range (hi + 1 - lo).toNat).map (fun (k : Nat) => lo + (k : Int))

/-- Iteration order of the three nested loops in `clear_partially`/`copy_partially`
(blockmem_gridmap.h:139-150, 158-170, 182-193).  `p[2]` only exists for `DIM ≥ 3` (`assert(DIM == 3)`):
other lengths give no list (`none`). -/
def loopBox : List Int → List Int → Option (List (List Int))
  | [a0, a1, a2], [b0, b1, b2] =>
    some ((intRange a0 b0).flatMap fun x => (intRange a1 b1).flatMap fun y =>
      (intRange a2 b2).map fun z => [x, y, z])
  | _, _ => none

/-- `clear_partially`, blockmem_gridmap.h:136-151. -/
def GM.clearPartially (g : GM α) (v : α) (mn mx : List Int) : Option (GM α) := do
  let ps ← loopBox mn mx
  ps.foldlM (fun g p => g.set p v) g

/-- `copy_partially(base, min, max)`, blockmem_gridmap.h:152-171, from a different map. -/
def GM.copyPartially (g : GM α) (maxv : α) (src : GM α) (mn mx : List Int) : Option (GM α) := do
  let ps ← loopBox mn mx
  ps.foldlM (fun g p => do let v ← src.get maxv p; g.set p v) g

/-- `copy_partially(dst_min, src, src_min, src_max)`, blockmem_gridmap.h:172-194. -/
def GM.copyPartiallyTo (g : GM α) (maxv : α) (dmin : List Int) (src : GM α) (smin smax : List Int) :
    Option (GM α) := do
  let ps ← loopBox smin smax
  let off := List.zipWith (· - ·) dmin smin
  ps.foldlM (fun g p => do let v ← src.get maxv p; g.set (List.zipWith (· + ·) p off) v) g

/-- `operator=`, blockmem_gridmap.h:290-297 (`reset` then `memcpy` of `ser_size_` elements). -/
def GM.assign (g : GM α) (src : GM α) (fresh : Int → α) : Option (GM α) :=
  let g1 := g.reset src.size fresh
  if g1.serSize ≤ g1.cap ∧ g1.serSize ≤ src.cap then
    some { g1 with mem := fun i => if 0 ≤ i ∧ i < g1.serSize then src.mem i else g1.mem i }
  else none

/-- `validate`, blockmem_gridmap.h:267-280. -/
def validateLoop (tol : Int) : Nat → List Int → List Int → Bool
  | n + 1, p :: ps, s :: ss => if p < tol ∨ s - tol ≤ p then false else validateLoop tol n ps ss
  | 0, p :: ps, s :: ss => if p < 0 ∨ s ≤ p then false else validateLoop tol 0 ps ss
  | _, _, _ => true

def GM.validate (g : GM α) (p : List Int) (tol : Int) : Bool := validateLoop tol g.nonc p g.size

/-- Operations on a family of maps named by numbers, as used by the planner (costmaps `cm_`,
`cm_base_`, ...).  All maps share template parameters. -/
inductive Op (α : Type) where
  | reset (i : Nat) (size : List Int) (fresh : Int → α)
  | write (i : Nat) (p : List Int) (v : α)
  | clear (i : Nat) (v : α)
  | clearPositive (i : Nat) (v : α)
  | clearPartially (i : Nat) (v : α) (mn mx : List Int)
  | copyPartially (i j : Nat) (mn mx : List Int)
  | copyPartiallyTo (i : Nat) (dmin : List Int) (j : Nat) (smin smax : List Int)
  | assign (i j : Nat) (fresh : Int → α)

/-- Replace one entry of a family. -/
def upd {β : Type} (st : Nat → β) (i : Nat) (b : β) : Nat → β := fun k => if k = i then b else st k

/-- One operation on the family of maps; `none` is undefined behaviour. -/
def step (maxv : α) (nonneg : α → Bool) (st : Nat → GM α) : Op α → Option (Nat → GM α)
  | .reset i size fresh => some (upd st i ((st i).reset size fresh))
  | .write i p v => ((st i).set p v).map (upd st i)
  | .clear i v => ((st i).clear v).map (upd st i)
  | .clearPositive i v => ((st i).clearPositive nonneg v).map (upd st i)
  | .clearPartially i v mn mx => ((st i).clearPartially v mn mx).map (upd st i)
  | .copyPartially i j mn mx => ((st i).copyPartially maxv (st j) mn mx).map (upd st i)
  | .copyPartiallyTo i dmin j smin smax =>
    ((st i).copyPartiallyTo maxv dmin (st j) smin smax).map (upd st i)
  | .assign i j fresh => ((st i).assign (st j) fresh).map (upd st i)

def run (maxv : α) (nonneg : α → Bool) (st : Nat → GM α) (ops : List (Op α)) : Option (Nat → GM α) :=
  ops.foldlM (step maxv nonneg) st

end Verif.Gridmap
