/-!
# Model of the cyclic vector (`planner_cspace/include/planner_cspace/cyclic_vec.h`)

`int` elements are `Int` (no overflow; the values stored by the callers are cell indices).
C++ `%` is `Int.tmod`, C++ `/` on `int` is `Int.tdiv` (both truncate toward zero);
a zero divisor is undefined behaviour and is the outcome `none`.
-/
namespace Verif.CyclicVec

/-- `CyclicVecBase::cycleElement`, cyclic_vec.h:106-115.
`none` is the undefined behaviour of `% 0`. -/
def cycleElement (e res : Int) : Option Int :=
  if res = 0 then none
  else
    let e1 := e.tmod res
    if e1 < res.tdiv 2 - res then some (e1 + res)
    else if e1 ≥ res.tdiv 2 then some (e1 - res)
    else some e1

/-- `CyclicVecBase::cycleUnsignedElement`, cyclic_vec.h:128-135. -/
def cycleUnsignedElement (e res : Int) : Option Int :=
  if res = 0 then none
  else
    let e1 := e.tmod res
    if e1 < 0 then some (e1 + res) else some e1

/-- Loop body shared by the two vector forms: walk the elements, keep the first `nonc` of them,
apply `f` to the others (`for (int i = NONCYCLIC; i < DIM; ++i)`, cyclic_vec.h:299-300, 306-307).
The vector is a list of its `DIM` elements; a resolution vector shorter than the
vector would be an out-of-range read and is `none`. -/
def cycleWith (f : Int → Int → Option Int) : Nat → List Int → List Int → Option (List Int)
  | _, [], _ => some []
  | _, _ :: _, [] => none
  | nonc + 1, e :: es, _ :: rs => (cycleWith f nonc es rs).map (e :: ·)
  | 0, e :: es, r :: rs =>
    match f e r with
    | none => none
    | some e' => (cycleWith f 0 es rs).map (e' :: ·)

/-- `CyclicVecBase::cycle(const CyclicVecBase&)`, cyclic_vec.h:295-301 (the variadic form
`cycle(int, ...)`, 281-287, performs the same element operations). -/
def cycle (nonc : Nat) (v res : List Int) : Option (List Int) := cycleWith cycleElement nonc v res

/-- `CyclicVecBase::cycleUnsigned(const CyclicVecBase&)`, cyclic_vec.h:302-308. -/
def cycleUnsigned (nonc : Nat) (v res : List Int) : Option (List Int) :=
  cycleWith cycleUnsignedElement nonc v res

/-- `CyclicVecBase::isExceeded`, cyclic_vec.h:323-333, with the 32-bit reinterpretation
`static_cast<unsigned int>` modelled exactly by `BitVec 32`. -/
def isExceeded : Nat → List (BitVec 32) → List (BitVec 32) → Bool
  | nonc + 1, e :: es, v :: vs => if v.toNat ≤ e.toNat then true else isExceeded nonc es vs
  | _, _, _ => false

/-- `CyclicVecBase::sqlen`, cyclic_vec.h:240-248 (sum over the non-cyclic elements only). -/
def sqlen (nonc : Nat) (v : List Int) : Int :=
  (v.take nonc).foldl (fun out e => out + e * e) 0

end Verif.CyclicVec
