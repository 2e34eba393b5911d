/-!
# Specification for cyclic coordinates

Two integers denote the same cyclic coordinate at resolution `res` when they differ by a multiple of
`res`.  Nothing here refers to the model.
-/
namespace Verif.CyclicVec.Spec

/-- `a` and `b` denote the same cyclic coordinate. -/
def SameHeading (res a b : Int) : Prop := ∃ k : Int, a = b + k * res

/-- Signed normal range: `res` consecutive values starting at `⌊res/2⌋ - res`
(for even `res`: `[-res/2, res/2)`). -/
def InSignedRange (res e : Int) : Prop := res / 2 - res ≤ e ∧ e < res / 2

/-- Unsigned normal range. -/
def InUnsignedRange (res e : Int) : Prop := 0 ≤ e ∧ e < res

/-- Vectors are related element-wise: unchanged before index `nonc`, normalised from there. -/
def VecNormalised (range : Int → Int → Prop) (nonc : Nat) (res v w : List Int) : Prop :=
  w.length = v.length ∧
  ∀ i : Nat, (h : i < v.length) → (hr : i < res.length) → (hw : i < w.length) →
    (i < nonc → w[i] = v[i]) ∧
    (nonc ≤ i → range res[i] w[i] ∧ SameHeading res[i] w[i] v[i])

end Verif.CyclicVec.Spec
