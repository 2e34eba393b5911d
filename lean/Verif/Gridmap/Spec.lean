import Verif.Gridmap.Model
/-!
# Specification of the grid map: a finite map from positions to values

`none` as a cell value means "unspecified" (never written since the last resize).
Only the operation alphabet `Op` is shared with the model.
-/
namespace Verif.Gridmap.Spec

/-- Every coordinate is within the size. -/
def inMap : List Int → List Int → Bool
  | [], [] => true
  | p :: ps, s :: ss => decide (0 ≤ p ∧ p < s) && inMap ps ss
  | _, _ => false

/-- `p` lies in the closed box `[mn, mx]`. -/
def inBox : List Int → List Int → List Int → Bool
  | [], [], [] => true
  | a :: as, b :: bs, p :: ps => decide (a ≤ p ∧ p ≤ b) && inBox as bs ps
  | _, _, _ => false

/-- `p + (a - b)`, element-wise. -/
def shift (a b p : List Int) : List Int :=
  List.zipWith (· + ·) p (List.zipWith (· - ·) a b)

structure SMap (α : Type) where
  size : List Int
  val : List Int → Option α

variable {α : Type}

def upd {β : Type} (st : Nat → β) (i : Nat) (b : β) : Nat → β := fun k => if k = i then b else st k

/-- The closed box is contained in a map of the given (3-dimensional) size, or is empty. -/
def BoxInside (size mn mx : List Int) : Prop :=
  size.length = 3 ∧ mn.length = 3 ∧ mx.length = 3 ∧ ∀ p, inBox mn mx p = true → inMap p size = true

/-- Intended meaning of the operations.  `Step S op S'`: in the abstract store `S` the operation is
legal and leads to `S'`.  A map that was never given a size is `none`. -/
inductive Step (nonneg : α → Bool) : (Nat → Option (SMap α)) → Op α → (Nat → Option (SMap α)) → Prop
  | reset (S i size fresh) (h : ∀ s ∈ size, 0 ≤ s) :
      Step nonneg S (.reset i size fresh) (upd S i (some ⟨size, fun _ => none⟩))
  | write (S i p v) (m : SMap α) (hm : S i = some m) (hp : inMap p m.size = true) :
      Step nonneg S (.write i p v)
        (upd S i (some { m with val := fun q => if q = p then some v else m.val q }))
  | clear (S i v) (m : SMap α) (hm : S i = some m) :
      Step nonneg S (.clear i v) (upd S i (some { m with val := fun _ => some v }))
  | clearPositive (S i v) (m : SMap α) (hm : S i = some m) :
      Step nonneg S (.clearPositive i v)
        (upd S i (some { m with val := fun q => (m.val q).map fun a => if nonneg a then v else a }))
  | clearPartially (S i v mn mx) (m : SMap α) (hm : S i = some m) (hb : BoxInside m.size mn mx) :
      Step nonneg S (.clearPartially i v mn mx)
        (upd S i (some { m with val := fun q => if inBox mn mx q then some v else m.val q }))
  | copyPartially (S i j mn mx) (m s : SMap α) (hm : S i = some m) (hs : S j = some s) (hij : i ≠ j)
      (hb : BoxInside m.size mn mx) (hb' : BoxInside s.size mn mx) :
      Step nonneg S (.copyPartially i j mn mx)
        (upd S i (some { m with val := fun q => if inBox mn mx q then s.val q else m.val q }))
  | copyPartiallyTo (S i dmin j smin smax) (m s : SMap α) (hm : S i = some m) (hs : S j = some s)
      (hij : i ≠ j) (hd : dmin.length = 3) (hb' : BoxInside s.size smin smax)
      (h3 : m.size.length = 3)
      (hb : ∀ p, inBox smin smax p = true → inMap (shift dmin smin p) m.size = true) :
      Step nonneg S (.copyPartiallyTo i dmin j smin smax)
        (upd S i (some ⟨m.size, fun q =>
          if inBox smin smax (shift smin dmin q) then s.val (shift smin dmin q) else m.val q⟩))
  | assign (S i j fresh) (s : SMap α) (hs : S j = some s) (hij : i ≠ j) :
      Step nonneg S (.assign i j fresh) (upd S i (some s))

/-- Any number of operations. -/
inductive Steps (nonneg : α → Bool) : (Nat → Option (SMap α)) → List (Op α) → (Nat → Option (SMap α)) → Prop
  | nil (S) : Steps nonneg S [] S
  | cons {S S' S'' op ops} : Step nonneg S op S' → Steps nonneg S' ops S'' → Steps nonneg S (op :: ops) S''

end Verif.Gridmap.Spec
