/-!
# Model of `neonavigation_common/include/neonavigation_common/compatibility.h`

The parameter server is read anew by every call; `reads i` is the value of `neonavigation_compatible` at the `i`-th
read (`none` when unset).  Topic and service names are elements of an arbitrary type.
-/
namespace Verif.Compat

/-- compatibility.h:49 -/
def currentLevel : Int := 1
/-- compatibility.h:50 -/
def supportedLevel : Int := 0
/-- compatibility.h:51 -/
def defaultLevel : Int := supportedLevel

/-- `getCompat`, compatibility.h:57-63. -/
def getCompat : Option Int → Int
  | none => defaultLevel
  | some l => l

/-- Outcome of `checkCompatMode`. -/
inductive Check | obsolete | unsupported | deprecated | current
deriving DecidableEq

/-- `checkCompatMode`, compatibility.h:64-92, with its (up to) three reads. -/
def checkCompatMode (r0 r1 r2 : Option Int) : Check :=
  if getCompat r0 < supportedLevel then .obsolete
  else if getCompat r1 > currentLevel then .unsupported
  else if getCompat r2 ≠ currentLevel then .deprecated
  else .current

/-- Does the check let the node start (no exception)? -/
def Check.passes : Check → Bool
  | .obsolete => false
  | .unsupported => false
  | _ => true

/-- An endpoint with its new and its old name. -/
structure Endpoint (N : Type) where
  new : N
  old : N

/-- `subscribe` (compatibility.h:101-203), `advertise` and `advertiseService` (compatibility.h:204-252): the name used. -/
def connect (r : Option Int) (e : Endpoint N) : N :=
  if getCompat r ≠ currentLevel then e.old else e.new

/-- A node's constructor: check, then its endpoints in order; `none` when the check throws. -/
def startup (reads : Nat → Option Int) (es : List (Endpoint N)) : Option (List N) :=
  if (checkCompatMode (reads 0) (reads 1) (reads 2)).passes then
    some (es.mapIdx fun i e => connect (reads (3 + i)) e)
  else none

end Verif.Compat
