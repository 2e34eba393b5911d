import Verif.TrajFile.Model
/-! # What recorded and served paths must be -/
namespace Verif.TrajFile
variable {Q : Type}

/-- One round for `found`. -/
def foundStep (s : Bool × List (Pose Q)) (r : Round Q) : Bool × List (Pose Q) :=
  let w := s.1 || decide (0 < r.clears)
  match r.tf with
  | none => (w, s.2)
  | some p => if w then (false, []) else (false, s.2 ++ [p])

/-- Whether a request to clear the path is waiting, and the poses found since the last answered one (oldest first).  A request is answered
at the end of the next round with a successful lookup. -/
def found (rs : List (Round Q)) : Bool × List (Pose Q) := rs.foldl foundStep (false, [])

/-- Horizontal distance of two poses. -/
noncomputable def apart (a b : Pose Q) : ℝ := Real.sqrt ((a.x - b.x) ^ 2 + (a.y - b.y) ^ 2)

/-- The last request of a history, with the information whether its file could be opened. -/
def lastRequest : List (Cmd Q) → Option (String × Int × Bool) :=
  List.foldl (fun r c => match c with
    | .change name id file _ => some (name, id, file.isSome)
    | .feedback .. => r) none

end Verif.TrajFile
