import Verif.Patrol.Model
/-! # Specification vocabulary for the patrol node: observations of a history -/
namespace Verif.Patrol.Spec
open Verif.Patrol

/-- The path most recently received (empty before the first). -/
def lastPath : List (Event P) → List P
  | [] => []
  | .path ps :: _ => ps
  | _ :: h => lastPath h

/-- The pose of a goal action. -/
def goalOf : Option (Out P) → List P
  | some (.goal p) => [p]
  | _ => []

/-- The goals sent since the most recent path, in order. -/
def goals : List (Event P) → List P
  | [] => []
  | .path _ :: _ => []
  | e :: h => goals h ++ goalOf (output h e)

/-- State of the most recently sent goal as reported to the client. -/
def status : List (Event P) → GoalState
  | [] => .lost
  | .state g :: _ => g
  | e :: h => match output h e with
    | some (.goal _) => .pending
    | _ => status h

/-- The goal came to an end that lets the patrol continue. -/
def Ended (g : GoalState) : Prop := g = .succeeded ∨ g = .aborted

instance (g : GoalState) : Decidable (Ended g) := by unfold Ended; infer_instance

/-- The node has noticed that the last goal of the path ended. -/
def Finished : List (Event P) → Prop
  | [] => False
  | .path _ :: _ => False
  | .state _ :: h => Finished h
  | .tick :: h => Finished h ∨ (goals h = lastPath h ∧ goals h ≠ [] ∧ Ended (status h))

/-- The action server carries a goal to its end and the node notices, `n` times (newest event first). -/
def laps (r : GoalState) : Nat → List (Event P)
  | 0 => []
  | n + 1 => .tick :: .state r :: laps r n

end Verif.Patrol.Spec
