import Verif.PlannerNode.Spec
/-! # Specification: what the status message and the diagnosis say -/
namespace Verif.PlannerNode
variable {P : Type}

/-- The level of a diagnosis, `diagnostic_msgs/DiagnosticStatus` (the two levels used). -/
inductive Level where
  | ok | error
deriving DecidableEq

/-- `diagnoseStatus`, planner_3d.cpp 2364–2389, for the errors the node uses: the level and the text. -/
def diagnose : Err → Level × String
  | .goingWell => (.ok, "Going well.")
  | .inRock => (.error, "The robot is in rock.")
  | .pathNotFound => (.error, "Path not found.")
  | .dataMissing => (.error, "Required data is missing.")

/-- At time `now` the node has all it needs to look for a path: a map and a costmap that is recent enough, a goal that is not being finished,
the robot's position. -/
def Ready (s : St P) (now : Int) : Prop :=
  s.hasMap = true ∧ s.hasGoal = true ∧ s.hasStart = true ∧ s.phase ≠ .finishing ∧
    (s.cfg.watchdog > 0 → now - s.lastCostmap ≤ s.cfg.watchdog)

/-- The last status of a list of outputs, if the list ends with one: what subscribers see at the end of a planning cycle. -/
def shows (l : List (Out P)) : Option (Phase × Err) :=
  match l.getLast? with
  | some (.status ph e) => some (ph, e)
  | _ => none

/-- No temporary escape goal is being used before or after, and the world offers none when the goal is looked at. -/
def NoEscape (s s' : St P) (w : World P) : Prop :=
  s.escaping = .no ∧ s'.escaping = .no ∧ ∀ q b, w.crowd .cache s.goalOriginal ≠ .temp q b

end Verif.PlannerNode
