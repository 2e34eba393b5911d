/-!
# Model of the patrol node (`planner_cspace/src/patrol.cpp`)

Poses are elements of an arbitrary type.  The action client (`actionlib::SimpleActionClient`) is modelled by the state
of the goal it tracks: sending a goal makes it `pending`, the server then drives it by `state` events; results of
earlier goals are ignored by the client.  `with_tolerance_` only selects which of two equal clients is used.
-/
namespace Verif.Patrol

/-- `actionlib::SimpleClientGoalState`; `lost` before any goal is sent. -/
inductive GoalState | pending | active | succeeded | aborted | preempted | rejected | recalled | lost
deriving DecidableEq

inductive Event (P : Type) where
  /-- a path message -/
  | path (ps : List P)
  /-- the action server moves the tracked goal to a state -/
  | state (g : GoalState)
  /-- one turn of the main loop -/
  | tick

/-- Members, patrol.cpp:54-55, and the client's view of its goal. -/
structure St (P : Type) where
  path : List P
  pos : Nat
  client : GoalState

/-- What the node does. -/
inductive Out (P : Type) where
  | goal (p : P)
  | cancelAll
deriving DecidableEq

/-- Constructor, patrol.cpp:80-104. -/
def init : St P := ⟨[], 0, .lost⟩

/-- `cbPath`, patrol.cpp:61-77. -/
def cbPath (s : St P) (ps : List P) : St P × Option (Out P) :=
  ({ s with path := ps, pos := 0 }, if s.path.length > 0 then some .cancelAll else none)

/-- `sendNextGoal`, patrol.cpp:105-141. -/
def sendNextGoal (s : St P) : St P × Option (Out P) :=
  match s.path[s.pos]? with
  | none => ({ s with path := [] }, none)
  | some p => ({ s with pos := s.pos + 1, client := .pending }, some (.goal p))

/-- One turn of `spin`, patrol.cpp:151-179. -/
def tick (s : St P) : St P × Option (Out P) :=
  if s.path.length = 0 then (s, none)
  else if s.pos = 0 then sendNextGoal s
  else if s.client = .succeeded then sendNextGoal s
  else if s.client = .aborted then sendNextGoal s
  else (s, none)

def step (s : St P) : Event P → St P × Option (Out P)
  | .path ps => cbPath s ps
  | .state g => ({ s with client := g }, none)
  | .tick => tick s

/-- After a history, newest event first. -/
def run : List (Event P) → St P
  | [] => init
  | e :: h => (step (run h) e).1

/-- What the node does on the event following a history. -/
def output (h : List (Event P)) (e : Event P) : Option (Out P) := (step (run h) e).2

end Verif.Patrol
