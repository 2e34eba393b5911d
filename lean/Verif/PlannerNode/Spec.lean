import Verif.PlannerNode.Model
/-! # Vocabulary for the planner node's obligations -/
namespace Verif.PlannerNode
variable {P : Type}

/-- The final answers given to action goal `i`, in order. -/
def answersTo (log : List (Out P)) (i : Nat) : List Answer :=
  log.filterMap fun o => match o with
    | .answer j a => if j = i then some a else none
    | _ => none

/-- Goal `i`, asking for `pose`, was accepted by one of the two action servers. -/
def AcceptedAs (log : List (Out P)) (i : Nat) (pose : P) : Prop := ∃ k, Out.accepted k i pose ∈ log

/-- Goal `i` was accepted. -/
def Accepted (log : List (Out P)) (i : Nat) : Prop := ∃ p, AcceptedAs log i p

/-- The server is processing goal `i`. -/
def Server.Holds (v : Server) (i : Nat) : Prop := v.active = true ∧ v.current = some i

/-- Goal `i` is being processed. -/
def Open (s : St P) (i : Nat) : Prop := s.base.Holds i ∨ s.tol.Holds i

/-- Goal `i` was received but neither accepted nor answered. -/
def Waiting (s : St P) (i : Nat) : Prop := s.base.pending = some i ∨ s.tol.pending = some i

/-- The number of action goals received in a history. -/
def received (h : List (Event P)) : Nat :=
  h.countP fun e => match e with
    | .baseGoal _ _ _ | .tolGoal _ _ _ _ => true
    | _ => false

/-- What one event made the node publish. -/
def published (s s' : St P) : List (Out P) := s'.log.drop s.log.length

/-- The world's answers agree with each other: the escape search returns to the original goal only if that goal's cell is not an
obstacle (planner_3d.cpp 2233: `cm_[g_orig] < 100`; `SearchPos.relocate_cases`: a pose is reported in rock only if its cell's
cost is 100). -/
def Consistent (w : World P) : Prop := ∀ c o, w.crowd c o = .original → w.goal o ≠ .inRock

/-- The worlds occurring in an event. -/
def worlds : Event P → List (World P)
  | .map _ w early => w :: (early.map Update.w).toList
  | .update u => [u.w]
  | .cycle _ w | .timer _ w | .topicGoal _ w | .baseGoal _ _ w | .tolGoal _ _ _ w | .escape w => [w]
  | _ => []

/-- All worlds of a history are consistent. -/
def AllConsistent (h : List (Event P)) : Prop := ∀ e ∈ h, ∀ w ∈ worlds e, Consistent w

/-- Whether a map has been received, and when the last costmap update that fitted it was processed (0 if none was). -/
def lastUpdate1 (a : Bool × Int) : Event P → Bool × Int
  | .map _ _ (some u) => (true, if u.fits then u.now else a.2)
  | .map _ _ none => (true, a.2)
  | .update u => (a.1, if a.1 && u.fits then u.now else a.2)
  | _ => a

/-- The time of the last accepted costmap update of a history. -/
def lastUpdate (h : List (Event P)) : Int := (h.foldl lastUpdate1 (false, 0)).2

/-- The event is a planning cycle of the main loop, or of the no-update timer, that takes place at time `now`. -/
def PlansAt (s : St P) (now : Int) : Event P → Prop
  | .cycle t _ => t = now ∧ s.cfg.trigger = false
  | .timer t _ => t = now ∧ s.timer = true
  | _ => False

/-- The tolerances (cells, heading steps) that apply to the goal in progress: those of the tolerant goal if one is being
processed, otherwise the configured ones. -/
def goalTolerance (s : St P) : Int × Int :=
  if s.tol.active then
    match s.tolGoal with
    | some t => (t.lin, t.ang)
    | none => (s.cfg.tolLin, s.cfg.tolAng)
  else (s.cfg.tolLin, s.cfg.tolAng)

/-- The final heading tolerance that applies to the goal in progress. -/
def headingTolerance (s : St P) : ℚ :=
  if s.tol.active then
    match s.tolGoal with
    | some t => t.angFinish
    | none => s.cfg.angFinish
  else s.cfg.angFinish

/-- A start cell of the robot lies within the tolerance of the goal `g`. -/
def NearGoal (w : World P) (g : P) (t : Int × Int) : Prop :=
  ∃ ds, w.starts g = some ds ∧ ∃ d ∈ ds, d.1 ≤ t.1 * t.1 ∧ d.2 ≤ t.2

/-- The pose whose heading counts at the end. -/
def finalPose (s : St P) : P := if s.cfg.forceOrientation then s.goalRaw else s.goal

/-- `g` is where the requested pose `o` ends up: itself, or, if its cell is occupied, the pose it was moved to according to one of
the worlds of the history. -/
def Stands (h : List (Event P)) (o g : P) : Prop := g = o ∨ ∃ e ∈ h, ∃ w ∈ worlds e, w.goal o = .moved g

/-- One of the two servers. -/
def server (k : Which) (s : St P) : Server :=
  match k with
  | .base => s.base
  | .tolerant => s.tol

/-- The event brings goal message `g` on server `k`; `late` if an action client sent it with an old time stamp. -/
def Brings (k : Which) (late : Bool) (g : GoalMsg P) (w : World P) (e : Event P) : Prop :=
  (k = .base ∧ e = .baseGoal late g w) ∨ (k = .tolerant ∧ ∃ t, e = .tolGoal late g t w)

/-- According to `w`, no plan can even be attempted: the robot stands inside an obstacle, or the goal `o` does, and no free pose
is near enough. -/
def Blocked (w : World P) (o : P) : Prop := w.start = .inRock ∨ (w.start ≠ .outOfMap ∧ w.goal o = .inRock)

/-- A goal that cannot be taken: it is in the wrong frame, or, with the map and the robot's position known and a valid orientation, the robot
or the goal lies outside the map (and the robot not in an obstacle). -/
def Refused (s : St P) (g : GoalMsg P) (w : World P) : Prop :=
  s.frame ≠ g.frame ∨ (s.frame = g.frame ∧ g.oriented = true ∧ s.hasMap = true ∧ s.hasStart = true ∧
    (w.start = .outOfMap ∨ (w.start ≠ .inRock ∧ w.goal g.pose = .outOfMap)))

end Verif.PlannerNode
