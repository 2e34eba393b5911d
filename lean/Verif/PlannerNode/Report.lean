import Verif.PlannerNode.Spec
/-! # What the planner node reports about itself: action feedback, the current goal, metrics

Models the feedback, `current_goal` and `metrics` outputs of `planner_cspace/src/planner_3d.cpp`, beside the state machine of `Model`. -/
namespace Verif.PlannerNode
variable {P : Type}

/-- An entry of the `metrics` message.  `delay`: "costmap_delay" (planner_3d.cpp 1567–1570, 1586–1589; `none` stands for the value -1.0);
`stuck`, `error`, `status`: 1718–1729; `other`: the measured durations and zeros (642–645, 886–889, 943–946, 2010–2013, 2088–2091, 2171–2174),
of which only the name is modelled. -/
inductive Metric where
  | delay (d : Option Int)
  | stuck (n : Int)
  | error (e : Err)
  | status (p : Phase)
  | other (name : String)
deriving DecidableEq

/-- `start_` and `metrics_` (planner_3d.cpp 209, 225), and everything published on the feedback topics of the two actions (goal number and pose), on
`current_goal`, and on `metrics` (with its time stamp). -/
structure Rep (P : Type) where
  start : P
  pending : List Metric
  feedback : List (Nat × P)
  goals : List P
  metrics : List (Int × List Metric)

/-- What an event brings that `Model` leaves out: the robot's pose, if it is looked up (`updateStart`, planner_3d.cpp 1135–1160), and the names of
the other metrics recorded, before the planning cycle and by `makePlan`.  Simplification: any lists, while the code records fixed names. -/
structure Extra (P : Type) where
  pose : P
  before : List String
  after : List String

/-- `publishFeedback`, guarded by `isActive`, planner_3d.cpp 1595–1607: it goes to the goal in the server's hands. -/
def feedbackTo (v : Server) (p : P) : List (Nat × P) := if v.active then (v.current.map fun i => (i, p)).toList else []

/-- The condition of planner_3d.cpp 1593. -/
def CanPlan (s : St P) (now : Int) : Prop := s.hasMap = true ∧ s.hasGoal = true ∧ s.hasStart = true ∧ ¬ Stale s now

/-- The condition for giving up, planner_3d.cpp 1611 and 1645. -/
def GivesUp (s : St P) : Prop := s.phase ≠ .finishing ∧ s.cfg.maxRetry ≠ -1 ∧ s.stuck > s.cfg.maxRetry

instance (s : St P) (now : Int) : Decidable (CanPlan s now) := by unfold CanPlan; infer_instance
instance (s : St P) : Decidable (GivesUp s) := by unfold GivesUp; infer_instance

/-- The reports of `planPath`, planner_3d.cpp 1557–1732.  The cycle that gives up returns at 1660, before the goal, the status and the metrics are
published and the metrics cleared (1731). -/
def reportPlan (now : Int) (w : World P) (x : Extra P) (s : St P) (r : Rep P) : Option (Rep P) :=
  (if s.hasMap && !s.cacheReady && s.hasGoal then (cache w depth s).map Prod.fst else some s).bind fun s1 =>
    let r := { r with
      pending := r.pending ++ x.before.map .other ++ [.delay (if s1.cfg.watchdog > 0 then some (now - s1.lastCostmap) else none)] }
    let r := if CanPlan s1 now then { r with feedback := r.feedback ++ (feedbackTo s1.base r.start ++ feedbackTo s1.tol r.start) } else r
    if CanPlan s1 now ∧ GivesUp s1 then some r
    else
      (planPath now w s).map fun s' =>
        { r with
          goals := r.goals ++ [s'.goal]
          metrics := r.metrics ++ [(now, r.pending ++ x.after.map .other ++ [.stuck s'.stuck, .error s'.error, .status s'.phase])]
          pending := [] }

/-- The reports of `cbMapUpdate`, planner_3d.cpp 966–987. -/
def reportUpdate (u : Update P) (x : Extra P) (s : St P) (r : Rep P) : Option (Rep P) :=
  if !s.hasMap then some r
  else if s.cfg.trigger then
    (applyUpdate u { s with timer := false, hasStart := u.located }).bind fun s =>
      reportPlan s.lastCostmap u.w x s { r with start := if u.located then x.pose else r.start }
  else some { r with pending := r.pending ++ x.before.map .other }

/-- The reports of `cbMap`, planner_3d.cpp 988–1108. -/
def reportMap (frame : Nat) (w : World P) (early : Option (Update P)) (x : Extra P) (s : St P) (r : Rep P) : Option (Rep P) :=
  (cache w depth { emit (.path []) s with frame := frame, hasMap := true, made := none }).bind fun a =>
    match early with
    | some u => reportUpdate u x a.1 r
    | none => some { r with pending := r.pending ++ x.before.map .other }

/-- The reports of one event; the events that do not plan may record durations (of distance maps, 642–645 and 2171–2174). -/
def report (s : St P) (r : Rep P) (x : Extra P) : Event P → Option (Rep P)
  | .map f w early => reportMap f w early x s r
  | .update u => reportUpdate u x s r
  | .located ok => some (if s.hasMap && !s.cfg.trigger && ok then { r with start := x.pose } else r)
  | .cycle now w => if s.cfg.trigger then some r else reportPlan now w x s r
  | .timer now w => if s.timer then reportPlan now w x s r else some r
  | _ => some { r with pending := r.pending ++ x.before.map .other }

/-- One event, with its reports. -/
def stepR (a : St P × Rep P) (e : Event P × Extra P) : Option (St P × Rep P) :=
  (step a.1 e.1).bind fun s' => (report a.1 a.2 e.2 e.1).map fun r' => (s', r')

/-- A history of events, with reports; nothing is reported at the start. -/
def runR (c : Cfg) (p : P) (h : List (Event P × Extra P)) : Option (St P × Rep P) :=
  h.foldlM stepR (init c p, ⟨p, [], [], [], []⟩)

/-! ## Specification -/

/-- The event contains a planning cycle, at time `now`: of the main loop, of the timer, or, if planning is triggered by costmap updates, with an update
(at the time the last fitting update was processed, `rejected_update_hides_age`). -/
def CycleAt (s : St P) (now : Int) : Event P → Prop
  | .cycle t _ => t = now ∧ s.cfg.trigger = false
  | .timer t _ => t = now ∧ s.timer = true
  | .update u => s.hasMap = true ∧ s.cfg.trigger = true ∧ now = if u.fits then u.now else s.lastCostmap
  | .map _ _ (some u) => s.cfg.trigger = true ∧ now = if u.fits then u.now else s.lastCostmap
  | _ => False

/-- In the planning cycle of the event, the robot's position is known: a costmap update that triggers planning looks it up; the other cycles use what is
known. -/
def Located (s : St P) : Event P → Prop
  | .update u => u.located = true
  | .map _ _ (some u) => u.located = true
  | _ => s.hasStart = true

/-- The robot's position in the planning cycle of the event: the one looked up, otherwise the last one found. -/
def robotAt (r : Rep P) (x : Extra P) : Event P → P
  | .update u => if u.located then x.pose else r.start
  | .map _ _ (some u) => if u.located then x.pose else r.start
  | _ => r.start

/-- The position of the robot an event looks up successfully. -/
def fixOf (s : St P) (x : Extra P) : Event P → Option P
  | .located ok => if s.hasMap && !s.cfg.trigger && ok then some x.pose else none
  | .update u => if s.hasMap && s.cfg.trigger && u.located then some x.pose else none
  | .map _ _ (some u) => if s.cfg.trigger && u.located then some x.pose else none
  | _ => none

/-- What an event added to a list. -/
def added {A : Type} (l l' : List A) : List A := l'.drop l.length

/-- The costmap ages among the entries of a metrics message. -/
def ages (l : List Metric) : List (Option Int) := l.filterMap fun m => match m with
  | .delay d => some d
  | _ => none

/-- No limit of attempts was ever set. -/
def NoLimit (c : Cfg) (h : List (Event P × Extra P)) : Prop := c.maxRetry = -1 ∧ ∀ e ∈ h, ∀ c', e.1 = .config c' → c'.maxRetry = -1

end Verif.PlannerNode
