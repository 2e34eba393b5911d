import Verif.PlannerNode.StatusSpec
/-! # Specification: a robot that is at its goal -/
namespace Verif.PlannerNode
variable {P : Type}

/-- Neither the robot nor the requested pose `o` is out of the map or so deep in an obstacle that no free cell is near. -/
def Calm (w : World P) (o : P) : Prop := w.start ≠ .inRock ∧ w.start ≠ .outOfMap ∧ w.goal o ≠ .inRock ∧ w.goal o ≠ .outOfMap

/-- Nothing interferes with the goal, requested as `o`: planning cycles, costmap updates, the position known.  (`located` of an update is used
only if planning is triggered by updates.) -/
def Quiet (o : P) : Event P → Prop
  | .cycle _ w => Calm w o
  | .timer _ w => Calm w o
  | .update u => Calm u.w o ∧ u.located = true
  | .located ok => ok = true
  | .switchReached => True
  | _ => False

/-- By the event the node plans, at time `now` in the world `w`, with a map and the robot's position known: a cycle of the main loop, the no-update timer, or, if planning is
triggered by costmap updates, an update. -/
def Looks (s : St P) (now : Int) (w : World P) (e : Event P) : Prop :=
  s.hasMap = true ∧
  match e with
  | .cycle t v => t = now ∧ v = w ∧ s.cfg.trigger = false ∧ s.hasStart = true
  | .timer t v => t = now ∧ v = w ∧ s.timer = true ∧ s.hasStart = true
  | .update u => u.now = now ∧ u.w = w ∧ u.fits = true ∧ u.located = true ∧ s.cfg.trigger = true
  | _ => False

/-- The costmap is recent enough at time `now`, after the history `h`. -/
def Recent (s : St P) (h : List (Event P)) (now : Int) : Prop := s.cfg.watchdog > 0 → now - lastUpdate h ≤ s.cfg.watchdog

/-- Planning is not about to be given up. -/
def Patient (s : St P) : Prop := s.cfg.maxRetry = -1 ∨ s.stuck ≤ s.cfg.maxRetry

/-- The goal in progress is not one to be passed through without stopping. -/
def Stopping (s : St P) : Prop := s.tol.active = true → ∀ t, s.tolGoal = some t → t.continuous = false

end Verif.PlannerNode
