import Verif.PlannerNode.Spec
/-! # Which distance map guides the search -/
namespace Verif.PlannerNode
variable {P : Type}

/-- The distance map that the next search will use was made for the goal pursued. -/
def Guided (s : St P) : Prop := s.hasGoal = true → s.cacheReady = true → s.made = some s.goal

/-- An event after which the distance map may be one for another goal, or none: new parameters while a goal is pursued, a map while the goal is
pursued but the robot's position is not known, a goal while the map is known and the robot's position is not. -/
def Disturbs (s : St P) : Event P → Prop
  | .config _ => s.hasGoal = true
  | .map _ _ _ => s.hasGoal = true ∧ s.hasStart = false
  | .topicGoal _ _ | .baseGoal _ _ _ | .tolGoal _ _ _ _ => s.hasMap = true ∧ s.hasStart = false
  | _ => False

/-- No event of the history was of this kind. -/
def Undisturbed (c : Cfg) (p : P) (h : List (Event P)) : Prop :=
  ∀ h1 e h2 s, h = h1 ++ e :: h2 → run c p h1 = some s → ¬ Disturbs s e

/-- Where a path of a planning step, that led to the state `s'`, comes from: empty; the search for a goal `g`, guided by a distance map for `g`; or
the final pose alone, the robot being about to finish. -/
def WellMade (w : World P) (s' : St P) (ps : List P) : Prop :=
  ps = [] ∨ (∃ g, ps = w.poses (some g) g) ∨ (s'.phase = .finishing ∧ ps = [finalPose s'])

end Verif.PlannerNode
