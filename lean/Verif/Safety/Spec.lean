import Verif.Safety.Model
/-! # Specification vocabulary for the safety limiter

Statements about the history of callbacks and about the geometry of the predicted motion, independent of the member
variables of the node. -/
namespace Verif.Safety.Spec
open Verif.Polygon hiding dist

/-! ### Histories -/

/-- A point cloud that the node could place in the fixed frame. -/
def Accepted : Ev → Prop
  | .cloud _ pts tf => pts = [] ∨ tf ≠ none
  | _ => False

/-- No usable point cloud so far. -/
def NoCloud (h : List Ev) : Prop := ∀ ev ∈ h, ¬ Accepted ev

/-- The watchdog fired and has not been reset since. -/
def WatchdogExpired (h : List Ev) : Prop :=
  ∃ pre post, h = pre ++ .watchdog :: post ∧ ∀ ev ∈ post, ev ≠ .watchdogReset

/-- The configuration in force. -/
def config (c : Cfg) (h : List Ev) : Cfg :=
  h.foldl (fun c ev => match ev with | .param c' => c' | _ => c) c

/-- The time of the last request to disable the limiter; zero when there was none. -/
def lastDisable (h : List Ev) : ℝ :=
  h.foldl (fun d ev => match ev with | .disable now true => now | _ => d) 0

/-- A command that arrives at `now` finds the limiter disabled. -/
def Disabled (c : Cfg) (h : List Ev) (now : ℝ) : Prop :=
  now - lastDisable h < (config c h).disableTimeout

/-- The header stamp of the last accepted point cloud; zero when there was none. -/
def lastStamp (h : List Ev) : ℝ :=
  h.foldl (fun d ev => match ev with
    | .cloud stamp pts tf => if pts.isEmpty || tf.isSome then stamp else d
    | _ => d) 0

/-- The time at which a command or a prediction is processed. -/
def timeOf : Ev → Option ℝ
  | .twist now _ => some now
  | .predict now _ => some now
  | _ => none

/-! ### Commands -/

/-- `o` is `t` slowed down: the two linear components share one factor in `[0, 1]`, the yaw rate has its own, and the
components a planar robot does not use are passed on or zeroed. -/
def Slowed (t o : Twist) : Prop :=
  ∃ a b k : ℝ, 0 ≤ a ∧ a ≤ 1 ∧ 0 ≤ b ∧ b ≤ 1 ∧ 0 ≤ k ∧ k ≤ 1 ∧
    o.lx = a * t.lx ∧ o.ly = a * t.ly ∧ o.az = b * t.az ∧ o.lz = k * t.lz ∧ o.ax = k * t.ax ∧ o.ay = k * t.ay

/-- At least as slow as factor `r`. -/
def SlowedBy (r : ℝ) (t o : Twist) : Prop :=
  ∃ a b : ℝ, 0 ≤ a ∧ a ≤ r ∧ 0 ≤ b ∧ b ≤ r ∧ o.lx = a * t.lx ∧ o.ly = a * t.ly ∧ o.az = b * t.az

/-! ### Predicted motion -/

/-- A planar pose. -/
structure Pose where
  x : ℝ
  y : ℝ
  yaw : ℝ

/-- The predicted pose after `n` time steps: in each step the robot moves by its body velocity times `dt` along its
current heading, then turns. -/
noncomputable def pose (t : Twist) (dt : ℝ) : Nat → Pose
  | 0 => ⟨0, 0, 0⟩
  | n + 1 =>
    let p := pose t dt n
    ⟨p.x + (Real.cos p.yaw * (t.lx * dt) - Real.sin p.yaw * (t.ly * dt)),
     p.y + (Real.sin p.yaw * (t.lx * dt) + Real.cos p.yaw * (t.ly * dt)), p.yaw + t.az * dt⟩

/-- The point with body coordinates `q` for a robot at pose `p`. -/
noncomputable def Pose.toWorld (p : Pose) (q : Pt ℝ) : Pt ℝ :=
  (Real.cos p.yaw * q.1 - Real.sin p.yaw * q.2 + p.x, Real.sin p.yaw * q.1 + Real.cos p.yaw * q.2 + p.y)

/-- At time step `n` of the predicted motion an obstacle point lies inside the footprint. -/
def Hits (fp : List (Pt ℝ)) (t : Twist) (dt : ℝ) (obstacles : List (Pt ℝ)) (n : Nat) : Prop :=
  ∃ p ∈ obstacles, ∃ q, inside (close fp) q = true ∧ p = (pose t dt n).toWorld q

/-- The predicted motion is stopped at time step `n`: something is hit, and either the robot was free at the start, or
it has used up the distance or the rotation it may move while still in collision. -/
def Stops (c : Cfg) (t : Twist) (hits : Nat → Prop) (n : Nat) : Prop :=
  hits n ∧ (¬ hits 0 ∨ c.dEscape ≤ n * (Polygon.hypot t.lx t.ly * c.dt) ∨ c.yawEscape ≤ n * (|t.az| * c.dt))

/-- The distance needed to stop from speed `u`: one delay at full speed, then braking. -/
noncomputable def stoppingDistance (u acc delay : ℝ) : ℝ := u * delay + u ^ 2 / (2 * acc)

/-! ### The obstacle picture -/

/-- The points of the accepted clouds of a history, in the fixed frame, in arrival order. -/
def received : List Ev → List P3
  | [] => []
  | .cloud _ pts (some f) :: h => pts.map f ++ received h
  | _ :: h => received h

/-- A prediction cycle at time `now` after the history `h` finds usable, recent data and returns the ratio `r`. -/
def Predicts (e : Env) (c : Cfg) (h : List Ev) (now : ℝ) (tf : Option (P3 → P3)) (r : ℝ) : Prop :=
  (run e c h).hasCloud = true ∧ now - lastStamp h ≤ (config c h).timeout ∧
    (predict e (config c h) (run e c h).twist (run e c h).cloud tf).ratio = r

/-- A prediction cycle at time `now` after the history `h` compares obstacle points with the footprint and finds the
robot in collision (`b = true`) or not. -/
def Examines (e : Env) (c : Cfg) (h : List Ev) (now : ℝ) (tf : Option (P3 → P3)) (b : Bool) : Prop :=
  (run e c h).hasCloud = true ∧ now - lastStamp h ≤ (config c h).timeout ∧
    ∃ pts, (predict e (config c h) (run e c h).twist (run e c h).cloud tf).tested = some (pts, b)

/-- No prediction cycle. -/
def NoPredict (h : List Ev) : Prop := ∀ ev ∈ h, ∀ now tf, ev ≠ .predict now tf

end Verif.Safety.Spec
