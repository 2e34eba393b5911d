import Verif.Filter.Model
import Mathlib.Analysis.SpecialFunctions.Pow.Real
/-! # Recording, saving and serving paths

`trajectory_tracker/src/trajectory_recorder.cpp`, `trajectory_saver.cpp` and `trajectory_server.cpp`.  Exact real numbers; orientations are
elements of an arbitrary type `Q`; the serialisation of ROS messages is a pair of functions (see `Codec`). -/
namespace Verif.TrajFile

/-- `geometry_msgs::Pose`. -/
structure Pose (Q : Type) where
  x : ℝ
  y : ℝ
  z : ℝ
  q : Q

/-- `geometry_msgs::PoseStamped`.  All frame names in a path are the same here. -/
structure Stamped (Q : Type) where
  seq : Nat
  stamp : ℝ
  pose : Pose Q

/-- `nav_msgs::Path`. -/
structure Path (Q : Type) where
  frame : String
  stamp : ℝ
  poses : List (Stamped Q)

variable {Q : Type}

/-! ### Recorder -/

/-- `dist2d`, trajectory_recorder.cpp:102–105. -/
noncomputable def dist2d (a b : Pose Q) : ℝ := Real.sqrt ((a.x - b.x) ^ 2 + (a.y - b.y) ^ 2)

/-- Parameters, trajectory_recorder.cpp:88–90.  `ang_interval` is read but never used. -/
structure RecConfig where
  interval : ℝ
  storeTime : Bool

/-- State of the recorder: the path and the service requests that wait for `spinOnce`. -/
structure Rec (Q : Type) where
  poses : List (Stamped Q)
  seq : Nat
  stamp : ℝ
  waiting : Nat

/-- The state on entry of `spin`, trajectory_recorder.cpp:116–118. -/
def Rec.init : Rec Q := ⟨[], 0, 0, 0⟩

/-- One round of the loop: the result of the lookup (`none`: exception), the clock, and the number of `clear_path` requests that arrive
before its `spinOnce`. -/
structure Round (Q : Type) where
  tf : Option (Pose Q)
  now : ℝ
  clears : Nat

/-- What a round does: the published poses and the number of answered requests. -/
structure RecOut (Q : Type) where
  published : Option (List (Stamped Q))
  answered : Nat

/-- One round of the loop, trajectory_recorder.cpp:120–164. -/
noncomputable def record (c : RecConfig) (s : Rec Q) (r : Round Q) : Rec Q × RecOut Q :=
  let waiting := s.waiting + r.clears
  match r.tf with
  | none => ({ s with waiting := waiting }, ⟨none, 0⟩)
  | some p =>
    let now := if c.storeTime then r.now else 0
    let sp : Stamped Q := ⟨s.poses.length, now, p⟩
    let grow := match s.poses.getLast? with
      | none => true
      | some b => decide (dist2d b.pose p > c.interval)
    let poses := if grow then s.poses ++ [sp] else s.poses
    ({ poses := if waiting = 0 then poses else [], seq := s.seq + 1, stamp := now, waiting := 0 },
      ⟨if grow then some poses else none, waiting⟩)

/-- The rounds of `spin` one after the other. -/
noncomputable def recordAll (c : RecConfig) (rs : List (Round Q)) : Rec Q := rs.foldl (fun s r => (record c s r).1) Rec.init

/-! ### Saver -/

/-- Serialisation of paths (`ros::serialization`). -/
structure Codec (Q : Type) where
  ser : Path Q → List UInt8
  deser : List UInt8 → Option (Path Q)
  round : ∀ p, deser (ser p) = some p

/-- State of the saver: `saved_` and the content of the file if it was written. -/
structure Saver where
  saved : Bool
  file : Option (List UInt8)

/-- `cbPath`, trajectory_saver.cpp:84–106; `opens` tells whether the file can be opened. -/
def save (k : Codec Q) (s : Saver) (m : Path Q × Bool) : Saver :=
  if s.saved then s
  else if m.2 = false then s
  else ⟨true, some (k.ser m.1)⟩

/-! ### Server -/

/-- State of the server: the path, the number of markers known to the marker server, and the reported request. -/
structure Server (Q : Type) where
  path : Path Q
  markers : Nat
  filename : String
  id : Int

/-- Events of a marker that are looked at, trajectory_server.cpp:142–164. -/
inductive Event (Q : Type) where
  | poseUpdate (p : Pose Q)
  | mouseUp
  | menu (entry : Nat)
  | other

/-- What the server receives: a `ChangePath` request with the decoded content of the file (`none`: it cannot be opened), or feedback of a
marker. -/
inductive Cmd (Q : Type) where
  | change (filename : String) (id : Int) (file : Option (Path Q)) (now : ℝ)
  | feedback (id : Nat) (e : Event Q) (now : ℝ)

/-- What it does: the published path and the answer to the request. -/
structure SrvOut (Q : Type) where
  published : Option (Path Q)
  success : Option Bool

/-- The filter on the positions, trajectory_server.cpp:247–263; `none`: the first pose of an empty path. -/
noncomputable def filterPoses (step : ℝ) (l : List (Stamped Q)) : Option (List (Stamped Q)) :=
  if step > 0 then
    match Filter.smooth step (l.map fun p => p.pose.x), Filter.smooth step (l.map fun p => p.pose.y) with
    | some xs, some ys => some ((l.zip (xs.zip ys)).map fun t => { t.1 with pose := { t.1.pose with x := t.2.1, y := t.2.2 } })
    | _, _ => none
  else some l

/-- `change`, trajectory_server.cpp:235–276, and `processFeedback`, 138–165.  `updateIM` (167–233) makes one marker for every pose.
Feedback reaches `processFeedback` only for a marker known to the marker server (library).  `none`: access outside of the path. -/
noncomputable def serve (step : ℝ) (s : Server Q) : Cmd Q → Option (Server Q × SrvOut Q)
  | .change name id file now =>
    match file with
    | some p =>
      match filterPoses step p.poses with
      | none => none
      | some l =>
        let path : Path Q := { p with stamp := now, poses := l }
        some ({ path := path, markers := l.length, filename := name, id := id }, ⟨some path, some true⟩)
    | none => some ({ s with path := { s.path with poses := [], frame := "map" }, filename := "", id := id }, ⟨none, some false⟩)
  | .feedback i e now =>
    if i < s.markers then
      match e with
      | .poseUpdate p =>
        match s.path.poses[i]? with
        | none => none
        | some sp => some ({ s with path := { s.path with poses := s.path.poses.set i { sp with pose := p } } }, ⟨none, none⟩)
      | .mouseUp =>
        let path := { s.path with stamp := now }
        some ({ s with path := path }, ⟨some path, none⟩)
      | .menu n =>
        let r : Option (List (Stamped Q)) :=
          if n = 1 then (if i < s.path.poses.length then some (s.path.poses.eraseIdx i) else none)
          else if n = 2 then
            match s.path.poses[i]? with
            | none => none
            | some sp => some (s.path.poses.insertIdx i sp)
          else some s.path.poses
        match r with
        | none => none
        | some l =>
          let path := { s.path with poses := l }
          some ({ s with path := path, markers := l.length }, ⟨some path, none⟩)
      | .other => some (s, ⟨none, none⟩)
    else some (s, ⟨none, none⟩)

/-- A history of the server. -/
noncomputable def serveAll (step : ℝ) : Server Q → List (Cmd Q) → Option (Server Q)
  | s, [] => some s
  | s, c :: cs =>
    match serve step s c with
    | none => none
    | some r => serveAll step r.1 cs

/-- The server after its constructor. -/
def Server.init (file : String) : Server Q := ⟨⟨"", 0, []⟩, 0, file, 0⟩

end Verif.TrajFile
