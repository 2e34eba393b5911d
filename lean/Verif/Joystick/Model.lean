import Mathlib.Algebra.Order.Ring.Rat
/-!
# Model of `joystick_interrupt` and `joystick_mux`

Callbacks run one at a time (`ros::spin`), so each node is a step function.  Times are integers
(`ros::Time` counts nanoseconds), real values are exact rationals.  `std::vector` indexing that may be out of
range is an `Option` whose `none` is undefined behaviour.
-/
namespace Verif.Joystick

/-- `geometry_msgs::Twist`. -/
structure Twist where
  lx : Rat
  ly : Rat
  lz : Rat
  ax : Rat
  ay : Rat
  az : Rat
deriving DecidableEq

/-- Parameters, joystick_interrupt.cpp:171-184; `sim` is `ros::Time::isSimTime()`. -/
structure Cfg where
  linearVel : Rat
  angularVel : Rat
  linearYVel : Rat
  linAxis : Int
  angAxis : Int
  linAxis2 : Int
  angAxis2 : Int
  linYAxis : Int
  linYAxis2 : Int
  interruptButton : Int
  highSpeedButton : Int
  linRatio : Rat
  angRatio : Rat
  timeout : Int
  sim : Bool

/-- `sensor_msgs::Joy`. -/
structure Joy where
  axes : List Rat
  buttons : List Int

/-- `static_cast<size_t>(i) >= v.size()`: a negative index becomes a huge unsigned number. -/
def outOfRange (i : Int) (n : Nat) : Bool := decide (i < 0 ∨ (n : Int) ≤ i)

/-- `v[i]`; `none` is undefined behaviour. -/
def vecAt {α : Type} (v : List α) (i : Int) : Option α := if i < 0 then none else v[i.toNat]?

/-- `getAxisValue`, joystick_interrupt.cpp:67-80; `none` is undefined behaviour. -/
def getAxisValue (m : Joy) (axis : Int) : Option Rat :=
  if axis < 0 then some 0
  else if outOfRange axis m.axes.length then some 0
  else vecAt m.axes axis

/-- `getJoyValue`, joystick_interrupt.cpp:82-88. -/
def getJoyValue (m : Joy) (axis axis2 : Int) : Option Rat :=
  match getAxisValue m axis, getAxisValue m axis2 with
  | some v, some v2 => some (if |v2| > |v| then v2 else v)
  | _, _ => none

/-- State: `last_joy_msg_` (0 is `ros::Time(0)`), `last_input_twist_`. -/
structure St where
  lastJoy : Int
  lastInput : Twist

def zeroTwist : Twist := ⟨0, 0, 0, 0, 0, 0⟩

/-- joystick_interrupt.cpp:186 and the default-constructed message. -/
def init : St := ⟨0, zeroTwist⟩

inductive Event where
  | joy (now : Int) (m : Joy)
  | twist (now : Int) (m : Twist)

/-- Messages published: on `cmd_vel` and on `interrupt_status`. -/
inductive Out where
  | cmd (t : Twist)
  | status (b : Bool)
deriving DecidableEq

/-- `cbJoy` computation of the command, joystick_interrupt.cpp:111-137. -/
def joyCommand (c : Cfg) (m : Joy) : Option Twist :=
  match getJoyValue m c.linAxis c.linAxis2, getJoyValue m c.linYAxis c.linYAxis2,
      getJoyValue m c.angAxis c.angAxis2 with
  | some x, some y, some a =>
    let mk (x y a : Rat) : Twist := ⟨x * c.linearVel, y * c.linearYVel, 0, 0, 0, a * c.angularVel⟩
    if c.highSpeedButton ≥ 0 then
      if outOfRange c.highSpeedButton m.buttons.length then some (mk x y a)
      else match vecAt m.buttons c.highSpeedButton with
        | none => none
        | some b => if b ≠ 0 then some (mk (x * c.linRatio) (y * c.linRatio) (a * c.angRatio))
                    else some (mk x y a)
    else some (mk x y a)
  | _, _, _ => none

/-- `cbJoy`, joystick_interrupt.cpp:90-138; `none` is undefined behaviour. -/
def cbJoy (c : Cfg) (s : St) (now : Int) (m : Joy) : Option (St × List Out) :=
  if outOfRange c.interruptButton m.buttons.length then some ({ s with lastJoy := 0 }, [])
  else match vecAt m.buttons c.interruptButton with
    | none => none
    | some b =>
      if b = 0 then
        some ({ s with lastJoy := 0 }, if s.lastJoy ≠ 0 then [.cmd s.lastInput] else [])
      else match joyCommand c m with
        | none => none
        | some t => some ({ s with lastJoy := now }, [.cmd t])

/-- `cbTwist`, joystick_interrupt.cpp:139-154. -/
def cbTwist (c : Cfg) (s : St) (now : Int) (m : Twist) : St × List Out :=
  let s := { s with lastInput := m }
  if now - s.lastJoy > c.timeout ∨ (c.sim = true ∧ s.lastJoy = 0) then
    (s, [.cmd s.lastInput, .status true])
  else (s, [.status false])

def step (c : Cfg) (s : St) : Event → Option (St × List Out)
  | .joy now m => cbJoy c s now m
  | .twist now m => some (cbTwist c s now m)

/-- The state after a history of events. -/
def run (c : Cfg) : List Event → Option St
  | [] => some init
  | e :: older => (run c older).bind (fun s => (step c s e).map Prod.fst)

/-- What is published for the newest event of the history `e :: older` (newest first). -/
def output (c : Cfg) (e : Event) (older : List Event) : Option (List Out) :=
  (run c older).bind (fun s => (step c s e).map Prod.snd)

/-! ### `joystick_mux` -/

/-- Parameters, joystick_mux.cpp:122-123. -/
structure MuxCfg where
  interruptButton : Int
  timeout : Int

structure MuxSt where
  lastJoy : Int
  advertised : Bool
  selected : Int

/-- joystick_mux.cpp:124-129. -/
def muxInit (t0 : Int) : MuxSt := ⟨t0, false, 0⟩

inductive MuxEvent (M : Type) where
  | joy (now : Int) (buttons : List Int)
  /-- message on input 0 or 1 -/
  | topic (id : Int) (msg : M)
  | timer (now : Int)

/-- `cbJoy`, `cbTopic`, `cbTimer`, joystick_mux.cpp:52-106; result: new state and messages published. `none` is
undefined behaviour. -/
def muxStep {M : Type} (c : MuxCfg) (s : MuxSt) : MuxEvent M → Option (MuxSt × List M)
  | .joy now bs =>
    if outOfRange c.interruptButton bs.length then some (s, [])
    else match vecAt bs c.interruptButton with
      | none => none
      | some b => some ({ s with lastJoy := now, selected := if b ≠ 0 then 1 else 0 }, [])
  | .topic id m =>
    if s.selected = id then some ({ s with advertised := true }, [m]) else some (s, [])
  | .timer now =>
    if now - s.lastJoy > c.timeout then some ({ s with selected := 0 }, []) else some (s, [])

def muxRun {M : Type} (c : MuxCfg) (t0 : Int) : List (MuxEvent M) → Option MuxSt
  | [] => some (muxInit t0)
  | e :: older => (muxRun c t0 older).bind (fun s => (muxStep c s e).map Prod.fst)

def muxOutput {M : Type} (c : MuxCfg) (t0 : Int) (e : MuxEvent M) (older : List (MuxEvent M)) : Option (List M) :=
  (muxRun c t0 older).bind (fun s => (muxStep c s e).map Prod.snd)

end Verif.Joystick
