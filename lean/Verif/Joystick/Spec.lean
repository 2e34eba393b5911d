import Verif.Joystick.Model
/-! # Specification of the joystick nodes in terms of the message history only (newest first) -/
namespace Verif.Joystick.Spec
open Verif.Joystick

/-- The button with index `i` exists in the message and is pressed. -/
def Pressed (i : Int) (buttons : List Int) : Prop := ∃ n : Nat, i = n ∧ ∃ b, buttons[n]? = some b ∧ b ≠ 0

/-- The newest joystick message of the history held the override button, at time `tj`. -/
def HeldAt (c : Cfg) (h : List Event) (tj : Int) : Prop :=
  ∃ newer m older, h = newer ++ .joy tj m :: older ∧ Pressed c.interruptButton m.buttons ∧
    ∀ e ∈ newer, ∀ t m', e ≠ .joy t m'

/-- Override in force at time `now`: held, and the joystick is not silent longer than the timeout. -/
def Active (c : Cfg) (h : List Event) (now : Int) : Prop := ∃ tj, HeldAt c h tj ∧ now - tj ≤ c.timeout

/-- The newest command received, if any. -/
def lastTwist : List Event → Option Twist
  | [] => none
  | .twist _ m :: _ => some m
  | _ :: h => lastTwist h

/-- Time of an event. -/
def time : Event → Int
  | .joy t _ => t
  | .twist t _ => t

/-- Clock assumption: time is positive, and without simulated time (wall clock) it is
beyond the timeout. -/
def ClockOK (c : Cfg) (e : Event) : Prop := 0 < time e ∧ (c.sim = true ∨ c.timeout < time e)

/-- Value of an axis as documented: 0 for an unused or missing axis. -/
def axis (m : Joy) (i : Int) : Rat := if i < 0 then 0 else (m.axes[i.toNat]?).getD 0

/-- `x` is the one of `a`, `b` with the larger absolute value (`a` on a tie). -/
def Larger (a b x : Rat) : Prop := (x = a ∧ |b| ≤ |a|) ∨ (x = b ∧ |a| < |b|)

/-- A joystick message is usable by the multiplexer when it has the button. -/
def HasButton (c : MuxCfg) (bs : List Int) : Prop := 0 ≤ c.interruptButton ∧ c.interruptButton < bs.length

/-- Source 1 is selected after history `h` (newest first): the newest usable joystick message held the button and
no later timer tick found the joystick silent beyond the timeout. -/
def Selected1 {M : Type} (c : MuxCfg) (h : List (MuxEvent M)) : Prop :=
  ∃ newer tj bs older, h = newer ++ .joy tj bs :: older ∧ Pressed c.interruptButton bs ∧
    (∀ e ∈ newer, ∀ t bs', e = .joy t bs' → ¬ HasButton c bs') ∧
    (∀ e ∈ newer, ∀ t, e = .timer t → t - tj ≤ c.timeout)

end Verif.Joystick.Spec
