import Verif.Joystick.Props
/-! # C145: whose command is in force -/
namespace Verif.Joystick
open Spec

namespace Spec

/-- The last command among published messages. -/
def lastCmd (outs : List Out) : Option Twist := outs.reverse.findSome? fun o => match o with
  | .cmd t => some t
  | .status _ => none

/-- The command in force after a history (newest event first): the last command published, if any. -/
def inForce (c : Cfg) : List Event → Option Twist
  | [] => none
  | e :: older => match (output c e older).bind lastCmd with
    | some t => some t
    | none => inForce c older

/-- Joystick messages have the override button. -/
def ButtonThere (c : Cfg) (e : Event) : Prop := ∀ t m, e = .joy t m → 0 ≤ c.interruptButton ∧ c.interruptButton < m.buttons.length

end Spec

theorem inForce_some (c : Cfg) (e : Event) (older : List Event) (outs : List Out) (t : Twist) (h : output c e older = some outs) (hl : lastCmd outs = some t) :
    inForce c (e :: older) = some t := by
  simp [inForce, h, hl]

theorem inForce_none (c : Cfg) (e : Event) (older : List Event) (outs : List Out) (h : output c e older = some outs) (hl : lastCmd outs = none) :
    inForce c (e :: older) = inForce c older := by
  simp [inForce, h, hl]

theorem held_twist (c : Cfg) (older : List Event) (now : Int) (m : Twist) (t : Int) (h : HeldAt c older t) : HeldAt c (.twist now m :: older) t := by
  obtain ⟨newer, mj, o, rfl, hp, hn⟩ := h
  refine ⟨.twist now m :: newer, mj, o, rfl, hp, ?_⟩
  intro e he t' m'
  rcases List.mem_cons.mp he with rfl | he
  · simp
  · exact hn e he t' m'

/-- **C145**: while the newest joystick message does not hold the override button, the command in force is the newest autonomous command; if there was none, nothing or a stop. -/
theorem free_in_force (c : Cfg) (h : List Event) (hc : ∀ e ∈ h, ClockOK c e) (hb : ∀ e ∈ h, ButtonThere c e) (hf : ¬ ∃ t, HeldAt c h t) :
    inForce c h = lastTwist h ∨ (lastTwist h = none ∧ inForce c h = some zeroTwist) := by
  induction h with
  | nil => exact Or.inl rfl
  | cons e older ih =>
    have hc' : ∀ e ∈ older, ClockOK c e := fun x hx => hc x (List.mem_cons_of_mem _ hx)
    have hct : ∀ e ∈ older, 0 < time e := fun x hx => (hc' x hx).1
    have ih := ih hc' (fun x hx => hb x (List.mem_cons_of_mem _ hx))
    cases e with
    | twist now m =>
      have hn : ¬ Active c older now := by
        rintro ⟨t, ht, -⟩
        exact hf ⟨t, held_twist c older now m t ht⟩
      exact Or.inl (inForce_some c _ older _ m ((twist_forwarded_iff c older hct now m (hc _ (by simp))).2 hn) rfl)
    | joy now m =>
      have hp : ¬ Pressed c.interruptButton m.buttons := fun hp => hf ⟨now, [], m, older, rfl, hp, by simp⟩
      obtain ⟨r1, r2⟩ := release_republishes c older hct now m (hb _ (by simp) now m rfl) hp
      show inForce c _ = lastTwist older ∨ (lastTwist older = none ∧ _)
      by_cases hh : ∃ t, HeldAt c older t
      · rw [inForce_some c _ older _ _ (r1 hh) rfl]
        cases lastTwist older with
        | none => exact Or.inr ⟨rfl, rfl⟩
        | some t => exact Or.inl rfl
      · rw [inForce_none c _ older _ (r2 hh) rfl]
        exact ih hh

/-- **C145**: after a joystick message that holds the button its command is in force, and stays so while no further joystick message comes and no autonomous command comes later than the timeout
after it: also for ever, if the autonomous commands stop. -/
theorem held_in_force (c : Cfg) (newer older : List Event) (tj : Int) (m : Joy) (hc : ∀ e ∈ newer ++ .joy tj m :: older, ClockOK c e)
    (hp : Pressed c.interruptButton m.buttons) (hn : ∀ e ∈ newer, ∃ t tw, e = .twist t tw ∧ t - tj ≤ c.timeout) :
    ∃ t, inForce c (newer ++ .joy tj m :: older) = some t ∧ joyCommand c m = some t := by
  induction newer with
  | nil =>
    obtain ⟨t, ho, hj⟩ := held_publishes_joystick c older tj m hp
    exact ⟨t, inForce_some c _ older _ t ho rfl, hj⟩
  | cons e newer ih =>
    obtain ⟨t, hi, hj⟩ := ih (fun x hx => hc x (List.mem_cons_of_mem _ hx)) (fun x hx => hn x (List.mem_cons_of_mem _ hx))
    obtain ⟨now, tw, rfl, hle⟩ := hn e (by simp)
    refine ⟨t, ?_, hj⟩
    have hact : Active c (newer ++ .joy tj m :: older) now := by
      refine ⟨tj, ⟨newer, m, older, rfl, hp, ?_⟩, hle⟩
      intro x hx t' m' he
      obtain ⟨_, _, h2, -⟩ := hn x (List.mem_cons_of_mem _ hx)
      rw [h2] at he; cases he
    have ho := (twist_forwarded_iff c (newer ++ .joy tj m :: older) (fun x hx => (hc x (List.mem_cons_of_mem _ hx)).1) now tw (hc _ (by simp))).1 hact
    rw [List.cons_append, inForce_none c _ _ _ ho rfl]
    exact hi

/-- **C145**: the first autonomous command later than the timeout after the last joystick message is in force. -/
theorem silent_in_force (c : Cfg) (h : List Event) (hc : ∀ e ∈ h, ClockOK c e) (now : Int) (m : Twist) (hnow : ClockOK c (.twist now m))
    (hs : ∀ t mj, .joy t mj ∈ h → now - t > c.timeout) : inForce c (.twist now m :: h) = some m := by
  refine inForce_some c _ h _ m ((twist_forwarded_iff c h (fun x hx => (hc x hx).1) now m hnow).2 ?_) rfl
  rintro ⟨tj, ⟨newer, mj, o, rfl, -, -⟩, hle⟩
  have := hs tj mj (by simp)
  omega

/-- **C145**, finding: a joystick message without the override button (another controller, a broken driver) ends the override silently: the joystick's command stays in force although the
button is not held, for any joystick command and any autonomous command received before. -/
theorem lost_button_in_force (c : Cfg) (older : List Event) (tj now : Int) (m m' : Joy) (hp : Pressed c.interruptButton m.buttons)
    (hm : (m'.buttons.length : Int) ≤ c.interruptButton) :
    ∃ t, inForce c (.joy now m' :: .joy tj m :: older) = some t ∧ joyCommand c m = some t ∧ ¬ ∃ t', HeldAt c (.joy now m' :: .joy tj m :: older) t' := by
  obtain ⟨t, ho, hj⟩ := held_publishes_joystick c older tj m hp
  have hout : outOfRange c.interruptButton m'.buttons.length = true := (outOfRange_iff _ _).mpr (Or.inr hm)
  refine ⟨t, ?_, hj, ?_⟩
  · have hq : output c (.joy now m') (.joy tj m :: older) = some [] := by
      obtain ⟨s, hs⟩ := run_defined c (.joy tj m :: older)
      simp [output, hs, step, cbJoy, hout]
    rw [inForce_none c _ _ _ hq rfl]
    exact inForce_some c _ older _ t ho rfl
  · rintro ⟨t', newer, mj, o, he, hpj, hn⟩
    cases newer with
    | nil =>
      simp only [List.nil_append, List.cons.injEq, Event.joy.injEq] at he
      rw [← he.1.2] at hpj
      exact not_pressed_out hout hpj
    | cons x newer =>
      simp only [List.cons_append, List.cons.injEq] at he
      exact hn x (by simp) now m' he.1.symm

/-- The hypotheses can be met: an autonomous command, the joystick, an autonomous command that is not forwarded; then the button is let go and that command is in force. -/
example : inForce exCfg [.twist 1200 exTwist, .joy 1000 exJoy] = joyCommand exCfg exJoy ∧
    inForce exCfg [.joy 1300 ⟨[], [0]⟩, .twist 1200 exTwist, .joy 1000 exJoy] = some exTwist ∧
    inForce exCfg [.joy 1300 ⟨[], []⟩, .twist 1200 exTwist, .joy 1000 exJoy] = joyCommand exCfg exJoy := by
  decide +kernel

end Verif.Joystick
