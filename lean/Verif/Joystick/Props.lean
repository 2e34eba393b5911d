import Verif.Joystick.Spec
import Mathlib.Tactic.Linarith
import Mathlib.Algebra.Order.Ring.Abs
/-! # Joystick override and multiplexer (C47, C48, C66, C67) -/
namespace Verif.Joystick
open Spec

theorem outOfRange_iff (i : Int) (n : Nat) : outOfRange i n = true ↔ i < 0 ∨ (n : Int) ≤ i := by
  simp [outOfRange]

theorem vecAt_some {α : Type} {v : List α} {i : Int} (h : outOfRange i v.length = false) :
    ∃ b, vecAt v i = some b ∧ v[i.toNat]? = some b ∧ 0 ≤ i := by
  have h' : ¬ (i < 0 ∨ (v.length : Int) ≤ i) := by
    intro hc; rw [(outOfRange_iff _ _).mpr hc] at h; cases h
  have h0 : ¬ i < 0 := fun hc => h' (.inl hc)
  have h1 : i.toNat < v.length := by omega
  refine ⟨v[i.toNat], ?_, ?_, by omega⟩
  · simp [vecAt, h0, List.getElem?_eq_getElem h1]
  · exact List.getElem?_eq_getElem h1

theorem getAxisValue_eq (m : Joy) (i : Int) : getAxisValue m i = some (axis m i) := by
  unfold getAxisValue axis
  split
  · rfl
  · rename_i h0
    split
    · rename_i h1
      rcases (outOfRange_iff _ _).mp h1 with h | h
      · exact absurd h h0
      · rw [List.getElem?_eq_none (by omega)]; rfl
    · rename_i h1
      obtain ⟨b, h2, h3, _⟩ := vecAt_some (by simpa using h1)
      rw [h2, h3]; rfl

theorem getJoyValue_eq (m : Joy) (i j : Int) :
    getJoyValue m i j = some (if |axis m j| > |axis m i| then axis m j else axis m i) := by
  simp [getJoyValue, getAxisValue_eq]

/-- Pressed as the code tests it. -/
theorem pressed_of {i : Int} {bs : List Int} {b : Int} (h : vecAt bs i = some b) (hb : b ≠ 0) :
    Pressed i bs := by
  unfold vecAt at h
  split at h
  · cases h
  · exact ⟨i.toNat, by omega, b, h, hb⟩

theorem not_pressed_of {i : Int} {bs : List Int} (h : vecAt bs i = some 0) : ¬ Pressed i bs := by
  rintro ⟨n, rfl, b, hb, h0⟩
  have : vecAt bs (n : Int) = bs[n]? := by simp [vecAt]
  rw [this, hb] at h
  cases h; exact h0 rfl

theorem not_pressed_out {i : Int} {bs : List Int} (h : outOfRange i bs.length = true) : ¬ Pressed i bs := by
  rintro ⟨n, rfl, b, hb, _⟩
  rcases (outOfRange_iff _ _).mp h with h | h
  · omega
  · rw [List.getElem?_eq_none (by omega)] at hb; cases hb

/-- C67: no message makes the nodes read outside an array: whatever the parameters, the number of axes and buttons, every step
is defined. -/
theorem step_defined (c : Cfg) (s : St) (e : Event) : ∃ r, step c s e = some r := by
  cases e with
  | twist => exact ⟨_, rfl⟩
  | joy now m =>
    simp only [step, cbJoy]
    split
    · exact ⟨_, rfl⟩
    · rename_i h
      obtain ⟨b, hb, _⟩ := vecAt_some (by simpa using h)
      rw [hb]
      simp only
      split
      · exact ⟨_, rfl⟩
      · have : ∃ t, joyCommand c m = some t := by
          simp only [joyCommand, getJoyValue_eq]
          split
          · split
            · exact ⟨_, rfl⟩
            · rename_i h2
              obtain ⟨b2, hb2, _⟩ := vecAt_some (by simpa using h2)
              rw [hb2]
              simp only
              split <;> exact ⟨_, rfl⟩
          · exact ⟨_, rfl⟩
        obtain ⟨t, ht⟩ := this
        rw [ht]; exact ⟨_, rfl⟩

theorem muxStep_defined {M : Type} (c : MuxCfg) (s : MuxSt) (e : MuxEvent M) : ∃ r, muxStep c s e = some r := by
  cases e with
  | timer => simp only [muxStep]; split <;> exact ⟨_, rfl⟩
  | topic => simp only [muxStep]; split <;> exact ⟨_, rfl⟩
  | joy now bs =>
    simp only [muxStep]
    split
    · exact ⟨_, rfl⟩
    · rename_i h
      obtain ⟨b, hb, _⟩ := vecAt_some (by simpa using h)
      rw [hb]; exact ⟨_, rfl⟩

theorem run_defined (c : Cfg) : ∀ h, ∃ s, run c h = some s
  | [] => ⟨_, rfl⟩
  | e :: older => by
    obtain ⟨s, hs⟩ := run_defined c older
    obtain ⟨r, hr⟩ := step_defined c s e
    exact ⟨r.1, by simp [run, hs, hr]⟩

theorem muxRun_defined {M : Type} (c : MuxCfg) (t0 : Int) : ∀ h : List (MuxEvent M), ∃ s, muxRun c t0 h = some s
  | [] => ⟨_, rfl⟩
  | e :: older => by
    obtain ⟨s, hs⟩ := muxRun_defined c t0 older
    obtain ⟨r, hr⟩ := muxStep_defined c s e
    exact ⟨r.1, by simp [muxRun, hs, hr]⟩

/-- The state is a function of the history: `lastJoy` is the time of the newest message if it held the
button, else 0; `lastInput` is the newest command. -/
theorem run_spec (c : Cfg) : ∀ (h : List Event), (∀ e ∈ h, 0 < time e) → ∀ {s}, run c h = some s →
    ((s.lastJoy = 0 ∧ ∀ t, ¬ HeldAt c h t) ∨ (0 < s.lastJoy ∧ HeldAt c h s.lastJoy ∧ ∀ t, HeldAt c h t → t = s.lastJoy)) ∧
    s.lastInput = (lastTwist h).getD zeroTwist
  | [], _, s, hs => by
    cases hs
    refine ⟨.inl ⟨rfl, ?_⟩, rfl⟩
    rintro t ⟨newer, m, older, h, _⟩
    cases newer <;> cases h
  | e :: older, hc, s, hs => by
    obtain ⟨s0, hs0⟩ := run_defined c older
    obtain ⟨ih, ihi⟩ := run_spec c older (fun e he => hc e (by simp [he])) hs0
    simp only [run, hs0, Option.bind_some] at hs
    cases e with
    | twist now m =>
      have hs : s = { s0 with lastInput := m } := by
        simp only [step, cbTwist, Option.map_some, Option.some.injEq] at hs
        split at hs <;> exact hs.symm
      subst hs
      have heq : ∀ t, HeldAt c (.twist now m :: older) t ↔ HeldAt c older t := by
        intro t
        constructor
        · rintro ⟨newer, m', o', h, h1, h2⟩
          cases newer with
          | nil => cases h
          | cons a newer =>
            simp only [List.cons_append, List.cons.injEq] at h
            exact ⟨newer, m', o', h.2, h1, fun e he => h2 e (by simp [he])⟩
        · rintro ⟨newer, m', o', h, h1, h2⟩
          refine ⟨.twist now m :: newer, m', o', by rw [h]; rfl, h1, ?_⟩
          intro e he t' m''
          rcases List.mem_cons.mp he with rfl | he
          · simp
          · exact h2 e he t' m''
      simp only [heq]
      exact ⟨ih, rfl⟩
    | joy now m =>
      have hnone : ¬ Pressed c.interruptButton m.buttons → ∀ t, ¬ HeldAt c (.joy now m :: older) t := by
        rintro hp t ⟨newer, m', o', h, h1, h2⟩
        cases newer with
        | nil =>
          simp only [List.nil_append, List.cons.injEq, Event.joy.injEq] at h
          obtain ⟨⟨_, rfl⟩, _⟩ := h
          exact hp h1
        | cons a newer =>
          simp only [List.cons_append, List.cons.injEq] at h
          exact h2 a (by simp) now m h.1.symm
      have hlt : lastTwist (.joy now m :: older) = lastTwist older := rfl
      rw [hlt]
      simp only [step, cbJoy] at hs
      split at hs
      · rename_i ho
        simp only [Option.map_some, Option.some.injEq] at hs
        subst hs
        exact ⟨.inl ⟨rfl, hnone (not_pressed_out ho)⟩, ihi⟩
      · split at hs
        · cases hs
        · rename_i b hb
          split at hs
          · rename_i h0
            simp only [Option.map_some, Option.some.injEq] at hs
            subst hs
            subst h0
            exact ⟨.inl ⟨rfl, hnone (not_pressed_of hb)⟩, ihi⟩
          · rename_i h0
            split at hs
            · cases hs
            · simp only [Option.map_some, Option.some.injEq] at hs
              subst hs
              refine ⟨.inr ⟨hc (.joy now m) (by simp), ⟨[], m, older, rfl, pressed_of hb h0, by simp⟩, ?_⟩, ihi⟩
              rintro t ⟨newer, m', o', h, h1, h2⟩
              cases newer with
              | nil =>
                simp only [List.nil_append, List.cons.injEq, Event.joy.injEq] at h
                exact h.1.1.symm
              | cons a newer =>
                simp only [List.cons_append, List.cons.injEq] at h
                exact absurd h.1.symm (h2 a (by simp) now m)

/-- C47: an autonomous command is forwarded, unchanged and with status `true`, exactly when the override
is not in force; otherwise nothing is forwarded and the status is `false`. -/
theorem twist_forwarded_iff (c : Cfg) (h : List Event) (hc : ∀ e ∈ h, 0 < time e) (now : Int) (m : Twist)
    (hnow : ClockOK c (.twist now m)) :
    (Active c h now → output c (.twist now m) h = some [.status false]) ∧
    (¬ Active c h now → output c (.twist now m) h = some [.cmd m, .status true]) := by
  obtain ⟨s, hs⟩ := run_defined c h
  obtain ⟨hj, _⟩ := run_spec c h hc hs
  simp only [output, hs, Option.bind_some, step, Option.map_some, Option.some.injEq, cbTwist]
  constructor
  · rintro ⟨tj, htj, hle⟩
    rcases hj with ⟨_, hn⟩ | ⟨h0, _, hu⟩
    · exact absurd htj (hn tj)
    · have := hu tj htj
      rw [if_neg]
      rintro (h | ⟨_, h⟩) <;> omega
  · intro hn
    rw [if_pos]
    rcases hj with ⟨h0, _⟩ | ⟨h0, hh, _⟩
    · rcases hnow.2 with h | h
      · exact .inr ⟨h, h0⟩
      · left; rw [h0]; simpa [time] using h
    · left
      by_contra hle
      exact hn ⟨_, hh, by omega⟩

/-- C47: a joystick message holding the button publishes only the joystick's own command; it never
publishes an autonomous command. -/
theorem held_publishes_joystick (c : Cfg) (h : List Event) (now : Int) (m : Joy)
    (hp : Pressed c.interruptButton m.buttons) :
    ∃ t, output c (.joy now m) h = some [.cmd t] ∧ joyCommand c m = some t := by
  obtain ⟨s, hs⟩ := run_defined c h
  obtain ⟨r, hr⟩ := step_defined c s (.joy now m)
  have hr' := hr
  simp only [step, cbJoy] at hr'
  split at hr'
  · rename_i ho; exact absurd hp (not_pressed_out ho)
  · split at hr'
    · cases hr'
    · rename_i b hb
      split at hr'
      · rename_i h0; subst h0; exact absurd hp (not_pressed_of hb)
      · split at hr'
        · cases hr'
        · rename_i t ht
          refine ⟨t, ?_, ht⟩
          cases hr'
          simp [output, hs, hr]

/-- C47 (observed behaviour on release): a joystick message without the button publishes the newest
autonomous command received, however old, once, if the previous joystick message held it; else nothing. -/
theorem release_republishes (c : Cfg) (h : List Event) (hc : ∀ e ∈ h, 0 < time e) (now : Int) (m : Joy)
    (hin : 0 ≤ c.interruptButton ∧ c.interruptButton < m.buttons.length)
    (hp : ¬ Pressed c.interruptButton m.buttons) :
    ((∃ t, HeldAt c h t) → output c (.joy now m) h = some [.cmd ((lastTwist h).getD zeroTwist)]) ∧
    ((¬ ∃ t, HeldAt c h t) → output c (.joy now m) h = some []) := by
  obtain ⟨s, hs⟩ := run_defined c h
  obtain ⟨hj, hi⟩ := run_spec c h hc hs
  have hno : outOfRange c.interruptButton m.buttons.length = false := by
    cases ho : outOfRange c.interruptButton m.buttons.length with
    | false => rfl
    | true => rcases (outOfRange_iff _ _).mp ho with h | h <;> omega
  obtain ⟨b, hb, _⟩ := vecAt_some hno
  have hb0 : b = 0 := by
    by_contra h0; exact hp (pressed_of hb h0)
  subst hb0
  simp only [output, hs, Option.bind_some, step, cbJoy, hno, hb]
  constructor
  · rintro ⟨t, ht⟩
    rcases hj with ⟨_, hn⟩ | ⟨h0, _, _⟩
    · exact absurd ht (hn t)
    · have : s.lastJoy ≠ 0 := by omega
      simp [this, hi]
  · intro hn
    rcases hj with ⟨h0, _⟩ | ⟨_, hh, _⟩
    · simp [h0]
    · exact absurd ⟨_, hh⟩ hn

/-- The joystick command, in terms of the documented parameters: the axis with the larger deflection,
times the velocity, times the ratio when the high speed button is pressed; other components are zero. -/
theorem joyCommand_spec (c : Cfg) (m : Joy) (t : Twist) (h : joyCommand c m = some t) :
    ∃ x y a kl ka : Rat,
      Larger (axis m c.linAxis) (axis m c.linAxis2) x ∧
      Larger (axis m c.linYAxis) (axis m c.linYAxis2) y ∧
      Larger (axis m c.angAxis) (axis m c.angAxis2) a ∧
      ((kl = 1 ∧ ka = 1 ∧ ¬ Pressed c.highSpeedButton m.buttons) ∨
        (kl = c.linRatio ∧ ka = c.angRatio ∧ Pressed c.highSpeedButton m.buttons)) ∧
      t = ⟨x * kl * c.linearVel, y * kl * c.linearYVel, 0, 0, 0, a * ka * c.angularVel⟩ := by
  have hval : ∀ i j, Larger (axis m i) (axis m j)
      (if |axis m j| > |axis m i| then axis m j else axis m i) := by
    intro i j; split
    · rename_i h; exact .inr ⟨rfl, h⟩
    · rename_i h; exact .inl ⟨rfl, not_lt.mp h⟩
  simp only [joyCommand, getJoyValue_eq] at h
  split at h
  · split at h
    · rename_i ho
      cases h
      exact ⟨_, _, _, 1, 1, hval _ _, hval _ _, hval _ _, .inl ⟨rfl, rfl, not_pressed_out ho⟩, by simp⟩
    · split at h
      · cases h
      · rename_i b hb
        split at h
        · rename_i h0
          cases h
          exact ⟨_, _, _, _, _, hval _ _, hval _ _, hval _ _, .inr ⟨rfl, rfl, pressed_of hb h0⟩, rfl⟩
        · rename_i h0
          cases h
          have h0 : b = 0 := by simpa using h0
          subst h0
          exact ⟨_, _, _, 1, 1, hval _ _, hval _ _, hval _ _, .inl ⟨rfl, rfl, not_pressed_of hb⟩, by simp⟩
  · rename_i hneg
    cases h
    refine ⟨_, _, _, 1, 1, hval _ _, hval _ _, hval _ _, .inl ⟨rfl, rfl, ?_⟩, by simp⟩
    rintro ⟨n, hn, _⟩
    omega

/-- C66: with axis values in `[-1, 1]`, positive velocities and ratios not below 1, the command never exceeds the
configured velocity times the high speed ratio, and never the plain configured velocity unless the high speed
button is pressed. -/
theorem joyCommand_bounded (c : Cfg) (m : Joy) (t : Twist) (h : joyCommand c m = some t)
    (hax : ∀ a ∈ m.axes, |a| ≤ 1) (hl : 0 ≤ c.linearVel) (hy : 0 ≤ c.linearYVel) (ha : 0 ≤ c.angularVel)
    (hrl : 1 ≤ c.linRatio) (hra : 1 ≤ c.angRatio) :
    |t.lx| ≤ c.linRatio * c.linearVel ∧ |t.ly| ≤ c.linRatio * c.linearYVel ∧
    |t.az| ≤ c.angRatio * c.angularVel ∧ t.lz = 0 ∧ t.ax = 0 ∧ t.ay = 0 ∧
    (¬ Pressed c.highSpeedButton m.buttons →
      |t.lx| ≤ c.linearVel ∧ |t.ly| ≤ c.linearYVel ∧ |t.az| ≤ c.angularVel) := by
  have hax' : ∀ i, |axis m i| ≤ 1 := by
    intro i
    unfold axis
    split
    · simp
    · cases hi : m.axes[i.toNat]? with
      | none => simp
      | some a => exact hax a (List.mem_of_getElem? hi)
  obtain ⟨x, y, a, kl, ka, hx, hy', ha', hk, rfl⟩ := joyCommand_spec c m t h
  have bx : |x| ≤ 1 := by rcases hx with ⟨rfl, _⟩ | ⟨rfl, _⟩ <;> exact hax' _
  have by_ : |y| ≤ 1 := by rcases hy' with ⟨rfl, _⟩ | ⟨rfl, _⟩ <;> exact hax' _
  have ba : |a| ≤ 1 := by rcases ha' with ⟨rfl, _⟩ | ⟨rfl, _⟩ <;> exact hax' _
  have key : ∀ (x k v K : Rat), |x| ≤ 1 → 0 ≤ k → k ≤ K → 0 ≤ v → |x * k * v| ≤ K * v := by
    intro x k v K h1 h2 h3 h4
    rw [abs_mul, abs_mul, abs_of_nonneg h2, abs_of_nonneg h4]
    refine mul_le_mul_of_nonneg_right ?_ h4
    calc |x| * k ≤ 1 * k := mul_le_mul_of_nonneg_right h1 h2
      _ = k := one_mul k
      _ ≤ K := h3
  rcases hk with ⟨rfl, rfl, hnp⟩ | ⟨rfl, rfl, hp⟩
  · refine ⟨key _ _ _ _ bx (by norm_num) hrl hl, key _ _ _ _ by_ (by norm_num) hrl hy,
      key _ _ _ _ ba (by norm_num) hra ha, rfl, rfl, rfl, fun _ => ⟨?_, ?_, ?_⟩⟩
    · simpa using key _ 1 _ 1 bx (by norm_num) le_rfl hl
    · simpa using key _ 1 _ 1 by_ (by norm_num) le_rfl hy
    · simpa using key _ 1 _ 1 ba (by norm_num) le_rfl ha
  · refine ⟨key _ _ _ _ bx (by linarith) le_rfl hl, key _ _ _ _ by_ (by linarith) le_rfl hy,
      key _ _ _ _ ba (by linarith) le_rfl ha, rfl, rfl, rfl, fun hn => absurd hp hn⟩

/-! ### Multiplexer -/

theorem muxRun_spec {M : Type} (c : MuxCfg) (t0 : Int) : ∀ (h : List (MuxEvent M)) {s},
    muxRun c t0 h = some s →
    (s.selected = 0 ∧ ¬ Selected1 c h) ∨
    (s.selected = 1 ∧ Selected1 c h ∧ ∀ newer tj bs older, h = newer ++ .joy tj bs :: older →
      HasButton c bs → (∀ e ∈ newer, ∀ t bs', e = .joy t bs' → ¬ HasButton c bs') → s.lastJoy = tj)
  | [], s, hs => by
    cases hs
    refine .inl ⟨rfl, ?_⟩
    rintro ⟨newer, tj, bs, older, h, _⟩
    cases newer <;> cases h
  | e :: older, s, hs => by
    obtain ⟨s0, hs0⟩ := muxRun_defined c t0 older
    have ih := muxRun_spec c t0 older hs0
    simp only [muxRun, hs0, Option.bind_some] at hs
    have hpb : ∀ bs, Pressed c.interruptButton bs → HasButton c bs := by
      rintro bs ⟨n, hn, b, hb, _⟩
      have := (List.getElem?_eq_some_iff.mp hb).1
      exact ⟨by omega, by omega⟩
    -- histories extended by an event that is neither a usable joystick message nor an expired tick
    have hext : ∀ e : MuxEvent M, (∀ t bs, e = .joy t bs → ¬ HasButton c bs) → (∀ t, e ≠ .timer t) →
        (Selected1 c (e :: older) ↔ Selected1 c older) := by
      intro e he ht
      constructor
      · rintro ⟨newer, tj, bs, o', h, h1, h2, h3⟩
        cases newer with
        | nil =>
          simp only [List.nil_append, List.cons.injEq] at h
          exact absurd (hpb bs h1) (he tj bs h.1)
        | cons a newer =>
          simp only [List.cons_append, List.cons.injEq] at h
          exact ⟨newer, tj, bs, o', h.2, h1, fun x hx => h2 x (by simp [hx]), fun x hx => h3 x (by simp [hx])⟩
      · rintro ⟨newer, tj, bs, o', h, h1, h2, h3⟩
        refine ⟨e :: newer, tj, bs, o', by rw [h]; rfl, h1, ?_, ?_⟩
        · intro x hx t bs' hxe
          rcases List.mem_cons.mp hx with rfl | hx
          · exact he t bs' hxe
          · exact h2 x hx t bs' hxe
        · intro x hx t hxe
          rcases List.mem_cons.mp hx with rfl | hx
          · exact absurd hxe (ht t)
          · exact h3 x hx t hxe
    have hlast : ∀ e : MuxEvent M, (∀ t bs, e = .joy t bs → ¬ HasButton c bs) →
        ∀ newer tj bs o', (e :: older) = newer ++ .joy tj bs :: o' → HasButton c bs →
        (∀ x ∈ newer, ∀ t bs', x = .joy t bs' → ¬ HasButton c bs') →
        ∃ newer', older = newer' ++ .joy tj bs :: o' ∧
          (∀ x ∈ newer', ∀ t bs', x = .joy t bs' → ¬ HasButton c bs') := by
      intro e he newer tj bs o' h hb hn
      cases newer with
      | nil =>
        simp only [List.nil_append, List.cons.injEq] at h
        exact absurd hb (he tj bs h.1)
      | cons a newer =>
        simp only [List.cons_append, List.cons.injEq] at h
        exact ⟨newer, h.2, fun x hx => hn x (by simp [hx])⟩
    have hpass : ∀ e : MuxEvent M, (∀ t bs, e = .joy t bs → ¬ HasButton c bs) → (∀ t, e ≠ .timer t) →
        s.selected = s0.selected → s.lastJoy = s0.lastJoy →
        (s.selected = 0 ∧ ¬ Selected1 c (e :: older)) ∨
        (s.selected = 1 ∧ Selected1 c (e :: older) ∧ ∀ newer tj bs o', e :: older = newer ++ .joy tj bs :: o' →
          HasButton c bs → (∀ x ∈ newer, ∀ t bs', x = .joy t bs' → ¬ HasButton c bs') → s.lastJoy = tj) := by
      intro e he ht h1 h2
      rw [hext e he ht, h1, h2]
      rcases ih with ih | ⟨i1, i2, i3⟩
      · exact .inl ih
      · refine .inr ⟨i1, i2, ?_⟩
        intro newer tj bs o' h hb hn
        obtain ⟨n', h', hn'⟩ := hlast e he newer tj bs o' h hb hn
        exact i3 n' tj bs o' h' hb hn'
    cases e with
    | topic id m =>
      have : s.selected = s0.selected ∧ s.lastJoy = s0.lastJoy := by
        simp only [muxStep] at hs
        split at hs <;> (cases hs; exact ⟨rfl, rfl⟩)
      exact hpass _ (by simp) (by simp) this.1 this.2
    | timer now =>
      simp only [muxStep] at hs
      split at hs
      · rename_i hgt
        cases hs
        refine .inl ⟨rfl, ?_⟩
        rintro ⟨newer, tj, bs, o', h, h1, h2, h3⟩
        obtain ⟨n', h', hn'⟩ := hlast (.timer now) (by simp) newer tj bs o' h (hpb bs h1) h2
        have hmem : MuxEvent.timer now ∈ newer := by
          cases newer with
          | nil => cases h
          | cons a newer => simp only [List.cons_append, List.cons.injEq] at h; rw [h.1]; simp
        have hle := h3 _ hmem now rfl
        rcases ih with ⟨_, i2⟩ | ⟨_, _, i3⟩
        · refine i2 ⟨n', tj, bs, o', h', h1, hn', ?_⟩
          intro x hx t hxe
          cases newer with
          | nil => cases h
          | cons a newer =>
            simp only [List.cons_append, List.cons.injEq] at h
            have : n' = newer := by
              have := h'.symm.trans h.2
              exact List.append_cancel_right this
            subst this
            exact h3 x (by simp [hx]) t hxe
        · have := i3 n' tj bs o' h' (hpb bs h1) hn'
          omega
      · rename_i hle
        cases hs
        rcases ih with ⟨i1, i2⟩ | ⟨i1, i2, i3⟩
        · refine .inl ⟨i1, ?_⟩
          rintro ⟨newer, tj, bs, o', h, h1, h2, h3⟩
          cases newer with
          | nil => cases h
          | cons a newer =>
            simp only [List.cons_append, List.cons.injEq] at h
            exact i2 ⟨newer, tj, bs, o', h.2, h1, fun x hx => h2 x (by simp [hx]), fun x hx => h3 x (by simp [hx])⟩
        · refine .inr ⟨i1, ?_, ?_⟩
          · obtain ⟨newer, tj, bs, o', h, h1, h2, h3⟩ := i2
            have := i3 newer tj bs o' h (hpb bs h1) h2
            refine ⟨.timer now :: newer, tj, bs, o', by rw [h]; rfl, h1, ?_, ?_⟩
            · intro x hx t bs' hxe
              rcases List.mem_cons.mp hx with rfl | hx
              · cases hxe
              · exact h2 x hx t bs' hxe
            · intro x hx t hxe
              rcases List.mem_cons.mp hx with rfl | hx
              · cases hxe; omega
              · exact h3 x hx t hxe
          · intro newer tj bs o' h hb hn
            obtain ⟨n', h', hn'⟩ := hlast (.timer now) (by simp) newer tj bs o' h hb hn
            exact i3 n' tj bs o' h' hb hn'
    | joy now bs =>
      simp only [muxStep] at hs
      split at hs
      · rename_i ho
        have hnb : ¬ HasButton c bs := by
          rintro ⟨h1, h2⟩
          rcases (outOfRange_iff _ _).mp ho with h | h <;> omega
        cases hs
        exact hpass _ (by intro t bs' h; cases h; exact hnb) (by simp) rfl rfl
      · rename_i ho
        have hhb : HasButton c bs := by
          have : ¬ (c.interruptButton < 0 ∨ (bs.length : Int) ≤ c.interruptButton) := by
            intro h; exact ho ((outOfRange_iff _ _).mpr h)
          exact ⟨by omega, by omega⟩
        split at hs
        · cases hs
        · rename_i b hb
          cases hs
          have huniq : ∀ newer tj bs' o', MuxEvent.joy now bs :: older = newer ++ .joy tj bs' :: o' →
              (∀ x ∈ newer, ∀ t bs', x = .joy t bs' → ¬ HasButton c bs') → newer = [] ∧ now = tj ∧ bs = bs' := by
            intro newer tj bs' o' h hn
            cases newer with
            | nil =>
              simp only [List.nil_append, List.cons.injEq, MuxEvent.joy.injEq] at h
              exact ⟨rfl, h.1.1, h.1.2⟩
            | cons a newer =>
              simp only [List.cons_append, List.cons.injEq] at h
              exact absurd hhb (hn a (by simp) now bs h.1.symm)
          by_cases h0 : b = 0
          · subst h0
            refine .inl ⟨by simp, ?_⟩
            rintro ⟨newer, tj, bs', o', h, h1, h2, h3⟩
            obtain ⟨_, _, rfl⟩ := huniq newer tj bs' o' h h2
            exact not_pressed_of hb h1
          · refine .inr ⟨by simp [h0], ⟨[], now, bs, older, rfl, pressed_of hb h0, by simp, by simp⟩, ?_⟩
            intro newer tj bs' o' h _ hn
            exact (huniq newer tj bs' o' h hn).2.1

/-- C48: a message from input `id` (0 or 1) is forwarded, unchanged, exactly when that input is the
selected one; nothing else is published. -/
theorem mux_forwards_selected {M : Type} (c : MuxCfg) (t0 : Int) (h : List (MuxEvent M)) (id : Int) (m : M) :
    (id = 1 → Selected1 c h → muxOutput c t0 (.topic id m) h = some [m]) ∧
    (id = 1 → ¬ Selected1 c h → muxOutput c t0 (.topic id m) h = some []) ∧
    (id = 0 → Selected1 c h → muxOutput c t0 (.topic id m) h = some []) ∧
    (id = 0 → ¬ Selected1 c h → muxOutput c t0 (.topic id m) h = some [m]) := by
  obtain ⟨s, hs⟩ := muxRun_defined c t0 h
  have := muxRun_spec c t0 h hs
  simp only [muxOutput, hs, Option.bind_some, muxStep]
  rcases this with ⟨h1, h2⟩ | ⟨h1, h2, _⟩ <;>
    refine ⟨?_, ?_, ?_, ?_⟩ <;> rintro rfl hsel <;> simp_all

/-- C48: joystick messages and timer ticks publish nothing. -/
theorem mux_silent {M : Type} (c : MuxCfg) (t0 : Int) (h : List (MuxEvent M)) (e : MuxEvent M)
    (he : ∀ id m, e ≠ .topic id m) : muxOutput c t0 e h = some [] := by
  obtain ⟨s, hs⟩ := muxRun_defined c t0 h
  obtain ⟨r, hr⟩ := muxStep_defined c s e
  have : r.2 = [] := by
    cases e with
    | topic id m => exact absurd rfl (he id m)
    | timer now => simp only [muxStep] at hr; split at hr <;> (cases hr; rfl)
    | joy now bs =>
      simp only [muxStep] at hr
      split at hr
      · cases hr; rfl
      · split at hr
        · cases hr
        · cases hr; rfl
  simp [muxOutput, hs, hr, this]

/-- C48: the output topic exists from the first forwarded message on. -/
theorem mux_advertised {M : Type} (c : MuxCfg) (t0 : Int) : ∀ (h : List (MuxEvent M)) (s : MuxSt), muxRun c t0 h = some s →
    (s.advertised = true ↔ ∃ newer e older, h = newer ++ e :: older ∧ muxOutput c t0 e older ≠ some [])
  | [], s, hs => by
    cases hs
    constructor
    · intro h; cases h
    · rintro ⟨newer, e, older, h, -⟩; simp at h
  | e :: older, s, hs => by
    obtain ⟨s0, hs0⟩ := muxRun_defined c t0 older
    have ih := mux_advertised c t0 older s0 hs0
    simp only [muxRun, hs0, Option.bind_some] at hs
    obtain ⟨r, hr, rfl⟩ := Option.map_eq_some_iff.mp hs
    have hout : muxOutput c t0 e older = some r.2 := by simp [muxOutput, hs0, hr]
    have split : (∃ newer e' older', e :: older = newer ++ e' :: older' ∧ muxOutput c t0 e' older' ≠ some []) ↔
        r.2 ≠ [] ∨ s0.advertised = true := by
      rw [ih]
      constructor
      · rintro ⟨newer, e', o', h, hne⟩
        cases newer with
        | nil =>
          simp only [List.nil_append, List.cons.injEq] at h
          obtain ⟨rfl, rfl⟩ := h
          exact .inl (fun h => hne (by rw [hout, h]))
        | cons a newer =>
          simp only [List.cons_append, List.cons.injEq] at h
          exact .inr ⟨newer, e', o', h.2, hne⟩
      · rintro (h | ⟨newer, e', o', h, hne⟩)
        · exact ⟨[], e, older, rfl, fun k => h (Option.some.inj (hout.symm.trans k))⟩
        · exact ⟨e :: newer, e', o', by rw [h]; rfl, hne⟩
    rw [split]
    cases e with
    | topic id m =>
      simp only [muxStep] at hr
      split at hr <;> cases hr <;> simp
    | timer now =>
      simp only [muxStep] at hr
      split at hr <;> cases hr <;> simp
    | joy now bs =>
      simp only [muxStep] at hr
      split at hr
      · cases hr; simp
      · split at hr
        · cases hr
        · cases hr; simp

/-- Nothing is advertised before the first message, whatever the joystick does. -/
example : ((muxRun (M := Char) ⟨0, 5⟩ 0 [.timer 1, .joy 0 [1]]).map (·.advertised), (muxRun ⟨0, 5⟩ 0 [.topic 1 'a', .joy 0 [1]]).map (·.advertised)) = (some false, some true) := by
  decide

/-- C48: after a tick that finds the joystick silent beyond the timeout, the default input is selected until a joystick
message holds the button again. -/
theorem mux_timeout {M : Type} (c : MuxCfg) (h newer : List (MuxEvent M)) (now : Int)
    (hsil : ∀ t bs, MuxEvent.joy t bs ∈ h → now - t > c.timeout)
    (hn : ∀ e ∈ newer, ∀ t bs, e ≠ .joy t bs) : ¬ Selected1 c (newer ++ .timer now :: h) := by
  rintro ⟨n', tj, bs, o', heq, h1, h2, h3⟩
  have hmem : MuxEvent.joy tj bs ∈ newer ++ .timer now :: h := by rw [heq]; simp
  have hj : MuxEvent.joy tj bs ∈ h := by
    rcases List.mem_append.mp hmem with hm | hm
    · exact absurd rfl (hn _ hm tj bs)
    · rcases List.mem_cons.mp hm with hm | hm
      · cases hm
      · exact hm
  have hgt := hsil tj bs hj
  rcases List.append_eq_append_iff.mp heq with ⟨as, ha, hb⟩ | ⟨cs, ha, hb⟩
  · cases as with
    | nil => simp only [List.nil_append, List.cons.injEq] at hb; cases hb.1
    | cons a as =>
      simp only [List.cons_append, List.cons.injEq] at hb
      have := h3 a (by rw [ha]; simp) now hb.1.symm
      omega
  · cases cs with
    | nil => simp only [List.nil_append, List.cons.injEq] at hb; cases hb.1
    | cons a cs =>
      simp only [List.cons_append, List.cons.injEq] at hb
      have : MuxEvent.joy tj bs ∈ newer := by rw [ha, hb.1]; simp
      exact hn _ this tj bs rfl

/-! ### Examples: the hypotheses are met by concrete histories -/
section Examples

def exCfg : Cfg := ⟨1 / 2, 4 / 5, 0, 1, 0, -1, -1, -1, -1, 0, 1, 13 / 10, 11 / 10, 500, true⟩
def exJoy : Joy := ⟨[1, -1 / 2], [1, 1]⟩
def exTwist : Twist := ⟨1, 0, 0, 0, 0, 0⟩

/-- Held at 1000, command at 1200: override in force; at 1600 not any more. -/
example : Active exCfg [.joy 1000 exJoy] 1200 ∧ ¬ Active exCfg [.joy 1000 exJoy] 1600 ∧
    ClockOK exCfg (.twist 1200 exTwist) ∧
    output exCfg (.twist 1200 exTwist) [.joy 1000 exJoy] = some [.status false] ∧
    output exCfg (.twist 1600 exTwist) [.joy 1000 exJoy] = some [.cmd exTwist, .status true] := by
  refine ⟨⟨1000, ⟨[], exJoy, [], rfl, ⟨0, rfl, 1, rfl, by decide⟩, by simp⟩, by decide⟩, ?_,
    ⟨by decide, .inl rfl⟩, by decide +kernel, by decide +kernel⟩
  rintro ⟨tj, ⟨newer, m, older, h, _⟩, hle⟩
  cases newer with
  | nil =>
    simp only [List.nil_append, List.cons.injEq, Event.joy.injEq] at h
    obtain ⟨⟨rfl, _⟩, _⟩ := h
    exact absurd hle (by decide)
  | cons a newer => simp only [List.cons_append, List.cons.injEq] at h; cases newer <;> cases h.2

example : joyCommand exCfg exJoy = some ⟨-13 / 40, 0, 0, 0, 0, 22 / 25⟩ := by decide +kernel

example : Selected1 (M := Nat) ⟨0, 500⟩ [.timer 1400, .topic 1 7, .joy 1000 [1]] :=
  ⟨[.timer 1400, .topic 1 7], 1000, [1], [], rfl, ⟨0, rfl, 1, rfl, by decide⟩, by simp, by simp⟩

example : muxOutput (M := Nat) ⟨0, 500⟩ 0 (.topic 1 8) [.timer 1400, .topic 1 7, .joy 1000 [1]] = some [8] ∧
    muxOutput (M := Nat) ⟨0, 500⟩ 0 (.topic 1 8) [.timer 1600, .topic 1 7, .joy 1000 [1]] = some [] := by
  decide +kernel

end Examples

end Verif.Joystick
