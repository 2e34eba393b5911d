import Mathlib.Analysis.Calculus.MeanValue
import Mathlib.Analysis.SpecialFunctions.Trigonometric.Bounds
import Mathlib.Analysis.SpecialFunctions.ExpDeriv
import Verif.Dummy.Spec
/-! # Obligations of the simulated robot -/
set_option linter.unusedVariables false
namespace Verif.Dummy

theorem dir_eq (yaw : ℝ) : dir yaw = ⟨Real.cos yaw, Real.sin yaw⟩ := by
  unfold dir
  rw [Complex.exp_mul_I, ← Complex.ofReal_cos, ← Complex.ofReal_sin]
  generalize Real.cos yaw = c
  generalize Real.sin yaw = s
  apply Complex.ext <;> simp

theorem norm_dir (yaw : ℝ) : ‖dir yaw‖ = 1 := Complex.norm_exp_ofReal_mul_I yaw

theorem dir_add (a b : ℝ) : dir (a + b) = dir a * dir b := by
  unfold dir
  rw [← Complex.exp_add]; push_cast; ring_nf

theorem advance_at (s : St) : (advance s).at = s.at + (dt * s.v : ℝ) * dir (advance s).yaw := by
  rw [dir_eq]
  unfold advance St.at
  dsimp only
  apply Complex.ext
  · simp; ring
  · simp; ring

theorem run_append (s : St) (h h' : List Event) : run s (h ++ h') = run (run s h) h' := List.foldl_append

theorem run_cons (s : St) (e : Event) (h : List Event) : run s (e :: h) = run (step s e).1 h := rfl

theorem place_nil (d : ℝ) (z : ℂ) (yaw : ℝ) : place d z yaw [] = z := by simp [place]

theorem place_cons (d : ℝ) (z : ℂ) (yaw : ℝ) (c : ℝ × ℝ) (cs : List (ℝ × ℝ)) :
    place d z yaw (c :: cs) = place d (z + (d * c.1 : ℝ) * dir (yaw + d * c.2)) (yaw + d * c.2) cs := by
  unfold place
  rw [show ∑ k : Fin (c :: cs).length, ((d * ((c :: cs)[k]).1 : ℝ) : ℂ) * dir (heading d yaw ((c :: cs).take (k + 1))) =
      ∑ k : Fin (cs.length + 1), ((d * ((c :: cs)[(k : Nat)]'(k.2)).1 : ℝ) : ℂ) * dir (heading d yaw ((c :: cs).take (k + 1))) from rfl,
    Fin.sum_univ_succ, ← add_assoc]
  congr 1
  · simp [heading]
  · apply Finset.sum_congr rfl
    intro k _
    simp [heading, mul_add, add_assoc]

/-- An event that is not an accepted initial pose. -/
def Event.plain : Event → Prop
  | .init (some _) => False
  | _ => True

theorem run_plain : ∀ (h : List Event) (s : St), (∀ e ∈ h, e.plain) →
    (run s h).at = place dt s.at s.yaw (commands (s.v, s.w) h) ∧ (run s h).yaw = heading dt s.yaw (commands (s.v, s.w) h)
  | [], s, _ => ⟨(place_nil _ _ _).symm, by simp [heading, commands, run]⟩
  | e :: h, s, hp => by
    have hp' := fun e he => hp e (List.mem_cons_of_mem _ he)
    have h0 := hp e List.mem_cons_self
    rw [run_cons]
    match e, h0 with
    | .twist v w, _ => exact run_plain h _ hp'
    | .init none, _ => exact run_plain h _ hp'
    | .tick, _ =>
      obtain ⟨h1, h2⟩ := run_plain h (advance s) hp'
      have hy : (advance s).yaw = s.yaw + dt * s.w := by unfold advance; dsimp only; ring
      refine ⟨?_, ?_⟩
      · show (run (advance s) h).at = place dt s.at s.yaw ((s.v, s.w) :: commands (s.v, s.w) h)
        rw [h1, place_cons, advance_at, hy]
        rfl
      · show (run (advance s) h).yaw = heading dt s.yaw ((s.v, s.w) :: commands (s.v, s.w) h)
        rw [h2, hy]
        unfold heading
        rw [List.map_cons, List.sum_cons]
        show s.yaw + dt * s.w + dt * ((commands (s.v, s.w) h).map Prod.snd).sum = _
        ring

/-- The state belongs to the leg. -/
structure OnLeg (p : ℝ × ℝ × ℝ) (h : List Event) (s : St) : Prop where
  plain : ∀ e ∈ (leg p h).2, e.plain
  state : s = run ⟨(leg p h).1.1, (leg p h).1.2.1, (leg p h).1.2.2, 0, 0⟩ (leg p h).2
  force : (s.v, s.w) = inForce h

theorem onLeg (p : ℝ × ℝ × ℝ) (h : List Event) : OnLeg p h (run (start p.1 p.2.1 p.2.2) h) := by
  induction h using List.reverseRecOn with
  | nil => exact ⟨by simp [leg], rfl, rfl⟩
  | append_singleton h e ih =>
    obtain ⟨h1, h2, h3⟩ := ih
    have hl : leg p (h ++ [e]) = (fun c e => match e with
      | .init (some q) => (q, [])
      | e => (c.1, c.2 ++ [e])) (leg p h) e := List.foldl_append
    have hf : inForce (h ++ [e]) = (fun c e => match e with
      | .twist v w => (v, w)
      | .init (some _) => (0, 0)
      | _ => c) (inForce h) e := List.foldl_append
    rw [run_append]
    set s := run (start p.1 p.2.1 p.2.2) h with hs
    match e, hl, hf with
    | .twist v w, hl, hf =>
      refine ⟨?_, ?_, ?_⟩
      · rw [hl]; intro e he
        rcases List.mem_append.mp he with he | he
        · exact h1 e he
        · rw [List.mem_singleton] at he; subst he; trivial
      · rw [hl]; dsimp only; rw [run_append, ← h2]
      · rw [hf]; rfl
    | .init (some q), hl, hf =>
      refine ⟨?_, ?_, ?_⟩
      · rw [hl]; intro e he; cases he
      · rw [hl]; rfl
      · rw [hf]; rfl
    | .init none, hl, hf =>
      refine ⟨?_, ?_, ?_⟩
      · rw [hl]; intro e he
        rcases List.mem_append.mp he with he | he
        · exact h1 e he
        · rw [List.mem_singleton] at he; subst he; trivial
      · rw [hl]; dsimp only; rw [run_append, ← h2]
      · rw [hf]; exact h3
    | .tick, hl, hf =>
      refine ⟨?_, ?_, ?_⟩
      · rw [hl]; intro e he
        rcases List.mem_append.mp he with he | he
        · exact h1 e he
        · rw [List.mem_singleton] at he; subst he; trivial
      · rw [hl]; dsimp only; rw [run_append, ← h2]
      · rw [hf]; exact h3

/-- Every round publishes: the velocities in force, and the pose reached from the last accepted initial pose by following, in each
round since, the command in force. -/
theorem odometry (x y yaw : ℝ) (h : List Event) :
    let l := leg (x, y, yaw) (h ++ [.tick])
    let cs := commands (0, 0) l.2
    ∃ o, (step (run (start x y yaw) h) .tick).2 = some o ∧ (o.v, o.w) = inForce h ∧
      o.yaw = heading dt l.1.2.2 cs ∧ o.at = place dt ⟨l.1.1, l.1.2.1⟩ l.1.2.2 cs := by
  intro l cs
  have h1 := onLeg (x, y, yaw) (h ++ [.tick])
  have h0 := onLeg (x, y, yaw) h
  obtain ⟨p1, p2⟩ := run_plain _ ⟨l.1.1, l.1.2.1, l.1.2.2, 0, 0⟩ h1.plain
  have e : run (start x y yaw) (h ++ [.tick]) = advance (run (start x y yaw) h) := run_append _ _ _
  have hst := h1.state
  dsimp only at hst
  rw [e] at hst
  refine ⟨_, rfl, h0.force, ?_, ?_⟩
  · show (advance (run (start x y yaw) h)).yaw = _
    rw [hst]; exact p2
  · show (advance (run (start x y yaw) h)).at = _
    rw [hst]; exact p1

/-- An initial pose in the middle. -/
example : ∃ o, (step (run (start 5 5 0) [.twist 7 0, .tick, .init (some (1, 2, 0)), .tick, .twist 3 0]) .tick).2 = some o ∧
    (o.v, o.w) = (3, 0) ∧ o.yaw = 0 ∧ o.at = ⟨1 + 3 / 100, 2⟩ := by
  obtain ⟨o, h1, h2, h3, h4⟩ := odometry 5 5 0 [.twist 7 0, .tick, .init (some (1, 2, 0)), .tick, .twist 3 0]
  refine ⟨o, h1, h2, ?_, ?_⟩
  · rw [h3]; simp [leg, commands, heading]
  · rw [h4]
    simp only [leg, commands, List.cons_append, List.nil_append, List.foldl_cons, List.foldl_nil]
    rw [place_cons, place_cons, place_nil]
    apply Complex.ext <;> simp [dir, dt]; norm_num

/-- The messages come one per round, in order. -/
theorem one_per_round (s : St) (h h' : List Event) (e : Event) :
    odoms s (h ++ e :: h') = odoms s h ++ (step (run s h) e).2.toList ++ odoms (run s (h ++ [e])) h' ∧
      ((step (run s h) e).2.isSome = true ↔ e = .tick) := by
  constructor
  · induction h generalizing s with
    | nil => rfl
    | cons a h ih =>
      show (step s a).2.toList ++ odoms (step s a).1 (h ++ e :: h') = _
      rw [ih]
      simp only [odoms, List.append_assoc, run_cons, List.cons_append]
  · match e with
    | .twist v w => simp [step]
    | .init none => simp [step]
    | .init (some (a, b, c)) => simp [step]
    | .tick => simp [step]

example : (odoms (start 0 0 0) [.tick, .twist 1 0, .tick, .init none]).length = 2 := by simp [odoms, step]

/-- Between two rounds without an accepted initial pose the robot moves by exactly its speed times the period, in the direction of
the new heading, and turns by the angular speed times the period. -/
theorem hop (x y yaw : ℝ) (h : List Event) (es : List Event) (hes : ∀ e ∈ es, ∃ v w, e = .twist v w ∨ e = .init none) :
    ∃ o o', (step (run (start x y yaw) h) .tick).2 = some o ∧ (step (run (start x y yaw) (h ++ .tick :: es)) .tick).2 = some o' ∧
      o'.at = o.at + (dt * o'.v : ℝ) * dir o'.yaw ∧ o'.yaw = o.yaw + dt * o'.w ∧ ‖o'.at - o.at‖ = |o'.v| * dt := by
  set s := advance (run (start x y yaw) h) with hs
  have key : ∀ (es : List Event) (s : St), (∀ e ∈ es, ∃ v w, e = .twist v w ∨ e = .init none) →
      (run s es).at = s.at ∧ (run s es).yaw = s.yaw := by
    intro es
    induction es with
    | nil => intro s _; exact ⟨rfl, rfl⟩
    | cons e es ih =>
      intro s h
      obtain ⟨v, w, he | he⟩ := h e List.mem_cons_self <;> subst he
      · exact ih _ fun e he => h e (List.mem_cons_of_mem _ he)
      · exact ih _ fun e he => h e (List.mem_cons_of_mem _ he)
  obtain ⟨k1, k2⟩ := key es s hes
  have er : run (start x y yaw) (h ++ .tick :: es) = run s es := by rw [run_append]; rfl
  have ea := advance_at (run s es)
  have e1 : (advance (run s es)).at = s.at + (dt * (advance (run s es)).v : ℝ) * dir (advance (run s es)).yaw := by
    rw [ea, k1]; rfl
  refine ⟨_, _, rfl, rfl, ?_, ?_, ?_⟩
  · rw [er]; exact e1
  · rw [er]
    show (advance (run s es)).yaw = s.yaw + dt * (advance (run s es)).w
    rw [← k2]; unfold advance; dsimp only; ring
  · rw [er]
    show ‖(advance (run s es)).at - s.at‖ = |(advance (run s es)).v| * dt
    rw [e1, add_sub_cancel_left, norm_mul, norm_dir, mul_one, Complex.norm_real, Real.norm_eq_abs, abs_mul,
      abs_of_pos (show (0 : ℝ) < dt by unfold dt; norm_num), mul_comm]

example : ∃ o o', (step (run (start 0 0 0) [.twist 1 1]) .tick).2 = some o ∧
    (step (run (start 0 0 0) ([.twist 1 1] ++ .tick :: [.init none, .twist (-2) 1])) .tick).2 = some o' ∧ ‖o'.at - o.at‖ = 2 / 100 := by
  obtain ⟨o, o', h1, h2, -, -, h3⟩ := hop 0 0 0 [.twist 1 1] [.init none, .twist (-2) 1] (by
    intro e he
    rcases List.mem_cons.mp he with rfl | he
    · exact ⟨0, 0, .inr rfl⟩
    · rw [List.mem_singleton] at he; exact ⟨_, _, .inl he⟩)
  refine ⟨o, o', h1, h2, ?_⟩
  have : o'.v = -2 := by
    have := Option.some.inj h2
    rw [← this]; rfl
  rw [h3, this]; unfold dt; norm_num

/-! ### Constant commands -/

theorem rounds_commands (c : ℝ × ℝ) : ∀ n, commands c (rounds n) = List.replicate n c
  | 0 => rfl
  | n + 1 => by
    show c :: commands c (rounds n) = _
    rw [rounds_commands c n]; rfl

theorem rounds_succ (s : St) (n : Nat) : run s (rounds (n + 1)) = advance (run s (rounds n)) := by
  unfold rounds
  rw [List.replicate_succ', run_append]; rfl

theorem rounds_keep (s : St) : ∀ n, (run s (rounds n)).v = s.v ∧ (run s (rounds n)).w = s.w ∧ (run s (rounds n)).yaw = s.yaw + n * (dt * s.w)
  | 0 => ⟨rfl, rfl, by simp [rounds, run]⟩
  | n + 1 => by
    obtain ⟨h1, h2, h3⟩ := rounds_keep s n
    rw [rounds_succ]
    refine ⟨h1, h2, ?_⟩
    show (run s (rounds n)).yaw + (run s (rounds n)).w * dt = _
    rw [h3, h2]; push_cast; ring

theorem rounds_at (s : St) (n : Nat) : (run s (rounds (n + 1))).at =
    (run s (rounds n)).at + (dt * s.v : ℝ) * dir (s.yaw + (n + 1 : ℕ) * (dt * s.w)) := by
  rw [rounds_succ, advance_at, ← rounds_succ, (rounds_keep s (n + 1)).2.2, (rounds_keep s n).1]

/-- A command stays in force: after any history, a command followed by any number of rounds leaves the robot turning and moving as
commanded.  With no angular velocity it stays on a straight line. -/
theorem straight (s : St) (v : ℝ) (n : Nat) :
    let s' := run s (.twist v 0 :: rounds n)
    s'.at = s.at + ((n : ℝ) * (dt * v) : ℝ) * dir s.yaw ∧ s'.yaw = s.yaw ∧ s'.v = v ∧ s'.w = 0 := by
  intro s'
  have hs' : s' = run { s with v := v, w := 0 } (rounds n) := rfl
  obtain ⟨h1, h2, h3⟩ := rounds_keep { s with v := v, w := 0 } n
  refine ⟨?_, ?_, h1, h2⟩
  · rw [hs']
    clear h1 h2 h3 hs' s'
    induction n with
    | zero => simp [rounds, run, St.at]
    | succ n ih =>
      rw [rounds_at, ih]
      simp only [mul_zero, add_zero]
      push_cast; ring
  · rw [hs', h3]; simp

example : (run (start 0 0 0) (.twist 2 0 :: rounds 500)).at = 10 := by
  rw [(straight (start 0 0 0) 2 500).1]
  simp [start, St.at, dir, dt]
  apply Complex.ext <;> norm_num

/-- With an angular velocity for which a round is not a whole number of turns, all positions lie on one circle, whose radius is the
distance per round over twice the sine of half the angle per round. -/
theorem circle (s : St) (v w : ℝ) (hw : Real.sin (w * dt / 2) ≠ 0) : ∃ c : ℂ, ∀ n : Nat,
    ‖(run s (.twist v w :: rounds n)).at - c‖ = |v * dt / (2 * Real.sin (w * dt / 2))| := by
  set s0 : St := { s with v := v, w := w } with hs0
  set q := dir (w * dt) with hq
  have hq1 : ‖q - 1‖ = 2 * |Real.sin (w * dt / 2)| := by
    rw [hq]; unfold dir
    rw [mul_comm, Complex.norm_exp_I_mul_ofReal_sub_one, norm_mul]
    simp
  have hq0 : q - 1 ≠ 0 := by
    rw [← norm_ne_zero_iff, hq1]
    exact mul_ne_zero two_ne_zero (abs_ne_zero.mpr hw)
  refine ⟨s.at - (dt * v : ℝ) * dir s.yaw * q / (q - 1), fun n => ?_⟩
  have key : (run s0 (rounds n)).at = s.at + (dt * v : ℝ) * dir s.yaw * q * (dir (n * (dt * w)) - 1) / (q - 1) := by
    induction n with
    | zero => simp [rounds, run, hs0, St.at, dir]
    | succ n ih =>
      rw [rounds_at, ih]
      have e1 : dir (s0.yaw + ((n + 1 : ℕ) : ℝ) * (dt * s0.w)) = dir s.yaw * (dir (n * (dt * w)) * q) := by
        rw [hq, ← dir_add, ← dir_add]
        congr 1
        show s.yaw + _ * (dt * w) = _
        push_cast; ring
      have e2 : dir (((n + 1 : ℕ) : ℝ) * (dt * w)) = dir (n * (dt * w)) * q := by
        rw [hq, ← dir_add]; congr 1; push_cast; ring
      rw [e1, e2]
      rw [show s0.v = v from rfl]
      field_simp
      ring
  show ‖(run s0 (rounds n)).at - _‖ = _
  rw [key]
  have e : s.at + (dt * v : ℝ) * dir s.yaw * q * (dir (n * (dt * w)) - 1) / (q - 1) - (s.at - (dt * v : ℝ) * dir s.yaw * q / (q - 1)) =
      (dt * v : ℝ) * dir s.yaw * q * dir (n * (dt * w)) / (q - 1) := by
    field_simp; ring
  rw [e, norm_div, norm_mul, norm_mul, norm_mul, norm_dir, norm_dir, hq, norm_dir, ← hq, hq1, Complex.norm_real]
  simp only [mul_one, Real.norm_eq_abs]
  rw [abs_div, abs_mul, abs_mul, abs_mul, abs_two, mul_comm |dt|]

/-- The robot's positions under a constant command stay close to the smooth motion at these speeds: after `n` rounds they differ by
at most `|v| |w|` times the elapsed time times the period. -/
theorem near_motion (s : St) (v w : ℝ) (f : ℝ → ℂ) (hf : Motion v w s.at s.yaw f) (n : Nat) :
    ‖(run s (.twist v w :: rounds n)).at - f (n * dt)‖ ≤ |v| * |w| * (n * dt) * dt := by
  set s0 : St := { s with v := v, w := w } with hs0
  have hdt : (0 : ℝ) < dt := by unfold dt; norm_num
  show ‖(run s0 (rounds n)).at - f (n * dt)‖ ≤ _
  induction n with
  | zero =>
    have := hf.start
    simp [rounds, run, hs0, this, St.at]
  | succ n ih =>
    rw [rounds_at]
    set yaw' := s0.yaw + ((n + 1 : ℕ) : ℝ) * (dt * s0.w) with hyaw
    have hd : ∀ t ∈ Set.Icc (n * dt) ((n + 1) * dt), HasDerivWithinAt (fun t => f t - ((t * v : ℝ) : ℂ) * dir yaw')
        (v * dir (s.yaw + w * t) - v * dir yaw') (Set.Icc (n * dt) ((n + 1) * dt)) t := by
      intro t _
      have h1 := hf.speed t
      have h2 : HasDerivAt (fun t : ℝ => ((t * v : ℝ) : ℂ) * dir yaw') (v * dir yaw') t := by
        have := ((hasDerivAt_id t).mul_const v).ofReal_comp.mul_const (dir yaw')
        simpa using this
      exact (h1.sub h2).hasDerivWithinAt
    have hb : ∀ t ∈ Set.Icc (n * dt) ((n + 1) * dt), ‖(v * dir (s.yaw + w * t) - v * dir yaw' : ℂ)‖ ≤ |v| * |w| * dt := by
      intro t ht
      rw [← mul_sub, norm_mul, Complex.norm_real, Real.norm_eq_abs, mul_assoc]
      refine mul_le_mul_of_nonneg_left ?_ (abs_nonneg _)
      have e : dir (s.yaw + w * t) - dir yaw' = dir yaw' * (dir (s.yaw + w * t - yaw') - 1) := by
        rw [mul_sub, ← dir_add, mul_one]; congr 2; ring
      rw [e, norm_mul, norm_dir, one_mul]
      unfold dir
      rw [mul_comm]
      refine Real.norm_exp_I_mul_ofReal_sub_one_le.trans ?_
      rw [Real.norm_eq_abs]
      have e2 : s.yaw + w * t - yaw' = w * (t - (n + 1) * dt) := by
        rw [hyaw, hs0]; push_cast; ring
      rw [e2, abs_mul]
      refine mul_le_mul_of_nonneg_left ?_ (abs_nonneg _)
      rw [abs_le]
      constructor <;> [nlinarith [ht.1]; nlinarith [ht.2]]
    have hle : (n : ℝ) * dt ≤ (n + 1) * dt := by nlinarith
    have hm := Convex.norm_image_sub_le_of_norm_hasDerivWithin_le hd hb (convex_Icc _ _) (Set.left_mem_Icc.mpr hle) (Set.right_mem_Icc.mpr hle)
    rw [show ((n : ℝ) + 1) * dt - n * dt = dt by ring, Real.norm_of_nonneg hdt.le] at hm
    have hv : s0.v = v := rfl
    rw [hv]
    have e : (run s0 (rounds n)).at + ((dt * v : ℝ) : ℂ) * dir yaw' - f (((n + 1 : ℕ) : ℝ) * dt) =
        ((run s0 (rounds n)).at - f (n * dt)) -
          (f ((n + 1) * dt) - (((n + 1) * dt * v : ℝ) : ℂ) * dir yaw' - (f (n * dt) - ((n * dt * v : ℝ) : ℂ) * dir yaw')) := by
      push_cast; ring
    rw [e]
    refine (norm_sub_le _ _).trans ?_
    calc _ ≤ |v| * |w| * (n * dt) * dt + |v| * |w| * dt * dt := add_le_add ih hm
      _ = _ := by push_cast; ring

/-- The motion around a circle of radius 1. -/
example (n : Nat) : ‖(run (start 0 0 0) (.twist 1 1 :: rounds n)).at - Complex.I * (1 - dir (n * dt))‖ ≤ n * dt * dt := by
  have h := near_motion (start 0 0 0) 1 1 (fun t => Complex.I * (1 - dir t)) ⟨by simp [dir, start, St.at]; rfl, fun t => by
    unfold dir
    have h1 : HasDerivAt (fun t : ℝ => (t : ℂ) * Complex.I) (1 * Complex.I) t := (hasDerivAt_id t).ofReal_comp.mul_const _
    have h2 := ((h1.cexp).const_sub 1).const_mul Complex.I
    refine h2.congr_deriv ?_
    simp only [start]
    push_cast
    rw [one_mul, one_mul, one_mul, zero_add, mul_neg, mul_comm (Complex.exp _), ← mul_assoc, Complex.I_mul_I]; ring⟩ n
  simpa using h

/-- **C110.** One round is a hundredth of a second. -/
theorem round_time (s : St) : (run s [.tick]).yaw = s.yaw + s.w / 100 ∧ ‖(run s [.tick]).at - s.at‖ = |s.v| / 100 := by
  have h1 : (run s [.tick]) = advance s := rfl
  rw [h1]
  refine ⟨?_, ?_⟩
  · simp only [advance, dt]; ring
  · rw [advance_at]
    have : ‖dir (advance s).yaw‖ = 1 := by unfold dir; exact Complex.norm_exp_ofReal_mul_I _
    rw [add_sub_cancel_left, norm_mul, this, mul_one, Complex.norm_real, Real.norm_eq_abs, abs_mul]
    simp only [dt]
    rw [abs_of_pos (by norm_num)]
    ring

example : (run (start 0 0 0) [.twist 0 50, .tick]).yaw = 1 / 2 := by
  have := (round_time ⟨0, 0, 0, 0, 50⟩).1
  change (run ⟨0, 0, 0, 0, 50⟩ [.tick]).yaw = _
  rw [this]
  norm_num

end Verif.Dummy
