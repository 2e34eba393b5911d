import Verif.Tracker.Short
/-! # Straight paths which end with a turn: such rides exist, and concrete ones -/
namespace Verif.Tracker
open Verif.Path2D Verif.Num Spec

variable {cfg : Config} {hz : ℝ} {x : Nat → ℝ} {m : Nat} {lo hi : ℝ} {p : ℂ} {φ φ1 : ℝ}

/-- On the straight part, or at the turn. -/
def OnWay (cfg : Config) (hz : ℝ) (x : Nat → ℝ) (m : Nat) (hi : ℝ) (p : ℂ) (φ φ1 : ℝ) (s : State × Tf) : Prop :=
  (∃ X, s.2 = on p φ X ∧ Before cfg hz x m hi p φ φ1 s.1 X) ∨ AtTurn cfg x m p φ φ1 s.1

theorem OnWay.step (h : Suits cfg hz x m lo hi) (ht : Turns cfg hz) {s : State × Tf} (hs : OnWay cfg hz x m hi p φ φ1 s) :
    ∃ st' o, step s.1 (.timer true hz (some s.2) (some s.2)) = some (st', some o) ∧ OnWay cfg hz x m hi p φ φ1 (st', moved s.2 o (1 / hz)) := by
  have hturn : ∀ (st : State) (tf : Tf), AtTurn cfg x m p φ φ1 st →
      ∃ st' o, Tracker.step st (.timer true hz (some tf) (some tf)) = some (st', some o) ∧ OnWay cfg hz x m hi p φ φ1 (st', moved tf o (1 / hz)) := by
    intro st tf ha
    obtain ⟨st', o, g1, g2, -⟩ := after_step (q := { pos := p + x m * dir φ, yaw := φ1, vel := .nan }) ht (line_last p φ x m) rfl rfl ha (s := 1) (v := st.w) (r := -angNorm (tf.yaw - φ1)) (.inl rfl) (one_mul _).symm tf
      (by simp)
    exact ⟨st', o, g1, .inr g2⟩
  have hrun : ∀ (st : State) (X : ℝ), st.updated = false → Before cfg hz x m hi p φ φ1 st X →
      ∃ st' o, Tracker.step st (.timer true hz (some (on p φ X)) (some (on p φ X))) = some (st', some o) ∧
        OnWay cfg hz x m hi p φ φ1 (st', moved (on p φ X) o (1 / hz)) := by
    intro st X hu hb
    obtain ⟨st', o, g1, -, g3, -, -, -, -, -, g9, g10⟩ := hb.step h hu
    refine ⟨st', o, g1, ?_⟩
    by_cases hc : |x m - X - cfg.lookForward * st.v| < cfg.stopDist
    · exact .inr (g10 hc).1
    · exact .inl ⟨X + o.cmdV * (1 / hz), moved_on p φ X g3 (1 / hz), (g9 hc).1⟩
  obtain ⟨st, tf⟩ := s
  rcases hs with ⟨X, rfl, hb⟩ | ha
  · rcases hu : st.updated with _ | _
    · exact hrun st X hu hb
    · obtain ⟨st1, f1, f2, -, -, f5⟩ := hb.first h hu
      have hs := step_first f1 f2 hz
      rcases f5 with ⟨-, hc⟩ | ⟨-, hc⟩
      · obtain ⟨st', o, g1, g2⟩ := hturn st1 _ hc
        exact ⟨st', o, hs.symm ▸ g1, g2⟩
      · obtain ⟨st', o, g1, g2⟩ := hrun st1 X f2 hc
        exact ⟨st', o, hs.symm ▸ g1, g2⟩
  · exact hturn st tf ha

/-- There is such a ride. -/
theorem lineTurn_exists (h : Suits cfg hz x m lo hi) (ht : Turns cfg hz) (hφ : φ ∈ Set.Ioc (-Real.pi) Real.pi) (hφ1 : φ1 ∈ Set.Ioc (-Real.pi) Real.pi)
    {X0 : ℝ} (h1 : X0 ≤ x m) :
    ∃ (st : Nat → State) (tf : Nat → Tf) (out : Nat → Out),
      step (start cfg) (.path false (toMsg false (lineTurn p φ x m φ1)) true) = some (st 0, none) ∧ tf 0 = on p φ X0 ∧ Ride hz st tf out := by
  obtain ⟨st0, e0, hb, -⟩ := received_lineTurn h ht.eps p hφ hφ1 h1
  have nxt : ∀ s : {s : State × Tf // OnWay cfg hz x m hi p φ φ1 s}, ∃ s' : {s : State × Tf // OnWay cfg hz x m hi p φ φ1 s}, ∃ o : Out,
      Tracker.step s.1.1 (.timer true hz (some s.1.2) (some s.1.2)) = some (s'.1.1, some o) ∧ s'.1.2 = moved s.1.2 o (1 / hz) := by
    rintro ⟨s, hs⟩
    obtain ⟨st', o, g1, g2⟩ := hs.step h ht
    exact ⟨⟨(st', moved s.2 o (1 / hz)), g2⟩, o, g1, rfl⟩
  choose nx no hn using nxt
  let S : Nat → {s : State × Tf // OnWay cfg hz x m hi p φ φ1 s} := fun k => Nat.rec ⟨(st0, on p φ X0), .inl ⟨X0, rfl, hb⟩⟩ (fun _ s => nx s) k
  exact ⟨fun k => (S k).1.1, fun k => (S k).1.2, fun k => no (S k), e0, rfl, ⟨fun k => (hn (S k)).1, fun k => (hn (S k)).2⟩⟩

/-- For example, with the default parameters, a path of ten metres with a pose every ten centimetres which ends with a turn to the left: the robot drives
along it, turns, and stops less than half a metre from its end. -/
example : ∃ (st : Nat → State) (tf : Nat → Tf) (out : Nat → Out) (N : Nat),
    step (start defaults) (.path false (toMsg false (lineTurn 0 0 (fun i => i / 10) 100 1)) true) = some (st 0, none) ∧ tf 0 = on 0 0 5 ∧ Ride 50 st tf out ∧
    (∀ k, N ≤ k → ‖(tf k).pos - 10‖ < 1 / 2 ∧ (∃ j : Int, |(tf k).yaw - (1 + j * (2 * Real.pi))| < 1 / 20) ∧ (out k).cmdV = 0 ∧ (out k).cmdW = 0 ∧
      (out k).status = .goal) := by
  have hp := Real.pi_gt_three
  have hs : Suits defaults 50 (fun i => (i : ℝ) / 10) 100 (1 / 1000) (48 / 100) := by
    refine defaults_suit (by omega) (fun i _ => ?_) (by norm_num)
    push_cast
    constructor <;> linarith
  have h0 : (0 : ℝ) ∈ Set.Ioc (-Real.pi) Real.pi := ⟨by linarith, by linarith⟩
  have h1 : (1 : ℝ) ∈ Set.Ioc (-Real.pi) Real.pi := ⟨by linarith, by linarith⟩
  have h2 : (5 : ℝ) ≤ (fun i : Nat => (i : ℝ) / 10) 100 := by norm_num
  obtain ⟨st, tf, out, e1, e2, e3⟩ := lineTurn_exists hs defaults_turn (p := 0) h0 h1 h2
  obtain ⟨-, K, -, -, -, d, s, -, -, -, -, N, -, a7⟩ := arrives_and_turns hs defaults_turn h0 h1 h2 e1 e2 e3
  refine ⟨st, tf, out, N, e1, e2, e3, fun k hk => ?_⟩
  obtain ⟨-, b2, b3, b4⟩ := a7 k hk
  refine ⟨?_, b2, b4⟩
  have e : (0 : ℂ) + (((100 : Nat) : ℝ) / 10 : ℝ) * dir 0 = 10 := by
    unfold dir
    simp only [Real.cos_zero, Real.sin_zero]
    apply Complex.ext <;> norm_num
  rw [e] at b3
  refine lt_of_lt_of_le b3 ?_
  norm_num [defaults]

/-- And with a slower robot that looks one second ahead: it stops, reporting the goal, more than thirty-eight centimetres before the end of the path,
although the goal tolerance is twenty centimetres. -/
example : ∃ (st : Nat → State) (tf : Nat → Tf) (out : Nat → Out) (N : Nat),
    step (start { defaults with maxVel := 2 / 5, lookForward := 1 }) (.path false (toMsg false (lineTurn 0 0 (fun i => i / 10) 100 1)) true) = some (st 0, none) ∧
    tf 0 = on 0 0 5 ∧ Ride 50 st tf out ∧ defaults.goalDist = 1 / 5 ∧
    (∀ k, N ≤ k → 38 / 100 < ‖(tf k).pos - 10‖ ∧ (out k).cmdV = 0 ∧ (out k).cmdW = 0 ∧ (out k).status = .goal) := by
  have hp := Real.pi_gt_three
  have hs : Suits { defaults with maxVel := 2 / 5, lookForward := 1 } 50 (fun i => (i : ℝ) / 10) 100 (1 / 1000) (1 / 10) := by
    constructor
    all_goals first
      | rfl
      | (norm_num [defaults]; done)
      | (intro i _; push_cast; constructor <;> linarith)
  have ht : Turns { defaults with maxVel := 2 / 5, lookForward := 1 } 50 := by
    constructor
    all_goals first
      | rfl
      | (norm_num [defaults]; done)
      | (simp only [defaults]; linarith)
  have h0 : (0 : ℝ) ∈ Set.Ioc (-Real.pi) Real.pi := ⟨by linarith, by linarith⟩
  have h1 : (1 : ℝ) ∈ Set.Ioc (-Real.pi) Real.pi := ⟨by linarith, by linarith⟩
  have h2 : (5 : ℝ) ≤ (fun i : Nat => (i : ℝ) / 10) 100 := by norm_num
  obtain ⟨st, tf, out, e1, e2, e3⟩ := lineTurn_exists hs ht (p := 0) h0 h1 h2
  obtain ⟨N, a7⟩ := stops_short hs ht h0 h1 (by norm_num [defaults]) (by norm_num [defaults]) (X0 := 5) (by norm_num [defaults]) e1 e2 e3
  refine ⟨st, tf, out, N, e1, e2, e3, rfl, fun k hk => ?_⟩
  obtain ⟨b1, b2, b3, b4⟩ := a7 k hk
  refine ⟨?_, b1, b2, b3⟩
  have e : (0 : ℂ) + (((100 : Nat) : ℝ) / 10 : ℝ) * dir 0 = 10 := by
    unfold dir
    simp only [Real.cos_zero, Real.sin_zero]
    apply Complex.ext <;> norm_num
  rw [e] at b4
  refine lt_of_lt_of_le ?_ b4
  norm_num [defaults]

end Verif.Tracker
