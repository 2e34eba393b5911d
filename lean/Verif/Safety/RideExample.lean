import Verif.Safety.Ride
import Mathlib.Analysis.SpecialFunctions.Trigonometric.ArctanDeriv
import Mathlib.Analysis.Real.Pi.Bounds
/-! # A ride that meets the hypotheses of `ride_safe`, and two limits of the statement -/
namespace Verif.Safety
open Spec
open Verif.Polygon hiding dist

/-- As `cfg0`, with a margin. -/
noncomputable def cfgR : Cfg := { cfg0 with dMargin := 3 / 5 }

theorem tmaxR : 15 ≤ cfgR.tmax := by
  have h : (0 : ℝ) ≤ max (cfgR.dMargin / cfgR.linVel) (cfgR.yawMargin / cfgR.angVel) := le_max_of_le_left (by norm_num [cfgR, cfg0])
  unfold Cfg.tmax
  have h1 : (if (0 : ℝ) < cfgR.linVel / cfgR.linAcc then cfgR.linVel / cfgR.linAcc else 0) = 10 := by norm_num [cfgR, cfg0]
  have h2 : (if (10 : ℝ) < cfgR.angVel / cfgR.angAcc then cfgR.angVel / cfgR.angAcc else 10) = 10 := by norm_num [cfgR, cfg0]
  dsimp only
  rw [h1, h2]
  linarith

theorem touches0 (x : ℝ) (o : Pt ℝ) : Touches env0.footprint x o ↔ (o.1 - 1 < x ∧ x ≤ o.1 + 1) ∧ -1 ≤ o.2 ∧ o.2 < 1 := by
  unfold Touches
  rw [inside0]
  simp only
  constructor
  · rintro ⟨h1, h2, h3, h4⟩; exact ⟨⟨by linarith, by linarith⟩, h3, h4⟩
  · rintro ⟨⟨h1, h2⟩, h3, h4⟩; exact ⟨by linarith, by linarith, h3, h4⟩

/-- The obstacle, and how it is seen from a robot at `x`. -/
noncomputable def post : P3 := ⟨6, 0, 0⟩
noncomputable def shift (x : ℝ) : P3 → P3 := fun p => ⟨p.x - x, p.y, p.z⟩

theorem testedR (x : ℝ) : ∃ b, (predict env0 cfgR (forward 1) [post] (some (shift x))).tested = some ([(6 - x, 0)], b) := by
  have : heightFilter cfgR (env0.downsample cfgR.grid (List.map (shift x) [post])) = [(6 - x, 0)] := by
    have h1 : ¬ (0 : ℝ) < -1 := by norm_num
    have h2 : ¬ (1 : ℝ) < 0 := by norm_num
    simp [heightFilter, env0, cfgR, cfg0, h1, h2, List.filter, shift, post]
  unfold predict
  simp only [List.isEmpty_cons, Bool.false_eq_true, if_false, this]
  exact ⟨_, rfl⟩

/-- A robot that has not come nearer than 4 m is not slowed down by more than a half. -/
theorem ratioR (x : ℝ) (hx : x < 1) : 1 / 2 ≤ (predict env0 cfgR (forward 1) [post] (some (shift x))).ratio := by
  obtain ⟨b, hb⟩ := testedR x
  rw [(tested_inv _ _ _ _ _ _ _ hb).1]
  have hsp : speed (forward 1) = 1 := by simp [speed, forward, hypot]
  have hh : ∀ n, Hits env0.footprint (forward 1) cfgR.dt [(6 - x, 0)] n → 5 ≤ n := by
    intro n hn
    rw [hits_forward _ _ _ _ _ x [(6, 0)] (by simp)] at hn
    obtain ⟨o, ho, ht⟩ := hn
    rw [List.mem_singleton] at ho
    subst ho
    rw [touches0] at ht
    have h1 := ht.1.1
    norm_num [cfgR, cfg0] at h1
    have : (4 : ℝ) < n := by linarith
    exact_mod_cast this
  rcases (loop_spec cfgR (speed (forward 1)) (forward 1).az (by rw [hsp]; norm_num [cfgR, cfg0]) (colliding env0 cfgR (forward 1) [(6 - x, 0)])
    cfgR.steps).2 with ⟨-, h2⟩ | ⟨j, hj, hbl, -, hcol, hd, hyaw⟩
  · rw [show ratio cfgR (speed (forward 1)) (forward 1).az (loop cfgR (speed (forward 1)) (forward 1).az
      (colliding env0 cfgR (forward 1) [(6 - x, 0)]) 0 cfgR.steps .init) = 1 by simp [ratio, h2]]
    norm_num
  · rw [bl_iff] at hbl
    have h5 : 5 ≤ j := hh j hbl.1
    have hc0 : colliding env0 cfgR (forward 1) [(6 - x, 0)] 0 = false := by
      rw [← Bool.not_eq_true, colliding_iff]
      intro h
      have := hh 0 h
      omega
    rw [hc0, if_neg (by simp)] at hd hyaw
    unfold ratio
    rw [if_pos hcol, hd, hyaw, hsp]
    have hj4 : (4 : ℝ) ≤ (j : ℝ) - 1 := by
      have : (5 : ℝ) ≤ j := by exact_mod_cast h5
      linarith
    set d := (j : ℝ) - 1 with hdd
    refine le_min ?_ ?_
    · have e1 : quotient cfgR.linAcc (compensate cfgR.linAcc cfgR.dMargin cfgR.delay (d * (1 * cfgR.dt))) 1 =
          Real.sqrt |2 * max 0 (d - 3 / 5 + 4 - Real.sqrt (16 + 8 * d))| := by
        unfold quotient compensate Cfg.delay
        rw [if_neg one_ne_zero, div_one]
        have e2 : (d * (1 * cfgR.dt)) = d := by norm_num [cfgR, cfg0]
        have e3 : cfgR.linAcc = 1 := rfl
        have e4 : cfgR.hz = 1 := rfl
        have e5 : cfgR.dt = 1 := rfl
        have e6 : cfgR.dMargin = 3 / 5 := rfl
        rw [e2, e3, e4, e5, e6, abs_of_nonneg (by linarith : 0 ≤ d)]
        norm_num
      rw [e1]
      have h1 : Real.sqrt (16 + 8 * d) ≤ d + 13 / 4 := by
        rw [Real.sqrt_le_left (by linarith)]
        nlinarith
      have h2 : (1 / 4 : ℝ) ≤ 2 * max 0 (d - 3 / 5 + 4 - Real.sqrt (16 + 8 * d)) := by
        have := le_max_right 0 (d - 3 / 5 + 4 - Real.sqrt (16 + 8 * d))
        linarith
      rw [abs_of_nonneg (by linarith)]
      exact Real.le_sqrt_of_sq_le (by linarith)
    · have : (forward 1).az = 0 := rfl
      rw [this]
      simp [quotient]
      norm_num

/-- The position of the robot: it sets off with half a metre per second and becomes ever slower. -/
noncomputable def xR (t : ℝ) : ℝ := 1 / 2 * Real.arctan t
noncomputable def wR (t : ℝ) : ℝ := 1 / 2 * (1 / (1 + t ^ 2))

theorem movesR : Moves 1 xR wR := by
  refine ⟨fun τ => (Real.hasDerivAt_arctan τ).const_mul _, fun τ => ?_, fun τ => ?_⟩
  · unfold wR; positivity
  · unfold wR
    have : 1 / (1 + τ ^ 2) ≤ 1 := by
      rw [div_le_one (by positivity)]
      nlinarith [sq_nonneg τ]
    linarith

theorem xR_lt (t : ℝ) : xR t < 1 := by
  unfold xR
  have := Real.arctan_lt_pi_div_two t
  have := Real.pi_lt_d2
  linarith

/-- One prediction, one command and one cloud per second. -/
noncomputable def midR (k : Nat) : List Ev := [.twist k (forward 1), .cloud k [post] (some id)]
noncomputable def histR : Nat → List Ev
  | 0 => [.cloud 0 [post] (some id), .twist 0 (forward 1)]
  | k + 1 => histR k ++ .predict k (some (shift (xR k))) :: midR k
noncomputable def logR : Log := ⟨histR, fun k => k, fun k => some (shift (xR k)), midR, fun k => k⟩

theorem mid_split (k : Nat) (pre : List Ev) (now : ℝ) (t : Twist) (rest : List Ev) (h : midR k = pre ++ .twist now t :: rest) : pre = [] := by
  unfold midR at h
  rcases pre with _ | ⟨a, _ | ⟨b, _ | ⟨d, pre⟩⟩⟩
  · rfl
  all_goals simp at h

/-- What is true whenever a prediction begins. -/
structure Good (k : Nat) (s : St) : Prop where
  cfg : s.cfg = cfgR
  seen : s.hasCloud = true
  told : s.hasTwist = true
  alive : s.watchdogStop = false
  cloud : s.cloud = [post]
  twist : s.twist = forward 1
  low : 1 / 2 ≤ s.rLim
  high : s.rLim ≤ 1
  stamp : (k : ℝ) - 1 ≤ s.lastStamp
  dis : s.lastDisable = 0

/-- One cycle: a prediction, a command and a cloud. -/
theorem good_cycle (k : Nat) (s : St) (h : Good k s) :
    let s1 := (cbPredict env0 s k (some (shift (xR k)))).1
    (s1.hasCloud = true ∧ s1.watchdogStop = false ∧ 1 / 2 ≤ s1.rLim ∧ s1.rLim ≤ 1 ∧ s1.cfg = cfgR ∧ s1.lastDisable = 0) ∧
      Good (k + 1) (cbCloud (cbTwist s1 k (forward 1)).1 k [post] (some id)) := by
  intro s1
  obtain ⟨f1, f2, f3, f4, f5, f6⟩ := cbPredict_fields env0 s k (some (shift (xR k)))
  have hT : (k : ℝ) - s.lastStamp ≤ s.cfg.timeout := by
    rw [h.cfg]; have := h.stamp; change _ ≤ (1 : ℝ); linarith
  obtain ⟨l1, l2, l3, l4, l5, -⟩ := cbPredict_live env0 s k (some (shift (xR k))) h.told h.seen hT _ rfl
  rw [h.cfg, h.twist, h.cloud] at l1
  have hr := ratioR (xR k) (xR_lt k)
  have hlow : 1 / 2 ≤ s1.rLim := by
    change _ ≤ (cbPredict env0 s k (some (shift (xR k)))).1.rLim
    rw [l1]
    split
    · exact hr
    · exact h.low
  have hhigh : s1.rLim ≤ 1 := by
    change (cbPredict env0 s k (some (shift (xR k)))).1.rLim ≤ _
    rw [l1]
    have := h.high
    split <;> linarith
  have hs : s1.hasCloud = true := l5
  have hw : s1.watchdogStop = false := by rw [← h.alive]; exact f3
  have hcfg : s1.cfg = cfgR := by rw [← h.cfg]; exact f1
  have hdis : s1.lastDisable = 0 := by rw [← h.dis]; exact f2
  refine ⟨⟨hs, hw, hlow, hhigh, hcfg, hdis⟩, ?_⟩
  obtain ⟨g1, g2, g3, g4, g5, g6, g7, g8, -, -⟩ := cbTwist_fields s1 k (forward 1)
  have hrl : 1 / 2 ≤ (cbTwist s1 k (forward 1)).1.rLim ∧ (cbTwist s1 k (forward 1)).1.rLim ≤ 1 ∧ (cbTwist s1 k (forward 1)).1.twist = forward 1 := by
    unfold cbTwist
    dsimp only
    split
    · exact ⟨hlow, hhigh, rfl⟩
    · split
      · exact ⟨hlow, hhigh, rfl⟩
      · split
        · exact ⟨by norm_num, le_rfl, rfl⟩
        · exact ⟨hlow, hhigh, rfl⟩
  have hcl : s1.cloudClear = true := l4
  exact ⟨g1.trans hcfg, rfl, g8, g3.trans hw, by simp [cbCloud, g7, hcl, post], hrl.2.2, hrl.1, hrl.2.1, by simp [cbCloud, post],
    g2.trans hdis⟩

theorem run_cycle (k : Nat) : run env0 cfgR (histR (k + 1)) =
    cbCloud (cbTwist (cbPredict env0 (run env0 cfgR (histR k)) k (some (shift (xR k)))).1 k (forward 1)).1 k [post] (some id) := by
  rw [histR, run_append]
  rfl

theorem good (k : Nat) : Good k (run env0 cfgR (histR k)) := by
  induction k with
  | zero =>
    have e1 : run env0 cfgR (histR 0) = (cbTwist (cbCloud (.init cfgR) 0 [post] (some id)) 0 (forward 1)).1 := rfl
    rw [e1]
    have e2 : (cbTwist (cbCloud (.init cfgR) 0 [post] (some id)) 0 (forward 1)).1 =
        { (cbCloud (.init cfgR) 0 [post] (some id)) with twist := forward 1, hasTwist := true } := by
      unfold cbTwist
      simp [cbCloud, post, St.init, cfgR, cfg0]
    rw [e2]
    refine ⟨rfl, rfl, rfl, rfl, by simp [cbCloud, post, St.init], rfl, ?_, ?_, ?_, rfl⟩ <;> simp [cbCloud, post, St.init]
    norm_num
  | succ k ih =>
    rw [run_cycle]
    exact (good_cycle k _ ih).2

theorem regularR : Regular env0 cfgR 1 1 0 logR where
  cycle := fun k => rfl
  only := fun k ev hev => by
    simp only [logR, midR, List.mem_cons, List.not_mem_nil, or_false] at hev
    rcases hev with rfl | rfl
    · exact .inl ⟨_, rfl⟩
    · exact .inr ⟨_, _, _, rfl⟩
  times := fun k now t h => by
    simp only [logR, midR, List.mem_cons, Ev.twist.injEq, reduceCtorEq, List.not_mem_nil, or_false] at h
    rw [h.1]
    simp [logR]
  ordered := fun k pre now t rest h now' t' h' => by
    rw [mid_split k pre now t rest h] at h'
    cases h'
  first_le := fun k => by simp [logR]
  late := fun k => by simp [logR]
  period := fun k => by simp [logR]
  hold := fun k => by simp [logR, Cfg.holdTime, cfgR, cfg0]
  config := rfl
  command := (good 0).twist
  enabled := by simp [logR, histR, lastDisable, cfgR, cfg0]

/-- What the wheels are told: the command published in the cycle of the whole second. -/
noncomputable def cmdR (k : Nat) : Twist :=
  limitMax cfgR (limit (cbPredict env0 (run env0 cfgR (histR k)) k (some (shift (xR k)))).1.rLim (forward 1))
noncomputable def forceR (τ : ℝ) : ℝ := if τ < 0 then 1 else (cmdR ⌊τ⌋₊).lx

theorem cmdR_out (k : Nat) : outputs env0 cfgR (histR k ++ [.predict k (some (shift (xR k)))]) (.twist k (forward 1)) = [.cmd (cmdR k)] := by
  obtain ⟨⟨h1, h2, -, -, h5, h6⟩, -⟩ := good_cycle k _ (good k)
  have e1 : run env0 cfgR (histR k ++ [.predict k (some (shift (xR k)))]) =
      (cbPredict env0 (run env0 cfgR (histR k)) k (some (shift (xR k)))).1 := by rw [run_append]; rfl
  unfold outputs
  rw [e1]
  simp only [step]
  unfold cbTwist
  dsimp only
  rw [if_neg (by rw [h5, h6]; simp [cfgR, cfg0]), if_neg (by simp [h1, h2]), h5]
  rfl

theorem cmdR_ge (k : Nat) : 1 / 2 ≤ (cmdR k).lx := by
  obtain ⟨⟨-, -, h3, h4, -, -⟩, -⟩ := good_cycle k _ (good k)
  unfold cmdR
  set r := (cbPredict env0 (run env0 cfgR (histR k)) k (some (shift (xR k)))).1.rLim
  have hx : ∃ a, 1 / 2 ≤ a ∧ a ≤ 1 ∧ limit r (forward 1) = forward a := by
    unfold limit
    split
    · exact ⟨r, h3, h4, by simp [forward]⟩
    · exact ⟨1, by norm_num, le_rfl, rfl⟩
  obtain ⟨a, ha0, ha1, hx⟩ := hx
  rw [hx]
  have hm : hypot (forward a).lx (forward a).ly = a := by
    simp only [forward, hypot]
    rw [show a ^ 2 + 0 ^ 2 = a ^ 2 by ring]
    exact Real.sqrt_sq (by linarith)
  have hml : ¬ cfgR.maxLin ≤ 0 := by norm_num [cfgR, cfg0]
  have hmg : ¬ (hypot (forward a).lx (forward a).ly > cfgR.maxLin) := by
    rw [hm]; norm_num [cfgR, cfg0]; linarith
  unfold limitMax
  rw [if_neg hml, if_neg hmg]
  exact ha0

theorem forceR_ge (τ : ℝ) : 1 / 2 ≤ forceR τ := by
  unfold forceR
  split
  · norm_num
  · exact cmdR_ge _

theorem wR_le (τ : ℝ) : wR τ ≤ 1 / 2 := by
  unfold wR
  have : 1 / (1 + τ ^ 2) ≤ 1 := by
    rw [div_le_one (by positivity)]
    nlinarith [sq_nonneg τ]
  linarith

theorem obeysR : Obeys cfgR.linAcc wR forceR := by
  intro t0 t1 u hu h τ h0 h1
  rcases h0.eq_or_lt with rfl | hlt
  · refine le_max_of_le_right ?_
    rw [sub_self, mul_zero, sub_zero]
  · have := h t0 le_rfl (lt_of_lt_of_le hlt h1)
    have := forceR_ge t0
    exact le_max_of_le_left (by linarith [wR_le τ])

theorem toldR : Told env0 cfgR logR forceR := by
  intro k τ h0 h1
  simp only [logR] at h0 h1
  refine ⟨[], k, forward 1, [.cloud k [post] (some id)], cmdR k, rfl, cmdR_out k, ?_⟩
  have hk : (0 : ℝ) ≤ k := Nat.cast_nonneg k
  have : ⌊τ⌋₊ = k := by
    rw [Nat.floor_eq_iff (by linarith)]
    exact ⟨h0, by push_cast at h1; exact h1⟩
  unfold forceR
  rw [if_neg (by linarith), this]

theorem seesR : Sees env0 cfgR logR xR [(6, 0)] := by
  intro k
  have hg := good k
  refine ⟨hg.seen, ?_, ?_⟩
  · change (k : ℝ) - lastStamp (histR k) ≤ 1
    rw [← run_stamp env0 cfgR]
    have := hg.stamp
    linarith
  · obtain ⟨b, hb⟩ := testedR (xR k)
    refine ⟨[(6 - xR k, 0)], b, ?_, ?_⟩
    · change (predict env0 cfgR (run env0 cfgR (histR k)).twist (run env0 cfgR (histR k)).cloud (some (shift (xR k)))).tested = _
      rw [hg.twist, hg.cloud]
      exact hb
    · intro q
      simp [logR]

/-- A case in which all hypotheses of `ride_safe` are met: a square robot with a side of 2 m, sent ahead with 1 m/s towards a post 6 m away,
one prediction, one command and one cloud per second, a margin of 0.6 m. -/
example (k : Nat) (τ : ℝ) (h0 : (k : ℝ) ≤ τ) (h1 : τ ≤ k + 1) (y : ℝ) (hy0 : xR τ ≤ y) (hy1 : y ≤ xR τ + wR τ ^ 2 / 2) :
    ¬ Touches env0.footprint y (6, 0) := by
  have ht := tmaxR
  refine ride_safe (v := 1) (P := 1) (Δ := 0) (e := env0) (c := cfgR) (by norm_num) (by norm_num [cfgR, cfg0]) (by norm_num [cfgR, cfg0])
    (by norm_num [cfgR, cfg0]) (by norm_num [cfgR, cfg0]) le_rfl (by norm_num [cfgR, cfg0]) (by norm_num [cfgR, cfg0])
    (by norm_num [cfgR, cfg0]) (by norm_num [slack, cfgR, cfg0]) ?_ regularR movesR obeysR toldR seesR ?_ ?_ k τ h0
    (by simpa [logR] using h1) (6, 0) (List.mem_singleton_self _) y hy0 (by simpa [cfgR, cfg0] using hy1)
  · have e1 : cfgR.linAcc = 1 := rfl
    have e2 : cfgR.dt = 1 := rfl
    rw [e1, e2]
    linarith
  · intro o ho
    rw [List.mem_singleton] at ho
    subst ho
    refine .inr ⟨5, 7, by norm_num [cfgR, cfg0], fun x => ?_⟩
    rw [touches0]
    constructor
    · rintro ⟨⟨a, b⟩, -⟩; exact ⟨by linarith, by linarith⟩
    · rintro ⟨a, b⟩; exact ⟨⟨by linarith, by linarith⟩, by norm_num, by norm_num⟩
  · intro o ho y _ hy
    rw [List.mem_singleton] at ho
    subst ho
    rw [touches0]
    rintro ⟨⟨a, -⟩, -⟩
    have h2 := xR_lt (logR.first 0)
    have h3 := wR_le (logR.first 0)
    have h4 := movesR.forward (logR.first 0)
    have e1 : cfgR.linAcc = 1 := rfl
    rw [e1] at hy
    nlinarith

/-! ## Why the command has to stay the same -/

theorem predictF (v : ℝ) : (∃ b, (predict env0 cfg0 (forward v) [⟨2, 0, 0⟩] (some id)).tested = some ([(2, 0)], b)) ∧
    (predict env0 cfg0 (forward v) [⟨2, 0, 0⟩] (some id)).cloud = [⟨2, 0, 0⟩] := by
  have : heightFilter cfg0 (env0.downsample cfg0.grid (List.map id [⟨2, 0, 0⟩])) = [(2, 0)] := by
    have h1 : ¬ (0 : ℝ) < -1 := by norm_num
    have h2 : ¬ (1 : ℝ) < 0 := by norm_num
    simp [heightFilter, env0, cfg0, h1, h2, List.filter]
  unfold predict
  simp only [List.isEmpty_cons, Bool.false_eq_true, if_false, this]
  exact ⟨⟨_, rfl⟩, rfl⟩

theorem hitsF (v : ℝ) (n : Nat) : Hits env0.footprint (forward v) cfg0.dt [(2, 0)] n ↔ 1 < n * v ∧ n * v ≤ 3 := by
  rw [hits_forward _ _ _ _ _ 0 [(2, 0)] (by simp)]
  simp only [List.mem_singleton, exists_eq_left, touches0]
  have e1 : cfg0.dt = 1 := rfl
  rw [e1]
  constructor
  · rintro ⟨⟨a, b⟩, -⟩; exact ⟨by linarith, by linarith⟩
  · rintro ⟨a, b⟩; exact ⟨⟨by linarith, by linarith⟩, by norm_num, by norm_num⟩

theorem slowF : (predict env0 cfg0 (forward (1 / 100)) [⟨2, 0, 0⟩] (some id)).ratio = 1 := by
  obtain ⟨⟨b, hb⟩, -⟩ := predictF (1 / 100)
  refine clear_horizon _ _ _ _ _ _ b (by norm_num [cfg0]) hb ?_
  rintro n hn ⟨h, -⟩
  rw [tmax0] at hn
  rw [hitsF] at h
  have e1 : cfg0.dt = 1 := rfl
  rw [e1] at hn
  linarith [h.1]

theorem fastF : (predict env0 cfg0 (forward 2) [⟨2, 0, 0⟩] (some id)).ratio = 0 := by
  obtain ⟨⟨b, hb⟩, -⟩ := predictF 2
  rw [(tested_inv _ _ _ _ _ _ _ hb).1]
  have hsp : speed (forward 2) = 2 := by
    simp only [speed, forward, hypot]
    rw [show (2 : ℝ) ^ 2 + 0 ^ 2 = 2 ^ 2 by norm_num]
    exact Real.sqrt_sq (by norm_num)
  have h0 : colliding env0 cfg0 (forward 2) [(2, 0)] 0 = false := by
    rw [← Bool.not_eq_true, colliding_iff, hitsF]
    norm_num
  have h1 : colliding env0 cfg0 (forward 2) [(2, 0)] 1 = true := by
    rw [colliding_iff, hitsF]
    norm_num
  have hst : 1 < cfg0.steps := by
    rw [steps_iff _ (by norm_num [cfg0]), tmax0]
    norm_num [cfg0]
  have hbl : Bl cfg0 (speed (forward 2)) (forward 2).az (colliding env0 cfg0 (forward 2) [(2, 0)]) 1 := by
    rw [bl_iff]
    refine ⟨by rw [hitsF]; norm_num, .inl ?_⟩
    rw [hitsF]; norm_num
  rcases (loop_spec cfg0 (speed (forward 2)) (forward 2).az (by rw [hsp]; norm_num [cfg0]) (colliding env0 cfg0 (forward 2) [(2, 0)])
    cfg0.steps).2 with ⟨hno, -⟩ | ⟨j, hj, hb', hmin, hcol, hd, hyaw⟩
  · exact absurd hbl (hno 1 hst)
  · have hj1 : j = 1 := by
      rcases Nat.lt_trichotomy j 1 with h | h | h
      · have : j = 0 := by omega
        subst this
        rw [bl_iff] at hb'
        have := (hitsF 2 0).1 hb'.1
        norm_num at this
      · exact h
      · exact absurd hbl (hmin 1 h)
    subst hj1
    rw [h0, if_neg (by simp)] at hd hyaw
    unfold ratio
    rw [if_pos hcol, hd, hyaw, hsp]
    have e2 : ((1 : ℕ) : ℝ) - 1 = 0 := by norm_num
    rw [e2, zero_mul, zero_mul]
    have e3 : quotient cfg0.linAcc (compensate cfg0.linAcc cfg0.dMargin cfg0.delay 0) 2 = 0 := by
      unfold quotient compensate Cfg.delay
      rw [if_neg (by norm_num)]
      have a3 : cfg0.linAcc = 1 := rfl
      have a4 : cfg0.hz = 1 := rfl
      have a5 : cfg0.dt = 1 := rfl
      have a6 : cfg0.dMargin = 0 := rfl
      rw [a3, a4, a5, a6]
      have : Real.sqrt 16 = 4 := by
        rw [show (16 : ℝ) = 4 ^ 2 by norm_num]
        exact Real.sqrt_sq (by norm_num)
      norm_num [this]
    rw [e3]
    have e4 : (forward 2).az = 0 := rfl
    rw [e4]
    simp [quotient]

/-- A slow command, and the prediction made for it. -/
noncomputable def histF : List Ev := [.cloud 0 [⟨2, 0, 0⟩] (some id), .twist 0 (forward (1 / 100)), .predict 0 (some id)]

theorem limitMaxF (a : ℝ) (h0 : 0 ≤ a) (h1 : a ≤ 10) : limitMax cfg0 (forward a) = forward a := by
  have hm : hypot (forward a).lx (forward a).ly = a := by
    simp only [forward, hypot]
    rw [show a ^ 2 + 0 ^ 2 = a ^ 2 by ring]
    exact Real.sqrt_sq h0
  have hml : ¬ cfg0.maxLin ≤ 0 := by norm_num [cfg0]
  have hmg : ¬ (hypot (forward a).lx (forward a).ly > cfg0.maxLin) := by
    rw [hm]; norm_num [cfg0]; linarith
  unfold limitMax
  rw [if_neg hml, if_neg hmg]
  norm_num [forward, cfg0]

/-- The limit found for a slow command is applied to the fast command that follows it: no prediction for the fast command is made before it is
passed on unchanged, although the next prediction, with the same data and at the same time, makes the node stop the robot. -/
theorem faster_command_unrestricted : ∃ (h : List Ev) (now : ℝ) (t : Twist),
    outputs env0 cfg0 h (.twist now t) = [.cmd t] ∧
    outputs env0 cfg0 (h ++ [.twist now t, .predict now (some id)]) (.twist now t) = [.cmd { t with lx := 0 }] ∧
    t.lx ≠ 0 := by
  have e0 : run env0 cfg0 [.cloud 0 [⟨2, 0, 0⟩] (some id), .twist 0 (forward (1 / 100))] =
      { (cbCloud (.init cfg0) 0 [⟨2, 0, 0⟩] (some id)) with twist := forward (1 / 100), hasTwist := true } := by
    change (cbTwist (cbCloud (.init cfg0) 0 [⟨2, 0, 0⟩] (some id)) 0 (forward (1 / 100))).1 = _
    unfold cbTwist
    simp [cbCloud, St.init, cfg0]
  set s0 : St := { (cbCloud (.init cfg0) 0 [⟨2, 0, 0⟩] (some id)) with twist := forward (1 / 100), hasTwist := true } with hs0
  have hc : s0.cfg = cfg0 ∧ s0.twist = forward (1 / 100) ∧ s0.cloud = [⟨2, 0, 0⟩] ∧ s0.rLim = 1 ∧ s0.lastDisable = 0 ∧
      s0.watchdogStop = false ∧ s0.lastStamp = 0 := by simp [hs0, cbCloud, St.init]
  obtain ⟨c1, c2, c3, c4, c5, c6, c7⟩ := hc
  have e1 : run env0 cfg0 histF = (cbPredict env0 s0 0 (some id)).1 := by rw [← e0]; rfl
  obtain ⟨f1, f2, f3, f4, f5, f6⟩ := cbPredict_fields env0 s0 0 (some id)
  obtain ⟨l1, l2, l3, l4, l5, -⟩ := cbPredict_live env0 s0 0 (some id) rfl rfl (by rw [c1, c7]; norm_num [cfg0]) _ rfl
  rw [c1, c2, c3, slowF, c4, if_neg (lt_irrefl _)] at l1
  rw [c1, c2, c3, (predictF _).2] at l3
  set s1 := (cbPredict env0 s0 0 (some id)).1 with hs1
  have hcb : ∀ s : St, s.cfg = cfg0 → s.lastDisable = 0 → s.watchdogStop = false → s.hasCloud = true →
      (cbTwist s 0 (forward 2)).2 = [.cmd (limitMax cfg0 (limit s.rLim (forward 2)))] := by
    intro s h1 h2 h3 h4
    unfold cbTwist
    dsimp only
    rw [if_neg (by rw [h1, h2]; simp [cfg0]), if_neg (by simp [h3, h4]), h1]
  refine ⟨histF, 0, forward 2, ?_, ?_, by norm_num [forward]⟩
  · unfold outputs
    rw [e1]
    change (cbTwist s1 0 (forward 2)).2 = _
    rw [hcb s1 (f1.trans c1) (f2.trans c5) (f3.trans c6) l5, l1]
    have : limit 1 (forward 2) = forward 2 := if_neg (by norm_num)
    rw [this, limitMaxF _ (by norm_num) (by norm_num)]
  · obtain ⟨g1, g2, g3, g4, g5, g6, g7, g8, -, -⟩ := cbTwist_fields s1 0 (forward 2)
    have gt : (cbTwist s1 0 (forward 2)).1.twist = forward 2 ∧ (cbTwist s1 0 (forward 2)).1.rLim = 1 := by
      unfold cbTwist
      dsimp only
      split
      · exact ⟨rfl, l1⟩
      · split
        · exact ⟨rfl, l1⟩
        · split
          · exact ⟨rfl, rfl⟩
          · exact ⟨rfl, l1⟩
    set s2 := (cbTwist s1 0 (forward 2)).1 with hs2
    have e2 : run env0 cfg0 (histF ++ [.twist 0 (forward 2), .predict 0 (some id)]) = (cbPredict env0 s2 0 (some id)).1 := by
      rw [run_append, e1]; rfl
    have d1 : s2.cfg = cfg0 := g1.trans (f1.trans c1)
    obtain ⟨k1, k2, k3, -⟩ := cbPredict_fields env0 s2 0 (some id)
    obtain ⟨m1, -, -, -, m5, -⟩ := cbPredict_live env0 s2 0 (some id) g8 (g5.trans l5)
      (by rw [d1, g4, f4, c7]; norm_num [cfg0]) _ rfl
    rw [d1, gt.1, g6, l3, fastF, gt.2, if_pos zero_lt_one] at m1
    unfold outputs
    rw [e2]
    change (cbTwist (cbPredict env0 s2 0 (some id)).1 0 (forward 2)).2 = _
    rw [hcb _ (k1.trans d1) (k2.trans (g2.trans (f2.trans c5))) (k3.trans (g3.trans (f3.trans c6))) m5, m1]
    have : limit 0 (forward 2) = forward 0 := by
      unfold limit
      rw [if_pos (by norm_num)]
      simp [forward]
    rw [this, limitMaxF _ le_rfl (by norm_num)]
    rfl

end Verif.Safety
