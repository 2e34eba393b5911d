import Verif.Tracker.Spec
import Verif.Path2D.Props
import Verif.Control.Props
/-!
# Lemmas on the path tracking node
-/
namespace Verif.Tracker
open Verif.Num Verif.Path2D

/-! ## Angle normalisation -/

theorem up_ceil : ∀ (n : Nat) (a : ℝ), a < -Real.pi → ⌈(-Real.pi - a) / (2 * Real.pi)⌉ = (n : Int) →
    Control.Up id Real.pi a (a + 2 * Real.pi * n) := by
  have hp : 0 < 2 * Real.pi := by have := Real.pi_pos; linarith
  intro n
  induction n with
  | zero =>
    intro a ha hc
    have h1 : 0 < (-Real.pi - a) / (2 * Real.pi) := div_pos (by linarith) hp
    have := Int.ceil_pos.mpr h1
    omega
  | succ n ih =>
    intro a ha hc
    refine .go ha ?_
    have hc' : ⌈(-Real.pi - (a + 2 * Real.pi)) / (2 * Real.pi)⌉ = (n : Int) := by
      have : (-Real.pi - (a + 2 * Real.pi)) / (2 * Real.pi) = (-Real.pi - a) / (2 * Real.pi) - 1 := by
        field_simp; ring
      rw [this, Int.ceil_sub_one, hc]; push_cast; ring
    have he : a + 2 * Real.pi * ((n + 1 : Nat) : ℝ) = (a + 2 * Real.pi) + 2 * Real.pi * n := by push_cast; ring
    rw [he]
    simp only [id]
    by_cases h : a + 2 * Real.pi < -Real.pi
    · exact ih _ h hc'
    · have hle : ⌈(-Real.pi - (a + 2 * Real.pi)) / (2 * Real.pi)⌉ ≤ 0 := by
        rw [Int.ceil_le]
        have h0 : -Real.pi - (a + 2 * Real.pi) ≤ 0 := by linarith [not_lt.mp h]
        have := div_nonpos_of_nonpos_of_nonneg h0 hp.le
        simpa using this
      have hn : n = 0 := by omega
      subst hn
      simp only [Nat.cast_zero, mul_zero, add_zero]
      exact .stop h

theorem down_ceil : ∀ (n : Nat) (a : ℝ), a > Real.pi → ⌈(a - Real.pi) / (2 * Real.pi)⌉ = (n : Int) →
    Control.Down id Real.pi a (a - 2 * Real.pi * n) := by
  have hp : 0 < 2 * Real.pi := by have := Real.pi_pos; linarith
  intro n
  induction n with
  | zero =>
    intro a ha hc
    have h1 : 0 < (a - Real.pi) / (2 * Real.pi) := div_pos (by linarith) hp
    have := Int.ceil_pos.mpr h1
    omega
  | succ n ih =>
    intro a ha hc
    refine .go ha ?_
    have hc' : ⌈(a - 2 * Real.pi - Real.pi) / (2 * Real.pi)⌉ = (n : Int) := by
      have : (a - 2 * Real.pi - Real.pi) / (2 * Real.pi) = (a - Real.pi) / (2 * Real.pi) - 1 := by
        field_simp; ring
      rw [this, Int.ceil_sub_one, hc]; push_cast; ring
    have he : a - 2 * Real.pi * ((n + 1 : Nat) : ℝ) = (a - 2 * Real.pi) - 2 * Real.pi * n := by push_cast; ring
    rw [he]
    simp only [id]
    by_cases h : a - 2 * Real.pi > Real.pi
    · exact ih _ h hc'
    · have hle : ⌈(a - 2 * Real.pi - Real.pi) / (2 * Real.pi)⌉ ≤ 0 := by
        rw [Int.ceil_le]
        have h0 : a - 2 * Real.pi - Real.pi ≤ 0 := by linarith [not_lt.mp h]
        have := div_nonpos_of_nonpos_of_nonneg h0 hp.le
        simpa using this
      have hn : n = 0 := by omega
      subst hn
      simp only [Nat.cast_zero, mul_zero, sub_zero]
      exact .stop h

/-- The loops of `angleNormalized` compute `angNorm`. -/
theorem angNorm_loops (a : ℝ) : Control.Normalized id Real.pi a (angNorm a) := by
  have hpi := Real.pi_pos
  have hp : 0 < 2 * Real.pi := by linarith
  unfold angNorm
  split
  · next h =>
    have hpos : 0 < ⌈(-Real.pi - a) / (2 * Real.pi)⌉ := Int.ceil_pos.mpr (div_pos (by linarith) hp)
    obtain ⟨n, hn⟩ : ∃ n : Nat, ⌈(-Real.pi - a) / (2 * Real.pi)⌉ = (n : Int) := Int.eq_ofNat_of_zero_le hpos.le
    rw [hn]
    refine ⟨a + 2 * Real.pi * n, up_ceil n a h hn, ?_⟩
    · push_cast
      refine .stop ?_
      have h1 : (n : ℝ) < (-Real.pi - a) / (2 * Real.pi) + 1 := by
        have := Int.ceil_lt_add_one ((-Real.pi - a) / (2 * Real.pi))
        rw [hn] at this; exact_mod_cast this
      have h2 : (n : ℝ) * (2 * Real.pi) < (-Real.pi - a) + 2 * Real.pi := by
        calc (n : ℝ) * (2 * Real.pi) < ((-Real.pi - a) / (2 * Real.pi) + 1) * (2 * Real.pi) :=
              mul_lt_mul_of_pos_right h1 hp
          _ = _ := by field_simp
      rw [not_lt]
      linarith
  · next h =>
    refine ⟨a, .stop h, ?_⟩
    split
    · next h2 =>
      have hpos : 0 < ⌈(a - Real.pi) / (2 * Real.pi)⌉ := Int.ceil_pos.mpr (div_pos (by linarith) hp)
      obtain ⟨n, hn⟩ : ∃ n : Nat, ⌈(a - Real.pi) / (2 * Real.pi)⌉ = (n : Int) := Int.eq_ofNat_of_zero_le hpos.le
      have := down_ceil n a h2 hn
      rw [hn]
      simpa using this
    · next h2 => exact .stop h2

/-- The normalised angle is the angle up to full turns. -/
theorem angNorm_spec (a : ℝ) : Control.Spec.IsNormal Real.pi a (angNorm a) := by
  exact (Control.angleNormalized_spec (K := ℝ) Real.pi_pos a).2 _ (angNorm_loops a)

theorem angNorm_id {a : ℝ} (h1 : -Real.pi ≤ a) (h2 : a ≤ Real.pi) : angNorm a = a := by
  unfold angNorm
  rw [if_neg (by linarith), if_neg (by linarith)]

/-! ## The stepped path -/

theorem every_spec {k : Nat} (hk : 1 ≤ k) (P : List Pose) :
    (∀ j, j < (every k P).length ↔ j * k < P.length) ∧ ∀ j, j * k < P.length → (every k P)[j]? = P[j * k]? := by
  obtain ⟨c, hc⟩ : ∃ c, ∀ j, j < c ↔ j * k < P.length := by
    refine ⟨(P.length + k - 1) / k, fun j => ?_⟩
    rw [Nat.lt_iff_add_one_le, Nat.le_div_iff_mul_le (by omega)]
    have : (j + 1) * k = j * k + k := by ring
    omega
  have hcn : c ≤ P.length := by
    by_contra h
    have h1 := (hc P.length).mp (by omega)
    have : P.length * 1 ≤ P.length * k := Nat.mul_le_mul_left _ hk
    omega
  obtain ⟨r, hr⟩ := Nat.exists_eq_add_of_le hcn
  have hev : every k P = (List.range c).filterMap fun i => P[i * k]? := by
    unfold every
    rw [hr, List.range_add, List.filterMap_append]
    have : (List.map (fun x => c + x) (List.range r)).filterMap (fun i => P[i * k]?) = [] := by
      rw [List.filterMap_eq_nil_iff]
      intro a ha
      obtain ⟨x, _, rfl⟩ := List.mem_map.mp ha
      rw [List.getElem?_eq_none]
      have := (hc (c + x)).not.mp (by omega)
      omega
    rw [this, List.append_nil]
  have hmap : ∀ n, n ≤ c → ((List.range n).filterMap fun i => P[i * k]?).length = n ∧
      ∀ j, j < n → ((List.range n).filterMap fun i => P[i * k]?)[j]? = P[j * k]? := by
    intro n
    induction n with
    | zero => intro _; simp
    | succ n ih =>
      intro hn
      obtain ⟨h1, h2⟩ := ih (by omega)
      have hlt := (hc n).mp (by omega)
      have hsome : P[n * k]? = some (P[n * k]'hlt) := List.getElem?_eq_getElem hlt
      rw [List.range_succ, List.filterMap_append]
      have hone : [n].filterMap (fun i => P[i * k]?) = [P[n * k]'hlt] := by
        simp only [List.filterMap_cons, List.filterMap_nil, hsome]
      rw [hone]
      refine ⟨by simp [h1], ?_⟩
      intro j hj
      rcases Nat.lt_or_ge j n with h | h
      · rw [List.getElem?_append_left (by omega)]
        exact h2 j h
      · have : j = n := by omega
        subst this
        rw [List.getElem?_append_right (by omega), h1, Nat.sub_self, hsome]
        rfl
  obtain ⟨h1, h2⟩ := hmap c (le_refl _)
  rw [← hev] at h1 h2
  refine ⟨fun j => by rw [h1]; exact hc j, fun j hj => h2 j ((hc j).mpr hj)⟩

theorem localPath_length (k : Nat) (P : List Pose) (tf : Tf) : (localPath k P tf).length = (every k P).length := by
  unfold localPath; rw [List.length_map]

/-! ## Reading the path -/

theorem micro_pos : 0 < microEps := by unfold microEps; norm_num

theorem remained_total {P : List Pose} {b n e : Nat} {t : ℂ} (hn : n < P.length) (he : e ≤ P.length) :
    ∃ r, remainedDistance P b n e t = some r := by
  rcases Nat.lt_or_ge (n + 1) e with h | h
  · obtain ⟨p, _, hr⟩ := remained_ahead (b := b) (t := t) he h
    exact ⟨_, hr⟩
  · unfold remainedDistance
    rw [List.getElem?_eq_getElem hn]
    simp only
    rw [if_pos h]
    split
    · exact ⟨_, rfl⟩
    · have h1 : P[e - 1]? = some (P[e - 1]'(by omega)) := List.getElem?_eq_getElem _
      have h2 : P[e - 2]? = some (P[e - 2]'(by omega)) := List.getElem?_eq_getElem _
      rw [h1, h2]
      simp only
      split <;> exact ⟨_, rfl⟩

/-- What the reading part finds. -/
structure GeoSpec (cfg : Config) (done : Nat) (lp : List Pose) (origin originRaw : ℂ) (geo : Geo) : Prop where
  done_le : done ≤ geo.nearest
  near_lt : geo.nearest < geo.localGoal
  goal_le : geo.localGoal ≤ lp.length
  prev : lp[geo.nearest - 1]? = some geo.prevPose
  near : lp[geo.nearest]? = some geo.nearPose
  yaw : ∃ l, lp[geo.localGoal - 1]? = some l ∧ geo.goalYaw = l.yaw
  noCut : ∀ i, done < i → i < geo.localGoal → ¬ CutAt lp cfg.allowBackward true microEps done i
  cut : geo.localGoal < lp.length → CutAt lp cfg.allowBackward true microEps done geo.localGoal
  remainLocal : remainedDistance lp 0 geo.nearest geo.localGoal
    (projection geo.prevPose.pos geo.nearPose.pos origin) = some geo.remainLocal
  remain : remainedDistance lp 0 geo.nearest lp.length
    (projection geo.prevPose.pos geo.nearPose.pos origin) = some geo.remain
  remainRaw : remainedDistance lp 0 geo.nearest lp.length
    (projection geo.prevPose.pos geo.nearPose.pos originRaw) = some geo.remainRaw
  found : ∃ d, findNearest lp done geo.localGoal origin (if done > 0 then 1 else 0) cfg.epsilon = some (geo.nearest, d)
  curv : geo.curv = getCurvature microEps ((lp.drop geo.nearest).take (geo.localGoal - geo.nearest))
    (projection geo.prevPose.pos geo.nearPose.pos origin) cfg.curvForward

theorem geometry_spec {cfg : Config} (hv : 0 ≤ cfg.epsilon) {done : Nat} {lp : List Pose} (hd : done < lp.length)
    (origin originRaw : ℂ) : ∃ geo, geometry cfg done lp origin originRaw = some (some geo) ∧
      GeoSpec cfg done lp origin originRaw geo := by
  obtain ⟨g, hg, g1, g2, g3, g4⟩ := local_goal (P := lp) (b := done) (e := lp.length) (sw := cfg.allowBackward) (tn := true)
    micro_pos (le_refl _) hd
  obtain ⟨n, d, m, hn, n1, n2, _, n4, n5, _⟩ := nearest_found (P := lp) (b := done) (e := g) (t := origin)
    (range := if done > 0 then 1 else 0) hv g2 g1
  have hdn : done ≤ n ∧ n < g := by
    rcases Nat.lt_or_ge (done + 1) m with h | h
    · have := n5 h; omega
    · have := n4 (by omega); omega
  have hp : lp[n - 1]? = some (lp[n - 1]'(by omega)) := List.getElem?_eq_getElem _
  have hq : lp[n]? = some (lp[n]'(by omega)) := List.getElem?_eq_getElem _
  have hl : lp[g - 1]? = some (lp[g - 1]'(by omega)) := List.getElem?_eq_getElem _
  generalize (lp[n - 1]'(by omega)) = p at hp
  generalize (lp[n]'(by omega)) = q at hq
  generalize (lp[g - 1]'(by omega)) = l at hl
  obtain ⟨r1, h1⟩ := remained_total (P := lp) (b := 0) (n := n) (e := g) (t := projection p.pos q.pos origin) (by omega) g2
  obtain ⟨r2, h2⟩ := remained_total (P := lp) (b := 0) (n := n) (e := lp.length) (t := projection p.pos q.pos origin)
    (by omega) (le_refl _)
  obtain ⟨r3, h3⟩ := remained_total (P := lp) (b := 0) (n := n) (e := lp.length) (t := projection p.pos q.pos originRaw)
    (by omega) (le_refl _)
  refine ⟨{ nearest := n, localGoal := g, prevPose := p, nearPose := q, goalYaw := l.yaw, remainLocal := r1, remain := r2,
            remainRaw := r3,
            curv := getCurvature microEps ((lp.drop n).take (g - n)) (projection p.pos q.pos origin) cfg.curvForward }, ?_, ⟨hdn.1, hdn.2, g2, hp, hq, ⟨l, hl, rfl⟩, g3, g4, h1, h2, h3, ⟨_, hn⟩, rfl⟩⟩
  unfold geometry
  rw [if_neg (by omega), hg]
  simp only [Option.bind_eq_bind, Option.bind_some]
  rw [hn]
  simp only [Option.bind_some]
  rw [if_neg (by omega), hp, hq, hl]
  simp only [Option.bind_some, h1, h2, h3]

/-! ## The decision -/

/-- The possible results of the deciding part. -/
theorem decide_done {cfg : Config} {mv : Ext ℝ} {done : Nat} {geo : Geo} {len : ℝ} {size full : Nat} {o : ℂ}
    {yr ov ow : ℝ} (h1 : done ≤ geo.nearest) (h2 : geo.nearest < geo.localGoal) (h3 : geo.localGoal ≤ size) :
    (decideResult cfg mv done geo len size full o yr ov ow).status ≠ .noPath ∧
    ((decideResult cfg mv done geo len size full o yr ov ow).status = .farFromPath →
      (decideResult cfg mv done geo len size full o yr ov ow).done = 0) ∧
    ((decideResult cfg mv done geo len size full o yr ov ow).status ≠ .farFromPath →
      done ≤ (decideResult cfg mv done geo len size full o yr ov ow).done ∧
      (decideResult cfg mv done geo len size full o yr ov ow).done < size) := by
  have hmax : done ≤ max done (geo.nearest - 1) ∧ max done (geo.nearest - 1) < size := by omega
  have hrot : done ≤ (rotateResult cfg mv done geo len size).done ∧ (rotateResult cfg mv done geo len size).done < size := by
    unfold rotateResult
    simp only
    split
    · next h => have := h.2; omega
    · exact hmax
  have key : ∀ r : Result, r.status = .following → done ≤ r.done ∧ r.done < size →
      (goalCheck cfg r geo size ov ow).status ≠ .noPath ∧
      ((goalCheck cfg r geo size ov ow).status = .farFromPath → (goalCheck cfg r geo size ov ow).done = 0) ∧
      ((goalCheck cfg r geo size ov ow).status ≠ .farFromPath → done ≤ (goalCheck cfg r geo size ov ow).done ∧
        (goalCheck cfg r geo size ov ow).done < size) := by
    intro r hs hd
    unfold goalCheck
    split
    · exact ⟨by simp, by simp, fun _ => hd⟩
    · rw [hs]; exact ⟨by simp, by simp, fun _ => hd⟩
  unfold decideResult
  split
  · exact key _ rfl hrot
  · split
    · exact ⟨by simp [farResult, Result.init], fun _ => rfl, fun h => absurd rfl h⟩
    · exact key _ rfl hmax

end Verif.Tracker
