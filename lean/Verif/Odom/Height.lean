import Verif.Odom.Slip
/-! # C141: the height filter and the height reset -/
set_option linter.unusedSectionVars false
namespace Verif.Odom
open Verif.Num Verif.Num.Ext Spec

variable {K : Type} [Field K] [LinearOrder K] [IsStrictOrderedRing K] {Q : Type}

namespace Spec

/-- What the height filter multiplies the height with after an interval `dt`; a time constant that is not positive switches it off. -/
def fade (c : Cfg K) (dt : K) : K := if 0 < c.zFilterTimeconst then 1 - dt / c.zFilterTimeconst else 1

/-- The height the node has after a history: that of the first odometry message; set by a reset; otherwise changed by the vertical part of each published displacement and faded. -/
def height (R : Rot K Q) (c : Cfg K) : List (Event K Q) → K
  | [] => 0
  | .resetZ z :: _ => z
  | .imu _ :: h => height R c h
  | .odom m :: h =>
    match lastUsed c h, imuOf c h with
    | none, _ => m.pos.z
    | some _, none => height R c h
    | some p, some (_, q) =>
      (height R c h + gain c (incs c (.odom m :: h)) * (R.rot q m.ori (Pos.sub m.pos p.pos)).z) * fade c (m.stamp - p.stamp)

end Spec

theorem pos_of_run_any (R : Rot K Q) (c : Cfg K) (hc : 0 < c.sigmaOdom) (h : List (Event K Q)) {s : St K Q} (hs : run R c h = some s) :
    s.odomPrev.z = height R c h ∧ ∀ p0, firstPos h = some p0 →
      s.odomPrev.x = (total R c p0 (incs c h)).x ∧ s.odomPrev.y = (total R c p0 (incs c h)).y := by
  induction h generalizing s with
  | nil =>
    cases hs
    exact ⟨rfl, fun p0 h => by simp [firstPos] at h⟩
  | cons e h ih =>
    obtain ⟨s1, hs1, hm⟩ := run_matches R c hc h
    obtain ⟨iz, ixy⟩ := ih hs1
    simp only [run, hs1, Option.bind_some] at hs
    cases e with
    | resetZ z =>
      simp only [step, Option.map_some, Option.some.injEq] at hs
      subst hs
      exact ⟨rfl, ixy⟩
    | imu r =>
      simp only [step, Option.map_some, Option.some.injEq] at hs
      subst hs
      have : (cbImu s1 r).odomPrev = s1.odomPrev := by
        unfold cbImu; split
        · rfl
        · split <;> rfl
      rw [this]
      exact ⟨iz, ixy⟩
    | odom m =>
      simp only [step, cbOdom] at hs
      have hl := lastUsed_isSome c h
      by_cases h0 : odoms h = 0
      · have hnl : lastUsed c h = none := by
          cases hh : lastUsed c h with
          | none => rfl
          | some p => simp [hh, h0] at hl
        have ho : s1.hasOdom = false := by rw [hm.hasOdom]; simp [h0]
        rw [ho] at hs
        simp only [Option.map_some, Option.some.injEq] at hs
        subst hs
        have hinc : ∀ h : List (Event K Q), odoms h = 0 → incs c h = [] ∧ firstPos h = none := by
          intro h
          induction h with
          | nil => intro _; exact ⟨rfl, rfl⟩
          | cons e h ih =>
            intro hh
            cases e with
            | odom m => simp [odoms] at hh
            | imu r => exact ih hh
            | resetZ z => exact ih hh
        refine ⟨by rw [height, hnl], fun p0 hp0 => ?_⟩
        rw [incs, hnl, (hinc h h0).1]
        simp only [firstPos, (hinc h h0).2, Option.none_or, Option.some.injEq] at hp0
        simp [total, hp0]
      · have ho : s1.hasOdom = true := by rw [hm.hasOdom]; simp [h0]
        obtain ⟨p, hp⟩ := Option.isSome_iff_exists.mp (hl.mpr h0)
        have hfirst : ∀ p0, firstPos (Event.odom m :: h) = some p0 → firstPos h = some p0 := by
          intro p0 hp0
          have : ∀ h : List (Event K Q), odoms h ≠ 0 → (firstPos h).isSome := by
            intro h
            induction h with
            | nil => intro hh; simp [odoms] at hh
            | cons e h ih =>
              intro hh
              cases e with
              | odom m => simp only [firstPos]; cases firstPos h <;> simp
              | imu r => exact ih hh
              | resetZ z => exact ih hh
          obtain ⟨x, hx⟩ := Option.isSome_iff_exists.mp (this h h0)
          simp only [firstPos, hx, Option.some_or] at hp0
          rw [hx, hp0]
        rw [ho, hm.raw, hp] at hs
        simp only at hs
        cases hi : imuOf c h with
        | none =>
          have : s1.hasImu = false := by rw [hm.hasImu, hi]; rfl
          rw [this] at hs
          simp only [Option.map_some, Option.some.injEq] at hs
          subst hs
          refine ⟨by rw [height, hp, hi]; exact iz, fun p0 hp0 => ?_⟩
          rw [incs, hp, hi]
          exact ixy p0 (hfirst p0 hp0)
        | some wq =>
          obtain ⟨w, q⟩ := wq
          have h1 : s1.hasImu = true := by rw [hm.hasImu, hi]; rfl
          obtain ⟨h2, h3⟩ := hm.imu w q hi
          rw [h1, h3, h2, hm.slip] at hs
          simp only at hs
          have hinc : incs c (Event.odom m :: h) = ⟨Pos.sub m.pos p.pos, m.stamp - p.stamp, q, m.ori, w, m.wz⟩ :: incs c h := by
            rw [incs, hp, hi]
          have hg := gain_eq c hc ⟨Pos.sub m.pos p.pos, m.stamp - p.stamp, q, m.ori, w, m.wz⟩ (incs c h)
          rw [← hinc] at hg
          simp only [hinc, slipAfter] at hg
          rw [← hinc] at hg
          simp only [hg, Option.map_some, Option.some.injEq] at hs
          subst hs
          refine ⟨?_, fun p0 hp0 => ?_⟩
          · rw [height, hp, hi]
            unfold fade
            split
            · simp only [Pos.add, Pos.smul, iz]
            · simp only [Pos.add, Pos.smul, iz, mul_one]
          · obtain ⟨x1, x2⟩ := ixy p0 (hfirst p0 hp0)
            rw [hinc]
            simp only [total]
            rw [← hinc]
            constructor
            · split
              · simp only [Pos.add, Pos.smul, x1]
              · simp only [Pos.add, Pos.smul, x1]
            · split
              · simp only [Pos.add, Pos.smul, x2]
              · simp only [Pos.add, Pos.smul, x2]

theorem stored_is_published (R : Rot K Q) (c : Cfg K) (m : Raw K Q) (s : St K Q) (r : St K Q × Option (Pos K × Q)) (hr : cbOdom R c s m = some r)
    (p : Pos K) (q : Q) (hpq : r.2 = some (p, q)) : r.1.odomPrev = p := by
  unfold cbOdom at hr
  split at hr
  · simp only at hr
    split at hr
    · split at hr
      · cases hr; cases hpq; rfl
      · cases hr
    · cases hr; cases hpq
  · cases hr; cases hpq

/-- **C141**: whatever the height filter and the resets do, the published horizontal position is that of the scaled increments, and the published height is `Spec.height`. -/
theorem published_any (R : Rot K Q) (c : Cfg K) (hc : 0 < c.sigmaOdom) (h : List (Event K Q)) (m : Raw K Q) {p : Pos K} {q : Q}
    (ho : output R c h (.odom m) = some (some (p, q))) :
    p.z = height R c (.odom m :: h) ∧ ∃ p0, firstPos h = some p0 ∧ p.x = (total R c p0 (incs c (.odom m :: h))).x ∧
      p.y = (total R c p0 (incs c (.odom m :: h))).y := by
  obtain ⟨h0, w, hi⟩ := (publishes_iff R c hc h m q).mp ⟨p, ho⟩
  have hsome : ∀ h : List (Event K Q), odoms h ≠ 0 → (firstPos h).isSome := by
    intro h
    induction h with
    | nil => intro hh; simp [odoms] at hh
    | cons e h ih =>
      intro hh
      cases e with
      | odom m => simp only [firstPos]; cases firstPos h <;> simp
      | imu r => exact ih hh
      | resetZ z => exact ih hh
  obtain ⟨p0, hp0⟩ := Option.isSome_iff_exists.mp (hsome h h0)
  have hp0' : firstPos (Event.odom m :: h) = some p0 := by simp [firstPos, hp0]
  obtain ⟨s, hs, -⟩ := run_matches R c hc (Event.odom m :: h)
  obtain ⟨k1, k2⟩ := pos_of_run_any R c hc (Event.odom m :: h) hs
  have hst : s.odomPrev = p := by
    simp only [run] at hs
    simp only [output] at ho
    cases hr : run R c h with
    | none => rw [hr] at hs; cases hs
    | some s1 =>
      rw [hr] at hs ho
      simp only [Option.bind_some, Option.map_eq_some_iff] at hs ho
      obtain ⟨r, h1, h2⟩ := hs
      obtain ⟨r', h3, h4⟩ := ho
      rw [h1] at h3; cases h3
      subst h2
      exact stored_is_published R c m s1 r h1 p q h4
  rw [hst] at k1 k2
  exact ⟨k1, p0, hp0, k2 p0 hp0'⟩

/-- **C141**: between resets, as long as the displacements have no vertical part, the height is multiplied by one factor per published message. -/
theorem height_fades (R : Rot K Q) (c : Cfg K) (h' : List (Event K Q)) (h0 : odoms h' ≠ 0) (later : List (Event K Q)) (hn : NoReset later) :
    ∃ new, incs c (later ++ h') = new ++ incs c h' ∧
      ((∀ i ∈ new, (R.rot i.q i.raw i.d).z = 0) → height R c (later ++ h') = height R c h' * (new.map fun i => fade c i.dt).prod) := by
  induction later with
  | nil => exact ⟨[], rfl, fun _ => by simp⟩
  | cons e l ih =>
    obtain ⟨new, i1, i2⟩ := ih (fun e he => hn e (by simp [he]))
    cases e with
    | resetZ z => exact absurd rfl (hn _ (by simp) z)
    | imu r => exact ⟨new, i1, i2⟩
    | odom m =>
      have ho : odoms (l ++ h') ≠ 0 := by
        have : ∀ l : List (Event K Q), odoms h' ≤ odoms (l ++ h') := by
          intro l
          induction l with
          | nil => exact le_refl _
          | cons e l ih => cases e <;> simp only [List.cons_append, odoms] <;> omega
        have := this l
        omega
      obtain ⟨p, hp⟩ := Option.isSome_iff_exists.mp ((lastUsed_isSome c (l ++ h')).mpr ho)
      simp only [List.cons_append]
      cases hi : imuOf c (l ++ h') with
      | none =>
        refine ⟨new, by rw [incs, hp, hi]; exact i1, fun hf => ?_⟩
        rw [height, hp, hi]
        exact i2 hf
      | some wq =>
        obtain ⟨w, q⟩ := wq
        have hinc : incs c (Event.odom m :: (l ++ h')) = ⟨Pos.sub m.pos p.pos, m.stamp - p.stamp, q, m.ori, w, m.wz⟩ :: incs c (l ++ h') := by
          rw [incs, hp, hi]
        refine ⟨⟨Pos.sub m.pos p.pos, m.stamp - p.stamp, q, m.ori, w, m.wz⟩ :: new, by rw [hinc, i1]; rfl, fun hf => ?_⟩
        rw [height, hp, hi]
        have hz : (R.rot q m.ori (Pos.sub m.pos p.pos)).z = 0 := hf ⟨Pos.sub m.pos p.pos, m.stamp - p.stamp, q, m.ori, w, m.wz⟩ (by simp)
        simp only [hz, mul_zero, add_zero, i2 (fun i hi => hf i (by simp [hi])), List.map_cons, List.prod_cons]
        ring

/-- **C141**: with intervals not longer than the time constant, on flat ground, the height only shrinks towards zero and keeps its sign. -/
theorem height_shrinks_partial (R : Rot K Q) (c : Cfg K) (h' : List (Event K Q)) (h0 : odoms h' ≠ 0) (later : List (Event K Q)) (hn : NoReset later)
    (hflat : ∀ i ∈ incs c (later ++ h'), (R.rot i.q i.raw i.d).z = 0)
    (hdt : ∀ i ∈ incs c (later ++ h'), 0 ≤ i.dt ∧ i.dt ≤ c.zFilterTimeconst) :
    ∃ k : K, 0 ≤ k ∧ k ≤ 1 ∧ height R c (later ++ h') = k * height R c h' := by
  obtain ⟨new, i1, i2⟩ := height_fades R c h' h0 later hn
  have hsub : ∀ i ∈ new, i ∈ incs c (later ++ h') := fun i hi => by rw [i1]; simp [hi]
  refine ⟨(new.map fun i => fade c i.dt).prod, ?_, ?_, by rw [i2 (fun i hi => hflat i (hsub i hi)), mul_comm]⟩
  all_goals
    have hf : ∀ i ∈ new, 0 ≤ fade c i.dt ∧ fade c i.dt ≤ 1 := by
      intro i hi
      obtain ⟨d1, d2⟩ := hdt i (hsub i hi)
      unfold fade
      split
      · rename_i ht
        have a1 : 0 ≤ i.dt / c.zFilterTimeconst := div_nonneg d1 ht.le
        have a2 : i.dt / c.zFilterTimeconst ≤ 1 := (div_le_one ht).mpr d2
        constructor <;> linarith
      · exact ⟨zero_le_one, le_refl _⟩
    clear i1 i2 hsub
    have hp : 0 ≤ (new.map fun i => fade c i.dt).prod ∧ (new.map fun i => fade c i.dt).prod ≤ 1 := by
      induction new with
      | nil => exact ⟨by simp, by simp⟩
      | cons i new ih =>
        obtain ⟨j1, j2⟩ := ih (fun k hk => hf k (by simp [hk]))
        obtain ⟨f1, f2⟩ := hf i (by simp)
        simp only [List.map_cons, List.prod_cons]
        exact ⟨mul_nonneg f1 j1, mul_le_one₀ f2 j1 j2⟩
    first | exact hp.1 | exact hp.2

section Examples
/-- Height filter with a time constant of 1/20 s. -/
def exZ : Cfg ℚ := { exC with zFilterTimeconst := 1 / 20 }

/-- **C141**, finding: the interval counted is the one since the last message used.  When the IMU has been missing for longer than twice the time constant, the filter
enlarges the height and changes its sign: here 1 m becomes -3 m on flat ground. -/
theorem height_grows : output exR exZ [.resetZ 1, .imu (some (0, ())), .odom (exM (1 / 50) 0 0), .odom (exM 0 0 0)] (.odom (exM (1 / 5) 0 0)) =
    some (some (⟨0, 0, -3⟩, ())) := by decide +kernel

/-- The hypotheses of the theorems can be met: a reset, then two messages 1/50 s apart. -/
example : odoms [Event.resetZ (1 : ℚ), .imu (some (0, ())), .odom (exM (1 / 50) 0 0), .odom (exM 0 0 0)] ≠ 0 ∧
    NoReset [Event.odom (exM (1 / 20) 2 0), .odom (exM (1 / 25) 1 0)] ∧
    output exR exZ [.odom (exM (1 / 25) 1 0), .resetZ 1, .imu (some (0, ())), .odom (exM (1 / 50) 0 0), .odom (exM 0 0 0)] (.odom (exM (1 / 20) 2 0)) =
      some (some (⟨2, 0, 4 / 25⟩, ())) ∧
    height exR exZ ([.odom (exM (1 / 20) 2 0), .odom (exM (1 / 25) 1 0)] ++ [.resetZ 1, .imu (some (0, ())), .odom (exM (1 / 50) 0 0), .odom (exM 0 0 0)]) = 4 / 25 := by
  refine ⟨by decide +kernel, ?_, by decide +kernel, by decide +kernel⟩
  intro e he z
  simp only [List.mem_cons, List.not_mem_nil, or_false] at he
  rcases he with rfl | rfl <;> exact fun h => by cases h

end Examples

end Verif.Odom
