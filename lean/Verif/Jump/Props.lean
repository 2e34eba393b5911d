import Verif.Jump.Spec
import Mathlib.Algebra.Group.Basic
import Mathlib.Algebra.Order.Field.Rat
import Mathlib.Algebra.Group.TypeTags.Basic
/-! # Properties of the jump detector (C21) -/
set_option linter.unusedSectionVars false
namespace Verif.Jump
open Spec

variable {G K : Type} [Group G] [AddGroup K] [LinearOrder K]

theorem run_spec (c : Cfg G K) (h : List (Option (G × G))) :
    match lastSample h with
    | none => run c h = start
    | some (b, m) => run c h = ⟨b, m, true⟩ := by
  induction h with
  | nil => rfl
  | cons l h ih =>
    cases l with
    | none => simpa [run, detectJump, lastSample] using ih
    | some p =>
      obtain ⟨b, m⟩ := p
      simp only [lastSample, run, detectJump]
      split <;> rfl

/-- **C21**.  After every history of calls, a call reports a jump exactly when both lookups succeed, there was an
earlier successful sample, and the motions since that sample measured in the two frames disagree by more
than a threshold. -/
theorem report_iff (c : Cfg G K) (h : List (Option (G × G))) (l : Option (G × G)) :
    report c h l = true ↔
      ∃ b m b' m', lastSample h = some (b, m) ∧ l = some (b', m') ∧ Exceeds c (disagreement b b' m m') := by
  have hr := run_spec c h
  cases l with
  | none => simp [report, detectJump]
  | some p =>
    obtain ⟨b', m'⟩ := p
    cases hl : lastSample h with
    | none =>
      rw [hl] at hr
      simp [report, detectJump, hr, start]
    | some q =>
      obtain ⟨b, m⟩ := q
      rw [hl] at hr
      simp only [report, detectJump, hr, Exceeds, disagreement, motion]
      simp only [Bool.true_eq_false, if_false, Bool.or_eq_true, decide_eq_true_eq]
      have e : m'⁻¹ * m * (b⁻¹ * b') = (m⁻¹ * m')⁻¹ * (b⁻¹ * b') := by simp [mul_inv_rev]
      rw [e]
      constructor
      · intro hx; exact ⟨b, m, b', m', rfl, rfl, hx⟩
      · rintro ⟨_, _, _, _, h1, h2, h3⟩
        cases h1; cases h2; exact h3

theorem mem_of_lastSample {h : List (Option (G × G))} {p : G × G} (e : lastSample h = some p) : some p ∈ h := by
  induction h with
  | nil => cases e
  | cons l h ih =>
    cases l with
    | none => exact List.mem_cons_of_mem _ (ih e)
    | some q => cases e; exact List.mem_cons_self

/-- **C21** (first sample).  No report before two samples have been taken. -/
theorem first_never (c : Cfg G K) (h : List (Option (G × G))) (hn : ∀ l ∈ h, l = none) (l : Option (G × G)) :
    report c h l = false := by
  rw [Bool.eq_false_iff, Ne, report_iff]
  rintro ⟨b, m, b', m', h1, _⟩
  exact absurd (hn _ (mem_of_lastSample h1)) (by simp)

/-- **C21** (steady history).  If localisation stays put relative to odometry, no call ever reports a jump, for all
non-negative thresholds. -/
theorem steady_never (c : Cfg G K) (hl : c.len 1 = 0) (hy : c.yaw 1 = 0) (hp : 0 ≤ c.posJump) (hq : 0 ≤ c.yawJump)
    (T : G) (h : List (Option (G × G))) (l : Option (G × G)) (hs : Steady T (l :: h)) : report c h l = false := by
  rw [Bool.eq_false_iff, Ne, report_iff]
  rintro ⟨b, m, b', m', h1, h2, h3⟩
  have e1 := hs b m (List.mem_cons_of_mem _ (mem_of_lastSample h1))
  have e2 := hs b' m' (by simp [h2])
  have : disagreement b b' m m' = 1 := by simp [disagreement, motion, e1, e2, mul_assoc]
  rw [this] at h3
  rcases h3 with h3 | h3
  · rw [hl] at h3; exact absurd h3 (not_lt.mpr hp)
  · rw [hy, show |(0 : K)| = 0 by simp [abs]] at h3; exact absurd h3 (not_lt.mpr hq)

theorem lastSample_reframe (S T : G) (h : List (Option (G × G))) :
    lastSample (h.map (reframe S T)) = reframe S T (lastSample h) := by
  induction h with
  | nil => rfl
  | cons l h ih => cases l with
    | none => simpa [lastSample, reframe] using ih
    | some p => simp [lastSample, reframe]

/-- **C21** (frame independence).  Where the map and odometry frames have their origins never matters. -/
theorem frame_independent (c : Cfg G K) (S T : G) (h : List (Option (G × G))) (l : Option (G × G)) :
    report c (h.map (reframe S T)) (reframe S T l) = report c h l := by
  rw [Bool.eq_iff_iff, report_iff, report_iff, lastSample_reframe]
  have key : ∀ b b' m m' : G, disagreement (S * b) (S * b') (T * m) (T * m') = disagreement b b' m m' := by
    intros; simp [disagreement, motion, mul_assoc]
  constructor
  · rintro ⟨b, m, b', m', h1, h2, h3⟩
    cases hs : lastSample h with
    | none => rw [hs] at h1; cases h1
    | some p =>
      cases l with
      | none => cases h2
      | some q =>
        rw [hs] at h1; cases h1; cases h2
        exact ⟨_, _, _, _, rfl, rfl, by rwa [key] at h3⟩
  · rintro ⟨b, m, b', m', h1, h2, h3⟩
    refine ⟨S * b, T * m, S * b', T * m', by rw [h1]; rfl, by rw [h2]; rfl, by rwa [key]⟩

/-! ## Concrete cases: motions on a line -/

/-- Translations of a line; thresholds 1/2 and 1/10. -/
def exC : Cfg (Multiplicative ℚ) ℚ := ⟨fun g => |g.toAdd|, fun _ => 0, 1 / 2, 1 / 10⟩
/-- A position. -/
def at_ (x : ℚ) : Multiplicative ℚ := .ofAdd x

example : report exC [some (at_ 1, at_ 11), none, some (at_ 0, at_ 10)] (some (at_ 2, at_ 13)) = true := by
  decide +kernel
example : report exC [some (at_ 1, at_ 11), none, some (at_ 0, at_ 10)] (some (at_ 2, at_ (25 / 2))) = false := by
  decide +kernel
example : Steady (at_ 10) [some (at_ 1, at_ 11), none, some (at_ 0, at_ 10)] := by
  intro b m h
  simp at h
  rcases h with ⟨rfl, rfl⟩ | ⟨rfl, rfl⟩ <;> decide +kernel

end Verif.Jump
