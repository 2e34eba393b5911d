import Verif.Mesh.Spec
import Mathlib.Tactic.Ring
import Mathlib.Tactic.Linarith
import Mathlib.Algebra.Order.Field.Rat
import Mathlib.Data.Rat.Floor
/-! # Properties of mesh sampling (C60) -/
set_option linter.unusedSectionVars false
namespace Verif.Mesh
open Spec

variable {K : Type} [Field K] [LinearOrder K] [IsStrictOrderedRing K] [FloorRing K]

theorem sample_in (c : Cfg K) (p0 p1 p2 : P3 K) {r0 r1 : K} (h0 : 0 ≤ r0 ∧ r0 < 1) (h1 : 0 ≤ r1 ∧ r1 < 1) :
    InTriangle (place c p0) (place c p1) (place c p2)
      (sample c.offset (p0.smul c.scale) (p1.smul c.scale) (p2.smul c.scale) r0 r1) := by
  obtain ⟨h0, h0'⟩ := h0
  obtain ⟨h1, h1'⟩ := h1
  have key : ∀ s t : K, 0 ≤ s → 0 ≤ t → s + t ≤ 1 → InTriangle (place c p0) (place c p1) (place c p2)
      (((p0.smul c.scale).add ((((p1.smul c.scale).sub (p0.smul c.scale)).smul s).add
        (((p2.smul c.scale).sub (p0.smul c.scale)).smul t))).add c.offset) := by
    intro s t hs ht hst
    refine ⟨1 - s - t, s, t, by linarith, hs, ht, by ring, ?_, ?_, ?_⟩ <;>
      simp only [place, P3.add, P3.sub, P3.smul] <;> ring
  unfold sample
  by_cases h : r0 + r1 > 1
  · simp only [h, if_true]
    exact key _ _ (by linarith) (by linarith) (by linarith)
  · simp only [h, if_false]
    exact key _ _ h0 h1 (not_lt.mp h)

/-- Every point of a triangle is the image of admissible random numbers (apart from the two corners `p1` and `p2`, for
which a random number would have to be 1): no part of the surface is left out. -/
theorem sample_covers (c : Cfg K) (p0 p1 p2 q : P3 K) (hq : InTriangle (place c p0) (place c p1) (place c p2) q)
    (h1 : q ≠ place c p1) (h2 : q ≠ place c p2) :
    ∃ r0 r1 : K, (0 ≤ r0 ∧ r0 < 1) ∧ (0 ≤ r1 ∧ r1 < 1) ∧
      sample c.offset (p0.smul c.scale) (p1.smul c.scale) (p2.smul c.scale) r0 r1 = q := by
  obtain ⟨a, s, t, ha, hs, ht, hsum, ex, ey, ez⟩ := hq
  have hs1 : s < 1 := by
    by_contra hc
    have e1 : s = 1 := by linarith
    have e2 : a = 0 := by linarith
    have e3 : t = 0 := by linarith
    apply h1
    cases q
    simp only [e1, e2, e3] at ex ey ez
    simp [place] at ex ey ez ⊢
    exact ⟨ex, ey, ez⟩
  have ht1 : t < 1 := by
    by_contra hc
    have e1 : t = 1 := by linarith
    have e2 : a = 0 := by linarith
    have e3 : s = 0 := by linarith
    apply h2
    cases q
    simp only [e1, e2, e3] at ex ey ez
    simp [place] at ex ey ez ⊢
    exact ⟨ex, ey, ez⟩
  refine ⟨s, t, ⟨hs, hs1⟩, ⟨ht, ht1⟩, ?_⟩
  have : ¬ s + t > 1 := by linarith
  have ea : a = 1 - s - t := by linarith
  cases q
  simp only [sample, this, if_false, P3.add, P3.sub, P3.smul, place] at *
  subst ea
  simp only [P3.mk.injEq]
  refine ⟨?_, ?_, ?_⟩
  · rw [ex]; ring
  · rw [ey]; ring
  · rw [ez]; ring

theorem polys_on {c : Cfg K} {rand : Nat → K} (hr : Unit rand) {vs : List (P3 K)} :
    ∀ {ps : List (List Nat)} {k : Nat} {out : List (P3 K)} {k' : Nat},
      polys c rand (vs.map (·.smul c.scale)) k ps = .ok (out, k') → ∀ q ∈ out, OnFile c q (.obj vs ps)
  | [], k, out, k', h => by simp only [polys] at h; cases h; simp
  | p :: ps, k, out, k', h => by
    unfold polys at h
    split at h
    · rename_i heq; cases heq
    · rename_i i0 i1 i2 ps' heq
      cases heq
      split at h
      · rename_i q0 q1 q2 e0 e1 e2
        simp only [List.getElem?_map, Option.map_eq_some_iff] at e0 e1 e2
        obtain ⟨p0, f0, rfl⟩ := e0
        obtain ⟨p1, f1, rfl⟩ := e1
        obtain ⟨p2, f2, rfl⟩ := e2
        simp only at h
        split at h
        · rename_i t k'' ht
          cases h
          intro q hq
          rcases List.mem_append.mp hq with hq | hq
          · simp only [triangle, List.mem_map] at hq
            obtain ⟨i, _, rfl⟩ := hq
            exact ⟨i0, i1, i2, p0, p1, p2, List.mem_cons_self, f0, f1, f2, sample_in c p0 p1 p2 (hr _) (hr _)⟩
          · obtain ⟨j0, j1, j2, q0, q1, q2, hm, r⟩ := polys_on hr ht q hq
            exact ⟨j0, j1, j2, q0, q1, q2, List.mem_cons_of_mem _ hm, r⟩
        · cases h
        · cases h
      · cases h
    · cases h

/-- **C60**.  For all files and all random numbers, every point of the generated cloud lies on a triangle of an input mesh,
or is a point of an input cloud, scaled and offset as configured. -/
theorem sampled_on_surface {c : Cfg K} {rand : Nat → K} (hr : Unit rand) {fs : List (File K)} {k : Nat}
    {out : List (P3 K)} (h : convert c rand k fs = .ok out) : ∀ q ∈ out, ∃ f ∈ fs, OnFile c q f := by
  induction fs generalizing k out with
  | nil => simp only [convert] at h; cases h; simp
  | cons f fs ih =>
    unfold convert at h
    split at h
    · rename_i s k' hf
      split at h
      · rename_i t ht
        cases h
        intro q hq
        rcases List.mem_append.mp hq with hq | hq
        · refine ⟨f, List.mem_cons_self, ?_⟩
          cases f with
          | pcd ps =>
            simp only [file] at hf
            cases hf
            obtain ⟨p, hp, rfl⟩ := List.mem_map.mp hq
            exact ⟨p, hp, rfl⟩
          | obj vs ps => exact polys_on hr hf q hq
        · obtain ⟨g, hg, r⟩ := ih ht q hq
          exact ⟨g, List.mem_cons_of_mem _ hg, r⟩
      · cases h
      · cases h
    · cases h
    · cases h

theorem polys_ok (c : Cfg K) (rand : Nat → K) (vs : List (P3 K)) :
    ∀ (ps : List (List Nat)) (k : Nat),
      (∀ l ∈ ps, ∃ i0 i1 i2, l = [i0, i1, i2] ∧ i0 < vs.length ∧ i1 < vs.length ∧ i2 < vs.length) →
      ∃ r, polys c rand vs k ps = .ok r
  | [], k, _ => ⟨_, rfl⟩
  | l :: ps, k, h => by
    obtain ⟨i0, i1, i2, rfl, h0, h1, h2⟩ := h l List.mem_cons_self
    simp only [polys, List.getElem?_eq_getElem h0, List.getElem?_eq_getElem h1, List.getElem?_eq_getElem h2]
    obtain ⟨r, hr⟩ := polys_ok c rand vs ps (triangle c rand k vs[i0] vs[i1] vs[i2]).2
      (fun l hl => h l (List.mem_cons_of_mem _ hl))
    rw [hr]
    exact ⟨_, rfl⟩

/-- **C60** (definedness).  Every list of clouds and triangle meshes with existing vertices is converted. -/
theorem convert_ok (c : Cfg K) (rand : Nat → K) (fs : List (File K)) (h : ∀ f ∈ fs, WellFormed f) (k : Nat) :
    ∃ out, convert c rand k fs = .ok out := by
  induction fs generalizing k with
  | nil => exact ⟨_, rfl⟩
  | cons f fs ih =>
    have : ∃ r, file c rand k f = .ok r := by
      cases f with
      | pcd ps => exact ⟨_, rfl⟩
      | obj vs ps => exact polys_ok c rand _ ps k (by simpa [WellFormed] using h _ List.mem_cons_self)
    obtain ⟨⟨s, k'⟩, hr⟩ := this
    obtain ⟨t, ht⟩ := ih (fun f hf => h f (List.mem_cons_of_mem _ hf)) k'
    simp only [convert, hr, ht]
    exact ⟨_, rfl⟩

/-- **C60** (density).  The number of samples of a triangle is the configured density times its area, rounded down or up. -/
theorem count_spec {numf r : K} (hn : 0 ≤ numf) (hr : 0 ≤ r) :
    (count numf r : K) < numf + 1 ∧ numf - 1 < count numf r ∧
      ((∃ n : Nat, numf = n) → (count numf r : K) = numf) := by
  have hf : 0 ≤ ⌊numf⌋ := Int.floor_nonneg.mpr hn
  have h1 : (⌊numf⌋ : K) ≤ numf := Int.floor_le _
  have h2 : numf < ⌊numf⌋ + 1 := Int.lt_floor_add_one _
  have e1 : ((⌊numf⌋.toNat : Nat) : K) = ⌊numf⌋ := by
    rw [← Int.cast_natCast, Int.toNat_of_nonneg hf]
  have e2 : (((⌊numf⌋ + 1).toNat : Nat) : K) = ⌊numf⌋ + 1 := by
    rw [← Int.cast_natCast, Int.toNat_of_nonneg (by omega)]; simp
  unfold count
  split
  · rename_i h
    rw [e2]
    refine ⟨by linarith, by linarith, ?_⟩
    rintro ⟨n, rfl⟩
    simp at h
    linarith
  · rw [e1]
    refine ⟨by linarith, by linarith, ?_⟩
    rintro ⟨n, rfl⟩
    simp

/-! ## Concrete cases -/

def exC : Cfg ℚ := ⟨2, ⟨10, 0, 0⟩, 2, fun _ _ _ => 1⟩
def exF : File ℚ := .obj [⟨0, 0, 0⟩, ⟨1, 0, 0⟩, ⟨0, 1, 0⟩] [[0, 1, 2]]
example : Unit (fun _ : Nat => (3 / 4 : ℚ)) := fun _ => by constructor <;> norm_num
example : (match convert exC (fun _ => 3 / 4) 0 [exF] with | .ok l => l | _ => []) =
    [⟨21 / 2, 1 / 2, 0⟩, ⟨21 / 2, 1 / 2, 0⟩] := by decide +kernel

end Verif.Mesh
