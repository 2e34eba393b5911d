import Verif.Mesh.Props
/-! # C60: the whole surface can be sampled -/
set_option linter.unusedSectionVars false
namespace Verif.Mesh
open Spec

variable {K : Type} [Field K] [LinearOrder K] [IsStrictOrderedRing K] [FloorRing K]

/-- The numbers after an even (`e = 0`) or odd (`e = 1`) start are `a`, `b`, `a`, … -/
def alternate (e : Nat) (a b : K) (i : Nat) : K := if (i + e) % 2 = 1 then a else b

theorem count_pos {numf r : K} (h : 1 ≤ numf) : 0 < count numf r := by
  have : (1 : Int) ≤ ⌊numf⌋ := Int.le_floor.mpr (by simpa using h)
  unfold count
  split <;> omega

theorem triangle_parity (c : Cfg K) (rand : Nat → K) (k : Nat) (p0 p1 p2 : P3 K) : (triangle c rand k p0 p1 p2).2 % 2 = (k + 1) % 2 := by
  unfold triangle
  simp only
  omega

theorem triangle_first (c : Cfg K) (k : Nat) (p0 p1 p2 : P3 K) (a b : K) (e : Nat) (he : (k + e) % 2 = 0) (hd : 1 ≤ c.ppmsq * c.area p0 p1 p2) :
    sample c.offset p0 p1 p2 a b ∈ (triangle c (alternate e a b) k p0 p1 p2).1 := by
  unfold triangle
  simp only [List.mem_map, List.mem_range]
  refine ⟨0, count_pos hd, ?_⟩
  have h1 : alternate e a b (k + 1 + 2 * 0) = a := if_pos (by omega)
  have h2 : alternate e a b (k + 2 + 2 * 0) = b := if_neg (by omega)
  rw [h1, h2]

theorem polys_step (c : Cfg K) (rand : Nat → K) (vs : List (P3 K)) (k : Nat) (l : List Nat) (ps : List (List Nat))
    (h : ∀ l' ∈ l :: ps, ∃ i0 i1 i2, l' = [i0, i1, i2] ∧ i0 < vs.length ∧ i1 < vs.length ∧ i2 < vs.length) :
    ∃ i0 i1 i2 p0 p1 p2 t k', l = [i0, i1, i2] ∧ vs[i0]? = some p0 ∧ vs[i1]? = some p1 ∧ vs[i2]? = some p2 ∧
      polys c rand vs (triangle c rand k p0 p1 p2).2 ps = .ok (t, k') ∧
      polys c rand vs k (l :: ps) = .ok ((triangle c rand k p0 p1 p2).1 ++ t, k') := by
  obtain ⟨i0, i1, i2, rfl, h0, h1, h2⟩ := h l List.mem_cons_self
  obtain ⟨⟨t, k'⟩, hr⟩ := polys_ok c rand vs ps (triangle c rand k vs[i0] vs[i1] vs[i2]).2 (fun l hl => h l (List.mem_cons_of_mem _ hl))
  refine ⟨i0, i1, i2, vs[i0], vs[i1], vs[i2], t, k', rfl, List.getElem?_eq_getElem h0, List.getElem?_eq_getElem h1, List.getElem?_eq_getElem h2, hr, ?_⟩
  simp only [polys, List.getElem?_eq_getElem h0, List.getElem?_eq_getElem h1, List.getElem?_eq_getElem h2]
  rw [hr]

theorem polys_parity (c : Cfg K) (rand : Nat → K) (vs : List (P3 K)) :
    ∀ (ps : List (List Nat)) (k : Nat),
      (∀ l ∈ ps, ∃ i0 i1 i2, l = [i0, i1, i2] ∧ i0 < vs.length ∧ i1 < vs.length ∧ i2 < vs.length) →
      ∃ t k', polys c rand vs k ps = .ok (t, k') ∧ k' % 2 = (k + ps.length) % 2
  | [], k, _ => ⟨[], k, rfl, rfl⟩
  | l :: ps, k, h => by
    obtain ⟨i0, i1, i2, p0, p1, p2, t, k', -, -, -, -, e1, e2⟩ := polys_step c rand vs k l ps h
    obtain ⟨t', k'', e3, hp⟩ := polys_parity c rand vs ps (triangle c rand k p0 p1 p2).2 (fun l hl => h l (List.mem_cons_of_mem _ hl))
    rw [e1] at e3
    cases e3
    refine ⟨_, _, e2, ?_⟩
    have := triangle_parity c rand k p0 p1 p2
    rw [List.length_cons]
    omega

theorem polys_hit (c : Cfg K) (vs : List (P3 K)) (i0 i1 i2 : Nat) (p0 p1 p2 : P3 K) (h0 : vs[i0]? = some p0) (h1 : vs[i1]? = some p1) (h2 : vs[i2]? = some p2)
    (hd : 1 ≤ c.ppmsq * c.area p0 p1 p2) (a b : K) :
    ∀ (ps : List (List Nat)),
      (∀ l ∈ ps, ∃ i0 i1 i2, l = [i0, i1, i2] ∧ i0 < vs.length ∧ i1 < vs.length ∧ i2 < vs.length) → [i0, i1, i2] ∈ ps →
      ∃ m, ∀ k e t k', (k + m + e) % 2 = 0 → polys c (alternate e a b) vs k ps = .ok (t, k') → sample c.offset p0 p1 p2 a b ∈ t
  | [], _, hm => by cases hm
  | l :: ps, h, hm => by
    by_cases hl : l = [i0, i1, i2]
    · refine ⟨0, ?_⟩
      intro k e t k' he hp
      obtain ⟨j0, j1, j2, q0, q1, q2, t', k'', hj, g0, g1, g2, -, e2⟩ := polys_step c (alternate e a b) vs k l ps h
      rw [e2] at hp
      cases hp
      rw [hl] at hj
      cases hj
      rw [h0] at g0; rw [h1] at g1; rw [h2] at g2
      cases g0; cases g1; cases g2
      exact List.mem_append_left _ (triangle_first c k p0 p1 p2 a b e (by omega) hd)
    · have hm' : [i0, i1, i2] ∈ ps := by
        rcases List.mem_cons.mp hm with e | e
        · exact absurd e.symm hl
        · exact e
      obtain ⟨m, ih⟩ := polys_hit c vs i0 i1 i2 p0 p1 p2 h0 h1 h2 hd a b ps (fun l hl => h l (List.mem_cons_of_mem _ hl)) hm'
      refine ⟨m + 1, ?_⟩
      intro k e t k' he hp
      obtain ⟨j0, j1, j2, q0, q1, q2, t', k'', -, -, -, -, e1, e2⟩ := polys_step c (alternate e a b) vs k l ps h
      rw [e2] at hp
      cases hp
      have := triangle_parity c (alternate e a b) k q0 q1 q2
      exact List.mem_append_right _ (ih _ e t' _ (by omega) e1)

theorem file_parity (c : Cfg K) (f : File K) (h : WellFormed f) :
    ∃ m, ∀ rand k, ∃ t k', file c rand k f = .ok (t, k') ∧ k' % 2 = (k + m) % 2 := by
  cases f with
  | pcd ps => exact ⟨0, fun rand k => ⟨_, k, rfl, rfl⟩⟩
  | obj vs ps => exact ⟨ps.length, fun rand k => polys_parity c rand _ ps k (by simpa [WellFormed] using h)⟩

theorem convert_hit (c : Cfg K) (vs : List (P3 K)) (ps : List (List Nat)) (i0 i1 i2 : Nat) (p0 p1 p2 : P3 K)
    (h0 : vs[i0]? = some p0) (h1 : vs[i1]? = some p1) (h2 : vs[i2]? = some p2) (hm : [i0, i1, i2] ∈ ps)
    (hd : 1 ≤ c.ppmsq * c.area (p0.smul c.scale) (p1.smul c.scale) (p2.smul c.scale)) (a b : K) :
    ∀ fs : List (File K), (∀ f ∈ fs, WellFormed f) → File.obj vs ps ∈ fs →
      ∃ m, ∀ k e out, (k + m + e) % 2 = 0 → convert c (alternate e a b) k fs = .ok out →
        sample c.offset (p0.smul c.scale) (p1.smul c.scale) (p2.smul c.scale) a b ∈ out
  | [], _, hf => by cases hf
  | f :: fs, hw, hf => by
    obtain ⟨mf, hpar⟩ := file_parity c f (hw f List.mem_cons_self)
    have split : ∀ rand k out, convert c rand k (f :: fs) = .ok out → ∃ s k' t, file c rand k f = .ok (s, k') ∧ k' % 2 = (k + mf) % 2 ∧
        convert c rand k' fs = .ok t ∧ out = s ++ t := by
      intro rand k out hc
      obtain ⟨s, k', e1, hk⟩ := hpar rand k
      obtain ⟨t, ht⟩ := convert_ok c rand fs (fun g hg => hw g (List.mem_cons_of_mem _ hg)) k'
      simp only [convert, e1, ht] at hc
      cases hc
      exact ⟨s, k', t, e1, hk, ht, rfl⟩
    rcases List.mem_cons.mp hf with e | hf'
    · subst e
      obtain ⟨m, hh⟩ := polys_hit c (vs.map (·.smul c.scale)) i0 i1 i2 (p0.smul c.scale) (p1.smul c.scale) (p2.smul c.scale)
        (by simp [h0]) (by simp [h1]) (by simp [h2]) hd a b ps (by simpa [WellFormed] using hw _ List.mem_cons_self) hm
      refine ⟨m, ?_⟩
      intro k e out he hc
      obtain ⟨s, k', t, e1, -, -, rfl⟩ := split _ _ _ hc
      exact List.mem_append_left _ (hh k e s k' he e1)
    · obtain ⟨m, hh⟩ := convert_hit c vs ps i0 i1 i2 p0 p1 p2 h0 h1 h2 hm hd a b fs (fun g hg => hw g (List.mem_cons_of_mem _ hg)) hf'
      refine ⟨mf + m, ?_⟩
      intro k e out he hc
      obtain ⟨s, k', t, -, hk, e2, rfl⟩ := split _ _ _ hc
      exact List.mem_append_right _ (hh k' e t (by omega) e2)

/-- **C60** (coverage).  In the conversion of any well-formed files, every point of a triangle that is large enough for a sample (except two of its corners) can come out:
some outcome of the random engine puts it into the cloud. -/
theorem surface_covered (c : Cfg K) (fs : List (File K)) (hw : ∀ f ∈ fs, WellFormed f) (vs : List (P3 K)) (ps : List (List Nat)) (hf : File.obj vs ps ∈ fs)
    (i0 i1 i2 : Nat) (p0 p1 p2 : P3 K) (hm : [i0, i1, i2] ∈ ps) (h0 : vs[i0]? = some p0) (h1 : vs[i1]? = some p1) (h2 : vs[i2]? = some p2)
    (hd : 1 ≤ c.ppmsq * c.area (p0.smul c.scale) (p1.smul c.scale) (p2.smul c.scale))
    (q : P3 K) (hq : InTriangle (place c p0) (place c p1) (place c p2) q) (hq1 : q ≠ place c p1) (hq2 : q ≠ place c p2) :
    ∃ rand out, Unit rand ∧ convert c rand 0 fs = .ok out ∧ q ∈ out := by
  obtain ⟨a, b, ha, hb, rfl⟩ := sample_covers c p0 p1 p2 q hq hq1 hq2
  obtain ⟨m, hh⟩ := convert_hit c vs ps i0 i1 i2 p0 p1 p2 h0 h1 h2 hm hd a b fs hw hf
  obtain ⟨out, ho⟩ := convert_ok c (alternate m a b) fs hw 0
  refine ⟨alternate m a b, out, ?_, ho, hh 0 m out (by omega) ho⟩
  intro i
  unfold alternate
  split
  · exact ha
  · exact hb

/-- The hypotheses can be met: a mesh with one triangle behind a cloud. -/
example : ∃ rand out, Unit rand ∧ convert (⟨1, ⟨0, 0, 0⟩, 1, fun _ _ _ => 2⟩ : Cfg ℚ) rand 0
      [.pcd [⟨5, 5, 5⟩], .obj [⟨0, 0, 0⟩, ⟨2, 0, 0⟩, ⟨0, 2, 0⟩] [[0, 1, 2]]] = .ok out ∧ (⟨1 / 2, 1, 0⟩ : P3 ℚ) ∈ out := by
  refine surface_covered _ _ ?_ _ _ (List.mem_cons_of_mem _ List.mem_cons_self) 0 1 2 _ _ _ List.mem_cons_self rfl rfl rfl ?_ _ ?_ ?_ ?_
  · intro f hf
    simp only [List.mem_cons, List.not_mem_nil, or_false] at hf
    rcases hf with rfl | rfl
    · trivial
    · intro l hl
      simp only [List.mem_cons, List.not_mem_nil, or_false] at hl
      exact ⟨0, 1, 2, hl, by simp, by simp, by simp⟩
  · norm_num
  · exact ⟨1 / 4, 1 / 4, 1 / 2, by norm_num, by norm_num, by norm_num, by norm_num, by norm_num [place], by norm_num [place], by norm_num [place]⟩
  · simp [place]
  · simp [place]

end Verif.Mesh
