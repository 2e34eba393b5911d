import Verif.Hyst.Spec
import Verif.Model3D.Lemmas
import Verif.Polygon.Props
import Verif.CSpace.Props
/-! # Lemmas on the hysteresis map -/
namespace Verif.Hyst
open Verif.GridMetric (Cell Pose)
open Verif.CSpace (lround trunc lround_near)
open Verif.Model3D (cycU upTo)
open Verif.Polygon (distLinestrip distLinestrip_spec Pt)
open Verif.Polygon.Spec (OnSegment)

theorem mem_upTo (a b k : Int) : k ∈ upTo a b ↔ a ≤ k ∧ k ≤ b := by
  unfold upTo
  simp only [List.mem_map, List.mem_range]
  constructor
  · rintro ⟨n, hn, rfl⟩; omega
  · rintro ⟨h1, h2⟩; exact ⟨(k - a).toNat, by omega, by omega⟩

theorem heading_iff (m : Map) (a : Pose ℝ) (k : Int) (hA : 0 < m.angle) (hk : 0 ≤ k ∧ k < m.angle) :
    heading m a = k ↔ HasHeading m a k := by
  unfold heading HasHeading
  obtain ⟨⟨n, hn⟩, h1, h2⟩ := Model3D.cycU_spec (lround a.yaw) m.angle hA
  constructor
  · intro h; exact ⟨-n, by rw [← h, hn]; ring⟩
  · rintro ⟨j, hj⟩
    rw [hn, hj] at h1 h2 ⊢
    have : j + n = 0 := by
      by_contra hne
      rcases lt_or_gt_of_ne hne with h | h
      · have : (j + n) * m.angle ≤ -1 * m.angle := by apply mul_le_mul_of_nonneg_right (by omega) (by omega)
        nlinarith
      · have : 1 * m.angle ≤ (j + n) * m.angle := by apply mul_le_mul_of_nonneg_right (by omega) (by omega)
        nlinarith
    have e : k + j * m.angle + n * m.angle = k + (j + n) * m.angle := by ring
    rw [e, this]; ring

theorem consecutive_cons {a b : Pose ℝ} {rest : List (Pose ℝ)} {x y : Pose ℝ} :
    Consecutive (a :: b :: rest) x y ↔ (x = a ∧ y = b) ∨ Consecutive (b :: rest) x y := by
  unfold Consecutive
  constructor
  · rintro ⟨l, r, h⟩
    cases l with
    | nil => simp at h; exact Or.inl ⟨h.1.symm, h.2.1.symm⟩
    | cons z l =>
      simp only [List.cons_append, List.cons.injEq] at h
      exact Or.inr ⟨l, r, h.2⟩
  · rintro (⟨rfl, rfl⟩ | ⟨l, r, h⟩)
    · exact ⟨[], rest, rfl⟩
    · exact ⟨a :: l, r, by rw [h]; rfl⟩

theorem not_consecutive_short {path : List (Pose ℝ)} (h : path.length < 2) (x y : Pose ℝ) : ¬ Consecutive path x y := by
  rintro ⟨l, r, e⟩
  rw [e] at h; simp at h; omega

/-- The piece from `a` to `b` counts for cell `p`. -/
def Match (m : Map) (p : Cell) (a b : Pose ℝ) : Prop := heading m b = p.yaw ∨ heading m a = p.yaw

theorem visit_match {m : Map} {p : Cell} {acc : Option ℝ} {a b : Pose ℝ} (h : Match m p a b) :
    ∃ d, visit m p acc a b = some d ∧ d ≤ distTo p a b ∧ (∀ d', acc = some d' → d ≤ d') ∧
      (acc = some d ∨ d = distTo p a b) := by
  unfold Match at h
  unfold visit
  rw [if_pos h]
  cases acc with
  | none => exact ⟨_, rfl, le_refl _, by simp, Or.inr rfl⟩
  | some d =>
    dsimp only
    split
    · rename_i h1
      exact ⟨_, rfl, le_refl _, by rintro d' h'; rw [Option.some.inj h'] at h1; exact h1.le, Or.inr rfl⟩
    · rename_i h1
      exact ⟨d, rfl, not_lt.mp h1, by rintro d' h'; rw [Option.some.inj h'], Or.inl rfl⟩

theorem dMin_some (m : Map) (p : Cell) : ∀ (path : List (Pose ℝ)) (acc : Option ℝ) (d : ℝ), dMin m p acc path = some d →
    (∀ d', acc = some d' → d ≤ d') ∧ (∀ a b, Consecutive path a b → Match m p a b → d ≤ distTo p a b) ∧
    (acc = some d ∨ ∃ a b, Consecutive path a b ∧ Match m p a b ∧ d = distTo p a b)
  | [], acc, d, h => by
    rw [dMin] at h
    · exact ⟨fun d' h' => by rw [h] at h'; rw [Option.some.inj h'],
        fun a b hc => absurd hc (not_consecutive_short (by simp) a b), Or.inl h⟩
    · simp
  | [x], acc, d, h => by
    rw [dMin] at h
    · exact ⟨fun d' h' => by rw [h] at h'; rw [Option.some.inj h'],
        fun a b hc => absurd hc (not_consecutive_short (by simp) a b), Or.inl h⟩
    · simp
  | x :: y :: rest, acc, d, h => by
    rw [dMin] at h
    obtain ⟨h1, h2, h3⟩ := dMin_some m p (y :: rest) _ d h
    by_cases hm : Match m p x y
    · obtain ⟨e, he, e1, e2, e3⟩ := visit_match (acc := acc) hm
      have hde := h1 e he
      refine ⟨fun d' h' => le_trans hde (e2 d' h'), ?_, ?_⟩
      · intro a b hc hab
        rcases consecutive_cons.mp hc with ⟨rfl, rfl⟩ | hc
        · exact le_trans hde e1
        · exact h2 a b hc hab
      · rcases h3 with h3 | ⟨a, b, hc, hab, hd⟩
        · rw [he] at h3
          have hed := Option.some.inj h3
          rcases e3 with e3 | e3
          · exact Or.inl (by rw [e3, hed])
          · exact Or.inr ⟨x, y, consecutive_cons.mpr (Or.inl ⟨rfl, rfl⟩), hm, by rw [← hed, e3]⟩
        · exact Or.inr ⟨a, b, consecutive_cons.mpr (Or.inr hc), hab, hd⟩
    · have hv : visit m p acc x y = acc := by unfold visit; exact if_neg hm
      rw [hv] at h1 h3
      refine ⟨h1, ?_, ?_⟩
      · intro a b hc hab
        rcases consecutive_cons.mp hc with ⟨rfl, rfl⟩ | hc
        · exact absurd hab hm
        · exact h2 a b hc hab
      · rcases h3 with h3 | ⟨a, b, hc, hab, hd⟩
        · exact Or.inl h3
        · exact Or.inr ⟨a, b, consecutive_cons.mpr (Or.inr hc), hab, hd⟩

theorem dMin_none (m : Map) (p : Cell) : ∀ (path : List (Pose ℝ)) (acc : Option ℝ), dMin m p acc path = none →
    acc = none ∧ ∀ a b, Consecutive path a b → ¬ Match m p a b
  | [], acc, h => by
    rw [dMin] at h
    · exact ⟨h, fun a b hc => absurd hc (not_consecutive_short (by simp) a b)⟩
    · simp
  | [x], acc, h => by
    rw [dMin] at h
    · exact ⟨h, fun a b hc => absurd hc (not_consecutive_short (by simp) a b)⟩
    · simp
  | x :: y :: rest, acc, h => by
    rw [dMin] at h
    obtain ⟨h1, h2⟩ := dMin_none m p (y :: rest) _ h
    by_cases hm : Match m p x y
    · obtain ⟨e, he, _⟩ := visit_match (acc := acc) hm
      rw [he] at h1; cases h1
    · have hv : visit m p acc x y = acc := by unfold visit; exact if_neg hm
      rw [hv] at h1
      refine ⟨h1, fun a b hc => ?_⟩
      rcases consecutive_cons.mp hc with ⟨rfl, rfl⟩ | hc
      · exact hm
      · exact h2 a b hc

theorem dist_eq (p : Cell) (q : Pt ℝ) : Polygon.dist ((p.x : ℝ), (p.y : ℝ)) q = planeDist p q := rfl

theorem match_iff (m : Map) (p : Cell) (a b : Pose ℝ) (hA : 0 < m.angle) (hp : 0 ≤ p.yaw ∧ p.yaw < m.angle) :
    Match m p a b ↔ HasHeading m a p.yaw ∨ HasHeading m b p.yaw := by
  unfold Match
  rw [heading_iff m a _ hA hp, heading_iff m b _ hA hp, or_comm]

theorem dMin_isLeast (m : Map) (p : Cell) (path : List (Pose ℝ)) (d : ℝ) (hA : 0 < m.angle)
    (hp : 0 ≤ p.yaw ∧ p.yaw < m.angle) (h : dMin m p none path = some d) :
    IsLeast {r | ∃ q, Passes m path p q ∧ r = planeDist p q} d := by
  obtain ⟨_, h2, h3⟩ := dMin_some m p path none d h
  constructor
  · rcases h3 with h3 | ⟨a, b, hc, hab, hd⟩
    · cases h3
    · obtain ⟨q, hq, e⟩ := (distLinestrip_spec ((p.x : ℝ), (p.y : ℝ)) (a.x, a.y) (b.x, b.y)).1
      exact ⟨q, ⟨a, b, hc, (match_iff m p a b hA hp).mp hab, hq⟩, by rw [hd]; exact e⟩
  · rintro r ⟨q, ⟨a, b, hc, hab, hq⟩, rfl⟩
    exact le_trans (h2 a b hc ((match_iff m p a b hA hp).mpr hab))
      ((distLinestrip_spec ((p.x : ℝ), (p.y : ℝ)) (a.x, a.y) (b.x, b.y)).2 q hq)

theorem dMin_no_pass (m : Map) (p : Cell) (path : List (Pose ℝ)) (hA : 0 < m.angle)
    (hp : 0 ≤ p.yaw ∧ p.yaw < m.angle) (h : dMin m p none path = none) (q : Pt ℝ) : ¬ Passes m path p q := by
  rintro ⟨a, b, hc, hab, _⟩
  exact (dMin_none m p path none h).2 a b hc ((match_iff m p a b hA hp).mpr hab)

theorem lround_nonneg_eq (x : ℝ) (h : 0 ≤ x) : lround x = ⌊x + 1 / 2⌋ := by
  unfold CSpace.lround; rw [if_pos h]

theorem clamp_eq (m : Map) (c : Cfg) (d : ℝ) (hr : 0 < m.res) (hM : 0 < c.maxDist) :
    (max (expandCells m c) (min (expandCells m c + maxCells m c) d) - expandCells m c) * 100 / maxCells m c =
      100 * max 0 (min 1 ((d * m.res - c.expand) / c.maxDist)) := by
  have hM' : 0 < maxCells m c := div_pos hM hr
  have e1 : (d * m.res - c.expand) / c.maxDist = (d - expandCells m c) / maxCells m c := by
    unfold expandCells maxCells; field_simp
  rw [e1]
  generalize expandCells m c = e at *
  generalize maxCells m c = M at *
  rcases le_total d e with h | h
  · rw [min_eq_right (by linarith), max_eq_left h, min_eq_right (by rw [div_le_one hM']; linarith),
      max_eq_left (div_nonpos_of_nonpos_of_nonneg (by linarith) hM'.le)]
    simp
  · rcases le_total d (e + M) with h2 | h2
    · rw [min_eq_right h2, max_eq_right h, min_eq_right (by rw [div_le_one hM']; linarith),
        max_eq_right (div_nonneg (by linarith) hM'.le)]
      ring
    · rw [min_eq_left h2, max_eq_right (by linarith), min_eq_left (by rw [le_div_iff₀ hM']; linarith),
        max_eq_right (by norm_num)]
      field_simp
      ring

theorem cellCost_isCost (m : Map) (c : Cfg) (path : List (Pose ℝ)) (p : Cell) (hr : 0 < m.res) (hA : 0 < m.angle)
    (hM : 0 < c.maxDist) (hp : 0 ≤ p.yaw ∧ p.yaw < m.angle) : IsCost m c path p (cellCost m c path p) := by
  unfold cellCost
  have hM' : 0 < maxCells m c := div_pos hM hr
  cases hd : dMin m p none path with
  | none =>
    left
    refine ⟨dMin_no_pass m p path hA hp hd, ?_⟩
    have : (clampD m c none - expandCells m c) * 100 / maxCells m c = 100 := by
      unfold clampD
      rw [max_eq_right (by linarith)]
      field_simp; ring
    rw [this, lround_nonneg_eq _ (by norm_num), Int.floor_eq_iff]
    norm_num
  | some d =>
    right
    refine ⟨d, dMin_isLeast m p path d hA hp hd, ?_⟩
    unfold clampD costAt
    rw [clamp_eq m c d hr hM]
    exact lround_nonneg_eq _ (mul_nonneg (by norm_num) (le_max_left _ _))

theorem isCost_unique {m : Map} {c : Cfg} {path : List (Pose ℝ)} {p : Cell} {v w : Int}
    (hv : IsCost m c path p v) (hw : IsCost m c path p w) : v = w := by
  rcases hv with ⟨h1, rfl⟩ | ⟨d, hd, rfl⟩
  · rcases hw with ⟨_, rfl⟩ | ⟨e, he, _⟩
    · rfl
    · obtain ⟨q, hq, _⟩ := he.1
      exact absurd hq (h1 q)
  · rcases hw with ⟨h1, _⟩ | ⟨e, he, rfl⟩
    · obtain ⟨q, hq, _⟩ := hd.1
      exact absurd hq (h1 q)
    · rw [hd.unique he]

theorem sqrt_tri (a b c d : ℝ) : Real.sqrt ((a + c) ^ 2 + (b + d) ^ 2) ≤ Real.sqrt (a ^ 2 + b ^ 2) + Real.sqrt (c ^ 2 + d ^ 2) := by
  have h1 := Real.sqrt_nonneg (a ^ 2 + b ^ 2)
  have h2 := Real.sqrt_nonneg (c ^ 2 + d ^ 2)
  have s1 := Real.sq_sqrt (by positivity : 0 ≤ a ^ 2 + b ^ 2)
  have s2 := Real.sq_sqrt (by positivity : 0 ≤ c ^ 2 + d ^ 2)
  apply Real.sqrt_le_iff.mpr
  refine ⟨by positivity, ?_⟩
  have key : a * c + b * d ≤ Real.sqrt (a ^ 2 + b ^ 2) * Real.sqrt (c ^ 2 + d ^ 2) := by
    apply le_of_sq_le_sq
    · rw [mul_pow, s1, s2]; nlinarith [sq_nonneg (a * d - b * c)]
    · positivity
  nlinarith
where
  le_of_sq_le_sq {x y : ℝ} (h : x ^ 2 ≤ y ^ 2) (hy : 0 ≤ y) : x ≤ y := abs_le_of_sq_le_sq' h hy |>.2

theorem abs_le_hyp (x y : ℝ) : |x| ≤ Real.sqrt (x ^ 2 + y ^ 2) := by
  rw [← Real.sqrt_sq_eq_abs]
  exact Real.sqrt_le_sqrt (by nlinarith [sq_nonneg y])

theorem abs_le_hyp' (x y : ℝ) : |y| ≤ Real.sqrt (x ^ 2 + y ^ 2) := by
  rw [add_comm]; exact abs_le_hyp y x

theorem mem_pathPoints (m : Map) (c : Cfg) (path : List (Pose ℝ)) (p : Cell) :
    p ∈ pathPoints m c path ↔ inside m p = true ∧ ∃ a ∈ path, heading m a = p.yaw ∧
      |p.x - lround a.x| ≤ pathRange m c ∧ |p.y - lround a.y| ≤ pathRange m c := by
  unfold pathPoints
  simp only [List.mem_flatMap, List.mem_filter, List.mem_map, mem_upTo]
  constructor
  · rintro ⟨a, ha, dx, hx, ⟨dy, hy, rfl⟩, hi⟩
    refine ⟨hi, a, ha, rfl, ?_, ?_⟩
    · rw [abs_le]; unfold around; dsimp only; omega
    · rw [abs_le]; unfold around; dsimp only; omega
  · rintro ⟨hi, a, ha, hh, hx, hy⟩
    rw [abs_le] at hx hy
    refine ⟨a, ha, p.x - lround a.x, by omega, ⟨p.y - lround a.y, by omega, ?_⟩, hi⟩
    obtain ⟨x, y, w⟩ := p
    unfold around
    unfold heading at hh
    dsimp only at hh ⊢
    rw [hh]
    simp

theorem consecutive_mem {path : List (Pose ℝ)} {a b : Pose ℝ} (h : Consecutive path a b) : a ∈ path ∧ b ∈ path := by
  obtain ⟨l, r, rfl⟩ := h
  simp

theorem far_of_not_mem (m : Map) (c : Cfg) (path : List (Pose ℝ)) (p : Cell) (hr : 0 < m.res) (hA : 0 < m.angle)
    (hc : Sane c) (hp : InMap m p) (h : p ∉ pathPoints m c path) (a : Pose ℝ) (ha : a ∈ path)
    (hh : HasHeading m a p.yaw) :
    (c.range : ℝ) + maxCells m c + expandCells m c + 9 / 2 ≤ planeDist p (a.x, a.y) := by
  obtain ⟨p1, p2, p3, p4, p5, p6⟩ := hp
  obtain ⟨c1, c2, c3⟩ := hc
  have hS : 0 ≤ (c.range : ℝ) + maxCells m c + expandCells m c + 5 := by
    have : 0 ≤ (c.range : ℝ) := by exact_mod_cast c3
    have h1 : 0 < maxCells m c := div_pos c1 hr
    have h2 : 0 ≤ expandCells m c := div_nonneg c2 hr.le
    linarith
  have hR : (c.range : ℝ) + maxCells m c + expandCells m c + 4 < (pathRange m c : ℝ) := by
    unfold pathRange CSpace.trunc
    rw [if_pos hS]
    have := Int.lt_floor_add_one ((c.range : ℝ) + maxCells m c + expandCells m c + 5)
    linarith
  have hin : inside m p = true := by unfold inside; simp; exact ⟨p1, p2, p3, p4⟩
  have hno : ¬ (|p.x - lround a.x| ≤ pathRange m c ∧ |p.y - lround a.y| ≤ pathRange m c) := by
    intro hb
    exact h ((mem_pathPoints m c path p).mpr ⟨hin, a, ha, (heading_iff m a _ hA ⟨p5, p6⟩).mpr hh, hb⟩)
  have aux : ∀ (k : Int) (v : ℝ), pathRange m c < |k - lround v| →
      (c.range : ℝ) + maxCells m c + expandCells m c + 9 / 2 ≤ |(k : ℝ) - v| := by
    intro k v hk
    have h1 : (pathRange m c : ℝ) + 1 ≤ |(k : ℝ) - (lround v : ℝ)| := by exact_mod_cast hk
    have h2 := lround_near v
    have h3 : |(k : ℝ) - (lround v : ℝ)| ≤ |(k : ℝ) - v| + |(lround v : ℝ) - v| := by
      rw [show (k : ℝ) - (lround v : ℝ) = ((k : ℝ) - v) - ((lround v : ℝ) - v) by ring]
      exact abs_sub _ _
    linarith
  rw [not_and_or, not_le, not_le] at hno
  rcases hno with hno | hno
  · exact le_trans (aux _ _ hno) (abs_le_hyp _ _)
  · exact le_trans (aux _ _ hno) (abs_le_hyp' _ _)

theorem onSegment_near {a b q : Pt ℝ} (h : OnSegment a b q) :
    Real.sqrt ((q.1 - a.1) ^ 2 + (q.2 - a.2) ^ 2) ≤ Real.sqrt ((a.1 - b.1) ^ 2 + (a.2 - b.2) ^ 2) ∧
    Real.sqrt ((q.1 - b.1) ^ 2 + (q.2 - b.2) ^ 2) ≤ Real.sqrt ((a.1 - b.1) ^ 2 + (a.2 - b.2) ^ 2) := by
  obtain ⟨t, t0, t1, rfl⟩ := h
  have hsq : 0 ≤ (a.1 - b.1) ^ 2 + (a.2 - b.2) ^ 2 := by positivity
  constructor
  · apply Real.sqrt_le_sqrt
    have : t ^ 2 ≤ 1 := by nlinarith
    calc _ = t ^ 2 * ((a.1 - b.1) ^ 2 + (a.2 - b.2) ^ 2) := by dsimp only; ring
      _ ≤ _ := by nlinarith
  · apply Real.sqrt_le_sqrt
    have : (1 - t) ^ 2 ≤ 1 := by nlinarith
    calc _ = (1 - t) ^ 2 * ((a.1 - b.1) ^ 2 + (a.2 - b.2) ^ 2) := by dsimp only; ring
      _ ≤ _ := by nlinarith

theorem planeDist_tri (p : Cell) (a q : Pt ℝ) :
    planeDist p a ≤ planeDist p q + Real.sqrt ((q.1 - a.1) ^ 2 + (q.2 - a.2) ^ 2) := by
  unfold planeDist
  have := sqrt_tri ((p.x : ℝ) - q.1) ((p.y : ℝ) - q.2) (q.1 - a.1) (q.2 - a.2)
  rwa [sub_add_sub_cancel, sub_add_sub_cancel] at this

theorem costAt_far (m : Map) (c : Cfg) (d : ℝ) (hr : 0 < m.res) (hM : 0 < c.maxDist)
    (h : maxCells m c + expandCells m c ≤ d) : costAt m c d = 100 := by
  unfold costAt
  have : 1 ≤ (d * m.res - c.expand) / c.maxDist := by
    rw [le_div_iff₀ hM]
    unfold maxCells expandCells at h
    rw [← add_div, div_le_iff₀ hr] at h
    linarith
  rw [min_eq_left this, max_eq_right (by norm_num), Int.floor_eq_iff]
  norm_num

/-- Cells that are not visited keep 100, which is their cost. -/
theorem isCost_of_not_mem (m : Map) (c : Cfg) (path : List (Pose ℝ)) (p : Cell) (hr : 0 < m.res) (hA : 0 < m.angle)
    (hc : Sane c) (hd : Dense c path) (hp : InMap m p) (h : p ∉ pathPoints m c path) : IsCost m c path p 100 := by
  cases hdm : dMin m p none path with
  | none => exact Or.inl ⟨dMin_no_pass m p path hA ⟨hp.2.2.2.2.1, hp.2.2.2.2.2⟩ hdm, rfl⟩
  | some d =>
    have hl := dMin_isLeast m p path d hA ⟨hp.2.2.2.2.1, hp.2.2.2.2.2⟩ hdm
    refine Or.inr ⟨d, hl, (costAt_far m c d hr hc.1 ?_).symm⟩
    obtain ⟨q, ⟨a, b, hcon, hab, hq⟩, rfl⟩ := hl.1
    have hn := onSegment_near hq
    have hden := hd a b hcon
    have hmem := consecutive_mem hcon
    rcases hab with hab | hab
    · have h1 := far_of_not_mem m c path p hr hA hc hp h a hmem.1 hab
      have h2 := planeDist_tri p (a.x, a.y) q
      have h3 := hn.1
      dsimp only at h2 h3
      linarith
    · have h1 := far_of_not_mem m c path p hr hA hc hp h b hmem.2 hab
      have h2 := planeDist_tri p (b.x, b.y) q
      have h3 := hn.2
      dsimp only at h2 h3
      linarith

theorem foldl_put (v : Cell → Int) : ∀ (keys : List Cell) (f : Cell → Int) (p : Cell),
    (p ∈ keys → keys.foldl (fun f p => put f p (v p)) f p = v p) ∧
    (p ∉ keys → keys.foldl (fun f p => put f p (v p)) f p = f p)
  | [], f, p => ⟨by simp, by simp⟩
  | k :: ks, f, p => by
    obtain ⟨h1, h2⟩ := foldl_put v ks (put f k (v k)) p
    simp only [List.foldl_cons]
    constructor
    · intro hm
      by_cases hk : p ∈ ks
      · exact h1 hk
      · rw [h2 hk]
        have : p = k := by simpa [hk] using hm
        simp [put, this]
    · intro hm
      rw [List.mem_cons, not_or] at hm
      rw [h2 hm.2]
      simp [put, hm.1]

theorem clear_all (s : St) (h : ∀ p, p ∉ s.updated → s.hyst p = 100) (p : Cell) : (clearHysteresis s).hyst p = 100 := by
  unfold clearHysteresis
  dsimp only
  obtain ⟨h1, h2⟩ := foldl_put (fun _ => 100) s.updated s.hyst p
  by_cases hm : p ∈ s.updated
  · exact h1 hm
  · rw [h2 hm, h p hm]

end Verif.Hyst
