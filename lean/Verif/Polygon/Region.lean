import Verif.Polygon.Props
import Mathlib.Topology.Connected.Clopen
import Mathlib.Analysis.Convex.Topology
import Mathlib.Analysis.Normed.Field.Lemmas
/-! # The inside test changes only when the point and the outline meet (C116)

Point and vertices may move continuously. -/
namespace Verif.Polygon
open Spec Filter Topology

variable {X : Type*} [TopologicalSpace X]

/-! ### The test near a configuration in which the point is off the outline -/

/-- The vertex `W` is level with the point `A` at `s₀`, to the right of it, and above it at `s`. -/
noncomputable def flip (A W : X → Pt ℝ) (s₀ s : X) : Nat :=
  if (W s₀).2 = (A s₀).2 ∧ (A s₀).1 < (W s₀).1 ∧ (A s).2 < (W s).2 then 1 else 0

omit [TopologicalSpace X] in
theorem flip_off {A W : X → Pt ℝ} {s₀ s : X} (h : (W s₀).2 ≠ (A s₀).2) : flip A W s₀ s = 0 := by simp [flip, h]

theorem lx_at_first {a u v : Pt ℝ} (h : u.2 = a.2) : lx a u v = u.1 := by
  unfold lx; rw [h]; simp

theorem ev_fst {A B : X → Pt ℝ} {s₀ : X} (hA : ContinuousAt A s₀) (hB : ContinuousAt B s₀) (h : (A s₀).1 < (B s₀).1) :
    ∀ᶠ s in 𝓝 s₀, (A s).1 < (B s).1 :=
  (continuous_fst.continuousAt.comp hA).eventually_lt (continuous_fst.continuousAt.comp hB) h

theorem ev_snd {A B : X → Pt ℝ} {s₀ : X} (hA : ContinuousAt A s₀) (hB : ContinuousAt B s₀) (h : (A s₀).2 < (B s₀).2) :
    ∀ᶠ s in 𝓝 s₀, (A s).2 < (B s).2 :=
  (continuous_snd.continuousAt.comp hA).eventually_lt (continuous_snd.continuousAt.comp hB) h

/-- The edge's position at the height of the point moves continuously while the edge is not level. -/
theorem lx_cont {A U V : X → Pt ℝ} {s₀ : X} (hA : ContinuousAt A s₀) (hU : ContinuousAt U s₀) (hV : ContinuousAt V s₀)
    (h : (V s₀).2 ≠ (U s₀).2) : ContinuousAt (fun s => lx (A s) (U s) (V s)) s₀ := by
  have f1 : ∀ {W : X → Pt ℝ}, ContinuousAt W s₀ → ContinuousAt (fun s => (W s).1) s₀ := fun h => continuous_fst.continuousAt.comp h
  have f2 : ∀ {W : X → Pt ℝ}, ContinuousAt W s₀ → ContinuousAt (fun s => (W s).2) s₀ := fun h => continuous_snd.continuousAt.comp h
  unfold lx
  exact (f1 hU).add ((((f1 hV).sub (f1 hU)).mul ((f2 hA).sub (f2 hU))).div ((f2 hV).sub (f2 hU)) (sub_ne_zero.mpr h))

/-- If the edge crosses the height of the point away from it, the point stays on the same side of it. -/
theorem ev_side {A U V : X → Pt ℝ} {s₀ : X} (hA : ContinuousAt A s₀) (hU : ContinuousAt U s₀) (hV : ContinuousAt V s₀)
    (hne : (V s₀).2 ≠ (U s₀).2) (h : (A s₀).1 ≠ lx (A s₀) (U s₀) (V s₀)) :
    ∀ᶠ s in 𝓝 s₀, ((A s).1 < lx (A s) (U s) (V s) ↔ (A s₀).1 < lx (A s₀) (U s₀) (V s₀)) := by
  have hl := lx_cont hA hU hV hne
  have hf : ContinuousAt (fun s => (A s).1) s₀ := continuous_fst.continuousAt.comp hA
  rcases lt_or_gt_of_ne h with h | h
  · filter_upwards [hf.eventually_lt hl h] with b hb
    exact ⟨fun _ => h, fun _ => hb⟩
  · filter_upwards [hl.eventually_lt hf h] with b hb
    exact ⟨fun h' => absurd h' (not_lt.mpr (le_of_lt hb)), fun h' => absurd h' (not_lt.mpr h.le)⟩

theorem onSegment_of_lx {a u v : Pt ℝ} (h : straddles a u v = true) (hx : a.1 = lx a u v) : OnSegment u v a := by
  obtain ⟨t, t0, t1, e1, e2⟩ := edge_point h
  exact ⟨t, t0, t1, Prod.ext (by rw [hx, e1]) e2⟩

theorem hit_low (a u v : Pt ℝ) : hit a u v = if low a u ≠ low a v ∧ a.1 < lx a u v then 1 else 0 := by
  unfold hit; rw [straddles_low]
  by_cases h1 : low a u = low a v <;> by_cases h2 : a.1 < lx a u v <;> simp [h1, h2]

theorem hit_eq {a b u v u' v' : Pt ℝ} (h1 : low b u' = low a u) (h2 : low b v' = low a v)
    (h3 : low a u ≠ low a v → (b.1 < lx b u' v' ↔ a.1 < lx a u v)) : hit b u' v' = hit a u v := by
  rw [hit_low, hit_low, h1, h2]
  by_cases h : low a u = low a v
  · simp [h]
  · simp [h, h3 h]

theorem onSegment_symm {u v q : Pt ℝ} (h : OnSegment u v q) : OnSegment v u q := by
  obtain ⟨t, t0, t1, rfl⟩ := h
  exact ⟨1 - t, by linarith, by linarith, Prod.ext (by ring) (by ring)⟩

/-- One vertex level with the point, the other not. -/
theorem hit_local_one {A U V : X → Pt ℝ} {s₀ : X} (hA : ContinuousAt A s₀) (hU : ContinuousAt U s₀) (hV : ContinuousAt V s₀)
    (hu : (U s₀).2 = (A s₀).2) (hv : (V s₀).2 ≠ (A s₀).2) (hoff : ¬ OnSegment (U s₀) (V s₀) (A s₀)) :
    ∀ᶠ s in 𝓝 s₀, (hit (A s) (U s) (V s) + hit (A s₀) (U s₀) (V s₀) + flip A U s₀ s) % 2 = 0 := by
  have hne : (A s₀).1 ≠ (U s₀).1 := by
    intro h
    exact hoff ⟨0, le_refl _, zero_le_one, Prod.ext (by simp [h]) (by simp [hu])⟩
  have hlx := lx_at_first (v := V s₀) hu
  have hside := ev_side hA hU hV (by rw [hu]; exact hv) (by rw [hlx]; exact hne)
  rw [hlx] at hside
  have lau : low (A s₀) (U s₀) = true := by simp [low, hu]
  rcases lt_or_gt_of_ne hv with h | h
  · -- the other below
    have lav : low (A s₀) (V s₀) = true := by simp [low, h.le]
    filter_upwards [hside, ev_snd hV hA h] with s hs hb
    have lbv : low (A s) (V s) = true := by simp [low, hb.le]
    rw [hit_low, hit_low, lau, lav, lbv]
    unfold flip
    by_cases hbu : (A s).2 < (U s).2
    · have lbu : low (A s) (U s) = false := by simp [low, hbu]
      rw [lbu]
      by_cases hx : (A s₀).1 < (U s₀).1 <;> simp [hs, hx, hu, hbu]
    · have lbu : low (A s) (U s) = true := by simp [low, not_lt.mp hbu]
      rw [lbu]; simp [hbu]
  · -- the other above
    have lav : low (A s₀) (V s₀) = false := by simp [low, h]
    filter_upwards [hside, ev_snd hA hV h] with s hs hb
    have lbv : low (A s) (V s) = false := by simp [low, hb]
    rw [hit_low, hit_low, lau, lav, lbv, hlx]
    unfold flip
    by_cases hbu : (A s).2 < (U s).2
    · have lbu : low (A s) (U s) = false := by simp [low, hbu]
      rw [lbu]
      by_cases hx : (A s₀).1 < (U s₀).1 <;> simp [hx, hu, hbu]
    · have lbu : low (A s) (U s) = true := by simp [low, not_lt.mp hbu]
      rw [lbu]
      by_cases hx : (A s₀).1 < (U s₀).1 <;> simp [hs, hx, hbu]

/-- An edge with both ends right (left) of the point is crossed right (left) of it. -/
theorem lx_right {a u v : Pt ℝ} (h : straddles a u v = true) (hu : a.1 < u.1) (hv : a.1 < v.1) : a.1 < lx a u v := by
  obtain ⟨t, t0, t1, e1, -⟩ := edge_point h
  rw [e1]; nlinarith [mul_nonneg t0 (sub_nonneg.mpr hv.le), mul_nonneg (sub_nonneg.mpr t1) (sub_nonneg.mpr hu.le)]
theorem lx_left {a u v : Pt ℝ} (h : straddles a u v = true) (hu : u.1 < a.1) (hv : v.1 < a.1) : ¬ a.1 < lx a u v := by
  obtain ⟨t, t0, t1, e1, -⟩ := edge_point h
  rw [e1]; nlinarith [mul_nonneg t0 (sub_nonneg.mpr hv.le), mul_nonneg (sub_nonneg.mpr t1) (sub_nonneg.mpr hu.le)]

/-- Both vertices level with the point. -/
theorem hit_local_two {A U V : X → Pt ℝ} {s₀ : X} (hA : ContinuousAt A s₀) (hU : ContinuousAt U s₀) (hV : ContinuousAt V s₀)
    (hu : (U s₀).2 = (A s₀).2) (hv : (V s₀).2 = (A s₀).2) (hoff : ¬ OnSegment (U s₀) (V s₀) (A s₀)) :
    ∀ᶠ s in 𝓝 s₀, (hit (A s) (U s) (V s) + hit (A s₀) (U s₀) (V s₀) + flip A U s₀ s + flip A V s₀ s) % 2 = 0 := by
  have h0 : hit (A s₀) (U s₀) (V s₀) = 0 := by
    rw [hit_low]; simp [low, hu, hv]
  have key : ∀ p q : Pt ℝ, p.2 = (A s₀).2 → q.2 = (A s₀).2 → (A s₀).1 ≤ p.1 → q.1 ≤ (A s₀).1 → OnSegment p q (A s₀) := by
    intro p q hp hq h1 h2
    rcases eq_or_lt_of_le (h2.trans h1) with he | hlt
    · exact ⟨0, le_refl _, zero_le_one, Prod.ext (by simp; linarith) (by simp [hp])⟩
    · have hpq : 0 < p.1 - q.1 := by linarith
      refine ⟨(p.1 - (A s₀).1) / (p.1 - q.1), div_nonneg (by linarith) hpq.le, ?_, Prod.ext ?_ ?_⟩
      · rw [div_le_one hpq]; linarith
      · have := hpq.ne'; field_simp; ring
      · simp [hp, hq]
  by_cases h1 : (A s₀).1 < (U s₀).1
  · have h2 : (A s₀).1 < (V s₀).1 := by
      by_contra h2; exact hoff (key _ _ hu hv h1.le (not_lt.mp h2))
    filter_upwards [ev_fst hA hU h1, ev_fst hA hV h2] with s e1 e2
    rw [h0]
    unfold flip hit
    simp only [hu, hv, h1, h2, true_and]
    by_cases hst : straddles (A s) (U s) (V s) = true
    · rw [if_pos hst, if_pos (lx_right hst e1 e2)]
      rw [straddles_low] at hst
      by_cases c1 : (A s).2 < (U s).2 <;> by_cases c2 : (A s).2 < (V s).2 <;> simp [low, c1, c2, not_le.mpr, not_lt.mp] at hst ⊢
    · rw [if_neg hst]
      rw [straddles_low] at hst
      by_cases c1 : (A s).2 < (U s).2 <;> by_cases c2 : (A s).2 < (V s).2 <;> simp [low, c1, c2] at hst ⊢
      · exact absurd (not_lt.mp c2) (by simp [not_le.mpr c1, not_lt.mp c2] at hst)
      · exact absurd (not_lt.mp c1) (by simp [not_le.mpr c2, not_lt.mp c1] at hst)
  · have h1' : (U s₀).1 < (A s₀).1 := by
      rcases eq_or_lt_of_le (not_lt.mp h1) with e | e
      · exact absurd ⟨0, le_refl _, zero_le_one, Prod.ext (by simp [e]) (by simp [hu])⟩ hoff
      · exact e
    have h2' : (V s₀).1 < (A s₀).1 := by
      by_contra h2; exact hoff (onSegment_symm (key _ _ hv hu (not_lt.mp h2) h1'.le))
    filter_upwards [ev_fst hU hA h1', ev_fst hV hA h2'] with s e1 e2
    rw [h0]
    unfold flip hit
    simp only [not_lt.mpr h1'.le, not_lt.mpr h2'.le, false_and, and_false, if_false]
    by_cases hst : straddles (A s) (U s) (V s) = true
    · rw [if_pos hst, if_neg (lx_left hst e1 e2)]
    · rw [if_neg hst]

/-- The change of one edge's contribution is that of its end points. -/
theorem hit_local {A U V : X → Pt ℝ} {s₀ : X} (hA : ContinuousAt A s₀) (hU : ContinuousAt U s₀) (hV : ContinuousAt V s₀)
    (hoff : ¬ OnSegment (U s₀) (V s₀) (A s₀)) :
    ∀ᶠ s in 𝓝 s₀, (hit (A s) (U s) (V s) + hit (A s₀) (U s₀) (V s₀) + flip A U s₀ s + flip A V s₀ s) % 2 = 0 := by
  by_cases hu : (U s₀).2 = (A s₀).2 <;> by_cases hv : (V s₀).2 = (A s₀).2
  · exact hit_local_two hA hU hV hu hv hoff
  · filter_upwards [hit_local_one hA hU hV hu hv hoff] with s hb
    rw [flip_off hv]; omega
  · filter_upwards [hit_local_one hA hV hU hv hu (fun h => hoff (onSegment_symm h))] with s hb
    rw [flip_off hu, hit_symm (A s), hit_symm (A s₀)]; omega
  · have hlow : ∀ {W : X → Pt ℝ}, ContinuousAt W s₀ → (W s₀).2 ≠ (A s₀).2 → ∀ᶠ s in 𝓝 s₀, low (A s) (W s) = low (A s₀) (W s₀) := by
      intro W hW hw
      rcases lt_or_gt_of_ne hw with h | h
      · filter_upwards [ev_snd hW hA h] with s hb; simp [low, h.le, hb.le]
      · filter_upwards [ev_snd hA hW h] with s hb; simp [low, not_le.mpr h, not_le.mpr hb]
    have hs : ∀ᶠ s in 𝓝 s₀, low (A s₀) (U s₀) ≠ low (A s₀) (V s₀) →
        ((A s).1 < lx (A s) (U s) (V s) ↔ (A s₀).1 < lx (A s₀) (U s₀) (V s₀)) := by
      by_cases h : low (A s₀) (U s₀) = low (A s₀) (V s₀)
      · exact Eventually.of_forall fun b hb => absurd h hb
      · have hst : straddles (A s₀) (U s₀) (V s₀) = true := by rw [straddles_low]; simpa using h
        have hne : (V s₀).2 ≠ (U s₀).2 := by
          intro e; apply h; simp [low, e]
        filter_upwards [ev_side hA hU hV hne (fun hx => hoff (onSegment_of_lx hst hx))] with b hb _
        exact hb
    filter_upwards [hlow hU hu, hlow hV hv, hs] with s h1 h2 h3
    rw [flip_off hu, flip_off hv, hit_eq h1 h2 h3]; omega

/-- The vertices of a moving polygon. -/
def at_ (F : List (X → Pt ℝ)) (s : X) : List (Pt ℝ) := F.map fun W => W s

theorem crossings_local {A : X → Pt ℝ} {s₀ : X} (hA : ContinuousAt A s₀) : ∀ (F : List (X → Pt ℝ)) (h : F ≠ []),
    (∀ W ∈ F, ContinuousAt W s₀) → ¬ OnOutline (at_ F s₀) (A s₀) →
    ∀ᶠ s in 𝓝 s₀, (crossings (A s) (at_ F s) + crossings (A s₀) (at_ F s₀) + flip A (F.head h) s₀ s +
      flip A (F.getLast h) s₀ s) % 2 = 0
  | [], h, _, _ => absurd rfl h
  | [p], _, _, _ => Eventually.of_forall fun b => by simp [crossings, at_]; omega
  | v1 :: v2 :: vs, h, hF, hoff => by
    have ih := crossings_local hA (v2 :: vs) (by simp) (fun W hW => hF W (List.mem_cons_of_mem _ hW))
      (fun ⟨l, p, q, r, e, hs⟩ => hoff ⟨v1 s₀ :: l, p, q, r, by
        change v1 s₀ :: at_ (v2 :: vs) s₀ = _
        rw [e]; rfl, hs⟩)
    have h1 := hit_local hA (hF v1 (by simp)) (hF v2 (by simp)) (fun hs => hoff ⟨[], v1 s₀, v2 s₀, at_ vs s₀, rfl, hs⟩)
    filter_upwards [ih, h1] with s e1 e2
    rw [List.getLast_cons (by simp)]
    simp only [List.head_cons] at e1 ⊢
    change (crossings (A s) (v1 s :: v2 s :: at_ vs s) + crossings (A s₀) (v1 s₀ :: v2 s₀ :: at_ vs s₀) + _ + _) % 2 = 0
    change (crossings (A s) (v2 s :: at_ vs s) + crossings (A s₀) (v2 s₀ :: at_ vs s₀) + _ + _) % 2 = 0 at e1
    rw [crossings_cons, crossings_cons]
    omega

omit [TopologicalSpace X] in
theorem at_close (F : List (X → Pt ℝ)) (s : X) :
    close (at_ F s) = match F with | [] => [] | p :: ps => at_ ((p :: ps) ++ [p]) s := by
  cases F <;> simp [at_, close]

/-- Near a configuration with the point off the outline the test gives the same answer. -/
theorem inside_local {A : X → Pt ℝ} {s₀ : X} (hA : ContinuousAt A s₀) (F : List (X → Pt ℝ)) (hF : ∀ W ∈ F, ContinuousAt W s₀)
    (hoff : ¬ OnOutline (close (at_ F s₀)) (A s₀)) :
    ∀ᶠ s in 𝓝 s₀, inside (close (at_ F s)) (A s) = inside (close (at_ F s₀)) (A s₀) := by
  cases F with
  | nil => exact Eventually.of_forall fun b => rfl
  | cons p ps =>
    rw [at_close] at hoff
    simp only at hoff
    have hF' : ∀ W ∈ (p :: ps) ++ [p], ContinuousAt W s₀ := by
      intro W hW
      rcases List.mem_append.1 hW with h | h
      · exact hF W h
      · rw [List.mem_singleton.1 h]; exact hF p (by simp)
    filter_upwards [crossings_local hA ((p :: ps) ++ [p]) (by simp) hF' hoff] with s hb
    rw [List.getLast_append_of_ne_nil (by simp) (by simp)] at hb
    simp only [List.cons_append, List.head_cons, List.getLast_singleton] at hb
    rw [at_close, at_close]
    simp only [List.cons_append]
    unfold inside
    have : crossings (A s) (at_ (p :: (ps ++ [p])) s) % 2 = crossings (A s₀) (at_ (p :: (ps ++ [p])) s₀) % 2 := by omega
    rw [this]

/-- C116: while a point and a polygon move continuously and the point does not meet the outline, the answer of the test
does not change. -/
theorem inside_moving (F : List (X → Pt ℝ)) (A : X → Pt ℝ) (S : Set X) (hS : IsPreconnected S)
    (hA : ∀ s ∈ S, ContinuousAt A s) (hF : ∀ s ∈ S, ∀ W ∈ F, ContinuousAt W s)
    (hoff : ∀ s ∈ S, ¬ OnOutline (close (F.map fun W => W s)) (A s)) {s₀ s₁ : X} (h0 : s₀ ∈ S) (h1 : s₁ ∈ S) :
    inside (close (F.map fun W => W s₀)) (A s₀) = inside (close (F.map fun W => W s₁)) (A s₁) := by
  apply hS.constant (f := fun s => inside (close (at_ F s)) (A s)) _ h0 h1
  intro s hs
  apply ContinuousAt.continuousWithinAt
  rw [ContinuousAt, nhds_discrete Bool, tendsto_pure]
  exact inside_local (hA s hs) F (hF s hs) (hoff s hs)

/-- C116: the test gives one answer on every connected set of points that does not meet the outline. -/
theorem inside_region (pts : List (Pt ℝ)) (S : Set (Pt ℝ)) (hS : IsPreconnected S)
    (hoff : ∀ q ∈ S, ¬ OnOutline (close pts) q) {a b : Pt ℝ} (ha : a ∈ S) (hb : b ∈ S) :
    inside (close pts) a = inside (close pts) b := by
  have e : ∀ q : Pt ℝ, ((pts.map fun w (_ : Pt ℝ) => w).map fun W => W q) = pts := by
    intro q; rw [List.map_map]; exact (List.map_congr_left (fun _ _ => rfl)).trans (List.map_id _)
  have := inside_moving (pts.map fun w (_ : Pt ℝ) => w) id S hS (fun _ _ => continuousAt_id)
    (fun s _ W hW => by obtain ⟨w, -, rfl⟩ := List.mem_map.1 hW; exact continuousAt_const)
    (fun s hs => by rw [e]; exact hoff s hs) ha hb
  rw [e, e] at this
  exact this

theorem place_cont (p : Pt ℝ) : Continuous fun θ : ℝ => place 0 0 θ p := by
  unfold place; fun_prop

theorem close_map' {f : Pt ℝ → Pt ℝ} (pts : List (Pt ℝ)) : (close pts).map f = close (pts.map f) := by
  cases pts <;> simp [close]

/-- C116: whether a point is inside the footprint does not depend on the frame: moving both to any pose gives the same
answer for every point off the outline. -/
theorem inside_move (pts : List (Pt ℝ)) (x y yaw : ℝ) (a : Pt ℝ) (hoff : ¬ OnOutline (close pts) a) :
    inside (move x y yaw (close pts)) (place x y yaw a) = inside (close pts) a := by
  have hrot : inside (move 0 0 yaw (close pts)) (place 0 0 yaw a) = inside (close pts) a := by
    have e : ∀ θ : ℝ, ((pts.map fun w (θ : ℝ) => place 0 0 θ w).map fun W => W θ) = pts.map (place 0 0 θ) := by
      intro θ; rw [List.map_map]; rfl
    have := inside_moving (pts.map fun w (θ : ℝ) => place 0 0 θ w) (fun θ => place 0 0 θ a) Set.univ isPreconnected_univ
      (fun s _ => (place_cont a).continuousAt)
      (fun s _ W hW => by obtain ⟨w, -, rfl⟩ := List.mem_map.1 hW; exact (place_cont w).continuousAt)
      (fun θ _ h => by
        rw [e, ← close_map', ← move_eq] at h
        obtain ⟨q, hq, he⟩ := onOutline_place' _ _ _ _ _ h
        have hd := dist_place 0 0 θ a q
        rw [he] at hd
        have h0 : dist (place 0 0 θ q) (place 0 0 θ q) = 0 := by unfold dist hypot; simp
        rw [h0] at hd
        have h1 : a = q := by
          have h3 : (a.1 - q.1) ^ 2 + (a.2 - q.2) ^ 2 = 0 := by
            have := hypot_sq (a.1 - q.1) (a.2 - q.2)
            unfold dist at hd
            rw [← hd] at this
            linarith
          have h4 := sq_nonneg (a.1 - q.1)
          have h5 := sq_nonneg (a.2 - q.2)
          exact Prod.ext (by nlinarith) (by nlinarith)
        rw [h1] at hoff
        exact hoff hq) (Set.mem_univ yaw) (Set.mem_univ 0)
    rw [e, e, ← close_map', ← close_map', ← move_eq] at this
    rw [this]
    have e0 : ∀ p : Pt ℝ, place 0 0 0 p = p := by intro p; simp [place]
    rw [e0, show (close pts).map (place 0 0 0) = close pts from
      (List.map_congr_left (fun p _ => e0 p)).trans (List.map_id _)]
  have ht := inside_translate (move 0 0 yaw (close pts)) (place 0 0 yaw a) x y
  rw [← hrot, ← ht]
  have e1 : moveCS x y 1 0 (move 0 0 yaw (close pts)) = move x y yaw (close pts) := by
    unfold move moveCS
    rw [List.map_map]
    apply List.map_congr_left
    intro p _
    simp only [Function.comp, Prod.mk.injEq]
    constructor <;> ring
  rw [e1]
  congr 1
  simp [place]

end Verif.Polygon
