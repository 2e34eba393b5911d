import Verif.SearchPos.EscapeSpec
import Verif.SearchPos.Props
/-! # C58: where the temporary escape goal is -/
namespace Verif.SearchPos
open Verif.GridMetric (Cell)
open Verif.Model3D (upTo sqlen cycU)

section helpers

theorem grad_eq (w : World) (x y : Int) (cost : ℝ) :
    (⟨(grad w x y cost).1, (grad w x y cost).2⟩ : ℂ) = downhill w x y cost := by
  have step : ∀ (g : ℝ × ℝ) (d : Int × Int),
      (⟨(gradStep w x y cost g d).1, (gradStep w x y cost g d).2⟩ : ℂ) = ⟨g.1, g.2⟩ + pull w x y cost d.1 d.2 := by
    intro g d
    unfold gradStep pull
    cases w.stat (x + d.1) (y + d.2) with
    | none => simp
    | some c2 =>
      apply Complex.ext
      · simp
      · simp
  have p0 : pull w x y cost 0 0 = 0 := by
    unfold pull; cases w.stat (x + 0) (y + 0) <;> simp
  have hI : Finset.Icc (-1 : Int) 1 = {-1, 0, 1} := by decide
  unfold grad ring downhill
  simp only [List.foldl_cons, List.foldl_nil, step, hI]
  have h3 : ∀ dy : Int, ∑ dx ∈ ({-1, 0, 1} : Finset Int), pull w x y cost dx dy
      = pull w x y cost (-1) dy + (pull w x y cost 0 dy + pull w x y cost 1 dy) := by
    intro dy
    rw [Finset.sum_insert (by decide), Finset.sum_insert (by decide), Finset.sum_singleton]
  simp only [h3]
  rw [Finset.sum_insert (by decide), Finset.sum_insert (by decide), Finset.sum_singleton, p0]
  have : (⟨0, 0⟩ : ℂ) = 0 := rfl
  rw [this]
  ring

/-- The tests before the arrivability of the original goal. -/
def Window (e : Esc) (w : World) (start : Cell) (d : Int × Int) : Prop :=
  d.1 * d.1 + d.2 * d.2 ≤ e.escRange * e.escRange ∧
  ¬ (start.x + d.1 < 0 ∨ e.width ≤ start.x + d.1 ∨ start.y + d.2 < 0 ∨ e.height ≤ start.y + d.2) ∧
  Gridmap.validateLoop e.range 2 [start.x + d.1, start.y + d.2, 0] [e.width, e.height, 1] = true ∧
  w.arrivable (start.x + d.1) (start.y + d.2)

theorem step_out (e : Esc) (w : World) (start gOrig : Cell) (b : Option (ℝ × Cell)) (d : Int × Int)
    (h : ¬ Window e w start d) : crowdStep e w start gOrig (.best b) d = .best b := by
  unfold crowdStep
  dsimp only
  split
  · rfl
  rename_i h1
  split
  · rfl
  rename_i h2
  split
  · rfl
  rename_i h3
  split
  · rfl
  rename_i h4
  exact absurd ⟨by omega, h2, by simpa using h3, not_not.mp h4⟩ h

theorem step_in (e : Esc) (w : World) (start gOrig : Cell) (b : Option (ℝ × Cell)) (d : Int × Int)
    (h : Window e w start d) : crowdStep e w start gOrig (.best b) d =
      open Classical in
      if start.x + d.1 = gOrig.x ∧ start.y + d.2 = gOrig.y ∧ w.cm gOrig < 100 then .backToOriginal
      else .best (consider e w (d.1 * d.1 + d.2 * d.2) (start.x + d.1) (start.y + d.2) (d.1 = 0 ∧ d.2 = 0) b) := by
  obtain ⟨h1, h2, h3, h4⟩ := h
  unfold crowdStep
  dsimp only
  rw [if_neg (by omega), if_neg h2, if_neg (by rw [h3]; decide), if_neg (not_not.mpr h4)]

/-- The tests of `consider`. -/
def Cand (e : Esc) (w : World) (sq x y : Int) (centre : Prop) (cost : ℝ) (te : Cell) : Prop :=
  ¬ (centre ∨ sq < e.escMin * e.escMin) ∧ ¬ w.rough x y ≥ e.acceptable ∧ w.stat x y = some cost ∧
  ¬ ((grad w x y cost).1 = 0 ∧ (grad w x y cost).2 = 0) ∧
  ¬ w.cm ⟨x, y, heading e (grad w x y cost)⟩ ≥ e.acceptable ∧ te = ⟨x, y, heading e (grad w x y cost)⟩

theorem consider_spec (e : Esc) (w : World) (sq x y : Int) (centre : Prop) [Decidable centre] (b : Option (ℝ × Cell)) :
    (consider e w sq x y centre b = b ∨
      ∃ c te, Cand e w sq x y centre c te ∧ consider e w sq x y centre b = some (c, te)) ∧
    (∀ b0, b = some b0 → ∃ r0, consider e w sq x y centre b = some r0 ∧ r0.1 ≤ b0.1) ∧
    (∀ c te, Cand e w sq x y centre c te → ∃ r0, consider e w sq x y centre b = some r0 ∧ r0.1 ≤ c) := by
  classical
  by_cases h1 : centre ∨ sq < e.escMin * e.escMin
  · have hr : consider e w sq x y centre b = b := by
      unfold consider
      rw [if_pos (by rcases h1 with h | h; · exact Or.inl (decide_eq_true h)
                     · exact Or.inr h)]
    exact ⟨Or.inl hr, fun b0 hb => ⟨b0, hr.trans hb, le_refl _⟩, fun c te h => absurd h1 h.1⟩
  have hc1 : ¬ (decide centre = true ∨ sq < e.escMin * e.escMin) := by
    rintro (h | h)
    · exact h1 (Or.inl (of_decide_eq_true h))
    · exact h1 (Or.inr h)
  by_cases h2 : w.rough x y ≥ e.acceptable
  · have hr : consider e w sq x y centre b = b := by
      unfold consider; rw [if_neg hc1, if_pos h2]
    exact ⟨Or.inl hr, fun b0 hb => ⟨b0, hr.trans hb, le_refl _⟩, fun c te h => absurd h2 h.2.1⟩
  cases h3 : w.stat x y with
  | none =>
    have hr : consider e w sq x y centre b = b := by
      unfold consider; rw [if_neg hc1, if_neg h2, h3]
    exact ⟨Or.inl hr, fun b0 hb => ⟨b0, hr.trans hb, le_refl _⟩, fun c te h => by have := h3 ▸ h.2.2.1; cases this⟩
  | some cost =>
    by_cases h4 : ∃ b0, b = some b0 ∧ cost ≥ b0.1
    · have hr : consider e w sq x y centre b = b := by
        unfold consider; rw [if_neg hc1, if_neg h2, h3]; exact if_pos h4
      obtain ⟨b0, hb0, hge⟩ := h4
      refine ⟨Or.inl hr, fun b0 hb => ⟨b0, hr.trans hb, le_refl _⟩, fun c te h => ⟨b0, hr.trans hb0, ?_⟩⟩
      have : some cost = some c := h3 ▸ h.2.2.1
      cases this; exact hge
    by_cases h5 : (grad w x y cost).1 = 0 ∧ (grad w x y cost).2 = 0
    · have hr : consider e w sq x y centre b = b := by
        unfold consider; rw [if_neg hc1, if_neg h2, h3]; exact (if_neg h4).trans (if_pos h5)
      refine ⟨Or.inl hr, fun b0 hb => ⟨b0, hr.trans hb, le_refl _⟩, fun c te h => ?_⟩
      have : some cost = some c := h3 ▸ h.2.2.1
      cases this; exact absurd h5 h.2.2.2.1
    by_cases h6 : w.cm ⟨x, y, heading e (grad w x y cost)⟩ ≥ e.acceptable
    · have hr : consider e w sq x y centre b = b := by
        unfold consider; rw [if_neg hc1, if_neg h2, h3]; exact (if_neg h4).trans ((if_neg h5).trans (if_pos h6))
      refine ⟨Or.inl hr, fun b0 hb => ⟨b0, hr.trans hb, le_refl _⟩, fun c te h => ?_⟩
      have : some cost = some c := h3 ▸ h.2.2.1
      cases this; exact absurd h6 h.2.2.2.2.1
    · have hr : consider e w sq x y centre b = some (cost, ⟨x, y, heading e (grad w x y cost)⟩) := by
        unfold consider; rw [if_neg hc1, if_neg h2, h3]; exact (if_neg h4).trans ((if_neg h5).trans (if_neg h6))
      refine ⟨Or.inr ⟨cost, _, ⟨h1, h2, h3, h5, h6, rfl⟩, hr⟩, fun b0 hb => ⟨_, hr, ?_⟩, fun c te h => ⟨_, hr, ?_⟩⟩
      · by_contra hlt
        exact h4 ⟨b0, hb, le_of_not_ge hlt⟩
      · have : some cost = some c := h3 ▸ h.2.2.1
        cases this; exact le_refl _

/-- Cell and cost offered by one offset. -/
def Offer (e : Esc) (w : World) (start : Cell) (d : Int × Int) (c : ℝ) (te : Cell) : Prop :=
  Window e w start d ∧
    Cand e w (d.1 * d.1 + d.2 * d.2) (start.x + d.1) (start.y + d.2) (d.1 = 0 ∧ d.2 = 0) c te

/-- The original goal is at this offset. -/
def GoalAt (e : Esc) (w : World) (start gOrig : Cell) (d : Int × Int) : Prop :=
  Window e w start d ∧ start.x + d.1 = gOrig.x ∧ start.y + d.2 = gOrig.y ∧ w.cm gOrig < 100

theorem fold_back (e : Esc) (w : World) (start gOrig : Cell) (l : List (Int × Int)) :
    l.foldl (crowdStep e w start gOrig) .backToOriginal = .backToOriginal := by
  induction l with
  | nil => rfl
  | cons d ds ih => exact ih

theorem crowd_fold (e : Esc) (w : World) (start gOrig : Cell) :
    ∀ (l : List (Int × Int)) (b : Option (ℝ × Cell)),
      ((∃ d ∈ l, GoalAt e w start gOrig d) ∧ l.foldl (crowdStep e w start gOrig) (.best b) = .backToOriginal) ∨
      ((¬ ∃ d ∈ l, GoalAt e w start gOrig d) ∧ ∃ r, l.foldl (crowdStep e w start gOrig) (.best b) = .best r ∧
        (r = b ∨ ∃ d ∈ l, ∃ c te, Offer e w start d c te ∧ r = some (c, te)) ∧
        (∀ b0, b = some b0 → ∃ r0, r = some r0 ∧ r0.1 ≤ b0.1) ∧
        (∀ d ∈ l, ∀ c te, Offer e w start d c te → ∃ r0, r = some r0 ∧ r0.1 ≤ c)) := by
  classical
  intro l
  induction l with
  | nil =>
    intro b
    exact Or.inr ⟨(fun ⟨d, hd, _⟩ => by cases hd), b, rfl, Or.inl rfl, fun b0 h => ⟨b0, h, le_refl _⟩,
      (fun d hd => by cases hd)⟩
  | cons d ds ih =>
    intro b
    rw [List.foldl_cons]
    by_cases hW : Window e w start d
    · by_cases hG : start.x + d.1 = gOrig.x ∧ start.y + d.2 = gOrig.y ∧ w.cm gOrig < 100
      · rw [step_in e w start gOrig b d hW, if_pos hG, fold_back]
        exact Or.inl ⟨⟨d, List.mem_cons_self .., hW, hG⟩, rfl⟩
      · rw [step_in e w start gOrig b d hW, if_neg hG]
        obtain ⟨c1, c2, c3⟩ := consider_spec e w (d.1 * d.1 + d.2 * d.2) (start.x + d.1) (start.y + d.2)
          (d.1 = 0 ∧ d.2 = 0) b
        rcases ih (consider e w (d.1 * d.1 + d.2 * d.2) (start.x + d.1) (start.y + d.2) (d.1 = 0 ∧ d.2 = 0) b) with
          ⟨⟨d', hd', hg⟩, h⟩ | ⟨hno, r, h, r1, r2, r3⟩
        · exact Or.inl ⟨⟨d', List.mem_cons_of_mem _ hd', hg⟩, h⟩
        · refine Or.inr ⟨?_, r, h, ?_, ?_, ?_⟩
          · rintro ⟨d', hd', hg⟩
            rcases List.mem_cons.mp hd' with rfl | hd'
            · exact hG hg.2
            · exact hno ⟨d', hd', hg⟩
          · rcases r1 with r1 | ⟨d', hd', c, te, ho, hr⟩
            · rcases c1 with c1 | ⟨c, te, hc, hr⟩
              · exact Or.inl (r1.trans c1)
              · exact Or.inr ⟨d, List.mem_cons_self .., c, te, ⟨hW, hc⟩, r1.trans hr⟩
            · exact Or.inr ⟨d', List.mem_cons_of_mem _ hd', c, te, ho, hr⟩
          · intro b0 hb
            obtain ⟨q0, hq, hle⟩ := c2 b0 hb
            obtain ⟨r0, hr, hle'⟩ := r2 q0 hq
            exact ⟨r0, hr, hle'.trans hle⟩
          · intro d' hd' c te ho
            rcases List.mem_cons.mp hd' with rfl | hd'
            · obtain ⟨q0, hq, hle⟩ := c3 c te ho.2
              obtain ⟨r0, hr, hle'⟩ := r2 q0 hq
              exact ⟨r0, hr, hle'.trans hle⟩
            · exact r3 d' hd' c te ho
    · rw [step_out e w start gOrig b d hW]
      rcases ih b with ⟨⟨d', hd', hg⟩, h⟩ | ⟨hno, r, h, r1, r2, r3⟩
      · exact Or.inl ⟨⟨d', List.mem_cons_of_mem _ hd', hg⟩, h⟩
      · refine Or.inr ⟨?_, r, h, ?_, r2, ?_⟩
        · rintro ⟨d', hd', hg⟩
          rcases List.mem_cons.mp hd' with rfl | hd'
          · exact hW hg.1
          · exact hno ⟨d', hd', hg⟩
        · rcases r1 with r1 | ⟨d', hd', hh⟩
          · exact Or.inl r1
          · exact Or.inr ⟨d', List.mem_cons_of_mem _ hd', hh⟩
        · intro d' hd' c te ho
          rcases List.mem_cons.mp hd' with rfl | hd'
          · exact absurd ho.1 hW
          · exact r3 d' hd' c te ho

theorem mem_crowdOffsets (R : Int) (d : Int × Int) :
    d ∈ crowdOffsets R ↔ (-R ≤ d.2 ∧ d.2 ≤ R) ∧ (-R ≤ d.1 ∧ d.1 ≤ R) := by
  unfold crowdOffsets
  simp only [List.mem_flatMap, List.mem_map, mem_upTo]
  constructor
  · rintro ⟨y, hy, x, hx, rfl⟩; exact ⟨hy, hx⟩
  · rintro ⟨hy, hx⟩; exact ⟨_, hy, _, hx, rfl⟩

theorem window_iff (e : Esc) (w : World) (start : Cell) (x y : Int) :
    InWindow e w start x y ↔
      Window e w start (x - start.x, y - start.y) ∧ (x - start.x, y - start.y) ∈ crowdOffsets e.escRange := by
  have hx : start.x + (x - start.x) = x := by omega
  have hy : start.y + (y - start.y) = y := by omega
  rw [mem_crowdOffsets]
  unfold InWindow Window
  simp only [hx, hy]
  rw [validate_iff, ← pow_two, ← pow_two, ← pow_two]
  constructor
  · rintro ⟨h0, h1, ⟨h2, h3, h4, h5⟩, ⟨h6, h7, h8, h9⟩, h10⟩
    have p := sq_nonneg (x - start.x)
    have q := sq_nonneg (y - start.y)
    have a1 : |x - start.x| ≤ e.escRange := abs_le_of_sq_le_sq (by linarith) h0
    have a2 : |y - start.y| ≤ e.escRange := abs_le_of_sq_le_sq (by linarith) h0
    exact ⟨⟨h1, by omega, ⟨⟨h2, h3⟩, ⟨h6, h7⟩, by decide⟩, h10⟩, abs_le.mp a2, abs_le.mp a1⟩
  · rintro ⟨⟨h1, h2, ⟨⟨h3, h4⟩, ⟨h5, h6⟩, -⟩, h10⟩, h11, h12⟩
    exact ⟨by omega, h1, ⟨h3, h4, by omega, by omega⟩, ⟨h5, h6, by omega, by omega⟩, h10⟩

theorem offer_iff (e : Esc) (w : World) (start : Cell) (c : ℝ) (te : Cell) :
    EscapeCell e w start te c ↔ ∃ d ∈ crowdOffsets e.escRange, Offer e w start d c te := by
  constructor
  · rintro ⟨hw, hne, hmin, hr, hcm, hs, hg, hy⟩
    obtain ⟨hW, hmem⟩ := (window_iff e w start te.x te.y).mp hw
    refine ⟨_, hmem, hW, ?_⟩
    have hx : start.x + (te.x - start.x) = te.x := by omega
    have hy' : start.y + (te.y - start.y) = te.y := by omega
    have hhead : heading e (grad w te.x te.y c) = te.yaw := by
      unfold heading; rw [grad_eq, hy]
    have hg' : ¬ ((grad w te.x te.y c).1 = 0 ∧ (grad w te.x te.y c).2 = 0) := by
      rintro ⟨g1, g2⟩
      apply hg
      rw [← grad_eq, g1, g2]; rfl
    unfold Cand
    simp only [hx, hy', hhead]
    refine ⟨?_, by omega, hs, hg', not_le.mpr hcm, trivial⟩
    rintro (⟨a, b⟩ | h)
    · exact hne (Prod.ext (by simp only; omega) (by simp only; omega))
    · rw [← pow_two, ← pow_two, ← pow_two] at h; omega
  · rintro ⟨d, hd, hW, hC1, hC2, hC3, hC4, hC5, rfl⟩
    have hx : start.x + d.1 - start.x = d.1 := by omega
    have hy : start.y + d.2 - start.y = d.2 := by omega
    refine ⟨(window_iff e w start _ _).mpr ?_, ?_, ?_, ?_, ?_, hC3, ?_, ?_⟩
    · simp only [hx, hy]; exact ⟨hW, hd⟩
    · intro h
      simp only [Prod.mk.injEq] at h
      exact hC1 (Or.inl ⟨by omega, by omega⟩)
    · simp only [hx, hy]
      have := fun h => hC1 (Or.inr h)
      rw [pow_two, pow_two, pow_two]; omega
    · exact not_le.mp hC2
    · exact not_le.mp hC5
    · simp only
      rw [← grad_eq]
      intro h
      exact hC4 ⟨congrArg Complex.re h, congrArg Complex.im h⟩
    · simp only
      unfold heading; rw [grad_eq]

theorem goalAt_iff (e : Esc) (w : World) (start gOrig : Cell) :
    OriginalReachable e w start gOrig ↔ ∃ d ∈ crowdOffsets e.escRange, GoalAt e w start gOrig d := by
  unfold OriginalReachable
  rw [window_iff]
  constructor
  · rintro ⟨⟨hW, hd⟩, hc⟩
    exact ⟨_, hd, hW, by simp only; omega, by simp only; omega, hc⟩
  · rintro ⟨d, hd, hW, h1, h2, hc⟩
    have e1 : (gOrig.x - start.x, gOrig.y - start.y) = d := Prod.ext (by simp only; omega) (by simp only; omega)
    rw [e1]
    exact ⟨⟨hW, hd⟩, hc⟩

theorem crowd_cases (e : Esc) (w : World) (start gOrig : Cell) :
    match crowdEscape e w start gOrig with
    | .tooCloseToEdge => ¬ ((e.escRange ≤ start.x ∧ start.x < e.width - e.escRange) ∧
        (e.escRange ≤ start.y ∧ start.y < e.height - e.escRange) ∧ 0 < e.angle)
    | .original => FarFromEdge e start ∧ OriginalReachable e w start gOrig
    | .nothing => FarFromEdge e start ∧ ¬ OriginalReachable e w start gOrig ∧ ∀ te c, ¬ EscapeCell e w start te c
    | .goal te imp => FarFromEdge e start ∧ ¬ OriginalReachable e w start gOrig ∧
        ∃ c, EscapeCell e w start te c ∧ (∀ te' c', EscapeCell e w start te' c' → c ≤ c') ∧
          (imp ↔ ∀ c0, w.stat start.x start.y = some c0 → c < c0) := by
  have hv := validate_iff e.escRange e.width e.height e.angle start.x start.y 0
  unfold crowdEscape
  by_cases hval : Gridmap.validateLoop e.escRange 2 [start.x, start.y, 0] [e.width, e.height, e.angle] = false
  · rw [if_pos hval]
    intro h
    have := hv.mpr ⟨h.1, h.2.1, le_refl _, h.2.2⟩
    rw [this] at hval; cases hval
  · rw [if_neg hval]
    have hv' := hv.mp (by simpa using hval)
    have hfar : FarFromEdge e start := ⟨hv'.1, hv'.2.1⟩
    rcases crowd_fold e w start gOrig (crowdOffsets e.escRange) none with ⟨hg, h⟩ | ⟨hno, r, h, r1, -, r3⟩
    · rw [h]
      exact ⟨hfar, (goalAt_iff e w start gOrig).mpr hg⟩
    · rw [h]
      have hno' := fun hr => hno ((goalAt_iff e w start gOrig).mp hr)
      cases r with
      | none =>
        refine ⟨hfar, hno', fun te c hE => ?_⟩
        obtain ⟨d, hd, ho⟩ := (offer_iff e w start c te).mp hE
        obtain ⟨r0, hr0, -⟩ := r3 d hd c te ho
        cases hr0
      | some b =>
        obtain ⟨cost, te⟩ := b
        rcases r1 with r1 | ⟨d, hd, c, te', ho, hr⟩
        · cases r1
        cases hr
        refine ⟨hfar, hno', cost, (offer_iff e w start cost te).mpr ⟨d, hd, ho⟩, fun te' c' hE => ?_, Iff.rfl⟩
        obtain ⟨d', hd', ho'⟩ := (offer_iff e w start c' te').mp hE
        obtain ⟨r0, hr0, hle⟩ := r3 d' hd' c' te' ho'
        cases hr0; exact hle

end helpers

/-- **C58** (crowd mode; without it see `simple_escape_ignores_robot`).  A temporary goal chosen in crowd mode lies within the
escape range of the robot's cell but not closer than the minimum, on the map, reachable, cheap enough, pointing downhill, and no
other such cell is nearer to the original goal; the original goal itself is not reachable within that range. -/
theorem crowd_escape_near_partial (e : Esc) (w : World) (robot gOrig te : Cell) (imp : Prop)
    (h : crowdEscape e w robot gOrig = .goal te imp) :
    ¬ OriginalReachable e w robot gOrig ∧
    ∃ c, EscapeCell e w robot te c ∧ (∀ te' c', EscapeCell e w robot te' c' → c ≤ c') ∧
      (imp ↔ ∀ c0, w.stat robot.x robot.y = some c0 → c < c0) := by
  have := crowd_cases e w robot gOrig
  rw [h] at this
  exact this.2

/-- **C58** (crowd mode): when the original goal is reachable inside the escape range it is taken up again, and only then. -/
theorem crowd_escape_original (e : Esc) (ha : 0 < e.angle) (w : World) (robot gOrig : Cell) :
    crowdEscape e w robot gOrig = .original ↔ FarFromEdge e robot ∧ OriginalReachable e w robot gOrig := by
  have := crowd_cases e w robot gOrig
  constructor
  · intro h; rw [h] at this; exact this
  · rintro ⟨hf, hr⟩
    cases h : crowdEscape e w robot gOrig with
    | original => rfl
    | tooCloseToEdge => rw [h] at this; exact absurd ⟨hf.1, hf.2, ha⟩ this
    | nothing => rw [h] at this; exact absurd hr this.2.1
    | goal te imp => rw [h] at this; exact absurd hr this.2.1

/-- **C58** (crowd mode): a temporary goal is found whenever there is an acceptable cell. -/
theorem crowd_escape_found (e : Esc) (ha : 0 < e.angle) (w : World) (robot gOrig te : Cell) (c : ℝ)
    (hf : FarFromEdge e robot) (hr : ¬ OriginalReachable e w robot gOrig) (hE : EscapeCell e w robot te c) :
    ∃ te' imp, crowdEscape e w robot gOrig = .goal te' imp := by
  have := crowd_cases e w robot gOrig
  cases h : crowdEscape e w robot gOrig with
  | original => rw [h] at this; exact absurd this.2 hr
  | tooCloseToEdge => rw [h] at this; exact absurd ⟨hf.1, hf.2, ha⟩ this
  | nothing => rw [h] at this; exact absurd hE (this.2.2 te c)
  | goal te imp => exact ⟨te, imp, rfl⟩

/-- **C58** fails without crowd mode: the temporary goal does not depend on where the robot is; it is always within the escape
range of cell (0, 0). -/
theorem simple_escape_ignores_robot (e : Esc) (ha : 0 < e.angle) (cm : Cell → Int) (dist : Cell → ℝ) (robot te : Cell)
    (h : simpleEscape e cm dist robot = some te) :
    (∀ robot', simpleEscape e cm dist robot' = some te) ∧ te.x ^ 2 + te.y ^ 2 ≤ e.escRange ^ 2 := by
  refine ⟨fun _ => h, ?_⟩
  have key : ∀ r acc, Nearest e.toMap cm dist ⟨0, 0, 0⟩ e.escRange e.escAngle r acc te →
      te.x ^ 2 + te.y ^ 2 ≤ e.escRange ^ 2 := by
    rintro r acc ⟨d, ⟨⟨h1, h2, -⟩, ⟨-, -, h3, -⟩, -⟩, -⟩
    simp only [zero_add] at h1 h2
    rw [h1, h2]; exact h3
  rcases search_returns_nearest e.toMap ha cm dist ⟨0, 0, 0⟩ e.escRange e.escAngle e.acceptable e.escMin te h with h | ⟨-, h⟩
  · exact key _ _ h
  · exact key _ _ h

/-- A 100 × 100 free map with escape range 5. -/
noncomputable def exEsc : Esc := { width := 100, height := 100, angle := 4, range := 1, acceptable := 50,
                                   escRange := 5, escMin := 2, escAngle := 0, ares := 1 }

/-- **C58**, counterexample: on a free map a robot in cell (50, 50) is sent to a cell more than 40 cells away. -/
theorem simple_escape_far_away (dist : Cell → ℝ) :
    ∃ te, simpleEscape exEsc (fun _ => 0) dist ⟨50, 50, 0⟩ = some te ∧
      (40 : Int) ^ 2 < (te.x - 50) ^ 2 + (te.y - 50) ^ 2 := by
  have e1 : Eligible exEsc.toMap (fun _ => 0) ⟨0, 0, 0⟩ 5 0 2 50 ⟨2, 2, 0⟩ ⟨2, 2, 0⟩ :=
    ⟨⟨rfl, rfl, ⟨0, by decide⟩⟩, ⟨by decide, by decide, by decide, by decide, by decide⟩,
      ⟨by decide, by decide, by decide, by decide, by decide, by decide, by decide, by decide, by decide, by decide⟩,
      by decide⟩
  cases h : simpleEscape exEsc (fun _ => 0) dist ⟨50, 50, 0⟩ with
  | none =>
    have hno := ((search_fails_iff exEsc.toMap (by decide) (fun _ => 0) dist ⟨0, 0, 0⟩ 5 0 50 2).mp h).1
    exact absurd ⟨_, _, e1⟩ hno
  | some te =>
    refine ⟨te, rfl, ?_⟩
    have hs := (simple_escape_ignores_robot exEsc (by decide) (fun _ => 0) dist ⟨50, 50, 0⟩ te h).2
    have hs' : te.x ^ 2 + te.y ^ 2 ≤ 5 ^ 2 := hs
    have hx : |te.x| ≤ 5 := abs_le_of_sq_le_sq (by have := sq_nonneg te.y; omega) (by omega)
    have hx' := abs_le.mp hx
    have : (45 : Int) ^ 2 ≤ (te.x - 50) ^ 2 := by nlinarith
    have := sq_nonneg (te.y - 50)
    omega

/-- The copy of the local map reads one column too many: a robot that passes the edge check can still be in a place where the
last copied column lies outside the map. -/
theorem local_copy_outside :
    ∃ robot : Cell, FarFromEdge exEsc robot ∧ ∃ x ∈ copiedColumns exEsc robot, exEsc.width ≤ x :=
  ⟨⟨94, 50, 0⟩, by unfold FarFromEdge exEsc; decide, 100, (mem_upTo _ _ _).mpr (by decide), by decide⟩

/-- The columns copied are inside the map exactly when the robot is one cell further from the right border than the check
demands. -/
theorem local_copy_inside_iff (e : Esc) (robot : Cell) (hf : FarFromEdge e robot) (hR : 0 ≤ e.escRange) :
    (∀ x ∈ copiedColumns e robot, 0 ≤ x ∧ x < e.width) ↔ robot.x + e.escRange + 1 < e.width := by
  unfold copiedColumns
  simp only [mem_upTo]
  obtain ⟨⟨h1, h2⟩, -⟩ := hf
  constructor
  · intro h
    have := (h (robot.x + e.escRange + 1) (by omega)).2
    exact this
  · intro h x hx; omega

/-! ### Example: the crowd mode finds a goal -/

/-- Static distance grows with x; everything is free and reachable. -/
noncomputable def exWorld : World := { cm := fun _ => 0, rough := fun _ _ => 0, arrivable := fun _ _ => True,
                                       stat := fun x _ => some (x : ℝ) }

example : ∃ c, EscapeCell exEsc exWorld ⟨50, 50, 0⟩
    ⟨48, 50, cycU (CSpace.trunc ((downhill exWorld 48 50 48).arg / exEsc.ares)) exEsc.angle⟩ c := by
  refine ⟨48, ⟨by decide, by decide, by decide, by decide, trivial⟩, by decide, by decide, by decide, by decide, ?_, ?_, rfl⟩
  · simp [exWorld]
  · rw [← grad_eq]
    intro h
    have := congrArg Complex.re h
    simp [grad, ring, gradStep, exWorld] at this
    norm_num at this

example : ∃ te imp, crowdEscape exEsc exWorld ⟨50, 50, 0⟩ ⟨90, 90, 0⟩ = .goal te imp := by
  have hE : ∃ c, EscapeCell exEsc exWorld ⟨50, 50, 0⟩
      ⟨48, 50, cycU (CSpace.trunc ((downhill exWorld 48 50 48).arg / exEsc.ares)) exEsc.angle⟩ c := by
    refine ⟨48, ⟨by decide, by decide, by decide, by decide, trivial⟩, by decide, by decide, by decide, by decide, ?_, ?_, rfl⟩
    · simp [exWorld]
    · rw [← grad_eq]
      intro h
      have := congrArg Complex.re h
      simp [grad, ring, gradStep, exWorld] at this
      norm_num at this
  obtain ⟨c, hE⟩ := hE
  refine crowd_escape_found exEsc (by decide) exWorld ⟨50, 50, 0⟩ ⟨90, 90, 0⟩ _ c (by unfold FarFromEdge exEsc; decide) ?_ hE
  rintro ⟨⟨-, h, -⟩, -⟩
  revert h; decide

end Verif.SearchPos
