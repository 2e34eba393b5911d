import Verif.Picture.Model
import Verif.Bbf.Props
import Verif.GridMetric.Props
import Mathlib.Tactic.FieldSimp

/-! # The pictures of the planner's state are truthful -/
namespace Verif.Picture
open Verif.GridMetric (Info Cell Pose grid2Metric metric2Grid)

variable {K : Type} [Field K] [LinearOrder K] [IsStrictOrderedRing K] [FloorRing K]

theorem mem_cells {w h : Nat} {c : Nat × Nat} : c ∈ cells w h ↔ c.1 < w ∧ c.2 < h := by
  obtain ⟨x, y⟩ := c
  simp only [cells, List.mem_flatMap, List.mem_range, List.mem_map, Prod.mk.injEq]
  constructor
  · rintro ⟨b, hb, a, ha, rfl, rfl⟩; exact ⟨ha, hb⟩
  · rintro ⟨h1, h2⟩; exact ⟨y, h2, x, h1, rfl, rfl⟩

theorem cells_nodup (w h : Nat) : (cells w h).Nodup := by
  refine List.nodup_flatMap.2 ⟨fun y _ => List.Nodup.map (fun a b hab => (Prod.mk.injEq .. ▸ hab).1) List.nodup_range, ?_⟩
  refine List.nodup_range.pairwise_of_forall_ne ?_
  intro a _ b _ hab c h1 h2
  obtain ⟨_, _, rfl⟩ := List.mem_map.1 h1
  obtain ⟨_, _, h3⟩ := List.mem_map.1 h2
  exact hab (congrArg Prod.snd h3).symm

theorem index_lt {w h x y : Nat} (hx : x < w) (hy : y < h) : x + y * w < w * h := by
  have : (y + 1) * w ≤ h * w := Nat.mul_le_mul_right w hy
  rw [Nat.mul_comm w h]
  rw [Nat.add_mul] at this
  omega

theorem index_inj {w x y x' y' : Nat} (hx : x < w) (hx' : x' < w) (h : x + y * w = x' + y' * w) : x = x' ∧ y = y' := by
  have hw : 0 < w := by omega
  have h1 : (x + y * w) % w = x := by rw [Nat.add_mul_mod_self_right, Nat.mod_eq_of_lt hx]
  have h2 : (x' + y' * w) % w = x' := by rw [Nat.add_mul_mod_self_right, Nat.mod_eq_of_lt hx']
  have h3 : (x + y * w) / w = y := by rw [Nat.add_mul_div_right _ _ hw, Nat.div_eq_of_lt hx, Nat.zero_add]
  have h4 : (x' + y' * w) / w = y' := by rw [Nat.add_mul_div_right _ _ hw, Nat.div_eq_of_lt hx', Nat.zero_add]
  exact ⟨by rw [← h1, h, h2], by rw [← h3, h, h4]⟩

/-- A loop which writes each cell of a list once, at its own place, or leaves it. -/
theorem fill_cells {α : Type} {w h : Nat} (f : Nat × Nat → Option α) (stp : List α → Nat × Nat → Option (List α))
    (hstp : ∀ d c, stp d c = match f c with | none => some d | some v => write d (c.1 + c.2 * w) v) :
    ∀ (l : List (Nat × Nat)), l.Nodup → (∀ c ∈ l, c.1 < w ∧ c.2 < h) → ∀ d : List α, d.length = w * h →
    ∃ d', l.foldlM stp d = some d' ∧ d'.length = w * h ∧
      ∀ c : Nat × Nat, c.1 < w → c.2 < h → d'[c.1 + c.2 * w]? = if c ∈ l then (match f c with | none => d[c.1 + c.2 * w]? | some v => some v)
        else d[c.1 + c.2 * w]?
  | [], _, _, d, hd => ⟨d, rfl, hd, fun c _ _ => by simp⟩
  | a :: l, hn, hl, d, hd => by
    have ha := hl a (by simp)
    obtain ⟨d1, e1, e2, e3⟩ : ∃ d1, stp d a = some d1 ∧ d1.length = w * h ∧ ∀ c : Nat × Nat, c.1 < w → c.2 < h →
        d1[c.1 + c.2 * w]? = if c = a then (match f a with | none => d[a.1 + a.2 * w]? | some v => some v) else d[c.1 + c.2 * w]? := by
      rw [hstp]
      cases hf : f a with
      | none =>
        refine ⟨d, rfl, hd, fun c _ _ => ?_⟩
        split
        · rename_i h; rw [h]
        · rfl
      | some v =>
        have hlt := index_lt ha.1 ha.2
        refine ⟨d.set (a.1 + a.2 * w) v, by simp only [write, hd, if_pos hlt], by simp [hd], fun c h1 h2 => ?_⟩
        split
        · rename_i h
          rw [h, List.getElem?_set_self (by rw [hd]; exact hlt)]
        · rename_i h
          rw [List.getElem?_set_ne]
          intro he
          obtain ⟨h3, h4⟩ := index_inj ha.1 h1 he
          exact h (Prod.ext h3 h4).symm
    obtain ⟨d2, g1, g2, g3⟩ := fill_cells f stp hstp l (List.nodup_cons.1 hn).2 (fun c hc => hl c (by simp [hc])) d1 e2
    refine ⟨d2, by rw [List.foldlM_cons, e1]; exact g1, g2, fun c h1 h2 => ?_⟩
    rw [g3 c h1 h2, e3 c h1 h2]
    by_cases hc : c = a
    · subst hc
      rw [if_neg (List.nodup_cons.1 hn).1]
      simp
    · simp only [List.mem_cons, hc, false_or, if_false]

/-! ### The cloud of distances -/

/-- **C124.** The cloud has exactly one point for each cell of the map that has a distance to the goal: at the centre of this cell, with the distance as its
value.  In particular its points are as many as the cells with a distance, and a cell without a point is one from which the goal was not reached. -/
theorem cloud_shows_distances (m : Info K) (hr : 0 < m.res) (vel : K) (w h : Nat) (dist : Nat × Nat → Option K) :
    (∀ q, q ∈ distanceCloud m vel w h dist ↔ ∃ x y d, x < w ∧ y < h ∧ dist (x, y) = some d ∧
      q.x = m.ox + ((x : K) + 1 / 2) * m.res ∧ q.y = m.oy + ((y : K) + 1 / 2) * m.res ∧ q.z = d / 500 ∧ q.value = d * m.res * vel) ∧
    (distanceCloud m vel w h dist).length = ((Finset.range w ×ˢ Finset.range h).filter fun c => dist c ≠ none).card ∧
    (distanceCloud m vel w h dist).Pairwise fun a b => a.x ≠ b.x ∨ a.y ≠ b.y := by
  have hpt : ∀ c q, point m vel dist c = some q ↔ ∃ d, dist c = some d ∧
      q.x = m.ox + ((c.1 : K) + 1 / 2) * m.res ∧ q.y = m.oy + ((c.2 : K) + 1 / 2) * m.res ∧ q.z = d / 500 ∧ q.value = d * m.res * vel := by
    intro c q
    obtain ⟨qx, qy, qz, qv⟩ := q
    simp only [point, Option.map_eq_some_iff, GridMetric.grid2Metric, GridMetric.grid2MetricF, Point.mk.injEq]
    constructor
    · rintro ⟨d, hd, rfl, rfl, rfl, rfl⟩
      exact ⟨d, hd, by push_cast; ring, by push_cast; ring, rfl, by ring⟩
    · rintro ⟨d, hd, h1, h2, h3, h4⟩
      exact ⟨d, hd, by rw [h1]; push_cast; ring, by rw [h2]; push_cast; ring, h3.symm, by rw [h4]; ring⟩
  refine ⟨?_, ?_, ?_⟩
  · intro q
    simp only [distanceCloud, List.mem_filterMap, hpt]
    constructor
    · rintro ⟨c, hc, d, h⟩
      obtain ⟨h1, h2⟩ := mem_cells.1 hc
      exact ⟨c.1, c.2, d, h1, h2, h⟩
    · rintro ⟨x, y, d, h1, h2, h⟩
      exact ⟨(x, y), mem_cells.2 ⟨h1, h2⟩, d, h⟩
  · have h1 : (distanceCloud m vel w h dist).length = ((cells w h).filter fun c => decide (dist c ≠ none)).length := by
      unfold distanceCloud
      generalize cells w h = l
      induction l with
      | nil => rfl
      | cons c l ih =>
        cases hd : dist c with
        | none => simp [List.filterMap_cons, point, hd, ih]
        | some d => simp [List.filterMap_cons, point, hd, ih]
    rw [h1, ← List.toFinset_card_of_nodup ((cells_nodup w h).filter _)]
    congr 1
    ext c
    simp [mem_cells]
  · unfold distanceCloud
    refine List.Pairwise.filterMap _ ?_ (List.Nodup.pairwise_of_forall_ne (cells_nodup w h) (r := fun a b => a ≠ b) fun a _ b _ h => h)
    intro a b hab q hq q' hq'
    obtain ⟨d, _, h1, h2, _⟩ := (hpt a q).1 hq
    obtain ⟨d', _, h1', h2', _⟩ := (hpt b q').1 hq'
    by_contra hc
    push Not at hc
    rw [h1, h1', h2, h2'] at hc
    have e1 : (a.1 : K) = b.1 := by
      have := mul_right_cancel₀ (ne_of_gt hr) (add_left_cancel hc.1)
      linarith
    have e2 : (a.2 : K) = b.2 := by
      have := mul_right_cancel₀ (ne_of_gt hr) (add_left_cancel hc.2)
      linarith
    exact hab (Prod.ext (by exact_mod_cast e1) (by exact_mod_cast e2))

/-! ### The picture of the former path -/

theorem leastHyst_spec (angle : Nat) (hyst : Nat × Nat → Nat → Int) (c : Nat × Nat) :
    leastHyst angle hyst c ≤ 100 ∧ (∀ a < angle, leastHyst angle hyst c ≤ hyst c a) ∧
    (leastHyst angle hyst c = 100 ∨ ∃ a < angle, leastHyst angle hyst c = hyst c a) := by
  unfold leastHyst
  induction angle with
  | zero => simp
  | succ n ih =>
    rw [List.range_succ, List.foldl_append]
    generalize (List.range n).foldl (fun cost a => min (hyst c a) cost) 100 = r at *
    simp only [List.foldl_cons, List.foldl_nil]
    obtain ⟨h1, h2, h3⟩ := ih
    refine ⟨by omega, ?_, ?_⟩
    · intro a ha
      by_cases h : a = n
      · subst h; omega
      · have := h2 a (by omega); omega
    · rcases le_total (hyst c n) r with h | h
      · right; exact ⟨n, by omega, by omega⟩
      · rw [min_eq_right h]
        exact h3.imp id fun ⟨a, ha, h⟩ => ⟨a, by omega, h⟩

/-- **C124.** The picture of the former path has one value for each cell, row by row: 100 where no distance to the goal is known, elsewhere the least penalty
over all headings (at most 100).  No value is written outside. -/
theorem picture_shows_hysteresis (w h angle : Nat) (dist : Nat × Nat → Option K) (hyst : Nat × Nat → Nat → Int) :
    ∃ d, hystPicture w h angle dist hyst = some d ∧ d.length = w * h ∧
      ∀ x y, x < w → y < h → ∃ v, d[x + y * w]? = some v ∧ (dist (x, y) = none → v = 100) ∧
        (dist (x, y) ≠ none → v ≤ 100 ∧ (∀ a < angle, v ≤ hyst (x, y) a) ∧ (v = 100 ∨ ∃ a < angle, v = hyst (x, y) a)) := by
  obtain ⟨d, h1, h2, h3⟩ := fill_cells (w := w) (h := h) (fun c => if dist c = none then none else some (leastHyst angle hyst c))
    (hystStep w angle dist hyst) (by intro d c; unfold hystStep; split <;> simp [*]) (cells w h) (cells_nodup w h) (fun c hc => mem_cells.1 hc)
    (List.replicate (w * h) 100) (by simp)
  refine ⟨d, h1, h2, fun x y hx hy => ?_⟩
  have h4 := h3 (x, y) hx hy
  rw [if_pos (mem_cells.2 ⟨hx, hy⟩)] at h4
  simp only at h4
  by_cases hd : dist (x, y) = none
  · rw [if_pos hd] at h4
    simp only [List.getElem?_replicate, if_pos (index_lt hx hy)] at h4
    exact ⟨100, h4, fun _ => rfl, fun h => absurd hd h⟩
  · rw [if_neg hd] at h4
    exact ⟨_, h4, fun h => absurd h hd, fun _ => leastHyst_spec angle hyst (x, y)⟩

/-! ### The picture of the memory -/

/-- **C124.** The picture of the remembered obstacles has one value for each cell, row by row: between 0 and 100, 0 exactly where less than one percent
is remembered, and never more than one below nor above the value that the planner uses as a cost. -/
theorem picture_shows_memory (w h : Nat) (odds : Int × Int → K) (hb : ∀ c, 1 / 9 ≤ odds c ∧ odds c ≤ 9) :
    ∃ d, memoryPicture w h odds = some d ∧ d.length = w * h ∧
      ∀ x y : Nat, x < w → y < h → ∃ v, d[x + y * w]? = some v ∧ 0 ≤ v ∧ v ≤ 100 ∧ (v : K) ≤ Bbf.normalized (odds (x, y)) * 100 ∧
        Bbf.normalized (odds (x, y)) * 100 < v + 1 ∧ v ≤ Bbf.published (odds (x, y)) ∧ Bbf.published (odds (x, y)) ≤ v + 1 := by
  obtain ⟨d, h1, h2, h3⟩ := fill_cells (w := w) (h := h) (fun c => some (percent (odds (c.1, c.2))))
    (fun d c => write d (c.1 + c.2 * w) (percent (odds (c.1, c.2)))) (by intro d c; rfl) (cells w h) (cells_nodup w h) (fun c hc => mem_cells.1 hc)
    (List.replicate (w * h) 0) (by simp)
  refine ⟨d, h1, h2, fun x y hx hy => ?_⟩
  have h4 := h3 (x, y) hx hy
  rw [if_pos (mem_cells.2 ⟨hx, hy⟩)] at h4
  simp only at h4
  refine ⟨_, h4, ?_⟩
  obtain ⟨b1, b2⟩ := hb (x, y)
  generalize odds (x, y) = o at *
  have hp := Bbf.published_bounds b1 b2
  have hpos : (0 : K) < 1 + o := by linarith [show (0 : K) < 1 / 9 by norm_num]
  have hx : (Bbf.oddsToProbability o - Bbf.minP) * 100 / (Bbf.maxP - Bbf.minP) = Bbf.normalized o * 100 := by
    unfold Bbf.normalized; ring
  have h0 : 0 ≤ Bbf.normalized o * 100 := by
    unfold Bbf.normalized Bbf.oddsToProbability Bbf.maxP Bbf.minP
    have : (1 : K) / 10 ≤ o / (1 + o) := by rw [le_div_iff₀ hpos]; linarith
    have : 0 ≤ (o / (1 + o) - 1 / 10) / (1 - 1 / 10 - 1 / 10) := div_nonneg (by linarith) (by norm_num)
    linarith
  have h100 : Bbf.normalized o * 100 ≤ 100 := by
    unfold Bbf.normalized Bbf.oddsToProbability Bbf.maxP Bbf.minP
    have : o / (1 + o) ≤ 9 / 10 := by rw [div_le_iff₀ hpos]; linarith
    have : (o / (1 + o) - 1 / 10) / (1 - 1 / 10 - 1 / 10) ≤ 1 := by rw [div_le_one (by norm_num)]; linarith
    linarith
  have hpc : percent o = ⌊Bbf.normalized o * 100⌋ := by
    unfold percent
    simp only [hx, if_pos h0]
  have hpb : Bbf.published o = ⌊Bbf.normalized o * 100 + 1 / 2⌋ := by
    unfold Bbf.published
    simp only [if_pos h0]
  rw [hpc, hpb]
  generalize Bbf.normalized o * 100 = t at *
  have f1 := Int.floor_le t
  have f2 := Int.lt_floor_add_one t
  refine ⟨Int.floor_nonneg.2 h0, ?_, f1, f2, Int.floor_le_floor (by linarith), ?_⟩
  · have : ⌊t⌋ ≤ ⌊(100 : K)⌋ := Int.floor_le_floor h100
    simpa using this
  · have : ⌊t + 1 / 2⌋ < ⌊t⌋ + 2 := by
      rw [Int.floor_lt]
      push_cast
      linarith
    omega

/-! ### Examples -/

/-- The hypotheses of the theorems are met by a map of 2×2 cells: one cell has no distance, one has been remembered fully and one in half. -/
example : distanceCloud (K := ℚ) ⟨1 / 2, 1, 1, 0, 16⟩ 2 2 2 (fun c => if c = (1, 0) then none else some ((c.1 : ℚ) + c.2)) =
    [⟨5 / 4, 1 / 4, 0, 0⟩, ⟨5 / 4, 3 / 4, 1 / 500, 1⟩, ⟨7 / 4, 3 / 4, 2 / 500, 2⟩] := by decide +kernel

example : hystPicture (K := ℚ) 2 2 2 (fun c => if c = (1, 0) then none else some 1) (fun c a => if c = (0, 1) ∧ a = 1 then 30 else 100) =
    some [100, 100, 30, 100] := by decide +kernel

example : memoryPicture (K := ℚ) 2 2 (fun c => if c = (1, 0) then 9 else if c = (0, 1) then 1 else 1 / 9) = some [0, 100, 50, 0] ∧
    ∀ c : Int × Int, (1 / 9 : ℚ) ≤ (if c = (1, 0) then 9 else if c = (0, 1) then 1 else 1 / 9) ∧
      (if c = (1, 0) then 9 else if c = (0, 1) then 1 else 1 / 9 : ℚ) ≤ 9 :=
  ⟨by decide +kernel, fun c => by split_ifs <;> norm_num⟩

/-! ### The costmap node's cloud of lethal cells -/

theorem lethal_fold (m : Info K) (w h : Nat) (data : List Int) (l : List (Nat × Nat)) : ∀ (pc : List (K × K × K)),
    (∀ k ∈ l, k.2 + k.1 * w * h < data.length) →
    l.foldlM (lethalStep m w h data) pc = some (pc ++ (l.filter fun k => decide (100 ≤ data.getD (k.2 + k.1 * w * h) 0)).map fun k =>
      (((k.2 % w : Nat) : K) * m.res + m.ox, ((k.2 / w : Nat) : K) * m.res + m.oy, (k.1 : K) * (1 / 10))) := by
  induction l with
  | nil => intro pc _; simp
  | cons k l ih =>
    intro pc hk
    have h0 := hk k List.mem_cons_self
    have hd : data[k.2 + k.1 * w * h]? = some (data.getD (k.2 + k.1 * w * h) 0) := by
      rw [List.getElem?_eq_getElem h0, List.getD_eq_getElem?_getD, List.getElem?_eq_getElem h0]; rfl
    rw [List.foldlM_cons]
    unfold lethalStep
    dsimp only
    rw [hd]
    dsimp only
    split
    · rename_i hv
      rw [List.filter_cons_of_neg (by simpa using hv)]
      exact ih pc fun k hk' => hk k (List.mem_cons_of_mem _ hk')
    · rename_i hv
      rw [List.filter_cons_of_pos (by simpa using hv)]
      refine (ih _ fun k hk' => hk k (List.mem_cons_of_mem _ hk')).trans ?_
      simp

/-- **C124.** The debug cloud of the costmap node has exactly one point for each lethal cell and heading of the costmap: at the lower corner of the cell,
at a height of a tenth per heading.  Nothing outside the message is read. -/
theorem cloud_shows_lethal (m : Info K) (hr : 0 < m.res) (w h angle : Nat) (data : List Int) (hl : data.length = w * h * angle) :
    ∃ pc, lethalCloud m w h angle data = some pc ∧
      (∀ q, q ∈ pc ↔ ∃ x y a, x < w ∧ y < h ∧ a < angle ∧ 100 ≤ data.getD ((a * h + y) * w + x) 0 ∧
        q = ((x : K) * m.res + m.ox, (y : K) * m.res + m.oy, (a : K) / 10)) ∧
      pc.Nodup := by
  have hb : ∀ k ∈ (List.range angle).flatMap fun yaw => (List.range (w * h)).map fun i => (yaw, i), k.1 < angle ∧ k.2 < w * h := by
    intro k hk
    simp only [List.mem_flatMap, List.mem_range, List.mem_map] at hk
    obtain ⟨a, ha, i, hi, rfl⟩ := hk
    exact ⟨ha, hi⟩
  refine ⟨_, lethal_fold m w h data _ [] ?_, ?_, ?_⟩
  · intro k hk
    obtain ⟨h1, h2⟩ := hb k hk
    rw [hl]
    have : (k.1 + 1) * (w * h) ≤ angle * (w * h) := Nat.mul_le_mul_right _ h1
    rw [Nat.mul_comm (w * h) angle, Nat.mul_assoc]
    rw [Nat.add_mul] at this
    omega
  · intro q
    rw [List.nil_append, List.mem_map]
    constructor
    · rintro ⟨k, hk, rfl⟩
      obtain ⟨hk1, hk2⟩ := List.mem_filter.1 hk
      obtain ⟨h1, h2⟩ := hb k hk1
      have hw : 0 < w := Nat.pos_of_ne_zero fun h0 => by rw [h0, Nat.zero_mul] at h2; omega
      refine ⟨k.2 % w, k.2 / w, k.1, Nat.mod_lt _ hw, Nat.div_lt_of_lt_mul h2, h1, ?_, by simp [div_eq_mul_inv]⟩
      have e : (k.1 * h + k.2 / w) * w + k.2 % w = k.2 + k.1 * w * h := by
        have := Nat.div_add_mod k.2 w
        rw [Nat.add_mul, Nat.add_assoc, Nat.mul_comm (k.2 / w) w, this, Nat.mul_assoc, Nat.mul_comm h w, ← Nat.mul_assoc, Nat.add_comm]
      rw [e]
      simpa using hk2
    · rintro ⟨x, y, a, hx, hy, ha, hv, rfl⟩
      have hw : 0 < w := by omega
      have h3 : (x + y * w) % w = x := by rw [Nat.add_mul_mod_self_right, Nat.mod_eq_of_lt hx]
      have h4 : (x + y * w) / w = y := by rw [Nat.add_mul_div_right _ _ hw, Nat.div_eq_of_lt hx, Nat.zero_add]
      refine ⟨(a, x + y * w), List.mem_filter.2 ⟨?_, ?_⟩, ?_⟩
      · simp only [List.mem_flatMap, List.mem_range, List.mem_map]
        exact ⟨a, ha, x + y * w, index_lt hx hy, rfl⟩
      · have e : x + y * w + a * w * h = (a * h + y) * w + x := by
          rw [Nat.add_mul, Nat.mul_assoc a w h, Nat.mul_comm w h, ← Nat.mul_assoc]; omega
        simpa [e] using hv
      · simp only [h3, h4, div_eq_mul_inv, one_mul]
  · rw [List.nil_append]
    refine List.Nodup.map_on ?_ (List.Nodup.filter _ ?_)
    · intro k hk k' hk' he
      have h2 := (hb k (List.mem_filter.1 hk).1).2
      simp only [Prod.mk.injEq] at he
      obtain ⟨e1, e2, e3⟩ := he
      have f1 := mul_right_cancel₀ (ne_of_gt hr) (add_right_cancel e1)
      have f2 := mul_right_cancel₀ (ne_of_gt hr) (add_right_cancel e2)
      have f3 := mul_right_cancel₀ (by norm_num : (1 / 10 : K) ≠ 0) e3
      have g1 : k.2 % w = k'.2 % w := by exact_mod_cast f1
      have g2 : k.2 / w = k'.2 / w := by exact_mod_cast f2
      refine Prod.ext (by exact_mod_cast f3) ?_
      rw [← Nat.div_add_mod k.2 w, g1, g2, Nat.div_add_mod]
    · refine List.nodup_flatMap.2 ⟨fun y _ => List.Nodup.map (fun a b hab => (Prod.mk.injEq .. ▸ hab).2) List.nodup_range, ?_⟩
      refine List.nodup_range.pairwise_of_forall_ne ?_
      intro a _ b _ hab c h1 h2
      obtain ⟨_, _, rfl⟩ := List.mem_map.1 h1
      obtain ⟨_, _, h3⟩ := List.mem_map.1 h2
      exact hab (congrArg Prod.fst h3).symm

example : lethalCloud (K := ℚ) ⟨1 / 2, 1, -1, 3, 2⟩ 2 2 2 [0, 100, 0, 0, 0, 0, 100, 99] = some [(-1 / 2, 3, 0), (-1, 7 / 2, 1 / 10)] := by decide +kernel

end Verif.Picture
