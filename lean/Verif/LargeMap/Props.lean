import Verif.LargeMap.Lemmas
import Verif.GridMetric.Props
/-! # Properties of local maps cut out of a large map

* **C100** the local map shows the large map around the robot
* **C101** simulated occlusion and surrounding -/
namespace Verif.LargeMap
open Verif.CSpace (lround trunc)

/-! ## C100: the local map shows the large map around the robot -/

theorem trunc_near (v : ℝ) : |v - (trunc v : ℝ)| < 1 := by
  unfold trunc
  split
  · have h1 := Int.floor_le v
    have h2 := Int.lt_floor_add_one v
    rw [abs_lt]; constructor <;> linarith
  · have h1 := Int.le_ceil v
    have h2 := Int.ceil_lt_add_one v
    rw [abs_lt]; constructor <;> linarith

/-- **C100**: the robot is less than a cell away from the middle of the local map, along each axis. -/
theorem robot_in_middle (c : Config) (res pos : ℝ) (hres : 0 < res) : |pos - (origin c res pos + (c.width : ℝ) / 2 * res)| < res := by
  have h := trunc_near (pos / res)
  have e : pos - (origin c res pos + (c.width : ℝ) / 2 * res) = (pos / res - (trunc (pos / res) : ℝ)) * res := by
    unfold origin
    field_simp
    ring
  rw [e, abs_mul, abs_of_pos hres]
  nlinarith

/-- The robot at 7.6 m on a map of half-metre cells: the local map of 10 cells begins at 5 m. -/
example : origin ⟨10, false, false, false⟩ (1 / 2) (38 / 5) = 5 := by
  have : trunc ((38 / 5 : ℝ) / (1 / 2)) = 15 := (trunc_iff (by norm_num) 15).mpr (by norm_num)
  unfold origin
  rw [this]
  norm_num

/-- Centres of a local cell and of the cell of the large map it is copied from. -/
theorem centre_offset (c : Config) (res pos o : ℝ) (hres : 0 < res) (i : Int) :
    |centre res (origin c res pos) i - centre res o (i + offset c res pos o)| ≤ res / 2 := by
  have h := CSpace.lround_near ((origin c res pos - o) / res)
  have e : centre res (origin c res pos) i - centre res o (i + offset c res pos o) =
      -(((offset c res pos o : Int) : ℝ) - (origin c res pos - o) / res) * res := by
    unfold centre
    push_cast
    field_simp
    ring
  rw [e, abs_mul, abs_neg, abs_of_pos hres]
  unfold offset
  nlinarith

/-- **C100**: without simulated occlusion, every cell of the local map that is not cut off by its shape shows the cell of the large map
whose centre is at most half a cell away along each axis, with one shift for the whole map, and is unknown where there is none. -/
theorem shows_large (c : Config) (L : Large) (px py : ℝ) (hres : 0 < L.res) (m : List Int) (h : publish c L px py = some m)
    (ho : c.occlusion = false) : ∃ gx gy : Int,
    (∀ p, OnMap c.width p → ¬ Masked c p → value c.width m p = L.value (p.1 + gx) (p.2 + gy)) ∧
    ∀ i, |centre L.res (origin c L.res px) i - centre L.res L.ox (i + gx)| ≤ L.res / 2 ∧
      |centre L.res (origin c L.res py) i - centre L.res L.oy (i + gy)| ≤ L.res / 2 := by
  refine ⟨offset c L.res px L.ox, offset c L.res py L.oy, ?_, fun i => ⟨centre_offset _ _ _ _ hres _, centre_offset _ _ _ _ hres _⟩⟩
  unfold publish at h
  cases hb : base c L (offset c L.res px L.ox) (offset c L.res py L.oy) with
  | none => rw [hb] at h; cases h
  | some b =>
    rw [hb, Option.map_some, ho] at h
    obtain rfl : b = m := by simpa using h
    intro p hp hm
    rw [(base_get hb).2 p hp]
    unfold cell Large.value
    have m1 : ¬ (c.surrounded = true ∧ ((p.1 : ℝ) - (c.width : ℝ) / 2) ^ 2 + ((p.2 : ℝ) - (c.width : ℝ) / 2) ^ 2 ≤ ((c.width : ℝ) / 2) ^ 2 ∧
        ((c.width : ℝ) / 2 - 2) ^ 2 ≤ ((p.1 : ℝ) - (c.width : ℝ) / 2) ^ 2 + ((p.2 : ℝ) - (c.width : ℝ) / 2) ^ 2) :=
      fun ⟨h1, h2, h3⟩ => hm (.inl ⟨h1, h3, h2⟩)
    have m2 : ¬ (c.round = true ∧ ((p.1 : ℝ) - (c.width : ℝ) / 2) ^ 2 + ((p.2 : ℝ) - (c.width : ℝ) / 2) ^ 2 > ((c.width : ℝ) / 2) ^ 2) :=
      fun h => hm (.inr h)
    dsimp only
    rw [if_neg m1, if_neg m2]
    generalize p.1 + offset c L.res px L.ox = x
    generalize p.2 + offset c L.res py L.oy = y
    by_cases hin : (0 ≤ x ∧ x < L.w) ∧ 0 ≤ y ∧ y < L.h
    · rw [if_pos hin, if_neg (by omega)]
    · rw [if_neg hin, if_pos (by omega)]

/-- **C100**: if the origin of the large map is a multiple of the resolution and the local map has an even number of cells, both grids
coincide: the copied cell is at exactly the same place. -/
theorem aligned (c : Config) (res pos o : ℝ) (hres : 0 < res) (he : Even c.width) (k : Int) (hk : o = (k : ℝ) * res) (i : Int) :
    centre res (origin c res pos) i = centre res o (i + offset c res pos o) := by
  obtain ⟨q, hq⟩ := he
  have e : (origin c res pos - o) / res = ((trunc (pos / res) - q - k : Int) : ℝ) := by
    unfold origin
    rw [hq, hk]
    push_cast
    field_simp
    ring
  have e2 : offset c res pos o = trunc (pos / res) - q - k := by
    unfold offset
    rw [e]
    exact GridMetric.lround_int _
  rw [e2]
  unfold centre origin
  rw [hq, hk]
  push_cast
  ring

/-- **C100** (why the number of cells must be even): a local map of three cells shows a map with its origin at zero half a cell away from
where it is. -/
theorem odd_width_shifts : centre 1 (origin ⟨3, false, false, false⟩ 1 0) 0 = -1 ∧
    centre 1 0 (0 + offset ⟨3, false, false, false⟩ 1 0 0) = -(3 / 2) := by
  have h0 : trunc (0 / 1 : ℝ) = 0 := (trunc_iff (by norm_num) 0).mpr (by norm_num)
  have ho : origin ⟨3, false, false, false⟩ 1 0 = -(3 / 2) := by
    unfold origin
    rw [h0]
    norm_num
  have hg : offset ⟨3, false, false, false⟩ 1 0 0 = -2 := by
    unfold offset
    rw [ho]
    unfold lround
    rw [if_neg (by norm_num)]
    rw [neg_inj, Int.floor_eq_iff]
    norm_num
  rw [ho, hg]
  unfold centre
  norm_num

/-- **C100**: with complete data of the large map nothing is read outside of it. -/
theorem publish_defined (c : Config) (L : Large) (px py : ℝ) (hd : L.w * L.h ≤ L.data.length) : publish c L px py ≠ none := by
  unfold publish
  have key : ∀ gx gy lx ly, cell c L gx gy lx ly ≠ none := by
    intro gx gy lx ly
    unfold cell
    dsimp only
    split
    · simp
    split
    · simp
    split
    · simp
    · rename_i h
      rw [not_or, not_or, not_or] at h
      obtain ⟨h1, h2, h3, h4⟩ := h
      generalize lx + gx = x at *
      generalize ly + gy = y at *
      lift x to Nat using by omega
      lift y to Nat using by omega
      rw [← Nat.cast_mul, ← Nat.cast_add, Int.toNat_natCast]
      have : y * L.w + x < L.data.length := by
        have hx : x < L.w := by omega
        have hy : y < L.h := by omega
        calc y * L.w + x < (y + 1) * L.w := by rw [Nat.add_mul]; omega
          _ ≤ L.h * L.w := Nat.mul_le_mul_right _ hy
          _ = L.w * L.h := Nat.mul_comm _ _
          _ ≤ _ := hd
      rw [List.getElem?_eq_getElem this]
      simp
  have hb : ∀ gx gy, base c L gx gy ≠ none := by
    intro gx gy
    unfold base
    generalize List.range (c.width * c.width) = l
    induction l with
    | nil => simp
    | cons a l ih =>
      rw [List.mapM_cons]
      cases hx : cell c L gx gy ((a % c.width : Nat) : Int) ((a / c.width : Nat) : Int) with
      | none => exact absurd hx (key _ _ _ _)
      | some v =>
        cases hl : l.mapM (fun a => cell c L gx gy ((a % c.width : Nat) : Int) ((a / c.width : Nat) : Int)) with
        | none => exact absurd hl ih
        | some vs => simp
  intro h
  exact hb _ _ (Option.map_eq_none_iff.mp h)

/-- **C100**: a round local map is unknown outside of the circle that touches its borders. -/
theorem round_unknown (c : Config) (L : Large) (px py : ℝ) (m : List Int) (h : publish c L px py = some m) (ho : c.occlusion = false)
    (hr : c.round = true) (p : Cell) (hp : OnMap c.width p) (hq : ((c.width : ℝ) / 2) ^ 2 < sqRadius c.width p) :
    value c.width m p = some (-1) := by
  unfold publish at h
  cases hb : base c L (offset c L.res px L.ox) (offset c L.res py L.oy) with
  | none => rw [hb] at h; cases h
  | some b =>
    rw [hb, Option.map_some, ho] at h
    obtain rfl : b = m := by simpa using h
    rw [(base_get hb).2 p hp]
    unfold cell
    dsimp only
    rw [if_neg (fun h => absurd h.2.1 (not_le.mpr hq)), if_pos ⟨hr, hq⟩]

/-- A map of 2 × 2 cells of one metre, seen by a robot at (1, 1) in a local map of 4 × 4 cells: it is complete, in the middle. -/
noncomputable def L0 : Large := ⟨2, 2, 1, 0, 0, [0, 100, 50, 20]⟩

theorem offset0 : offset ⟨4, false, false, false⟩ 1 1 0 = -1 := by
  have h : trunc (1 / 1 : ℝ) = 1 := (trunc_iff (by norm_num) 1).mpr (by norm_num)
  unfold offset origin
  rw [h]
  have : (((1 : Int) : ℝ) * 1 - ((4 : Nat) : ℝ) * 1 * (1 / 2) - 0) / 1 = ((-1 : Int) : ℝ) := by norm_num
  dsimp only
  rw [this]
  exact GridMetric.lround_int _

example : ∃ m, publish ⟨4, false, false, false⟩ L0 1 1 = some m ∧ value 4 m (2, 1) = some 100 ∧ value 4 m (0, 0) = some (-1) := by
  obtain ⟨m, hm⟩ := Option.ne_none_iff_exists'.mp (publish_defined ⟨4, false, false, false⟩ L0 1 1 (by norm_num [L0]))
  refine ⟨m, hm, ?_⟩
  unfold publish at hm
  change Option.map _ (base _ L0 (offset _ 1 1 0) (offset _ 1 1 0)) = _ at hm
  rw [offset0] at hm
  cases hb : base ⟨4, false, false, false⟩ L0 (-1) (-1) with
  | none => rw [hb] at hm; cases hm
  | some b =>
    rw [hb] at hm
    obtain rfl : b = m := by simpa using hm
    obtain ⟨-, h⟩ := base_get hb
    have e1 := h (2, 1) (by unfold OnMap; norm_num)
    have e2 := h (0, 0) (by unfold OnMap; norm_num)
    unfold cell at e1 e2
    norm_num [L0] at e1 e2
    exact ⟨e1, e2⟩

/-! ## C101: simulated occlusion and surrounding -/

/-- **C101**: the simulation of occlusion only replaces values by unknown, and only behind an obstacle of the map; behind every obstacle
that can be seen in the result everything is unknown. -/
theorem occluded (w : Nat) (m : List Int) (hl : m.length = w * w) (p : Cell) (hp : OnMap w p) :
    (value w (occlude w m) p = value w m p ∨ value w (occlude w m) p = some (-1)) ∧
    (value w (occlude w m) p ≠ value w m p → ∃ b, OnMap w b ∧ value w m b = some 100 ∧ Blocks w b p) ∧
    ∀ b, OnMap w b → value w (occlude w m) b = some 100 → Blocks w b p → value w (occlude w m) p = some (-1) := by
  have hget := fold_get (behind w) (List.range (w * w)) m (addr w p)
  refine ⟨?_, ?_, ?_⟩
  · rcases hget with h | ⟨h, -⟩
    · exact .inl h
    · exact .inr h
  · intro hne
    rcases hget with h | ⟨-, a, ha, h1, h2⟩
    · exact absurd h hne
    · obtain ⟨b, hb, rfl⟩ := exists_addr (List.mem_range.mp ha)
      exact ⟨b, hb, h1, (mem_behind hb hp).mp h2⟩
  · intro b hb hv hB
    exact fold_hidden (behind w) (List.range (w * w)) m (addr w b) (addr w p) (List.mem_range.mpr (addr_spec hb).2.1)
      ((mem_behind hb hp).mpr hB) (by rw [hl]; exact (addr_spec hp).2.1) hv

/-- The first obstacle on every line stays visible. -/
theorem nearest_visible (w : Nat) (m : List Int) (hl : m.length = w * w) (p : Cell) (hp : OnMap w p)
    (h : ∀ b, OnMap w b → value w m b = some 100 → ¬ Blocks w b p) : value w (occlude w m) p = value w m p := by
  by_contra hne
  obtain ⟨b, hb, h1, h2⟩ := (occluded w m hl p hp).2.1 hne
  exact h b hb h1 h2

/-- **C101**: with simulated surrounding every cell of the ring is an obstacle, or hidden by the simulation of occlusion. -/
theorem ring_is_wall (c : Config) (L : Large) (px py : ℝ) (m : List Int) (h : publish c L px py = some m) (hs : c.surrounded = true)
    (p : Cell) (hp : OnMap c.width p) (hr : InRing c.width p) :
    value c.width m p = some 100 ∨ (c.occlusion = true ∧ value c.width m p = some (-1)) := by
  unfold publish at h
  cases hb : base c L (offset c L.res px L.ox) (offset c L.res py L.oy) with
  | none => rw [hb] at h; cases h
  | some b =>
    rw [hb, Option.map_some] at h
    obtain ⟨hlen, hget⟩ := base_get hb
    have hv : value c.width b p = some 100 := by
      rw [hget p hp]
      unfold cell
      dsimp only
      rw [if_pos ⟨hs, hr.2, hr.1⟩]
    cases ho : c.occlusion with
    | false =>
      rw [ho] at h
      obtain rfl : b = m := by simpa using h
      exact .inl hv
    | true =>
      rw [ho] at h
      obtain rfl : occlude c.width b = m := by simpa using h
      rcases (occluded c.width b hlen p hp).1 with e | e
      · exact .inl (e.trans hv)
      · exact .inr ⟨rfl, e⟩

/-- One step does not cross the ring. -/
theorem step_into_ring (w : Nat) (hw : 4 ≤ w) (a b : Cell) (hab : Adjacent a b) (ha : sqRadius w a < ((w : ℝ) / 2 - 2) ^ 2)
    (hb : ((w : ℝ) / 2 - 2) ^ 2 ≤ sqRadius w b) : InRing w b ∧ OnMap w b := by
  have hw' : (4 : ℝ) ≤ w := by exact_mod_cast hw
  obtain ⟨h1, h2⟩ := hab
  have d1 : |(b.1 : ℝ) - a.1| ≤ 1 := by rw [abs_sub_comm]; exact_mod_cast h1
  have d2 : |(b.2 : ℝ) - a.2| ≤ 1 := by rw [abs_sub_comm]; exact_mod_cast h2
  have hlt : sqRadius w b < ((w : ℝ) / 2) ^ 2 := by
    unfold sqRadius at *
    have e1 : (b.1 : ℝ) - (w : ℝ) / 2 = ((a.1 : ℝ) - (w : ℝ) / 2) + ((b.1 : ℝ) - a.1) := by ring
    have e2 : (b.2 : ℝ) - (w : ℝ) / 2 = ((a.2 : ℝ) - (w : ℝ) / 2) + ((b.2 : ℝ) - a.2) := by ring
    rw [e1, e2]
    generalize (b.1 : ℝ) - a.1 = d at *
    generalize (b.2 : ℝ) - a.2 = e at *
    generalize (a.1 : ℝ) - (w : ℝ) / 2 = x at *
    generalize (a.2 : ℝ) - (w : ℝ) / 2 = y at *
    have hd : d ^ 2 ≤ 1 := by rw [← sq_abs]; nlinarith [abs_nonneg d]
    have he : e ^ 2 ≤ 1 := by rw [← sq_abs]; nlinarith [abs_nonneg e]
    set H : ℝ := (w : ℝ) / 2 - 2 with hH
    have hH0 : 0 ≤ H := by rw [hH]; linarith
    have hcs : (x * d + y * e) ^ 2 ≤ (3 / 2 * H) ^ 2 := by
      have : (x * d + y * e) ^ 2 + (x * e - y * d) ^ 2 = (x ^ 2 + y ^ 2) * (d ^ 2 + e ^ 2) := by ring
      have h0 : 0 ≤ x ^ 2 + y ^ 2 := by positivity
      nlinarith [sq_nonneg (x * e - y * d)]
    have hle := abs_le_of_sq_le_sq hcs (by positivity)
    have : (w : ℝ) / 2 = H + 2 := by rw [hH]; ring
    rw [this]
    nlinarith [(abs_le.mp hle).2]
  refine ⟨⟨hb, hlt.le⟩, ?_⟩
  have key : ∀ v : Int, ((v : ℝ) - (w : ℝ) / 2) ^ 2 < ((w : ℝ) / 2) ^ 2 → 0 ≤ v ∧ v < w := by
    intro v hv
    have := abs_lt_of_sq_lt_sq hv (by positivity)
    rw [abs_lt] at this
    constructor
    · have : ((0 : Int) : ℝ) < (v : ℝ) := by push_cast; linarith
      exact (Int.cast_lt.mp this).le
    · have : (v : ℝ) < ((w : Int) : ℝ) := by push_cast; linarith
      exact Int.cast_lt.mp this
  unfold sqRadius at hlt
  exact ⟨key b.1 (by nlinarith [sq_nonneg ((b.2 : ℝ) - (w : ℝ) / 2)]), key b.2 (by nlinarith [sq_nonneg ((b.1 : ℝ) - (w : ℝ) / 2)])⟩

/-- **C101**: with simulated surrounding there is no way out: every way of steps to neighbours from inside of the ring to its outside (in
particular out of the map) goes through a cell of the ring, which is an obstacle of the local map or hidden. -/
theorem surrounded (c : Config) (hw : 4 ≤ c.width) (L : Large) (px py : ℝ) (m : List Int) (h : publish c L px py = some m)
    (hs : c.surrounded = true) (way : List Cell) (hway : way.IsChain Adjacent) (a z : Cell) (ha : way.head? = some a)
    (hin : sqRadius c.width a < ((c.width : ℝ) / 2 - 2) ^ 2) (hz : z ∈ way) (hout : ((c.width : ℝ) / 2) ^ 2 < sqRadius c.width z) :
    ∃ p ∈ way, OnMap c.width p ∧ (value c.width m p = some 100 ∨ (c.occlusion = true ∧ value c.width m p = some (-1))) := by
  have hw' : (4 : ℝ) ≤ c.width := by exact_mod_cast hw
  have main : ∀ (l : List Cell) (a : Cell), l.IsChain Adjacent → l.head? = some a → sqRadius c.width a < ((c.width : ℝ) / 2 - 2) ^ 2 →
      z ∈ l → ∃ p ∈ l, InRing c.width p ∧ OnMap c.width p := by
    intro l
    induction l with
    | nil => intro a _ _ _ hz; cases hz
    | cons x l ih =>
      intro a hc ha hin hz
      obtain rfl : x = a := by simpa using ha
      rcases List.mem_cons.mp hz with rfl | hz'
      · exfalso; nlinarith
      · cases l with
        | nil => cases hz'
        | cons y l =>
          rw [List.isChain_cons_cons] at hc
          by_cases hy : sqRadius c.width y < ((c.width : ℝ) / 2 - 2) ^ 2
          · obtain ⟨p, hp, h⟩ := ih y hc.2 rfl hy hz'
            exact ⟨p, List.mem_cons_of_mem _ hp, h⟩
          · exact ⟨y, by simp, step_into_ring c.width hw _ _ hc.1 hin (not_lt.mp hy)⟩
  obtain ⟨p, hp, hr, hon⟩ := main way a hway ha hin hz
  exact ⟨p, hp, hon, ring_is_wall c L px py m h hs p hon hr⟩

/-- In a map of eight cells the robot in the middle cannot leave to the right. -/
example : ∃ p ∈ [((4 : Int), (4 : Int)), (5, 4), (6, 4), (7, 4), (8, 4), (9, 4)], OnMap 8 p ∧ ∀ m, publish ⟨8, false, false, true⟩ L0 1 1 = some m →
    value 8 m p = some 100 := by
  refine ⟨(6, 4), by simp, by unfold OnMap; norm_num, fun m hm => ?_⟩
  rcases ring_is_wall _ _ _ _ m hm rfl (6, 4) (by unfold OnMap; norm_num) (by unfold InRing sqRadius; norm_num) with h | h
  · exact h
  · cases h.1

example : ∃ m, publish ⟨8, false, false, true⟩ L0 1 1 = some m ∧ ∃ p ∈ [((4 : Int), (4 : Int)), (5, 4), (6, 4), (7, 4), (8, 4), (9, 4)],
    OnMap 8 p ∧ (value 8 m p = some 100 ∨ (false = true ∧ value 8 m p = some (-1))) := by
  obtain ⟨m, hm⟩ := Option.ne_none_iff_exists'.mp (publish_defined ⟨8, false, false, true⟩ L0 1 1 (by norm_num [L0]))
  refine ⟨m, hm, surrounded ⟨8, false, false, true⟩ (by norm_num) L0 1 1 m hm rfl _ (by simp [Adjacent]) (4, 4) (9, 4) rfl ?_ (by simp) ?_⟩
  · unfold sqRadius; norm_num
  · unfold sqRadius; norm_num

/-! ### Hidden obstacles do not hide

In a map of 8 × 8 cells with obstacles at (5, 1) and (6, 1): the second one is hidden by the first, but not the cell (7, 1) behind it. -/

theorem block_ab : Blocks 8 (5, 1) (6, 1) := by
  refine ⟨by decide, 3, ?_⟩
  have hs : sqRadius 8 (6, 1) = 13 := by unfold sqRadius; norm_num
  rw [hs]
  have h1 : (3.6 : ℝ) < Real.sqrt 13 := by rw [Real.lt_sqrt (by norm_num)]; norm_num
  have h2 : Real.sqrt 13 < 3.7 := by rw [Real.sqrt_lt' (by norm_num)]; norm_num
  have hp : 0 < Real.sqrt 13 := by linarith
  refine ⟨by norm_num; linarith, ?_⟩
  dsimp only
  have f1 : (1 + ((3 : Nat) : ℝ) / 2) / Real.sqrt 13 < 2.5 / 3.6 := by
    rw [div_lt_div_iff₀ hp (by norm_num)]; norm_num; linarith
  have f2 : 2.5 / 3.7 < (1 + ((3 : Nat) : ℝ) / 2) / Real.sqrt 13 := by
    rw [div_lt_div_iff₀ (by norm_num) hp]; norm_num; linarith
  generalize (1 + ((3 : Nat) : ℝ) / 2) / Real.sqrt 13 = f at f1 f2
  norm_num at f1 f2 ⊢
  refine ⟨⟨?_, ?_⟩, ?_, ?_⟩ <;> linarith

theorem block_bc : Blocks 8 (6, 1) (7, 1) := by
  refine ⟨by decide, 4, ?_⟩
  have hs : sqRadius 8 (7, 1) = 18 := by unfold sqRadius; norm_num
  rw [hs]
  have h1 : (4.2 : ℝ) < Real.sqrt 18 := by rw [Real.lt_sqrt (by norm_num)]; norm_num
  have h2 : Real.sqrt 18 < 4.3 := by rw [Real.sqrt_lt' (by norm_num)]; norm_num
  have hp : 0 < Real.sqrt 18 := by linarith
  refine ⟨by norm_num; linarith, ?_⟩
  dsimp only
  have f1 : (1 + ((4 : Nat) : ℝ) / 2) / Real.sqrt 18 < 3 / 4.2 := by
    rw [div_lt_div_iff₀ hp (by norm_num)]; norm_num; linarith
  have f2 : 3 / 4.3 < (1 + ((4 : Nat) : ℝ) / 2) / Real.sqrt 18 := by
    rw [div_lt_div_iff₀ (by norm_num) hp]; norm_num; linarith
  generalize (1 + ((4 : Nat) : ℝ) / 2) / Real.sqrt 18 = f at f1 f2
  norm_num at f1 f2 ⊢
  refine ⟨⟨?_, ?_⟩, ?_, ?_⟩ <;> linarith

theorem not_block_ac : ¬ Blocks 8 (5, 1) (7, 1) := by
  rintro ⟨-, k, -, h⟩
  dsimp only at h
  generalize (1 + (k : ℝ) / 2) / Real.sqrt (sqRadius 8 (7, 1)) = f at h
  norm_num at h
  linarith [h.1.2, h.2.2]

/-- **C101** (what is missing from `occluded`): the cell (7, 1) is behind the obstacle (6, 1) of the map, but as that one is hidden by
(5, 1) before its turn, the cell stays visible. -/
theorem hidden_does_not_hide (m : List Int) (hl : m.length = 8 * 8) (ha : value 8 m (5, 1) = some 100) (hb : value 8 m (6, 1) = some 100)
    (ho : ∀ p, OnMap 8 p → value 8 m p = some 100 → p = (5, 1) ∨ p = (6, 1)) :
    value 8 m (6, 1) = some 100 ∧ Blocks 8 (6, 1) (7, 1) ∧ value 8 (occlude 8 m) (7, 1) = value 8 m (7, 1) := by
  refine ⟨hb, block_bc, ?_⟩
  have on : ∀ x : Int, 0 ≤ x → x < 8 → OnMap 8 (x, 1) := fun x h1 h2 => ⟨⟨h1, h2⟩, by norm_num, by norm_num⟩
  have hB : behind 8 (addr 8 (5, 1)) = behind 8 13 := rfl
  have hr : List.range (8 * 8) = List.range 13 ++ 13 :: 14 :: (List.range 49).map (· + 15) := by decide +kernel
  -- what is passed before address 13, at 13, and after
  have skip : ∀ (as : List Nat) (m : List Int), (∀ a ∈ as, m[a]? ≠ some 100) → as.foldl (hide (behind 8)) m = m := by
    intro as
    induction as with
    | nil => intro m _; rfl
    | cons a as ih =>
      intro m h
      have e : hide (behind 8) m a = m := by
        unfold hide
        rw [if_neg (h a (List.mem_cons_self ..))]
      rw [List.foldl_cons, e]
      exact ih m fun b hb => h b (List.mem_cons_of_mem _ hb)
  have only : ∀ a < 64, m[a]? = some 100 → a = 13 ∨ a = 14 := by
    intro a ha' hv
    obtain ⟨p, hp, rfl⟩ := exists_addr (w := 8) ha'
    rcases ho p hp hv with rfl | rfl
    · exact .inl rfl
    · exact .inr rfl
  unfold occlude
  rw [hr, List.foldl_append, skip (List.range 13) m ?_, List.foldl_cons, List.foldl_cons]
  · have m14 : (hide (behind 8) m 13)[14]? = some (-1) := by
      rw [hide_get, if_pos]
      exact ⟨⟨ha, (mem_behind (w := 8) (b := (5, 1)) (c := (6, 1)) (on 5 (by norm_num) (by norm_num)) (on 6 (by norm_num) (by norm_num))).mpr block_ab⟩, by omega⟩
    have e14 : hide (behind 8) (hide (behind 8) m 13) 14 = hide (behind 8) m 13 := by
      rw [hide, if_neg]
      rw [m14]
      decide
    rw [e14, skip]
    · change (hide (behind 8) m 13)[15]? = m[15]?
      rw [hide_get, if_neg]
      rintro ⟨⟨-, h⟩, -⟩
      exact not_block_ac ((mem_behind (w := 8) (b := (5, 1)) (c := (7, 1)) (on 5 (by norm_num) (by norm_num)) (on 7 (by norm_num) (by norm_num))).mp h)
    · intro a ha' hv
      obtain ⟨i, hi, rfl⟩ := List.mem_map.mp ha'
      have hi := List.mem_range.mp hi
      have : m[i + 15]? = some 100 := by
        rw [hide_get] at hv
        split at hv
        · cases hv
        · exact hv
      rcases only (i + 15) (by omega) this with h | h <;> omega
  · intro a ha' hv
    have := List.mem_range.mp ha'
    rcases only a (by omega) hv with h | h <;> omega

/-- Such a map exists. -/
example : ∃ m : List Int, m.length = 8 * 8 ∧ value 8 m (5, 1) = some 100 ∧ value 8 m (6, 1) = some 100 ∧
    ∀ p, OnMap 8 p → value 8 m p = some 100 → p = (5, 1) ∨ p = (6, 1) := by
  refine ⟨((List.replicate 64 0).set 13 100).set 14 100, by simp, rfl, rfl, ?_⟩
  intro p hp hv
  change (((List.replicate 64 0).set 13 100).set 14 100)[addr 8 p]? = _ at hv
  by_cases h1 : addr 8 p = 13
  · exact .inl (addr_inj hp (b := (5, 1)) (by unfold OnMap; norm_num) h1)
  by_cases h2 : addr 8 p = 14
  · exact .inr (addr_inj hp (b := (6, 1)) (by unfold OnMap; norm_num) h2)
  rw [List.getElem?_set_ne (fun h => h2 h.symm), List.getElem?_set_ne (fun h => h1 h.symm), List.getElem?_replicate] at hv
  split at hv <;> cases hv

end Verif.LargeMap
