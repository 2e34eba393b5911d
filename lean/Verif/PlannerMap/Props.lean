import Verif.PlannerMap.Lemmas
/-! # C17: the planner's costmap is the base map plus the last accepted update -/
namespace Verif.PlannerMap
open Verif.GridMetric (Cell)

section helpers

theorem index_lt (w h a px py pa : Nat) (h1 : px < w) (h2 : py < h) (h3 : pa < a) :
    (pa * h + py) * w + px < w * h * a := by
  have e1 : pa * h + py + 1 ≤ a * h := by
    have : (pa + 1) * h ≤ a * h := Nat.mul_le_mul_right h h3
    rw [Nat.succ_mul] at this; omega
  have e2 : (pa * h + py + 1) * w ≤ a * h * w := Nat.mul_le_mul_right w e1
  rw [Nat.succ_mul] at e2
  have e3 : a * h * w = w * h * a := by ring
  omega

theorem val_at (u : Update) (hu : Small u) (c : Cell) (hc : Covers u c) :
    val u (c.x - u.x).toNat (c.y - u.y).toNat (c.yaw - u.yaw).toNat = u.at c := by
  obtain ⟨⟨h1, h2⟩, ⟨h3, h4⟩, ⟨h5, h6⟩⟩ := hc
  have hlt := index_lt u.width u.height u.angle (c.x - u.x).toNat (c.y - u.y).toNat (c.yaw - u.yaw).toNat
    (by omega) (by omega) (by omega)
  have hs := hu.2.2.2
  unfold val dataAt Update.at
  rw [Nat.mod_eq_of_lt (lt_trans hlt hs)]
  have e : ((((c.yaw - u.yaw) * u.height + (c.y - u.y)) * u.width + (c.x - u.x)) : Int)
      = ((((c.yaw - u.yaw).toNat * u.height + (c.y - u.y).toNat) * u.width + (c.x - u.x).toNat : Nat) : Int) := by
    push_cast
    rw [Int.toNat_of_nonneg (by omega), Int.toNat_of_nonneg (by omega), Int.toNat_of_nonneg (by omega)]
  rw [e, Int.toNat_natCast, List.getD_eq_getElem?_getD]

theorem colMin_eq (u : Update) (hu : Small u) (x y : Int) (hx : (u.x : Int) ≤ x ∧ x < (u.x : Int) + u.width)
    (hy : (u.y : Int) ≤ y ∧ y < (u.y : Int) + u.height) :
    colMin u (x - u.x).toNat (y - u.y).toNat = least 100 u.angle fun k => u.at ⟨x, y, (u.yaw : Int) + k⟩ := by
  unfold colMin least
  rw [upTo_small u.angle (by have := hu.2.2.1; omega)]
  apply List.foldl_ext
  intro m k hk
  have hk := List.mem_range.mp hk
  have := val_at u hu ⟨x, y, (u.yaw : Int) + k⟩ ⟨hx, hy, by simp only; omega, by simp only; omega⟩
  dsimp only at this ⊢
  rw [← this, show ((u.yaw : Int) + k - u.yaw).toNat = k by omega]

theorem fits_iff (s : St) (m : BaseMap) (hw : s.width = m.width) (hh : s.height = m.height) (ha : s.angle = m.angle)
    (u : Update) (hu : Small u) : ¬ outOfRange s u ↔ Fits m u := by
  obtain ⟨h1, h2, -, -⟩ := hu
  unfold outOfRange lastIndex Fits
  rw [i32_small _ h1, i32_small _ h2, hw, hh, ha]
  omega

theorem rough_eq (unk : Int) (m : BaseMap) (x y : Int) :
    roughCell unk m ⟨x, y, 0⟩ = least 100 m.angle fun k => m.at unk ⟨x, y, k⟩ := by
  unfold roughCell least
  apply List.foldl_ext
  intro b k _
  change (if m.at unk ⟨x, y, k⟩ < b then m.at unk ⟨x, y, k⟩ else b) = min b (m.at unk ⟨x, y, k⟩)
  by_cases hlt : m.at unk ⟨x, y, k⟩ < b
  · rw [if_pos hlt, min_eq_right (le_of_lt hlt)]
  · rw [if_neg hlt, min_eq_left (not_lt.mp hlt)]

/-- What holds after a history that leaves `p` behind. -/
structure Inv (unk : Int) (p : Past) (s : St) : Prop where
  early : s.retained = p.early
  small : ∀ u, p.early = some u → Small u
  nomap : p.base = none → s.hasMap = false ∧ p.early = none
  has : ∀ m, p.base = some m → s.hasMap = true ∧ s.width = m.width ∧ s.height = m.height ∧ s.angle = m.angle
  base : ∀ m, p.base = some m → s.base = m.at unk ∧ s.roughBase = roughCell unk m
  cm : ∀ m, p.base = some m → ∀ c, InMap m.width m.height m.angle c → s.cm c = expected unk m p.last c
  rough : ∀ m, p.base = some m → ∀ x y, InMap m.width m.height 1 ⟨x, y, 0⟩ →
    s.rough ⟨x, y, 0⟩ = expectedRough unk m p.last x y
  told : ∀ m, p.base = some m → ∀ x y, InMap m.width m.height 1 ⟨x, y, 0⟩ → Told p.last x y (s.updates ⟨x, y, 0⟩)
  boxed : ∀ m, p.base = some m → ∀ o u x y, p.last = some (o, u) → InMap m.width m.height 1 ⟨x, y, 0⟩ → CoversColumn u x y →
    (⟨x, y, 0⟩ : Cell) ∈ box s.pxMin s.pxMax s.pyMin s.pyMax 0 0
  out : ∀ m, p.base = some m → ∀ c, InMap m.width m.height m.angle c →
    c ∉ box s.pxMin s.pxMax s.pyMin s.pyMax 0 ((m.angle : Int) - 1) → s.cm c = m.at unk c
  outRough : ∀ m, p.base = some m → ∀ x y, InMap m.width m.height 1 ⟨x, y, 0⟩ →
    (⟨x, y, 0⟩ : Cell) ∉ box s.pxMin s.pxMax s.pyMin s.pyMax 0 0 → s.rough ⟨x, y, 0⟩ = roughCell unk m ⟨x, y, 0⟩
  rect : ∀ m, p.base = some m → 0 ≤ s.pxMin ∧ 0 ≤ s.pyMin ∧ (0 < m.width → s.pxMax < m.width) ∧
    (0 < m.height → s.pyMax < m.height)

theorem inv_init (unk : Int) : Inv unk ⟨none, none, none⟩ init :=
  { early := rfl, small := (fun u h => by cases h), nomap := fun _ => ⟨rfl, rfl⟩, has := (fun m h => by cases h),
    base := (fun m h => by cases h), cm := (fun m h => by cases h), rough := (fun m h => by cases h),
    told := (fun m h => by cases h), boxed := (fun m h => by cases h), out := (fun m h => by cases h), outRough := (fun m h => by cases h), rect := (fun m h => by cases h) }

theorem combine_overlay (base : Cell → Int) (o : Bool) (u : Update) (c : Cell) (hc : Covers u c) :
    combine o (base c) (u.at c) = overlay base o u c := by
  unfold combine overlay; rw [if_pos hc]

/-- An accepted update leads to the overlay. -/
theorem inv_accept (unk : Int) (p : Past) (s s' : St) (o : Bool) (u : Update) (m : BaseMap) (hi : Inv unk p s)
    (hm : p.base = some m) (hu : Small u) (hf : Fits m u) (h : applyUpdate o s u = some s') :
    Inv unk ⟨some m, some (o, u), none⟩ s' := by
  obtain ⟨hhas, hw, hh, ha⟩ := hi.has m hm
  have hnot : ¬ outOfRange s u := (fits_iff s m hw hh ha u hu).mpr hf
  unfold applyUpdate at h
  rw [if_neg hnot, Option.bind_eq_some_iff] at h
  obtain ⟨m0, hm0, h⟩ := h
  rw [Option.map_eq_some_iff] at h
  obtain ⟨m1, hm1, rfl⟩ := h
  unfold restore at hm0
  rw [Option.bind_eq_some_iff] at hm0
  obtain ⟨cm0, hcm0, hm0⟩ := hm0
  rw [Option.bind_eq_some_iff] at hm0
  obtain ⟨ro0, hro0, hm0⟩ := hm0
  rw [Option.map_eq_some_iff] at hm0
  obtain ⟨up0, hup0, rfl⟩ := hm0
  have r1 := foldlM_write _ _ _ _ _ _ _ hcm0
  have r2 := foldlM_write _ _ _ _ _ _ _ hro0
  have r3 := foldlM_write _ _ _ _ _ _ _ hup0
  obtain ⟨t1, t2, t3⟩ := cells_some s.width s.height s.angle o u (cellsOf u) (nodup_cellsOf u) _ _ hm1
  dsimp only at t1 t2 t3
  obtain ⟨hu1, hu2, hu3, hu4⟩ := hu
  have hu : Small u := ⟨hu1, hu2, hu3, hu4⟩
  have ix : i32 u.x = u.x := i32_small _ (by omega)
  have iy : i32 u.y = u.y := i32_small _ (by omega)
  have iz : i32 u.yaw = u.yaw := i32_small _ (by omega)
  obtain ⟨hbase, hrb⟩ := hi.base m hm
  have c0 : ∀ c, InMap m.width m.height m.angle c → cm0 c = m.at unk c := by
    intro c hc
    rw [r1 c, hbase]
    split
    · rfl
    · rename_i hout
      rw [ha] at hout
      exact hi.out m hm c hc hout
  have q0 : ∀ x y, InMap m.width m.height 1 ⟨x, y, 0⟩ → ro0 ⟨x, y, 0⟩ = roughCell unk m ⟨x, y, 0⟩ := by
    intro x y hc
    rw [r2 _, hrb]
    split
    · rfl
    · rename_i hout
      exact hi.outRough m hm x y hc hout
  have cov : ∀ c : Cell, (i32 u.x ≤ c.x ∧ i32 u.y ≤ c.y ∧ i32 u.yaw ≤ c.yaw ∧
      ((c.x - i32 u.x).toNat, (c.y - i32 u.y).toNat) ∈ cellsOf u ∧ (c.yaw - i32 u.yaw).toNat ∈ upTo u.angle) ↔ Covers u c := by
    intro c
    rw [mem_cellsOf u hu, upTo_small u.angle (by omega), List.mem_range, ix, iy, iz]
    unfold Covers
    simp only
    omega
  have cov2 : ∀ x y : Int, (i32 u.x ≤ x ∧ i32 u.y ≤ y ∧ ((x - i32 u.x).toNat, (y - i32 u.y).toNat) ∈ cellsOf u) ↔
      ((u.x : Int) ≤ x ∧ x < (u.x : Int) + u.width ∧ (u.y : Int) ≤ y ∧ y < (u.y : Int) + u.height) := by
    intro x y
    rw [mem_cellsOf u hu, ix, iy]
    simp only
    omega
  have lx : lastIndex u.x u.width = max ((u.x : Int) + u.width - 1) 0 := by
    unfold lastIndex; rw [i32_small _ hu1]; push_cast; rfl
  have ly : lastIndex u.y u.height = max ((u.y : Int) + u.height - 1) 0 := by
    unfold lastIndex; rw [i32_small _ hu2]; push_cast; rfl
  have hcm : ∀ c, InMap m.width m.height m.angle c → m1.cm c = overlay (m.at unk) o u c := by
    intro c hc
    rw [t1 c]
    by_cases hcov : Covers u c
    · rw [if_pos ((cov c).mpr hcov), c0 c hc, ix, iy, iz, val_at u hu c hcov, combine_overlay _ _ _ _ hcov]
    · rw [if_neg (fun h => hcov ((cov c).mp h)), c0 c hc]
      unfold overlay; rw [if_neg hcov]
  have hro : ∀ x y, InMap m.width m.height 1 ⟨x, y, 0⟩ → m1.rough ⟨x, y, 0⟩ = expectedRough unk m (some (o, u)) x y := by
    intro x y hc
    rw [t2 ⟨x, y, 0⟩ rfl]
    unfold expectedRough
    simp only [cov2 x y]
    split
    · rename_i hcv
      rw [q0 x y hc, rough_eq, ix, iy, colMin_eq u hu x y ⟨hcv.1, hcv.2.1⟩ ⟨hcv.2.2.1, hcv.2.2.2⟩]
    · rw [q0 x y hc, rough_eq]
  refine { early := rfl, small := (fun u h => by cases h), nomap := (fun h => by cases h), has := ?_, base := ?_, cm := ?_,
           rough := ?_, told := ?_, boxed := ?_, out := ?_, outRough := ?_, rect := ?_ }
  · intro m' h'; cases h'; exact ⟨hhas, hw, hh, ha⟩
  · intro m' h'; cases h'; exact ⟨hbase, hrb⟩
  · intro m' h' c hc; cases h'; exact hcm c hc
  · intro m' h' x y hc; cases h'; exact hro x y hc
  · intro m' h' x y hc
    cases h'
    show Told (some (o, u)) x y (m1.updates ⟨x, y, 0⟩)
    rw [t3 ⟨x, y, 0⟩ rfl]
    unfold Told
    by_cases hcv : CoversColumn u x y
    · obtain ⟨⟨a1, a2⟩, ⟨a3, a4⟩⟩ := hcv
      rw [if_pos ((cov2 x y).mpr ⟨a1, a2, a3, a4⟩)]
      simp only
      rw [if_pos ⟨⟨a1, a2⟩, ⟨a3, a4⟩⟩, ix, iy, colMin_eq u hu x y ⟨a1, a2⟩ ⟨a3, a4⟩]
    · rw [if_neg (fun hh => hcv ⟨⟨((cov2 x y).mp hh).1, ((cov2 x y).mp hh).2.1⟩, ((cov2 x y).mp hh).2.2⟩)]
      simp only
      rw [if_neg hcv, r3]
      split
      · exact .inr rfl
      · rename_i hout
        have hold := hi.told m hm x y hc
        unfold Told at hold
        cases hl : p.last with
        | none => rw [hl] at hold; exact .inl hold
        | some l =>
          obtain ⟨o', u'⟩ := l
          rw [hl] at hold
          simp only at hold
          rw [if_neg (fun hh => hout (hi.boxed m hm o' u' x y hl hc hh))] at hold
          exact hold
  · intro m' h' o' u' x y hl hc hcv
    cases h'
    cases hl
    rw [mem_box, ix, iy, lx, ly]
    obtain ⟨⟨a1, a2⟩, ⟨a3, a4⟩⟩ := hcv
    exact ⟨⟨a1, by simp only; omega⟩, ⟨a3, by simp only; omega⟩, by simp⟩
  · intro m' h' c hc hout
    cases h'
    simp only at hout ⊢
    rw [hcm c hc]
    unfold overlay
    rw [if_neg]
    intro hcov
    apply hout
    rw [mem_box, ix, iy, lx, ly]
    obtain ⟨⟨a1, a2⟩, ⟨a3, a4⟩, -⟩ := hcov
    obtain ⟨-, -, ⟨a5, a6⟩⟩ := hc
    exact ⟨⟨a1, by omega⟩, ⟨a3, by omega⟩, ⟨a5, by omega⟩⟩
  · intro m' h' x y hc hout
    cases h'
    simp only at hout ⊢
    rw [t2 ⟨x, y, 0⟩ rfl, if_neg, q0 x y hc]
    intro hcov
    obtain ⟨a1, a2, a3, a4⟩ := (cov2 x y).mp hcov
    apply hout
    rw [mem_box, ix, iy, lx, ly]
    exact ⟨⟨a1, by simp only; omega⟩, ⟨a3, by simp only; omega⟩, by simp⟩
  · intro m' h'
    cases h'
    obtain ⟨f1, f2, f3, f4, -⟩ := hf
    simp only [ix, iy, lx, ly]
    refine ⟨by omega, by omega, fun _ => by omega, fun _ => by omega⟩

theorem inv_reject (unk : Int) (p : Past) (s : St) (u : Update) (hi : Inv unk p s) (hu : Small u) (hb : p.base ≠ none) :
    Inv unk ⟨p.base, p.last, some u⟩ { s with retained := some u } :=
  { early := rfl
    small := (fun u' h => by cases h; exact hu)
    nomap := fun h => absurd h hb
    has := hi.has, base := hi.base, cm := hi.cm, rough := hi.rough, told := hi.told, boxed := hi.boxed, out := hi.out, outRough := hi.outRough, rect := hi.rect }

theorem inv_update (unk : Int) (p : Past) (s s' : St) (o : Bool) (u : Update) (hi : Inv unk p s) (hu : Small u)
    (h : cbMapUpdate o s u = some s') : Inv unk (past1 p (.update o u)) s' := by
  unfold cbMapUpdate at h
  unfold past1
  cases hb : p.base with
  | none =>
    rw [(hi.nomap hb).1] at h
    simp only [Bool.false_eq_true, if_false] at h
    cases h
    exact hi
  | some m =>
    obtain ⟨hhas, hw, hh, ha⟩ := hi.has m hb
    rw [hhas] at h
    simp only [if_true] at h
    simp only
    by_cases hf : Fits m u
    · rw [if_pos hf]
      exact inv_accept unk p s s' o u m hi hb hu hf h
    · rw [if_neg hf]
      have hout : outOfRange s u := by
        by_contra hn
        exact hf ((fits_iff s m hw hh ha u hu).mp hn)
      unfold applyUpdate at h
      rw [if_pos hout] at h
      cases h
      have := inv_reject unk p s u hi hu (by rw [hb]; exact Option.some_ne_none m)
      rwa [hb] at this

theorem inv_load (unk : Int) (p : Past) (s s' : St) (m : BaseMap) (hi : Inv unk p s) (h : loadMap unk s m = some s') :
    Inv unk ⟨some m, none, p.early⟩ s' := by
  unfold loadMap at h
  split at h
  · cases h
  cases h
  refine { early := hi.early, small := hi.small, nomap := (fun h => by cases h), has := ?_, base := ?_, cm := ?_, rough := ?_,
           told := (fun m' h' x y _ => by cases h'; rfl), boxed := (fun m' h' o u x y hl => by cases hl), out := ?_, outRough := ?_, rect := ?_ }
  · intro m' h'; cases h'; exact ⟨rfl, rfl, rfl, rfl⟩
  · intro m' h'; cases h'; exact ⟨rfl, rfl⟩
  · intro m' h' c _; cases h'; rfl
  · intro m' h' x y _; cases h'; exact rough_eq unk m x y
  · intro m' h' c _ _; cases h'; rfl
  · intro m' h' x y _ _; cases h'; rfl
  · intro m' h'
    cases h'
    simp only
    refine ⟨by omega, by omega, fun _ => by omega, fun _ => by omega⟩

theorem inv_drop (unk : Int) (b : BaseMap) (l : Option (Bool × Update)) (e : Option Update) (s : St)
    (hi : Inv unk ⟨some b, l, e⟩ s) : Inv unk ⟨some b, l, none⟩ { s with retained := none } :=
  { early := rfl, small := (fun u h => by cases h), nomap := (fun h => by cases h),
    has := hi.has, base := hi.base, cm := hi.cm, rough := hi.rough, told := hi.told, boxed := hi.boxed, out := hi.out, outRough := hi.outRough, rect := hi.rect }

theorem inv_map (unk : Int) (p : Past) (s s' : St) (o : Bool) (m : BaseMap) (hi : Inv unk p s)
    (h : cbMap o unk s m = some s') : Inv unk (past1 p (.map o m)) s' := by
  unfold cbMap at h
  rw [Option.bind_eq_some_iff] at h
  obtain ⟨s1, h1, h⟩ := h
  have hi1 := inv_load unk p s s1 m hi h1
  unfold past1
  cases he : p.early with
  | none =>
    have hr : s1.retained = none := hi1.early.trans he
    rw [hr] at h
    simp only at h ⊢
    cases h
    rw [he] at hi1
    exact hi1
  | some u =>
    have hr : s1.retained = some u := hi1.early.trans he
    rw [hr] at h
    simp only at h ⊢
    have hus : Small u := hi.small u he
    split at h
    · rename_i hst
      rw [Option.map_eq_some_iff] at h
      obtain ⟨s2, h2, rfl⟩ := h
      have hi2 := inv_update unk _ s1 s2 o u hi1 hus h2
      unfold past1 at hi2
      simp only at hi2
      by_cases hf : Fits m u
      · rw [if_pos ⟨hst, hf⟩]
        rw [if_pos hf] at hi2
        exact inv_drop unk m _ _ s2 hi2
      · rw [if_neg (fun hh => hf hh.2)]
        rw [if_neg hf] at hi2
        exact inv_drop unk m _ _ s2 hi2
    · rename_i hst
      cases h
      rw [if_neg (fun hh => hst hh.1)]
      exact inv_drop unk m _ _ s1 hi1

theorem inv_run (unk : Int) : ∀ (h : List Event) (p : Past) (s s' : St), AllSmall h → Inv unk p s →
    h.foldlM (step unk) s = some s' → Inv unk (h.foldl past1 p) s' := by
  intro h
  induction h with
  | nil => intro p s s' _ hi hr; simp only [List.foldlM_nil] at hr; cases hr; exact hi
  | cons e h ih =>
    intro p s s' hs hi hr
    rw [List.foldlM_cons] at hr
    cases hst : step unk s e with
    | none => rw [hst] at hr; cases hr
    | some s1 =>
      rw [hst] at hr
      rw [List.foldl_cons]
      refine ih _ s1 s' (fun o u hm => hs o u (List.mem_cons_of_mem _ hm)) ?_ hr
      cases e with
      | map o m => exact inv_map unk p s s1 o m hi hst
      | update o u => exact inv_update unk p s s1 o u hi (hs o u (List.mem_cons_self ..)) hst

end helpers

/-- **C17**.  After any history of base maps and updates, in any order and any mode, every cell of the costmap used for planning has
the value of the current base map with the last accepted update applied to it: nothing of earlier updates is left, and updates
that do not fit leave no trace. -/
theorem costmap_is_base_with_last_update (unk : Int) (h : List Event) (hs : AllSmall h) (s : St)
    (hr : run unk h = some s) (m : BaseMap) (hm : (past h).base = some m) (c : Cell)
    (hc : InMap m.width m.height m.angle c) : s.cm c = expected unk m (past h).last c :=
  (inv_run unk h _ _ s hs (inv_init unk) hr).cm m hm c hc

/-- **C17** for the heading-independent costmap. -/
theorem rough_costmap_is_base_with_last_update (unk : Int) (h : List Event) (hs : AllSmall h) (s : St)
    (hr : run unk h = some s) (m : BaseMap) (hm : (past h).base = some m) (x y : Int)
    (hc : InMap m.width m.height 1 ⟨x, y, 0⟩) : s.rough ⟨x, y, 0⟩ = expectedRough unk m (past h).last x y :=
  (inv_run unk h _ _ s hs (inv_init unk) hr).rough m hm x y hc

/-- **C17** for the map handed to the obstacle memory: where the last accepted update covers the map it is that update's least cost
over the headings; elsewhere it is 0 or -1. -/
theorem memory_input_is_last_update (unk : Int) (h : List Event) (hs : AllSmall h) (s : St)
    (hr : run unk h = some s) (m : BaseMap) (hm : (past h).base = some m) (x y : Int)
    (hc : InMap m.width m.height 1 ⟨x, y, 0⟩) : Told (past h).last x y (s.updates ⟨x, y, 0⟩) :=
  (inv_run unk h _ _ s hs (inv_init unk) hr).told m hm x y hc

/-- **C17** (history independence): histories that end with the same base map and the same last accepted update end with the
same costmaps. -/
theorem costmap_history_independent (unk : Int) (h1 h2 : List Event) (hs1 : AllSmall h1) (hs2 : AllSmall h2) (s1 s2 : St)
    (hr1 : run unk h1 = some s1) (hr2 : run unk h2 = some s2) (m : BaseMap) (hm1 : (past h1).base = some m)
    (hm2 : (past h2).base = some m) (hl : (past h1).last = (past h2).last) (c : Cell)
    (hc : InMap m.width m.height m.angle c) : s1.cm c = s2.cm c := by
  rw [costmap_is_base_with_last_update unk h1 hs1 s1 hr1 m hm1 c hc,
    costmap_is_base_with_last_update unk h2 hs2 s2 hr2 m hm2 c hc, hl]

/-- **C17** (rejected updates): an update that does not fit the map changes neither costmap. -/
theorem rejected_update_changes_nothing (unk : Int) (h : List Event) (hs : AllSmall h) (o : Bool) (u : Update)
    (hu : Small u) (s s' : St) (hr : run unk h = some s) (m : BaseMap) (hm : (past h).base = some m) (hf : ¬ Fits m u)
    (hst : step unk s (.update o u) = some s') : s'.cm = s.cm ∧ s'.rough = s.rough := by
  have hi := inv_run unk h _ _ s hs (inv_init unk) hr
  obtain ⟨hhas, hw, hh, ha⟩ := hi.has m hm
  have hout : outOfRange s u := by
    by_contra hn
    exact hf ((fits_iff s m hw hh ha u hu).mp hn)
  unfold step cbMapUpdate applyUpdate at hst
  simp only [hhas, if_true, if_pos hout] at hst
  cases hst
  exact ⟨rfl, rfl⟩

/-- A message with all its data, starting at heading 0. -/
def Complete : Event → Prop
  | .map _ m => m.width * m.height * m.angle ≤ m.data.length
  | .update _ u => u.yaw = 0 ∧ u.width * u.height * u.angle ≤ u.data.length

section helpers

theorem apply_ok (unk : Int) (p : Past) (s : St) (o : Bool) (u : Update) (m : BaseMap) (hi : Inv unk p s)
    (hm : p.base = some m) (hu : Small u) (hd : u.yaw = 0 ∧ u.width * u.height * u.angle ≤ u.data.length) :
    ∃ s', applyUpdate o s u = some s' := by
  obtain ⟨hhas, hw, hh, ha⟩ := hi.has m hm
  unfold applyUpdate
  by_cases hout : outOfRange s u
  · rw [if_pos hout]; exact ⟨_, rfl⟩
  rw [if_neg hout]
  obtain ⟨f1, f2, f3, f4, f5⟩ := (fits_iff s m hw hh ha u hu).mp hout
  obtain ⟨b1, b2, b3, b4⟩ := hi.rect m hm
  have b3 := b3 f1
  have b4 := b4 f2
  obtain ⟨cm0, h1⟩ := foldlM_write_ok s.width s.height s.angle s.base
    (box s.pxMin s.pxMax s.pyMin s.pyMax 0 ((s.angle : Int) - 1)) s.cm (by
      intro q hq
      rw [mem_box] at hq
      rw [hw, hh, ha] at *
      exact ⟨by omega, by omega, by omega⟩)
  have hb2 : ∀ q ∈ box s.pxMin s.pxMax s.pyMin s.pyMax 0 0, InMap s.width s.height 1 q := by
    intro q hq
    rw [mem_box] at hq
    rw [hw, hh]
    exact ⟨by omega, by omega, by omega⟩
  obtain ⟨ro0, h2⟩ := foldlM_write_ok s.width s.height 1 s.roughBase _ s.rough hb2
  obtain ⟨up0, h3⟩ := foldlM_write_ok s.width s.height 1 (fun _ => -1) _ s.updates hb2
  have hrest : restore s = some ⟨cm0, ro0, up0⟩ := by
    unfold restore copyPartially clearPartially
    simp only
    rw [h1]
    simp only [Option.bind_some]
    rw [h2]
    simp only [Option.bind_some]
    rw [h3]
    rfl
  rw [hrest]
  simp only [Option.bind_some]
  obtain ⟨m1, hm1⟩ := cells_ok s.width s.height s.angle o u (cellsOf u) ⟨cm0, ro0, up0⟩ (by
    intro q hq
    obtain ⟨hq1, hq2⟩ := (mem_cellsOf u hu q).mp hq
    obtain ⟨hu1, hu2, hu3, hu4⟩ := hu
    have ix : i32 u.x = u.x := i32_small _ (by omega)
    have iy : i32 u.y = u.y := i32_small _ (by omega)
    have iz : i32 u.yaw = u.yaw := i32_small _ (by omega)
    refine ⟨fun pa hpa => ?_, ?_⟩
    · rw [upTo_small u.angle (by omega), List.mem_range] at hpa
      have hlt := index_lt u.width u.height u.angle q.1 q.2 pa hq1 hq2 hpa
      refine ⟨⟨u.data[(pa * u.height + q.2) * u.width + q.1]'(by omega), ?_⟩, ?_⟩
      · unfold dataAt
        rw [Nat.mod_eq_of_lt (by omega)]
        exact List.getElem?_eq_getElem _
      · unfold target InMap
        rw [ix, iy, iz, hw, hh, ha]
        simp only
        obtain ⟨hy0, -⟩ := hd
        omega
    · unfold InMap
      rw [ix, iy, hw, hh]
      simp only
      omega)
  rw [hm1]
  exact ⟨_, rfl⟩

end helpers

/-- **C17** (no undefined behaviour): a history of complete messages is processed without any access outside the maps. -/
theorem complete_messages_defined (unk : Int) (h : List Event) (hs : AllSmall h) (hc : ∀ e ∈ h, Complete e) :
    ∃ s, run unk h = some s := by
  have key : ∀ (h : List Event) (p : Past) (s : St), AllSmall h → (∀ e ∈ h, Complete e) → Inv unk p s →
      (∀ u, p.early = some u → Complete (.update false u)) → ∃ s', h.foldlM (step unk) s = some s' := by
    intro h
    induction h with
    | nil => intro p s _ _ _ _; exact ⟨s, rfl⟩
    | cons e h ih =>
      intro p s hs hc hi hearly
      have hce := hc e (List.mem_cons_self ..)
      have hs' : AllSmall h := fun o u hm => hs o u (List.mem_cons_of_mem _ hm)
      have hc' : ∀ e ∈ h, Complete e := fun e' he' => hc e' (List.mem_cons_of_mem _ he')
      have hstep : ∃ s1, step unk s e = some s1 := by
        cases e with
        | update o u =>
          change ∃ s1, cbMapUpdate o s u = some s1
          unfold cbMapUpdate
          cases hb : p.base with
          | none => rw [(hi.nomap hb).1]; exact ⟨s, rfl⟩
          | some m =>
            rw [(hi.has m hb).1]
            simp only [if_true]
            exact apply_ok unk p s o u m hi hb (hs o u (List.mem_cons_self ..)) hce
        | map o m =>
          change ∃ s1, cbMap o unk s m = some s1
          have hld : ∃ s1, loadMap unk s m = some s1 := by
            unfold loadMap
            rw [if_neg (not_lt.mpr hce)]; exact ⟨_, rfl⟩
          obtain ⟨s1, h1⟩ := hld
          have hi1 := inv_load unk p s s1 m hi h1
          unfold cbMap
          rw [h1]
          simp only [Option.bind_some]
          cases hr : s1.retained with
          | none => exact ⟨_, rfl⟩
          | some u =>
            simp only
            split
            · have hpe : p.early = some u := hi1.early.symm.trans hr
              obtain ⟨s2, h2⟩ := apply_ok unk _ s1 o u m hi1 rfl (hi.small u hpe) (hearly u hpe)
              unfold cbMapUpdate
              rw [(hi1.has m rfl).1]
              simp only [if_true]
              rw [h2]
              exact ⟨_, rfl⟩
            · exact ⟨_, rfl⟩
      obtain ⟨s1, h1⟩ := hstep
      have hi1 : Inv unk (past1 p e) s1 := by
        cases e with
        | map o m => exact inv_map unk p s s1 o m hi h1
        | update o u => exact inv_update unk p s s1 o u hi (hs o u (List.mem_cons_self ..)) h1
      obtain ⟨s', h2⟩ := ih (past1 p e) s1 hs' hc' hi1 (by
        intro u hu
        cases e with
        | map o m =>
          unfold past1 at hu
          cases he : p.early with
          | none => rw [he] at hu; cases hu
          | some u0 =>
            rw [he] at hu
            simp only at hu
            split at hu <;> cases hu
        | update o u0 =>
          unfold past1 at hu
          cases hb : p.base with
          | none => rw [hb] at hu; exact hearly u hu
          | some m =>
            rw [hb] at hu
            simp only at hu
            split at hu
            · cases hu
            · cases hu; exact hce)
      exact ⟨s', by rw [List.foldlM_cons, h1]; exact h2⟩
  exact key h ⟨none, none, none⟩ init hs hc (inv_init unk) (fun u hu => by cases hu)

/-! ### Examples and limits -/

/-- A 2 × 1 map with one heading: free, unknown. -/
def exMap : BaseMap := ⟨0, 2, 1, 1, [0, -1]⟩

/-- Updates of the first and the second cell. -/
def exU0 : Update := ⟨1, 0, 0, 0, 1, 1, 1, [70]⟩
def exU1 : Update := ⟨2, 1, 0, 0, 1, 1, 1, [30]⟩

/-- A history that meets the hypotheses of all theorems above. -/
def exHist : List Event := [.map false exMap, .update false exU0, .update false ⟨1, 1, 0, 0, 2, 1, 1, [1, 1]⟩, .update false exU1]

example : AllSmall exHist := by
  intro o u h
  simp only [exHist, List.mem_cons, Event.update.injEq, List.not_mem_nil, or_false, reduceCtorEq, false_or] at h
  rcases h with ⟨-, rfl⟩ | ⟨-, rfl⟩ | ⟨-, rfl⟩ <;> (unfold Small; decide)

example : ∀ e ∈ exHist, Complete e := by
  intro e h
  simp only [exHist, List.mem_cons, List.not_mem_nil, or_false] at h
  rcases h with rfl | rfl | rfl | rfl <;> (unfold Complete; decide)

example : (run 100 exHist).map (fun s => (s.cm ⟨0, 0, 0⟩, s.cm ⟨1, 0, 0⟩)) = some (0, 100) := by decide
example : (run 50 [.map false exMap, .update false exU0]).map (fun s => (s.cm ⟨0, 0, 0⟩, s.cm ⟨1, 0, 0⟩)) = some (70, 50) := by
  decide
example : (past exHist).last.map (fun l => l.2.x) = some 1 := by decide

/-- The map handed to the obstacle memory is not a function of base map and last update: a cell outside the last update reads 0
(observed free) if no update ever covered it, and -1 (not observed) if an earlier one did. -/
theorem memory_input_depends_on_history :
    (past [.map false exMap, .update false exU1]) = past [.map false exMap, .update false exU0, .update false exU1] ∧
    (run 100 [.map false exMap, .update false exU1]).map (fun s => s.updates ⟨0, 0, 0⟩) = some 0 ∧
    (run 100 [.map false exMap, .update false exU0, .update false exU1]).map (fun s => s.updates ⟨0, 0, 0⟩) = some (-1) :=
  ⟨rfl, by decide, by decide⟩

/-- The heading offset of an update is not checked: an update of one heading starting at heading 1 of a map with one heading
passes the check and is written outside the map. -/
theorem heading_offset_undefined :
    ∃ s, run 100 [.map false exMap] = some s ∧
      ¬ outOfRange s ⟨1, 0, 0, 1, 1, 1, 1, [70]⟩ ∧ step 100 s (.update false ⟨1, 0, 0, 1, 1, 1, 1, [70]⟩) = none := by
  refine ⟨_, rfl, by decide, by decide⟩

/-- The range check computes the end of the rectangle with wrap-around: an update at column 2^32 - 1 with one column passes the
check although it lies outside the map, and is written outside the map. -/
theorem wrapped_update_undefined :
    ∃ s, run 100 [.map false exMap] = some s ∧
      ¬ outOfRange s ⟨1, 2 ^ 32 - 1, 0, 0, 1, 1, 1, [70]⟩ ∧
      step 100 s (.update false ⟨1, 2 ^ 32 - 1, 0, 0, 1, 1, 1, [70]⟩) = none := by
  refine ⟨_, rfl, by decide, by decide⟩

end Verif.PlannerMap
