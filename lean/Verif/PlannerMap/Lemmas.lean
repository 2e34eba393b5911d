import Verif.PlannerMap.Spec
import Mathlib.Tactic.Linarith
import Mathlib.Tactic.Ring
import Mathlib.Data.List.Nodup
/-! # Lemmas about the costmap update loops -/
namespace Verif.PlannerMap
open Verif.GridMetric (Cell)

theorem i32_small (n : Nat) (h : n < 2 ^ 31) : i32 n = (n : Int) := by
  unfold i32
  have : n % 2 ^ 32 = n := Nat.mod_eq_of_lt (by omega)
  rw [this, if_pos h]

theorem upTo_small (n : Nat) (h : n < 2 ^ 31) : upTo n = List.range n := by
  unfold upTo; rw [i32_small n h]; simp

theorem mem_span (a b k : Int) : k ∈ span a b ↔ a ≤ k ∧ k ≤ b := by
  unfold span
  simp only [List.mem_map, List.mem_range]
  constructor
  · rintro ⟨n, hn, rfl⟩; omega
  · rintro ⟨h1, h2⟩; exact ⟨(k - a).toNat, by omega, by omega⟩

theorem mem_box (x0 x1 y0 y1 a0 a1 : Int) (c : Cell) :
    c ∈ box x0 x1 y0 y1 a0 a1 ↔ (x0 ≤ c.x ∧ c.x ≤ x1) ∧ (y0 ≤ c.y ∧ c.y ≤ y1) ∧ (a0 ≤ c.yaw ∧ c.yaw ≤ a1) := by
  unfold box
  simp only [List.mem_flatMap, List.mem_map, mem_span]
  constructor
  · rintro ⟨x, hx, y, hy, a, ha, rfl⟩; exact ⟨hx, hy, ha⟩
  · rintro ⟨hx, hy, ha⟩; exact ⟨_, hx, _, hy, _, ha, rfl⟩

theorem write_some {w h a : Nat} {g g' : Cell → Int} {p : Cell} {v : Int} (hw : write w h a g p v = some g') :
    InMap w h a p ∧ g' = fun c => if c = p then v else g c := by
  unfold write at hw
  split at hw
  · rename_i hin
    exact ⟨hin, (Option.some.inj hw).symm⟩
  · cases hw

theorem write_of {w h a : Nat} (g : Cell → Int) {p : Cell} (v : Int) (hp : InMap w h a p) :
    write w h a g p v = some (fun c => if c = p then v else g c) := by
  unfold write; rw [if_pos hp]

/-- A loop that writes cells from a function. -/
theorem foldlM_write (w h a : Nat) (src : Cell → Int) :
    ∀ (ps : List Cell) (g g' : Cell → Int), ps.foldlM (fun g p => write w h a g p (src p)) g = some g' →
      (∀ c, g' c = if c ∈ ps then src c else g c) := by
  intro ps
  induction ps with
  | nil => intro g g' hg c; simp only [List.foldlM_nil] at hg; cases hg; simp
  | cons p ps ih =>
    intro g g' hg c
    rw [List.foldlM_cons] at hg
    cases hw : write w h a g p (src p) with
    | none => rw [hw] at hg; cases hg
    | some g1 =>
      rw [hw] at hg
      obtain ⟨-, rfl⟩ := write_some hw
      rw [ih _ g' hg c]
      by_cases h1 : c ∈ ps
      · simp [h1]
      · by_cases h2 : c = p
        · subst h2; simp
        · simp [h1, h2]

theorem foldlM_write_ok (w h a : Nat) (src : Cell → Int) :
    ∀ (ps : List Cell) (g : Cell → Int), (∀ p ∈ ps, InMap w h a p) →
      ∃ g', ps.foldlM (fun g p => write w h a g p (src p)) g = some g' := by
  intro ps
  induction ps with
  | nil => intro g _; exact ⟨g, rfl⟩
  | cons p ps ih =>
    intro g hin
    obtain ⟨g', hg'⟩ := ih (fun c => if c = p then src p else g c) (fun q hq => hin q (List.mem_cons_of_mem _ hq))
    refine ⟨g', ?_⟩
    rw [List.foldlM_cons, write_of g (src p) (hin p (List.mem_cons_self ..))]
    exact hg'

/-- New value of a covered cell. -/
def combine (overwrite : Bool) (old v : Int) : Int :=
  if overwrite then (if 0 ≤ v then v else old) else max old v

/-- Value of the message at an index. -/
def val (u : Update) (px py pa : Nat) : Int := (dataAt u px py pa).getD 0

theorem cmStep_some {w h a : Nat} {o : Bool} {u : Update} {px py pa : Nat} {cm cm' : Cell → Int}
    (hs : cmStep w h a o u px py cm pa = some cm') :
    (∃ v, dataAt u px py pa = some v) ∧
      ∀ c, cm' c = if c = target u px py pa then combine o (cm c) (val u px py pa) else cm c := by
  unfold cmStep at hs
  cases hd : dataAt u px py pa with
  | none => rw [hd] at hs; cases hs
  | some v =>
    rw [hd] at hs
    simp only [Option.bind_some] at hs
    refine ⟨⟨v, rfl⟩, fun c => ?_⟩
    have hval : val u px py pa = v := by unfold val; rw [hd]; rfl
    rw [hval]
    unfold combine
    cases o with
    | true =>
      simp only [if_true] at hs ⊢
      by_cases hv : v ≥ 0
      · rw [if_pos hv] at hs
        obtain ⟨-, rfl⟩ := write_some hs
        by_cases hc : c = target u px py pa
        · simp [hc, hv]
        · simp [hc]
      · rw [if_neg hv] at hs
        cases hs
        simp [show ¬ (0 ≤ v) from hv]
    | false =>
      simp only [Bool.false_eq_true, if_false] at hs ⊢
      split at hs
      · split at hs
        · rename_i hlt
          obtain ⟨-, rfl⟩ := write_some hs
          by_cases hc : c = target u px py pa
          · subst hc; simp only [if_true]; exact (max_eq_right (le_of_lt hlt)).symm
          · simp [hc]
        · rename_i hlt
          cases hs
          by_cases hc : c = target u px py pa
          · subst hc; simp only [if_true]; exact (max_eq_left (not_lt.mp hlt)).symm
          · simp [hc]
      · cases hs

theorem cmStep_ok {w h a : Nat} (o : Bool) {u : Update} {px py pa : Nat} (cm : Cell → Int) {v : Int}
    (hd : dataAt u px py pa = some v) (hin : InMap w h a (target u px py pa)) :
    ∃ cm', cmStep w h a o u px py cm pa = some cm' := by
  unfold cmStep
  rw [hd]
  simp only [Option.bind_some]
  cases o with
  | true =>
    simp only [if_true]
    by_cases hv : v ≥ 0
    · rw [if_pos hv]; exact ⟨_, write_of cm v hin⟩
    · rw [if_neg hv]; exact ⟨_, rfl⟩
  | false =>
    simp only [Bool.false_eq_true, if_false, if_pos hin]
    split
    · exact ⟨_, write_of cm v hin⟩
    · exact ⟨_, rfl⟩

theorem target_eq (u : Update) (px py pa : Nat) (c : Cell) :
    c = target u px py pa ↔ c.x = i32 u.x + px ∧ c.y = i32 u.y + py ∧ c.yaw = i32 u.yaw + pa := by
  obtain ⟨x, y, z⟩ := c
  unfold target; simp

theorem cmLoop_some (w h a : Nat) (o : Bool) (u : Update) (px py : Nat) :
    ∀ (l : List Nat), l.Nodup → ∀ (cm cm' : Cell → Int), l.foldlM (cmStep w h a o u px py) cm = some cm' →
      ∀ c, cm' c = if c.x = i32 u.x + px ∧ c.y = i32 u.y + py ∧ i32 u.yaw ≤ c.yaw ∧ (c.yaw - i32 u.yaw).toNat ∈ l
        then combine o (cm c) (val u px py (c.yaw - i32 u.yaw).toNat) else cm c := by
  intro l
  induction l with
  | nil => intro _ cm cm' hg c; simp only [List.foldlM_nil] at hg; cases hg; simp
  | cons pa l ih =>
    intro hnd cm cm' hg c
    rw [List.foldlM_cons] at hg
    obtain ⟨hni, hnd'⟩ := List.nodup_cons.mp hnd
    cases hw : cmStep w h a o u px py cm pa with
    | none => rw [hw] at hg; cases hg
    | some cm1 =>
      rw [hw] at hg
      obtain ⟨-, h1⟩ := cmStep_some hw
      rw [ih hnd' cm1 cm' hg c, h1 c]
      by_cases hx : c.x = i32 u.x + px ∧ c.y = i32 u.y + py ∧ i32 u.yaw ≤ c.yaw
      · obtain ⟨hx, hy, hz⟩ := hx
        by_cases hp : (c.yaw - i32 u.yaw).toNat = pa
        · have hc : c = target u px py pa := (target_eq u px py pa c).mpr ⟨hx, hy, by omega⟩
          rw [if_neg (by rintro ⟨-, -, -, h⟩; rw [hp] at h; exact hni h), if_pos hc,
            if_pos ⟨hx, hy, hz, by rw [hp]; exact List.mem_cons_self ..⟩, hp]
        · have hc : ¬ c = target u px py pa := by
            rw [target_eq]; rintro ⟨-, -, h⟩; exact hp (by omega)
          rw [if_neg hc]
          by_cases hl : (c.yaw - i32 u.yaw).toNat ∈ l
          · rw [if_pos ⟨hx, hy, hz, hl⟩, if_pos ⟨hx, hy, hz, List.mem_cons_of_mem _ hl⟩]
          · rw [if_neg (fun h => hl h.2.2.2), if_neg]
            rintro ⟨-, -, -, h⟩
            rcases List.mem_cons.mp h with h | h
            · exact hp h
            · exact hl h
      · have hc : ¬ c = target u px py pa := by
          rw [target_eq]; rintro ⟨h1, h2, h3⟩; exact hx ⟨h1, h2, by omega⟩
        rw [if_neg hc, if_neg (fun h => hx ⟨h.1, h.2.1, h.2.2.1⟩), if_neg (fun h => hx ⟨h.1, h.2.1, h.2.2.1⟩)]

theorem cmLoop_ok (w h a : Nat) (o : Bool) (u : Update) (px py : Nat) :
    ∀ (l : List Nat) (cm : Cell → Int), (∀ pa ∈ l, (∃ v, dataAt u px py pa = some v) ∧ InMap w h a (target u px py pa)) →
      ∃ cm', l.foldlM (cmStep w h a o u px py) cm = some cm' := by
  intro l
  induction l with
  | nil => intro cm _; exact ⟨cm, rfl⟩
  | cons pa l ih =>
    intro cm hall
    obtain ⟨⟨v, hv⟩, hin⟩ := hall pa (List.mem_cons_self ..)
    obtain ⟨cm1, h1⟩ := cmStep_ok o cm hv hin
    obtain ⟨cm', h2⟩ := ih cm1 (fun q hq => hall q (List.mem_cons_of_mem _ hq))
    exact ⟨cm', by rw [List.foldlM_cons, h1]; exact h2⟩

theorem costMin_aux (u : Update) (px py : Nat) :
    ∀ (l : List Nat) (m m' : Int),
      l.foldlM (fun m pa => (dataAt u px py pa).map fun c => if c < m then c else m) m = some m' →
      m' = l.foldl (fun m k => min m (val u px py k)) m := by
  intro l
  induction l with
  | nil => intro m m' h; simp only [List.foldlM_nil] at h; cases h; rfl
  | cons pa l ih =>
    intro m m' h
    rw [List.foldlM_cons] at h
    cases hd : dataAt u px py pa with
    | none => rw [hd] at h; cases h
    | some v =>
      rw [hd] at h
      have := ih _ _ h
      rw [this, List.foldl_cons]
      congr 1
      unfold val; rw [hd]
      simp only [Option.getD_some]
      by_cases hlt : v < m
      · rw [if_pos hlt, min_eq_right (le_of_lt hlt)]
      · rw [if_neg hlt, min_eq_left (not_lt.mp hlt)]

theorem costMin_aux_ok (u : Update) (px py : Nat) :
    ∀ (l : List Nat) (m : Int), (∀ pa ∈ l, ∃ v, dataAt u px py pa = some v) →
      ∃ m', l.foldlM (fun m pa => (dataAt u px py pa).map fun c => if c < m then c else m) m = some m' := by
  intro l
  induction l with
  | nil => intro m _; exact ⟨m, rfl⟩
  | cons pa l ih =>
    intro m hall
    obtain ⟨v, hv⟩ := hall pa (List.mem_cons_self ..)
    obtain ⟨m', h'⟩ := ih (if v < m then v else m) (fun q hq => hall q (List.mem_cons_of_mem _ hq))
    exact ⟨m', by rw [List.foldlM_cons, hv]; exact h'⟩

/-- The least cost over the headings of the message at one column. -/
def colMin (u : Update) (px py : Nat) : Int := (upTo u.angle).foldl (fun m k => min m (val u px py k)) 100

/-- What one column does to the maps. -/
theorem cellStep_some {w h a : Nat} {o : Bool} {u : Update} {m m' : Maps} {p : Nat × Nat}
    (hs : cellStep w h a o u m p = some m') :
    (∀ c, m'.cm c = if c.x = i32 u.x + p.1 ∧ c.y = i32 u.y + p.2 ∧ i32 u.yaw ≤ c.yaw ∧
        (c.yaw - i32 u.yaw).toNat ∈ upTo u.angle
      then combine o (m.cm c) (val u p.1 p.2 (c.yaw - i32 u.yaw).toNat) else m.cm c) ∧
    (∀ c : Cell, c.yaw = 0 → m'.rough c = if c.x = i32 u.x + p.1 ∧ c.y = i32 u.y + p.2
      then max (m.rough c) (colMin u p.1 p.2) else m.rough c) ∧
    (∀ c : Cell, c.yaw = 0 → m'.updates c = if c.x = i32 u.x + p.1 ∧ c.y = i32 u.y + p.2
      then colMin u p.1 p.2 else m.updates c) := by
  unfold cellStep at hs
  rw [Option.bind_eq_some_iff] at hs
  obtain ⟨cMin, hmin, hs⟩ := hs
  rw [Option.bind_eq_some_iff] at hs
  obtain ⟨upd, hupd, hs⟩ := hs
  rw [Option.bind_eq_some_iff] at hs
  obtain ⟨rough, hrough, hs⟩ := hs
  rw [Option.map_eq_some_iff] at hs
  obtain ⟨cm, hcm, rfl⟩ := hs
  have hcMin : cMin = colMin u p.1 p.2 := costMin_aux u p.1 p.2 _ _ _ hmin
  have hq : ∀ c : Cell, c.yaw = 0 → ((c = ⟨i32 u.x + p.1, i32 u.y + p.2, 0⟩) ↔ (c.x = i32 u.x + p.1 ∧ c.y = i32 u.y + p.2)) := by
    intro c hc
    obtain ⟨x, y, z⟩ := c
    simp only at hc
    simp [hc]
  refine ⟨fun c => cmLoop_some w h a o u p.1 p.2 _ List.nodup_range _ _ hcm c, fun c hc => ?_, fun c hc => ?_⟩
  · simp only
    split at hrough
    · rename_i hgt
      obtain ⟨-, rfl⟩ := write_some hrough
      simp only [hq c hc]
      split
      · rename_i hcc
        rw [(hq c hc).mpr hcc, ← hcMin]
        exact (max_eq_right (le_of_lt hgt)).symm
      · rfl
    · rename_i hgt
      cases hrough
      split
      · rename_i hcc
        rw [(hq c hc).mpr hcc, ← hcMin]
        exact (max_eq_left (not_lt.mp hgt)).symm
      · rfl
  · simp only
    obtain ⟨-, rfl⟩ := write_some hupd
    simp only [hq c hc, hcMin]

theorem cellStep_ok {w h a : Nat} (o : Bool) {u : Update} (m : Maps) {p : Nat × Nat}
    (hd : ∀ pa ∈ upTo u.angle, (∃ v, dataAt u p.1 p.2 pa = some v) ∧ InMap w h a (target u p.1 p.2 pa))
    (hin : InMap w h 1 ⟨i32 u.x + p.1, i32 u.y + p.2, 0⟩) : ∃ m', cellStep w h a o u m p = some m' := by
  obtain ⟨cMin, h1⟩ := costMin_aux_ok u p.1 p.2 (upTo u.angle) 100 (fun pa hpa => (hd pa hpa).1)
  obtain ⟨cm', h4⟩ := cmLoop_ok w h a o u p.1 p.2 (upTo u.angle) m.cm hd
  have h3 : ∃ rough', (if cMin > m.rough ⟨i32 u.x + p.1, i32 u.y + p.2, 0⟩ then
      write w h 1 m.rough ⟨i32 u.x + p.1, i32 u.y + p.2, 0⟩ cMin else some m.rough) = some rough' := by
    split
    · exact ⟨_, write_of _ _ hin⟩
    · exact ⟨_, rfl⟩
  obtain ⟨rough', h3⟩ := h3
  refine ⟨⟨cm', rough', fun c => if c = ⟨i32 u.x + p.1, i32 u.y + p.2, 0⟩ then cMin else m.updates c⟩, ?_⟩
  unfold cellStep
  rw [show costMin u p.1 p.2 = some cMin from h1]
  simp only [Option.bind_some]
  rw [write_of _ _ hin]
  simp only [Option.bind_some]
  rw [h3]
  simp only [Option.bind_some]
  rw [h4]
  rfl

theorem cells_some (w h a : Nat) (o : Bool) (u : Update) :
    ∀ (l : List (Nat × Nat)), l.Nodup → ∀ (m m' : Maps), l.foldlM (cellStep w h a o u) m = some m' →
      (∀ c : Cell, m'.cm c = if i32 u.x ≤ c.x ∧ i32 u.y ≤ c.y ∧ i32 u.yaw ≤ c.yaw ∧
          ((c.x - i32 u.x).toNat, (c.y - i32 u.y).toNat) ∈ l ∧ (c.yaw - i32 u.yaw).toNat ∈ upTo u.angle
        then combine o (m.cm c) (val u (c.x - i32 u.x).toNat (c.y - i32 u.y).toNat (c.yaw - i32 u.yaw).toNat)
        else m.cm c) ∧
      (∀ c : Cell, c.yaw = 0 → m'.rough c = if i32 u.x ≤ c.x ∧ i32 u.y ≤ c.y ∧
          ((c.x - i32 u.x).toNat, (c.y - i32 u.y).toNat) ∈ l
        then max (m.rough c) (colMin u (c.x - i32 u.x).toNat (c.y - i32 u.y).toNat) else m.rough c) ∧
      (∀ c : Cell, c.yaw = 0 → m'.updates c = if i32 u.x ≤ c.x ∧ i32 u.y ≤ c.y ∧
          ((c.x - i32 u.x).toNat, (c.y - i32 u.y).toNat) ∈ l
        then colMin u (c.x - i32 u.x).toNat (c.y - i32 u.y).toNat else m.updates c) := by
  intro l
  induction l with
  | nil =>
    intro _ m m' hg
    simp only [List.foldlM_nil] at hg
    cases hg
    exact ⟨fun c => by simp, fun c _ => by simp, fun c _ => by simp⟩
  | cons p l ih =>
    intro hnd m m' hg
    rw [List.foldlM_cons] at hg
    obtain ⟨hni, hnd'⟩ := List.nodup_cons.mp hnd
    cases hw : cellStep w h a o u m p with
    | none => rw [hw] at hg; cases hg
    | some m1 =>
      rw [hw] at hg
      obtain ⟨s1, s2, s3⟩ := cellStep_some hw
      obtain ⟨t1, t2, t3⟩ := ih hnd' m1 m' hg
      have hpos : ∀ c : Cell, (c.x = i32 u.x + p.1 ∧ c.y = i32 u.y + p.2) ↔
          (i32 u.x ≤ c.x ∧ i32 u.y ≤ c.y ∧ ((c.x - i32 u.x).toNat, (c.y - i32 u.y).toNat) = p) := by
        intro c
        obtain ⟨p1, p2⟩ := p
        simp only [Prod.mk.injEq]
        omega
      refine ⟨fun c => ?_, fun c hc => ?_, fun c hc => ?_⟩
      · rw [t1 c, s1 c]
        by_cases hp : c.x = i32 u.x + p.1 ∧ c.y = i32 u.y + p.2
        · obtain ⟨q1, q2, q3⟩ := (hpos c).mp hp
          rw [if_neg (by rintro ⟨-, -, -, h, -⟩; rw [q3] at h; exact hni h)]
          by_cases hz : i32 u.yaw ≤ c.yaw ∧ (c.yaw - i32 u.yaw).toNat ∈ upTo u.angle
          · rw [if_pos ⟨hp.1, hp.2, hz.1, hz.2⟩, if_pos ⟨q1, q2, hz.1, by rw [q3]; exact List.mem_cons_self .., hz.2⟩]
            rw [← q3]
          · rw [if_neg (fun h => hz h.2.2), if_neg (fun h => hz ⟨h.2.2.1, h.2.2.2.2⟩)]
        · have e1 : ¬ (c.x = i32 u.x + p.1 ∧ c.y = i32 u.y + p.2 ∧ i32 u.yaw ≤ c.yaw ∧
              (c.yaw - i32 u.yaw).toNat ∈ upTo u.angle) := fun h => hp ⟨h.1, h.2.1⟩
          rw [if_neg e1]
          by_cases hl : i32 u.x ≤ c.x ∧ i32 u.y ≤ c.y ∧ i32 u.yaw ≤ c.yaw ∧
              ((c.x - i32 u.x).toNat, (c.y - i32 u.y).toNat) ∈ l ∧ (c.yaw - i32 u.yaw).toNat ∈ upTo u.angle
          · rw [if_pos hl, if_pos ⟨hl.1, hl.2.1, hl.2.2.1, List.mem_cons_of_mem _ hl.2.2.2.1, hl.2.2.2.2⟩]
          · rw [if_neg hl, if_neg]
            rintro ⟨h1, h2, h3, h4, h5⟩
            rcases List.mem_cons.mp h4 with h4 | h4
            · exact hp ((hpos c).mpr ⟨h1, h2, h4⟩)
            · exact hl ⟨h1, h2, h3, h4, h5⟩
      · rw [t2 c hc, s2 c hc]
        by_cases hp : c.x = i32 u.x + p.1 ∧ c.y = i32 u.y + p.2
        · obtain ⟨q1, q2, q3⟩ := (hpos c).mp hp
          rw [if_neg (by rintro ⟨-, -, h⟩; rw [q3] at h; exact hni h), if_pos hp,
            if_pos ⟨q1, q2, by rw [q3]; exact List.mem_cons_self ..⟩, ← q3]
        · rw [if_neg hp]
          by_cases hl : i32 u.x ≤ c.x ∧ i32 u.y ≤ c.y ∧ ((c.x - i32 u.x).toNat, (c.y - i32 u.y).toNat) ∈ l
          · rw [if_pos hl, if_pos ⟨hl.1, hl.2.1, List.mem_cons_of_mem _ hl.2.2⟩]
          · rw [if_neg hl, if_neg]
            rintro ⟨h1, h2, h4⟩
            rcases List.mem_cons.mp h4 with h4 | h4
            · exact hp ((hpos c).mpr ⟨h1, h2, h4⟩)
            · exact hl ⟨h1, h2, h4⟩
      · rw [t3 c hc, s3 c hc]
        by_cases hp : c.x = i32 u.x + p.1 ∧ c.y = i32 u.y + p.2
        · obtain ⟨q1, q2, q3⟩ := (hpos c).mp hp
          rw [if_neg (by rintro ⟨-, -, h⟩; rw [q3] at h; exact hni h), if_pos hp,
            if_pos ⟨q1, q2, by rw [q3]; exact List.mem_cons_self ..⟩, ← q3]
        · rw [if_neg hp]
          by_cases hl : i32 u.x ≤ c.x ∧ i32 u.y ≤ c.y ∧ ((c.x - i32 u.x).toNat, (c.y - i32 u.y).toNat) ∈ l
          · rw [if_pos hl, if_pos ⟨hl.1, hl.2.1, List.mem_cons_of_mem _ hl.2.2⟩]
          · rw [if_neg hl, if_neg]
            rintro ⟨h1, h2, h4⟩
            rcases List.mem_cons.mp h4 with h4 | h4
            · exact hp ((hpos c).mpr ⟨h1, h2, h4⟩)
            · exact hl ⟨h1, h2, h4⟩

theorem cells_ok (w h a : Nat) (o : Bool) (u : Update) :
    ∀ (l : List (Nat × Nat)) (m : Maps),
      (∀ p ∈ l, (∀ pa ∈ upTo u.angle, (∃ v, dataAt u p.1 p.2 pa = some v) ∧ InMap w h a (target u p.1 p.2 pa)) ∧
        InMap w h 1 ⟨i32 u.x + p.1, i32 u.y + p.2, 0⟩) →
      ∃ m', l.foldlM (cellStep w h a o u) m = some m' := by
  intro l
  induction l with
  | nil => intro m _; exact ⟨m, rfl⟩
  | cons p l ih =>
    intro m hall
    obtain ⟨h1, h2⟩ := hall p (List.mem_cons_self ..)
    obtain ⟨m1, hm1⟩ := cellStep_ok o m h1 h2
    obtain ⟨m', hm'⟩ := ih m1 (fun q hq => hall q (List.mem_cons_of_mem _ hq))
    exact ⟨m', by rw [List.foldlM_cons, hm1]; exact hm'⟩

theorem mem_cellsOf (u : Update) (hu : Small u) (p : Nat × Nat) : p ∈ cellsOf u ↔ p.1 < u.width ∧ p.2 < u.height := by
  obtain ⟨h1, h2, -, -⟩ := hu
  unfold cellsOf
  rw [upTo_small u.width (by omega), upTo_small u.height (by omega)]
  obtain ⟨p1, p2⟩ := p
  simp

theorem nodup_cellsOf (u : Update) : (cellsOf u).Nodup := by
  unfold cellsOf
  rw [List.nodup_flatMap]
  refine ⟨fun x _ => ?_, ?_⟩
  · refine List.Nodup.map ?_ List.nodup_range
    intro a b hab
    exact (Prod.mk.inj hab).2
  · have : (upTo u.width).Nodup := List.nodup_range
    refine List.Pairwise.imp ?_ this
    intro a b hne
    rw [Function.onFun, List.disjoint_left]
    rintro ⟨x, y⟩ h1 h2
    simp only [List.mem_map, Prod.mk.injEq] at h1 h2
    obtain ⟨_, -, rfl, -⟩ := h1
    obtain ⟨_, -, h, -⟩ := h2
    exact hne h.symm

end Verif.PlannerMap
