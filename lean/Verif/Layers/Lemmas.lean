import Verif.Layers.Spec
import Verif.CSpace.Props
import Verif.Region.Props
/-! # Lemmas about the layer chain -/
set_option linter.unusedSectionVars false
namespace Verif.Layers
open Spec
open Verif.CSpace Verif.Region

variable {K : Type} [Field K] [LinearOrder K] [IsStrictOrderedRing K] [FloorRing K]

/-! ### Inflation works cell by cell -/

theorem put_point (R : Int) (t : Int → Int → Int) (g : Grid K) (m : Info K) (c c' : Int → Int → Int) (iv : Nat × Int)
    (x y : Int) (h : c x y = c' x y) : putValue R t g m c iv x y = putValue R t g m c' iv x y := by
  unfold putValue stamp
  simp only
  split
  · exact h
  · split
    · exact h
    · split
      · simp only [h]
      · simp only [h]

theorem fold_point {α : Type} (f : (Int → Int → Int) → α → (Int → Int → Int)) (x y : Int)
    (hf : ∀ c c' a, c x y = c' x y → f c a x y = f c' a x y) : ∀ (l : List α) (c c' : Int → Int → Int), c x y = c' x y →
    l.foldl f c x y = l.foldl f c' x y := by
  intro l
  induction l with
  | nil => exact fun _ _ h => h
  | cons a l ih => intro c c' h; exact ih _ _ (hf _ _ _ h)

theorem generateSpecified_point (keep : Bool) (R : Int) (t : Int → Int → Int) (g : Grid K) (m : Info K)
    (c c' : Int → Int → Int) (x y : Int) (h : c x y = c' x y) :
    generateSpecified keep R t g m c x y = generateSpecified keep R t g m c' x y := by
  have h1 := fold_point (putValue R t g m) x y (fun c c' iv h => put_point R t g m c c' iv x y h) g.items c c' h
  unfold generateSpecified
  cases keep with
  | false => exact h1
  | true =>
    simp only [if_true]
    -- the second pass uses the cells before the first
    have key : ∀ (l : List (Nat × Int)) (d d' : Int → Int → Int), d x y = d' x y →
        l.foldl (restoreUnknown g m c) d x y = l.foldl (restoreUnknown g m c') d' x y := by
      intro l
      induction l with
      | nil => exact fun _ _ h => h
      | cons iv l ih =>
        intro d d' hd
        apply ih
        unfold restoreUnknown
        simp only
        split
        · exact hd
        · by_cases hx : x = cellX g m iv.1 ∧ y = cellY g m iv.1
          · rw [← hx.1, ← hx.2, h]
            split
            · simp
            · exact hd
          · split <;> split <;> simp [hx, hd]
    exact key _ _ _ h1

theorem clear_point (R : Int) (g : Grid K) (m : Info K) (c c' : Int → Int → Int) (iv : Nat × Int)
    (x y : Int) (h : c x y = c' x y) : clearValue R g m c iv x y = clearValue R g m c' iv x y := by
  unfold clearValue
  simp only
  split
  · exact h
  · split
    · exact h
    · split
      · exact h
      · simp only [h]

theorem generate_point (mode : Mode) (root keep : Bool) (R : Int) (t : Cells) (g : Grid K) (m : Info K) (c c' : Cells)
    (x y a : Int) (h : c x y a = c' x y a) :
    generate mode root keep R t g m c x y a = generate mode root keep R t g m c' x y a := by
  unfold generate
  split
  · apply generateSpecified_point
    unfold clearTravelable
    split
    · exact h
    · exact fold_point _ x y (fun c c' iv h => clear_point R g m c c' iv x y h) _ _ _ h
  · exact h

theorem applyMsg_point (m : Info K) (k : Kind K) (msg : Msg K) (c c' : Cells) (x y a : Int) (h : c x y a = c' x y a) :
    applyMsg m k msg c x y a = applyMsg m k msg c' x y a := by
  unfold applyMsg
  cases k with
  | foot R t mode keep => exact generate_point _ _ _ _ _ _ _ _ _ _ _ _ h
  | _ => exact h

/-! ### The chain -/

def lastOv (src : Cells) (ls : List (Layer K)) : Cells := ((ls.getLast?).map (·.overlay)).getD src
def lastReg (r : Region) (ls : List (Layer K)) : Region := ((ls.getLast?).map (·.region)).getD r

/-- The output flag below the layers. -/
def passes (out : Bool) (ls : List (Layer K)) : Bool :=
  out && ls.all (fun l => match l.kind with | .staticOut => false | .updateOut => false | _ => true)

theorem layerStep_flag {m : Info K} {fr : Nat} {src : Cells} {r : Region} {out : Bool} {l l' : Layer K} {o : List Out}
    {out' : Bool} (h : layerStep m fr src r out l = some (l', o, out')) :
    l'.kind = l.kind ∧ l'.updated = l.updated ∧
      out' = (out && (match l.kind with | .staticOut => false | .updateOut => false | _ => true)) := by
  obtain ⟨k, ov, reg, prev, upd, op, ms⟩ := l
  cases k with
  | foot R t mode keep => simp only [layerStep, Option.some.injEq, Prod.mk.injEq] at h; obtain ⟨rfl, -, rfl⟩ := h; simp
  | unknown c => simp only [layerStep, Option.some.injEq, Prod.mk.injEq] at h; obtain ⟨rfl, -, rfl⟩ := h; simp
  | stop => simp only [layerStep, Option.some.injEq, Prod.mk.injEq] at h; obtain ⟨rfl, -, rfl⟩ := h; simp
  | staticOut => simp only [layerStep, Option.some.injEq, Prod.mk.injEq] at h; obtain ⟨rfl, -, rfl⟩ := h; simp
  | updateOut =>
    simp only [layerStep] at h
    split at h
    · cases h
    · simp only [Option.some.injEq, Prod.mk.injEq] at h; obtain ⟨rfl, -, rfl⟩ := h; simp

theorem entry_append (m : Info K) (fr : Nat) (ys : List (Layer K)) : ∀ (xs : List (Layer K)) (src : Cells) (r : Region) (out : Bool),
    entry m fr src r out (xs ++ ys) =
      match entry m fr src r out xs with
      | none => none
      | some (xs', o) =>
        (entry m fr (lastOv src xs') (lastReg r xs') (passes out xs) ys).map fun (ys', o') => (xs' ++ ys', o ++ o') := by
  intro xs
  induction xs with
  | nil =>
    intro src r out
    simp only [List.nil_append, entry, lastOv, lastReg, passes, List.getLast?_nil, Option.map_none, Option.getD_none,
      List.all_nil, Bool.and_true]
    cases entry m fr src r out ys <;> rfl
  | cons l xs ih =>
    intro src r out
    simp only [List.cons_append, entry]
    cases h : layerStep m fr src r out l with
    | none => rfl
    | some q =>
      obtain ⟨l', o, out'⟩ := q
      simp only
      rw [ih]
      cases h2 : entry m fr l'.overlay l'.region out' xs with
      | none => rfl
      | some q =>
        obtain ⟨xs', o2⟩ := q
        simp only [Option.map_some]
        have e1 : lastOv l'.overlay xs' = lastOv src (l' :: xs') := by
          cases xs' with
          | nil => rfl
          | cons b bs => unfold lastOv; rw [List.getLast?_cons_cons]; 
                         simp [List.getLast?_eq_some_getLast (List.cons_ne_nil b bs)]
        have e2 : lastReg l'.region xs' = lastReg r (l' :: xs') := by
          cases xs' with
          | nil => rfl
          | cons b bs => unfold lastReg; rw [List.getLast?_cons_cons]; 
                         simp [List.getLast?_eq_some_getLast (List.cons_ne_nil b bs)]
        have e3 : passes out' xs = passes out (l :: xs) := by
          unfold passes
          rw [(layerStep_flag h).2.2, List.all_cons, Bool.and_assoc]
        rw [e1, e2, e3, Option.map_map]
        congr 1
        funext q
        simp [List.append_assoc]

/-! ### Regions -/

/-- Whole headings, no negative extent. -/
def YawOk (m : Info K) (r : Region) : Prop :=
  r.yaw = 0 ∧ (r.angle = m.ang ∨ r.angle = 0) ∧ 0 ≤ r.width ∧ 0 ≤ r.height

/-- Clipped to the map. -/
def OkR (m : Info K) (r : Region) : Prop :=
  YawOk m r ∧ 0 ≤ r.x ∧ 0 ≤ r.y ∧ (r.width = 0 ∨ r.x + r.width ≤ m.w) ∧ (r.height = 0 ∨ r.y + r.height ≤ m.h)

def IsFull (m : Info K) (r : Region) : Prop :=
  r.x = 0 ∧ r.y = 0 ∧ r.yaw = 0 ∧ r.width = m.w ∧ r.height = m.h ∧ r.angle = m.ang

/-- Empty at the origin, or not empty and clipped. -/
def OutOk (m : Info K) (r : Region) : Prop :=
  (r.x = 0 ∧ r.y = 0 ∧ r.yaw = 0 ∧ r.width = 0 ∧ r.height = 0 ∧ r.angle = 0) ∨
  (OkR m r ∧ 0 < r.width ∧ 0 < r.height ∧ 0 < r.angle)

theorem yawOk_zero (m : Info K) : YawOk m .zero := by simp [YawOk, Region.zero]

theorem merge_yawOk {m : Info K} {s r : Region} (hs : YawOk m s) (hr : YawOk m r) : YawOk m (s.merge r) := by
  unfold YawOk Region.merge at *
  by_cases h1 : r.width = 0 ∨ r.height = 0 ∨ r.angle = 0
  · rw [if_pos h1]; exact hs
  · rw [if_neg h1]
    by_cases h2 : s.width = 0 ∨ s.height = 0 ∨ s.angle = 0
    · simp only [if_pos h2]; exact hr
    · simp only [if_neg h2]
      refine ⟨?_, ?_, ?_, ?_⟩ <;> (repeat' split) <;> omega

theorem normalize_okR {m : Info K} {s : Region} (hs : YawOk m s) : OkR m (s.normalize m.w m.h) := by
  obtain ⟨a, b, c, d, e, f⟩ := normalize_bounds s m.w m.h
  refine ⟨⟨?_, ?_, c, d⟩, a, b, e, f⟩
  · exact hs.1
  · exact hs.2.1

theorem isFull_okR {m : Info K} {r : Region} (h : IsFull m r) : OkR m r := by
  unfold IsFull at h
  unfold OkR YawOk
  omega

theorem isFull_merge {m : Info K} (hw : 1 ≤ m.w) (hh : 1 ≤ m.h) (ha : 1 ≤ m.ang) {s r : Region} (hs : YawOk m s)
    (hr : IsFull m r) : IsFull m ((s.merge r).normalize m.w m.h) := by
  have hbb := normalize_covers (s.merge r) m.w m.h
  unfold IsFull at hr ⊢
  unfold YawOk at hs
  have e : (s.merge r).x ≤ 0 ∧ (s.merge r).y ≤ 0 ∧ (s.merge r).yaw = 0 ∧ (m.w : Int) ≤ (s.merge r).x + (s.merge r).width ∧
      (m.h : Int) ≤ (s.merge r).y + (s.merge r).height ∧ (s.merge r).angle = m.ang := by
    unfold Region.merge
    rw [if_neg (by omega)]
    by_cases h2 : s.width = 0 ∨ s.height = 0 ∨ s.angle = 0
    · simp only [if_pos h2]; omega
    · simp only [if_neg h2]
      refine ⟨?_, ?_, ?_, ?_, ?_, ?_⟩ <;> (repeat' split) <;> omega
  generalize s.merge r = q at *
  clear hbb
  obtain ⟨qx, qy, qyaw, qw, qh, qa, qs⟩ := q
  simp only at e
  obtain ⟨e1, e2, e3, e4, e5, e6⟩ := e
  unfold Region.normalize
  by_cases h1 : qx < 0 <;> by_cases h2 : qy < 0 <;> simp only [h1, h2, if_true, if_false] <;>
    refine ⟨?_, ?_, e3, ?_, ?_, e6⟩ <;> (repeat' split) <;> first | trivial | omega

theorem okR_normalize {m : Info K} {r : Region} (h : OutOk m r) : r.normalize m.w m.h = r := by
  obtain ⟨x, y, yaw, w, hh, a, st⟩ := r
  unfold OutOk OkR YawOk at h
  unfold Region.normalize
  simp only at h ⊢
  rw [if_neg (by omega), if_neg (by omega)]
  simp only
  rw [if_neg (by omega), if_neg (by omega), if_neg (by omega), if_neg (by omega)]

theorem zero_merge {m : Info K} {r : Region} (h : OkR m r) : OutOk m ((Region.zero.merge r).normalize m.w m.h) ∧
    (∀ c, Region.Spec.Covers ((Region.zero.merge r).normalize m.w m.h) c ↔ Region.Spec.Covers r c) := by
  by_cases he : r.width = 0 ∨ r.height = 0 ∨ r.angle = 0
  · have e : Region.zero.merge r = .zero := by unfold Region.merge; rw [if_pos he]
    rw [e, okR_normalize (m := m) (Or.inl (by simp [Region.zero]))]
    refine ⟨Or.inl (by simp [Region.zero]), ?_⟩
    intro c
    unfold Region.Spec.Covers
    simp only [Region.zero]
    omega
  · have e : Region.zero.merge r = r := by
      unfold Region.merge; rw [if_neg he]; simp [Region.zero]
    have ho : OutOk m r := by
      right
      unfold OkR YawOk at h ⊢
      omega
    rw [e, okR_normalize ho]
    exact ⟨ho, fun _ => Iff.rfl⟩

/-! ### Message data -/

theorem flatMap_range_length {α : Type} (f : Nat → List α) (n : Nat) (hf : ∀ k, (f k).length = n) : ∀ a,
    ((List.range a).flatMap f).length = a * n := by
  intro a
  induction a with
  | zero => simp
  | succ a ih => rw [List.range_succ, List.flatMap_append, List.length_append, ih]; simp [hf, Nat.add_mul]

theorem flatMap_range_get {α : Type} (f : Nat → List α) (n : Nat) (hf : ∀ k, (f k).length = n) : ∀ (a k i : Nat), k < a → i < n →
    ((List.range a).flatMap f)[k * n + i]? = (f k)[i]? := by
  intro a
  induction a with
  | zero => intro k i h; omega
  | succ a ih =>
    intro k i hk hi
    rw [List.range_succ, List.flatMap_append]
    by_cases h : k < a
    · rw [List.getElem?_append_left]
      · exact ih k i h hi
      · rw [flatMap_range_length f n hf]
        have : (k + 1) * n ≤ a * n := Nat.mul_le_mul_right n h
        rw [Nat.add_mul] at this; omega
    · have e : k = a := by omega
      subst e
      rw [List.getElem?_append_right (by rw [flatMap_range_length f n hf]; omega), flatMap_range_length f n hf]
      simp

theorem rows_length (c : Cells) (x y yaw : Int) (w h a : Nat) : (rows c x y yaw w h a).length = a * (h * w) := by
  unfold rows
  apply flatMap_range_length
  intro k
  apply flatMap_range_length
  intro j; simp

theorem rows_get (c : Cells) (x y yaw : Int) (w h a i j k : Nat) (hi : i < w) (hj : j < h) (hk : k < a) :
    (rows c x y yaw w h a)[(k * h + j) * w + i]? = some (c (x + i) (y + j) (yaw + k)) := by
  unfold rows
  have e : (k * h + j) * w + i = k * (h * w) + (j * w + i) := by ring
  have hlt : j * w + i < h * w := by
    have : (j + 1) * w ≤ h * w := Nat.mul_le_mul_right w hj
    rw [Nat.add_mul] at this; omega
  rw [e, flatMap_range_get _ (h * w) (fun k => by apply flatMap_range_length; intro j; simp) a k _ hk hlt,
    flatMap_range_get _ w (fun j => by simp) h j i hj hi]
  simp [hi]

theorem flat_eq_rows (m : Info K) (c : Cells) : flat m c = rows c 0 0 0 m.w m.h m.ang := by
  apply List.ext_getElem?
  intro n
  have hl : (flat m c).length = m.w * m.h * m.ang := by unfold flat; simp
  by_cases hn : n < m.w * m.h * m.ang
  · have hw : 0 < m.w := by
      by_contra h; have : m.w = 0 := by omega
      rw [this] at hn; simp at hn
    have hh : 0 < m.h := by
      by_contra h; have : m.h = 0 := by omega
      rw [this] at hn; simp at hn
    have h1 : n % m.w < m.w := Nat.mod_lt _ hw
    have h2 : n / m.w % m.h < m.h := Nat.mod_lt _ hh
    have h3 : n / m.w / m.h < m.ang := by
      rw [Nat.div_div_eq_div_mul]
      exact Nat.div_lt_of_lt_mul hn
    have e : n = (n / m.w / m.h * m.h + n / m.w % m.h) * m.w + n % m.w := by
      rw [Nat.mul_comm (n / m.w / m.h), Nat.div_add_mod, Nat.mul_comm, Nat.div_add_mod]
    have hr := rows_get c 0 0 0 m.w m.h m.ang _ _ _ h1 h2 h3
    rw [← e] at hr
    rw [hr]
    unfold flat
    rw [List.getElem?_map, List.getElem?_range hn]
    simp
  · rw [List.getElem?_eq_none (by omega), List.getElem?_eq_none (by rw [rows_length]; nlinarith [Nat.mul_comm m.ang (m.h * m.w), Nat.mul_comm m.h m.w])]

theorem outOk_yawOk {m : Info K} {r : Region} (h : OutOk m r) : YawOk m r := by
  unfold OutOk OkR YawOk at *; omega

theorem outOk_merge {m : Info K} (hw : 1 ≤ m.w) (hh : 1 ≤ m.h) (ha : 1 ≤ m.ang) {region prev : Region}
    (hr : OutOk m region) (hp : IsFull m region ∧ YawOk m prev ∨ OutOk m prev) :
    OutOk m ((region.merge prev).normalize m.w m.h) := by
  rcases hp with ⟨hf, hy⟩ | hp
  · -- merging with the whole map and clipping gives the whole map
    by_cases he : prev.width = 0 ∨ prev.height = 0 ∨ prev.angle = 0
    · have e : region.merge prev = region := by unfold Region.merge; rw [if_pos he]
      rw [e, okR_normalize hr]; exact hr
    · have hfull : IsFull m ((region.merge prev).normalize m.w m.h) := by
        have e : (region.merge prev).x ≤ 0 ∧ (region.merge prev).y ≤ 0 ∧ (region.merge prev).yaw = 0 ∧
            (m.w : Int) ≤ (region.merge prev).x + (region.merge prev).width ∧
            (m.h : Int) ≤ (region.merge prev).y + (region.merge prev).height ∧ (region.merge prev).angle = m.ang := by
          unfold IsFull at hf
          unfold YawOk at hy
          unfold Region.merge
          rw [if_neg he]
          simp only [if_neg (show ¬ (region.width = 0 ∨ region.height = 0 ∨ region.angle = 0) by omega)]
          refine ⟨?_, ?_, ?_, ?_, ?_, ?_⟩ <;> (repeat' split) <;> omega
        generalize region.merge prev = q at *
        obtain ⟨qx, qy, qyaw, qw, qh, qa, qs⟩ := q
        simp only at e
        obtain ⟨e1, e2, e3, e4, e5, e6⟩ := e
        unfold Region.normalize IsFull
        by_cases h1 : qx < 0 <;> by_cases h2 : qy < 0 <;> simp only [h1, h2, if_true, if_false] <;>
          refine ⟨?_, ?_, e3, ?_, ?_, e6⟩ <;> (repeat' split) <;> first | trivial | omega
      right
      have := isFull_okR hfull
      unfold IsFull at hfull
      exact ⟨this, by omega, by omega, by omega⟩
  · have key : OutOk m (region.merge prev) := by
      unfold OutOk OkR YawOk Region.merge at *
      by_cases he : prev.width = 0 ∨ prev.height = 0 ∨ prev.angle = 0
      · rw [if_pos he]; exact hr
      · rw [if_neg he]
        by_cases h2 : region.width = 0 ∨ region.height = 0 ∨ region.angle = 0
        · simp only [if_pos h2]; exact hp
        · simp only [if_neg h2]
          right
          refine ⟨⟨⟨?_, ?_, ?_, ?_⟩, ?_, ?_, Or.inr ?_, Or.inr ?_⟩, ?_, ?_, ?_⟩ <;> (repeat' split) <;> omega
    rw [okR_normalize key]; exact key

/-- The update output never violates its assertion and its rectangle stays in the map. -/
theorem updateMsg_ok {m : Info K} (hw : 1 ≤ m.w) (hh : 1 ≤ m.h) (ha : 1 ≤ m.ang) {region prev : Region} (stamp : Nat) (src : Cells)
    (hr : OutOk m region) (hp : IsFull m region ∧ YawOk m prev ∨ OutOk m prev) :
    ∃ u, updateMsg m region prev stamp src = some (u, region, region.stamp) ∧
      OutOk m ((region.merge prev).normalize m.w m.h) ∧
      ((region.width = 0 ∨ region.height = 0) ∧ u = ⟨stamp, u.x, u.y, u.yaw, 0, 0, u.angle, []⟩ ∨
       (0 < region.width ∧ 0 < region.height) ∧ u.stamp = stamp ∧
        u.x = ((region.merge prev).normalize m.w m.h).x ∧ u.y = ((region.merge prev).normalize m.w m.h).y ∧
        u.yaw = ((region.merge prev).normalize m.w m.h).yaw ∧ u.width = ((region.merge prev).normalize m.w m.h).width ∧
        u.height = ((region.merge prev).normalize m.w m.h).height ∧
        u.angle = ((region.merge prev).normalize m.w m.h).angle ∧
        u.data = rows src u.x u.y u.yaw u.width.toNat u.height.toNat u.angle.toNat) := by
  have hm := outOk_merge hw hh ha hr hp
  have hassert : (((region.merge prev).normalize m.w m.h).x + ((region.merge prev).normalize m.w m.h).width) *
      (((region.merge prev).normalize m.w m.h).y + ((region.merge prev).normalize m.w m.h).height) ≤ (m.w : Int) * m.h := by
    unfold OutOk OkR YawOk at hm
    apply mul_le_mul <;> omega
  unfold updateMsg
  simp only
  rw [okR_normalize hr, if_pos hassert]
  refine ⟨_, rfl, hm, ?_⟩
  by_cases he : region.width = 0 ∨ region.height = 0
  · left
    refine ⟨he, ?_⟩
    rw [if_pos he]
  · right
    rw [if_neg he]
    have hpos : 0 < region.width ∧ 0 < region.height := by unfold OutOk at hr; omega
    refine ⟨hpos, ?_⟩
    generalize (region.merge prev).normalize m.w m.h = q at *
    by_cases hfull : q.x = 0 ∧ q.y = 0 ∧ q.yaw = 0 ∧ q.width = m.w ∧ q.height = m.h ∧ q.angle = m.ang
    · rw [if_pos hfull]
      refine ⟨rfl, rfl, rfl, rfl, rfl, rfl, rfl, ?_⟩
      simp only
      rw [flat_eq_rows, hfull.1, hfull.2.1, hfull.2.2.1, hfull.2.2.2.1, hfull.2.2.2.2.1, hfull.2.2.2.2.2]
      simp
    · rw [if_neg hfull]
      exact ⟨rfl, rfl, rfl, rfl, rfl, rfl, rfl, rfl⟩

/-! ### One layer -/

theorem yawOk_congr {m m' : Info K} (h : m.ang = m'.ang) {r : Region} (hr : YawOk m r) : YawOk m' r := by
  unfold YawOk at *; rw [← h]; exact hr

/-- What holds of a layer between messages, up to the size of the map. -/
def WI (m : Info K) (l : Layer K) : Prop :=
  YawOk m l.region ∧ YawOk m l.regionPrev ∧ YawOk m l.outPrev ∧ (l.kind = .updateOut → l.region = .zero)

/-- ... and with the published region clipped to the present map. -/
def LI (m : Info K) (l : Layer K) : Prop := WI m l ∧ OkR m l.regionPrev ∧ OutOk m l.outPrev

theorem WI_congr {m m' : Info K} (h : m.ang = m'.ang) {l : Layer K} (hl : WI m l) : WI m' l :=
  ⟨yawOk_congr h hl.1, yawOk_congr h hl.2.1, yawOk_congr h hl.2.2.1, hl.2.2.2⟩

theorem WI_fresh (m : Info K) (k : Kind K) : WI m (Layer.fresh k) :=
  ⟨yawOk_zero m, yawOk_zero m, yawOk_zero m, fun _ => rfl⟩

theorem okR_zero (m : Info K) : OkR m .zero := by simp [OkR, YawOk, Region.zero]

/-- A layer that does not publish updates. -/
theorem layerStep_pre {m : Info K} (hw : 1 ≤ m.w) (hh : 1 ≤ m.h) (ha : 1 ≤ m.ang) (fr : Nat) (src : Cells) {r : Region}
    (out : Bool) {l : Layer K} (hk : NotUpdate l.kind) (hl : WI m l) (hr : YawOk m r) :
    ∃ l' o out', layerStep m fr src r out l = some (l', o, out') ∧ WI m l' ∧ OkR m l'.regionPrev ∧ OkR m l'.region ∧
      (IsFull m r → IsFull m l'.region ∧ IsFull m l'.regionPrev) ∧ l'.kind = l.kind ∧ l'.updated = l.updated ∧ l'.outPrev = l.outPrev ∧
      (∀ u, Out.update u ∉ o) := by
  obtain ⟨h1, h2, h3, h4⟩ := hl
  have hreg : OkR m ((l.region.merge r).normalize m.w m.h) := normalize_okR (merge_yawOk h1 hr)
  have hfull : IsFull m r → IsFull m ((l.region.merge r).normalize m.w m.h) := isFull_merge hw hh ha h1
  have hff : IsFull m (fullRegion m 0) := by simp [IsFull, fullRegion]
  obtain ⟨k, ov, reg, prev, upd, op, ms⟩ := l
  cases k with
  | foot R t mode keep =>
    exact ⟨_, _, _, rfl, ⟨hreg.1, hreg.1, h3, by simp⟩, hreg, hreg, fun h => ⟨hfull h, hfull h⟩, rfl, rfl, rfl, by simp⟩
  | unknown c =>
    exact ⟨_, _, _, rfl, ⟨hreg.1, hreg.1, h3, by simp⟩, hreg, hreg, fun h => ⟨hfull h, hfull h⟩, rfl, rfl, rfl, by simp⟩
  | stop =>
    exact ⟨_, _, _, rfl, ⟨(isFull_okR hff).1, hreg.1, h3, by simp⟩, hreg, isFull_okR hff, fun h => ⟨hff, hfull h⟩, rfl, rfl, rfl, by simp⟩
  | staticOut =>
    exact ⟨_, _, _, rfl, ⟨hreg.1, hreg.1, h3, by simp⟩, hreg, hreg, fun h => ⟨hfull h, hfull h⟩, rfl, rfl, rfl, by cases out <;> simp⟩
  | updateOut => exact hk.elim

/-- The update output. -/
theorem layerStep_out {m : Info K} (hw : 1 ≤ m.w) (hh : 1 ≤ m.h) (ha : 1 ≤ m.ang) (fr : Nat) (src : Cells) {r : Region}
    (out : Bool) {l : Layer K} (hk : l.kind = .updateOut) (hl : WI m l) (hr : OkR m r) (hp : IsFull m r ∨ OutOk m l.outPrev) :
    ∃ l' u, layerStep m fr src r out l = some (l', if out then [.update u] else [], false) ∧ LI m l' ∧ l'.kind = .updateOut ∧
      l'.outPrev = (Region.zero.merge r).normalize m.w m.h ∧ l'.mapStamp = ((Region.zero.merge r).normalize m.w m.h).stamp ∧
      updateMsg m ((Region.zero.merge r).normalize m.w m.h) l.outPrev l.mapStamp src =
        some (u, (Region.zero.merge r).normalize m.w m.h, ((Region.zero.merge r).normalize m.w m.h).stamp) := by
  obtain ⟨h1, h2, h3, h4⟩ := hl
  have hz := h4 hk
  obtain ⟨ho, -⟩ := zero_merge hr
  have hp' : IsFull m ((Region.zero.merge r).normalize m.w m.h) ∧ YawOk m l.outPrev ∨ OutOk m l.outPrev := by
    rcases hp with hp | hp
    · exact Or.inl ⟨isFull_merge hw hh ha (yawOk_zero m) hp, h3⟩
    · exact Or.inr hp
  obtain ⟨u, hu, hm, -⟩ := updateMsg_ok hw hh ha l.mapStamp src ho hp'
  obtain ⟨k, ov, reg, prev, upd, op, ms⟩ := l
  simp only at hk hz hu hm h2 h3
  subst hk hz
  have hstep : ∃ ov', layerStep m fr src r out ⟨.updateOut, ov, .zero, prev, upd, op, ms⟩ =
      some (⟨.updateOut, ov', .zero, (Region.zero.merge r).normalize m.w m.h, upd, (Region.zero.merge r).normalize m.w m.h,
        ((Region.zero.merge r).normalize m.w m.h).stamp⟩, if out then [.update u] else [], false) := by
    simp only [layerStep, hu]
    exact ⟨_, rfl⟩
  obtain ⟨ov', hstep⟩ := hstep
  have hreg := normalize_okR (merge_yawOk (yawOk_zero m) hr.1)
  exact ⟨_, u, hstep, ⟨⟨yawOk_zero m, hreg.1, hreg.1, fun _ => rfl⟩, hreg, ho⟩, rfl, rfl, rfl, hu⟩

/-- The layers before the update output. -/
theorem entry_pre {m : Info K} (hw : 1 ≤ m.w) (hh : 1 ≤ m.h) (ha : 1 ≤ m.ang) (fr : Nat) :
    ∀ (xs : List (Layer K)) (src : Cells) (r : Region) (out : Bool), (∀ l ∈ xs, NotUpdate l.kind ∧ WI m l) → YawOk m r →
    ∃ xs' o, entry m fr src r out xs = some (xs', o) ∧ (∀ l ∈ xs', WI m l ∧ (OkR m l.regionPrev)) ∧
      xs'.map (·.kind) = xs.map (·.kind) ∧ xs'.map (·.updated) = xs.map (·.updated) ∧ (xs ≠ [] ∨ OkR m r → OkR m (lastReg r xs')) ∧
      (IsFull m r → IsFull m (lastReg r xs') ∧ ∀ l ∈ xs', IsFull m l.regionPrev) ∧ ∀ u, Out.update u ∉ o := by
  intro xs
  induction xs with
  | nil =>
    intro src r out _ hr
    exact ⟨[], [], rfl, by simp, rfl, rfl, by simp [lastReg], fun h => ⟨by simpa [lastReg] using h, by simp⟩, by simp⟩
  | cons l xs ih =>
    intro src r out hl hr
    obtain ⟨hk, hwi⟩ := hl l (by simp)
    obtain ⟨l', o, out', e, a1, a2, a3, a4, a5, a6, a7, a8⟩ := layerStep_pre hw hh ha fr src out hk hwi hr
    obtain ⟨xs', o', e', b1, b2, b3, b4, b5, b6⟩ := ih l'.overlay l'.region out' (fun q hq => hl q (by simp [hq])) a3.1
    have hlast : lastReg r (l' :: xs') = lastReg l'.region xs' := by
      cases xs' with
      | nil => rfl
      | cons b bs =>
        unfold lastReg; rw [List.getLast?_cons_cons]
        simp [List.getLast?_eq_some_getLast (List.cons_ne_nil b bs)]
    refine ⟨l' :: xs', o ++ o', ?_, ?_, ?_, ?_, ?_, ?_, ?_⟩
    · simp only [entry, e, e', Option.map_some]
    · intro q hq
      rcases List.mem_cons.mp hq with rfl | hq
      · exact ⟨a1, a2⟩
      · exact b1 q hq
    · simp [a5, b2]
    · simp [a6, b3]
    · intro _; rw [hlast]; exact b4 (Or.inr a3)
    · intro hf
      rw [hlast]
      obtain ⟨c1, c2⟩ := b5 (a4 hf).1
      refine ⟨c1, ?_⟩
      intro q hq
      rcases List.mem_cons.mp hq with rfl | hq
      · exact (a4 hf).2
      · exact c2 q hq
    · intro u hu
      rcases List.mem_append.mp hu with h | h
      · exact a8 u h
      · exact b6 u h

/-- The whole chain. -/
theorem entry_chain {m : Info K} (hw : 1 ≤ m.w) (hh : 1 ≤ m.h) (ha : 1 ≤ m.ang) (fr : Nat) (xs : List (Layer K)) (uo : Layer K)
    (src : Cells) (r : Region) (out : Bool) (hx : ∀ l ∈ xs, NotUpdate l.kind ∧ WI m l) (hr : YawOk m r) (hne : xs ≠ [] ∨ OkR m r)
    (hk : uo.kind = .updateOut) (huo : WI m uo) (hp : IsFull m r ∨ OutOk m uo.outPrev) :
    ∃ xs' o uo' u, entry m fr src r out xs = some (xs', o) ∧
      entry m fr src r out (xs ++ [uo]) =
        some (xs' ++ [uo'], o ++ (if passes out xs then [.update u] else [])) ∧
      (∀ l ∈ xs', WI m l ∧ OkR m l.regionPrev) ∧ xs'.map (·.kind) = xs.map (·.kind) ∧
      xs'.map (·.updated) = xs.map (·.updated) ∧ LI m uo' ∧ uo'.kind = .updateOut ∧
      OkR m (lastReg r xs') ∧ (IsFull m r → IsFull m (lastReg r xs') ∧ ∀ l ∈ xs', IsFull m l.regionPrev) ∧
      uo'.outPrev = (Region.zero.merge (lastReg r xs')).normalize m.w m.h ∧ uo'.mapStamp = uo'.outPrev.stamp ∧
      updateMsg m uo'.outPrev uo.outPrev uo.mapStamp (lastOv src xs') = some (u, uo'.outPrev, uo'.outPrev.stamp) ∧
      (∀ u, Out.update u ∉ o) := by
  obtain ⟨xs', o, e, b1, b2, b3, b4, b5, b6⟩ := entry_pre hw hh ha fr xs src r out hx hr
  have b4 := b4 hne
  have hp' : IsFull m (lastReg r xs') ∨ OutOk m uo.outPrev := hp.imp (fun h => (b5 h).1) id
  obtain ⟨uo', u, e2, c1, c2, c3, c4, c5⟩ := layerStep_out hw hh ha fr (lastOv src xs') (passes out xs) hk huo b4 hp'
  refine ⟨xs', o, uo', u, e, ?_, b1, b2, b3, c1, c2, b4, b5, c3, by rw [c4, c3], by rw [c3]; exact c5, b6⟩
  rw [entry_append, e]
  simp only [entry, e2, Option.map_some, List.append_nil]

/-! ### The node -/

/-- The chain of the node: the root, layers that do not publish updates, and the update output. -/
structure Chain (ang : Nat) (root : Kind K) (ks : List (Kind K)) (s : Node K) (xs : List (Layer K)) (uo : Layer K) : Prop where
  ang_eq : s.ang = ang
  root_kind : s.root.kind = root
  layers_eq : s.layers = xs ++ [uo]
  kinds : xs.map (·.kind) = ks
  uo_kind : uo.kind = .updateOut
  root_upd : s.root.updated = none

/-- Before the first base map. -/
def Waiting (n : Nat) (s : Node K) : Prop :=
  s.info.w = 0 ∧ (∀ m : Info K, WI m s.root ∧ ∀ l ∈ s.layers, WI m l) ∧ ∀ e ∈ s.buffer, e.1 < n ∧ 0 ≤ e.2.grid.res

/-- After it. -/
def Active (s : Node K) (xs : List (Layer K)) (uo : Layer K) : Prop :=
  1 ≤ s.info.w ∧ 1 ≤ s.info.h ∧ s.info.ang = s.ang ∧ 0 < s.info.res ∧ s.buffer = [] ∧ WI s.info s.root ∧
    (∀ l ∈ xs, WI s.info l) ∧ LI s.info uo

theorem lround_nonneg {x : K} (h : 0 ≤ x) : 0 ≤ lround x := by
  unfold lround
  rw [if_pos h]
  apply Int.floor_nonneg.mpr
  linarith [show (0 : K) < 1 / 2 by norm_num]

theorem window_yawOk (m : Info K) (msg : Msg K) (hm : 0 < m.res) (hg : 0 ≤ msg.grid.res) : YawOk m (window m msg) := by
  refine ⟨rfl, Or.inl rfl, ?_, ?_⟩ <;>
  · apply lround_nonneg
    positivity

theorem overlayAt_split (m : Info K) (fr : Nat) (msg : Msg K) (l : Layer K) (B : List (Layer K)) : ∀ (A : List (Layer K)) (src : Cells),
    overlayAt m fr msg src A.length (A ++ l :: B) =
      (entry m fr (lastOv src A) (window m msg) true ({ l with updated := some msg, region := window m msg } :: B)).map
        fun (B', o) => (A ++ B', o) := by
  intro A
  induction A with
  | nil =>
    intro src
    simp only [List.nil_append, List.length_nil, overlayAt, lastOv, List.getLast?_nil, Option.map_none, Option.getD_none]
    cases entry m fr src (window m msg) true ({ l with updated := some msg, region := window m msg } :: B) <;> rfl
  | cons a A ih =>
    intro src
    simp only [List.cons_append, List.length_cons, overlayAt]
    rw [ih, Option.map_map]
    have : lastOv a.overlay A = lastOv src (a :: A) := by
      cases A with
      | nil => rfl
      | cons b bs =>
        unfold lastOv; rw [List.getLast?_cons_cons]
        simp [List.getLast?_eq_some_getLast (List.cons_ne_nil b bs)]
    rw [this]
    congr 1

theorem kinds_notUpdate {ks : List (Kind K)} (hks : ∀ k ∈ ks, NotUpdate k) {xs : List (Layer K)} (h : xs.map (·.kind) = ks) :
    ∀ l ∈ xs, NotUpdate l.kind := by
  intro l hl
  apply hks
  rw [← h]
  exact List.mem_map.mpr ⟨l, hl, rfl⟩

/-- An overlay message to an active node. -/
theorem overlay_active {ang : Nat} (hang : 1 ≤ ang) {root : Kind K} {ks : List (Kind K)} (hks : ∀ k ∈ ks, NotUpdate k)
    {s : Node K} {A : List (Layer K)} {l : Layer K} {B : List (Layer K)} {uo : Layer K} (hc : Chain ang root ks s (A ++ l :: B) uo)
    (ha : Active s (A ++ l :: B) uo) (msg : Msg K) (hg : 0 ≤ msg.grid.res) :
    ∃ B' o uo' u, entry s.info s.frame (lastOv s.root.overlay A) (window s.info msg) true
          ({ l with updated := some msg, region := window s.info msg } :: B) = some (B', o) ∧
      step s (.overlay A.length msg) = some ({ s with layers := A ++ B' ++ [uo'] },
        o ++ (if passes true (l :: B) then [.update u] else [])) ∧
      Chain ang root ks { s with layers := A ++ B' ++ [uo'] } (A ++ B') uo' ∧
      Active { s with layers := A ++ B' ++ [uo'] } (A ++ B') uo' ∧
      OkR s.info (lastReg (window s.info msg) B') ∧
      uo'.outPrev = (Region.zero.merge (lastReg (window s.info msg) B')).normalize s.info.w s.info.h ∧
      uo'.mapStamp = uo'.outPrev.stamp ∧
      updateMsg s.info uo'.outPrev uo.outPrev uo.mapStamp (lastOv (lastOv s.root.overlay A) B') =
        some (u, uo'.outPrev, uo'.outPrev.stamp) ∧
      (∀ u, Out.update u ∉ o) ∧ B' ≠ [] ∧ (B'.map (·.updated) = some msg :: B.map (·.updated)) := by
  obtain ⟨h1, h2, h3, h4, h5, h6, h7, h8⟩ := ha
  have hnk := kinds_notUpdate hks hc.kinds
  have hwy := window_yawOk s.info msg h4 hg
  have hx : ∀ q ∈ ({ l with updated := some msg, region := window s.info msg } :: B : List (Layer K)), NotUpdate q.kind ∧ WI s.info q := by
    intro q hq
    rcases List.mem_cons.mp hq with rfl | hq
    · have hl := h7 l (by simp)
      refine ⟨hnk l (by simp), hwy, hl.2.1, hl.2.2.1, ?_⟩
      intro hk
      have := hnk l (by simp)
      simp only at hk
      rw [hk] at this
      exact this.elim
    · exact ⟨hnk q (by simp [hq]), h7 q (by simp [hq])⟩
  obtain ⟨B', o, uo', u, e0, e1, b1, b2, b3, b4, b5, b6, -, b8, b9, b10, b11⟩ := entry_chain h1 h2 (by rw [h3, hc.ang_eq]; exact hang) s.frame
    _ uo (lastOv s.root.overlay A) (window s.info msg) true hx hwy (Or.inl (by simp)) hc.uo_kind h8.1 (Or.inr h8.2.2)
  have hpass : passes true ({ l with updated := some msg, region := window s.info msg } :: B) = passes true (l :: B) := by
    simp [passes]
  rw [hpass] at e1
  have hne : B' ≠ [] := by
    intro hn; rw [hn] at b2; simp at b2
  refine ⟨B', o, uo', u, e0, ?_, ?_, ?_, b6, b8, b9, b10, b11, hne, by simpa using b3⟩
  · simp only [step, cbMapOverlay]
    rw [if_neg (by omega), hc.layers_eq, List.append_assoc, List.cons_append, overlayAt_split]
    rw [List.cons_append] at e1
    rw [e1]
    simp [List.append_assoc]
  · refine ⟨hc.ang_eq, hc.root_kind, rfl, ?_, b5, hc.root_upd⟩
    have := hc.kinds
    rw [List.map_append] at this ⊢
    rw [b2]
    simpa using this
  · refine ⟨h1, h2, h3, h4, h5, h6, ?_, b4⟩
    intro q hq
    rcases List.mem_append.mp hq with hq | hq
    · exact h7 q (by simp [hq])
    · exact (b1 q hq).1

theorem fullRegion_isFull (m : Info K) (st : Nat) : IsFull m (fullRegion m st) := by simp [IsFull, fullRegion]

/-- A base map (without the buffered messages). -/
theorem base_ok {ang : Nat} (hang : 1 ≤ ang) {root : Kind K} (hroot : NotUpdate root) {ks : List (Kind K)} (hks : ∀ k ∈ ks, NotUpdate k)
    {s : Node K} {xs : List (Layer K)} {uo : Layer K} (hc : Chain ang root ks s xs uo)
    (hwi : ∀ m : Info K, m.ang = ang → WI m s.root ∧ ∀ l ∈ s.layers, WI m l) (b : Msg K) (hb : GoodBase b) :
    ∃ c : Cells, (∀ R t mode keep, root = .foot R t mode keep → c = rootCells R t mode keep (infoOf ang b) b) ∧
    ∃ root' xs' o uo' u, 
      entry (infoOf ang b) b.frame c (fullRegion (infoOf ang b) b.stamp) true
        ({ s.root with overlay := c, mapStamp := b.stamp } :: xs.map fun l => { l with overlay := c, mapStamp := b.stamp }) =
        some (root' :: xs', o) ∧
      setBaseMap s b = some ({ s with info := infoOf ang b, frame := b.frame, rootMap := c, root := root', layers := xs' ++ [uo'] },
        o ++ (if passes true (s.root :: xs) then [.update u] else [])) ∧
      (∀ buf, Chain ang root ks ⟨ang, infoOf ang b, b.frame, c, root', xs' ++ [uo'], buf⟩ xs' uo') ∧
      Active ⟨ang, infoOf ang b, b.frame, c, root', xs' ++ [uo'], []⟩ xs' uo' ∧
      xs'.map (·.updated) = xs.map (·.updated) ∧
      (∀ l ∈ xs', IsFull (infoOf ang b) l.regionPrev) ∧
      IsFull (infoOf ang b) uo'.outPrev ∧ uo'.mapStamp = uo'.outPrev.stamp ∧
      updateMsg (infoOf ang b) uo'.outPrev uo.outPrev b.stamp (lastOv root'.overlay xs') = some (u, uo'.outPrev, uo'.outPrev.stamp) ∧
      (∀ u, Out.update u ∉ o) := by
  obtain ⟨g1, g2, g3, g4⟩ := hb
  have hm : (infoOf ang b).ang = ang := rfl
  have w := hwi (infoOf ang b) hm
  have hnk := kinds_notUpdate hks hc.kinds
  have hstep : ∃ c : Cells, (∀ R t mode keep, root = .foot R t mode keep → c = rootCells R t mode keep (infoOf ang b) b) ∧
      setBaseMap s b = (match entry (infoOf ang b) b.frame c (fullRegion (infoOf ang b) b.stamp) true
        ({ s.root with overlay := c, mapStamp := b.stamp } :: s.layers.map fun l => { l with overlay := c, mapStamp := b.stamp }) with
        | some (root :: layers, o) =>
          some ({ s with info := infoOf ang b, frame := b.frame, rootMap := c, root := root, layers := layers }, o)
        | _ => none) := by
    unfold setBaseMap
    rw [if_pos g3, hc.ang_eq, hc.root_kind]
    refine ⟨_, ?_, rfl⟩
    rintro R t mode keep rfl
    rfl
  obtain ⟨c, hcell, hstep⟩ := hstep
  have huo := w.2 uo (by rw [hc.layers_eq]; simp)
  have hx : ∀ q ∈ ({ s.root with overlay := c, mapStamp := b.stamp } :: xs.map fun l => { l with overlay := c, mapStamp := b.stamp }),
      NotUpdate q.kind ∧ WI (infoOf ang b) q := by
    intro q hq
    rcases List.mem_cons.mp hq with rfl | hq
    · exact ⟨by simp only; rw [hc.root_kind]; exact hroot, w.1⟩
    · obtain ⟨l, hl, rfl⟩ := List.mem_map.mp hq
      exact ⟨hnk l hl, w.2 l (by rw [hc.layers_eq]; simp [hl])⟩
  have hff := fullRegion_isFull (infoOf ang b) b.stamp
  obtain ⟨ys, o, uo', u, e0, e1, b1, b2, b3, b4, b5, b6, b7, b8, b9, b10, b11⟩ := entry_chain (m := infoOf ang b) g1 g2 (by rw [hm]; exact hang) b.frame
    _ { uo with overlay := c, mapStamp := b.stamp } c (fullRegion (infoOf ang b) b.stamp) true hx (isFull_okR hff).1 (Or.inl (by simp)) hc.uo_kind huo (Or.inl hff)
  cases ys with
  | nil => simp at b2
  | cons root' xs' =>
  have hpass : passes true ({ s.root with overlay := c, mapStamp := b.stamp } :: xs.map fun l => { l with overlay := c, mapStamp := b.stamp }) =
      passes true (s.root :: xs) := by
    simp only [passes, List.all_cons, List.all_map]
    rfl
  rw [hpass] at e1
  have hlast : lastOv c (root' :: xs') = lastOv root'.overlay xs' := by
    cases xs' with
    | nil => rfl
    | cons q qs =>
      unfold lastOv; rw [List.getLast?_cons_cons]
      simp [List.getLast?_eq_some_getLast (List.cons_ne_nil q qs)]
  have hlastR : IsFull (infoOf ang b) uo'.outPrev := by
    rw [b8]
    exact isFull_merge g1 g2 (by rw [hm]; exact hang) (yawOk_zero _) (b7 hff).1
  refine ⟨c, hcell, root', xs', o, uo', u, e0, ?_, ?_, ?_, ?_, fun l hl => (b7 hff).2 l (by simp [hl]), hlastR, b9, ?_, b11⟩
  · rw [hstep, hc.layers_eq, List.map_append]
    rw [List.cons_append] at e1
    simp only [List.map_cons, List.map_nil]
    rw [e1]
    rfl
  · intro buf
    refine ⟨rfl, ?_, rfl, ?_, b5, ?_⟩
    · have := List.cons.inj b2
      simp only at this ⊢
      rw [this.1]; exact hc.root_kind
    · have := (List.cons.inj b2).2
      rw [this, List.map_map]
      exact hc.kinds
    · have := (List.cons.inj b3).1
      simp only at this ⊢
      rw [this]; exact hc.root_upd
  · refine ⟨g1, g2, rfl, g4, rfl, (b1 root' (by simp)).1, fun l hl => (b1 l (by simp [hl])).1, b4⟩
  · have := (List.cons.inj b3).2
    rw [this, List.map_map]
    rfl
  · rw [← hlast]; exact b10

end Verif.Layers
