import Verif.MapIO.Spec
import Mathlib.Tactic.Linarith
import Mathlib.Tactic.Ring
import Mathlib.Tactic.FieldSimp
import Mathlib.Tactic.NormNum
/-! # Properties of saving and loading maps (C52) -/
namespace Verif.MapIO
open Spec Verif.Filter

theorem value_pixel (v : Int) : value 0 (65 / 100) (196 / 1000) (pixel v) = trinary v := by
  unfold pixel trinary
  by_cases h0 : v = 0
  · subst h0; decide +kernel
  · by_cases h1 : v = 100
    · subst h1; decide +kernel
    · simp only [h0, h1, if_false, or_self]
      decide +kernel

theorem rne_near (q : ℚ) : |(rne q : ℚ) - q| ≤ 1 / 2 := by
  have h1 := Int.floor_le q
  have h2 := Int.lt_floor_add_one q
  unfold rne
  rw [abs_le]
  split
  · constructor <;> linarith
  · split
    · push_cast; constructor <;> linarith
    · split
      · constructor <;> linarith
      · push_cast; constructor <;> linarith

theorem fmt6_near (q : ℚ) : Near (fmt6 q) q := by
  have h := rne_near (q * 1000000)
  rw [abs_le] at h
  unfold Near fmt6
  rw [abs_le]
  constructor
  · rw [neg_le_sub_iff_le_add, ← sub_le_iff_le_add, le_div_iff₀ (by norm_num)]; linarith [h.1]
  · rw [sub_le_iff_le_add, div_le_iff₀ (by norm_num)]; linarith [h.2]

theorem order_length (w h : Nat) : (order w h).length = h * w := by
  simp [order, List.length_flatMap]

theorem getElem?_flatMap_range (w h : Nat) (f : Nat → Nat → Nat) (x y : Nat) (hx : x < w) (hy : y < h) :
    ((List.range h).flatMap fun y => (List.range w).map fun x => f y x)[x + y * w]? = some (f y x) := by
  induction h generalizing y f with
  | zero => omega
  | succ h ih =>
    rw [List.range_succ_eq_map, List.flatMap_cons]
    cases y with
    | zero =>
      rw [List.getElem?_append_left (by simpa using hx)]
      simp [hx]
    | succ y =>
      rw [List.getElem?_append_right (by simp; rw [Nat.succ_mul]; omega)]
      have e : x + (y + 1) * w - ((List.range w).map fun x => f 0 x).length = x + y * w := by
        simp; rw [Nat.succ_mul]; omega
      rw [e, List.flatMap_map]
      exact ih (fun y x => f (y + 1) x) y (by omega)

theorem order_get (w h k : Nat) (hk : k < w * h) : (order w h)[k % w + (h - 1 - k / w) * w]? = some k := by
  have hw : 0 < w := Nat.pos_of_ne_zero (by rintro rfl; simp at hk)
  have hy : k / w < h := Nat.div_lt_of_lt_mul hk
  generalize hd : k / w = d at hy ⊢
  rw [order, getElem?_flatMap_range w h (fun y x => x + (h - y - 1) * w) _ _ (Nat.mod_lt _ hw) (by omega)]
  have : h - (h - 1 - d) - 1 = d := by omega
  rw [this, Nat.mul_comm, ← hd]
  congr 1
  exact Nat.mod_add_div k w

theorem mem_order (w h i : Nat) (hi : i ∈ order w h) : i < w * h := by
  simp only [order, List.mem_flatMap, List.mem_map, List.mem_range] at hi
  obtain ⟨y, hy, x, hx, rfl⟩ := hi
  have h1 : (h - y - 1) * w ≤ (h - 1) * w := Nat.mul_le_mul_right _ (by omega)
  have h2 : (h - 1) * w + w = w * h := by
    rw [← Nat.succ_mul, Nat.mul_comm]; congr 1; omega
  omega

theorem mapM_some_of {α β : Type} {f : α → Option β} {g : α → β} : ∀ {l : List α}, (∀ a ∈ l, f a = some (g a)) →
    l.mapM f = some (l.map g)
  | [], _ => rfl
  | a :: l, h => by
    rw [List.mapM_cons, h a List.mem_cons_self, mapM_some_of (fun b hb => h b (List.mem_cons_of_mem _ hb))]
    rfl

theorem save_valid {g : Grid} (hv : Valid g) :
    ∃ s, save g = some s ∧ s.w = g.info.width ∧ s.h = g.info.height ∧
      s.bytes = (order g.info.width g.info.height).map (fun i => pixel (g.data.getD i 0)) ∧
      s.negate = 0 ∧ s.occ = 65 / 100 ∧ s.free = 196 / 1000 ∧ s.resolution = fmt6 g.info.resolution ∧
      s.x = fmt6 g.info.x ∧ s.y = fmt6 g.info.y ∧ s.z = fmt6 g.info.z ∧ s.yaw = fmt6 g.info.yaw := by
  have : (order g.info.width g.info.height).mapM (fun i => (g.data[i]?).map pixel) =
      some ((order g.info.width g.info.height).map (fun i => pixel (g.data.getD i 0))) := by
    apply mapM_some_of
    intro i hi
    have : i < g.data.length := by rw [hv]; exact mem_order _ _ _ hi
    simp [List.getD_eq_getElem?_getD, this]
  unfold save
  rw [this]
  exact ⟨_, rfl, rfl, rfl, rfl, rfl, rfl, rfl, rfl, rfl, rfl, rfl, rfl⟩

/-- **C52**.  Saving and loading any well-formed map gives the same grid: free, occupied and unknown cells are kept in place,
every other value becomes unknown, sizes are equal and metadata agree to the six printed decimals. -/
theorem save_load {g : Grid} (hv : Valid g) : ∃ s g', save g = some s ∧ load s = some g' ∧ SameMap g g' := by
  obtain ⟨s, hs, ew, eh, eb, en, eo, ef, e1, e2, e3, e4, e5⟩ := save_valid hv
  have : (List.range (s.w * s.h)).mapM (fun k => (s.bytes[k % s.w + (s.h - 1 - k / s.w) * s.w]?).map
      (value s.negate s.occ s.free)) = some ((List.range (s.w * s.h)).map (fun k => trinary (g.data.getD k 0))) := by
    apply mapM_some_of
    intro k hk
    rw [List.mem_range] at hk
    rw [eb, List.getElem?_map, ew, eh, order_get _ _ _ (by rw [← ew, ← eh]; exact hk)]
    simp only [Option.map_some, en, eo, ef, value_pixel]
  refine ⟨s, ⟨⟨s.w, s.h, s.resolution, s.x, s.y, s.z, s.yaw⟩, (List.range (s.w * s.h)).map (fun k => trinary (g.data.getD k 0))⟩,
    hs, ?_, ?_⟩
  · unfold load; rw [this]; rfl
  · refine ⟨?_, ew, eh, ?_, ?_, ?_, ?_, ?_⟩
    · apply List.ext_getElem?
      intro i
      simp only [List.getElem?_map]
      rw [ew, eh, ← hv]
      by_cases hi : i < g.data.length
      · simp [hi, List.getD_eq_getElem?_getD]
      · rw [List.getElem?_eq_none (by simpa using hi), List.getElem?_eq_none (by simpa using hi)]; rfl
    all_goals simp only [e1, e2, e3, e4, e5]; exact fmt6_near _

/-- **C52** (trinary maps).  A map with only free, occupied and unknown cells comes back identical. -/
theorem save_load_trinary {g : Grid} (hv : Valid g) (ht : ∀ v ∈ g.data, v = 0 ∨ v = 100 ∨ v = -1) :
    ∃ s g', save g = some s ∧ load s = some g' ∧ g'.data = g.data := by
  obtain ⟨s, g', h1, h2, h3⟩ := save_load hv
  refine ⟨s, g', h1, h2, ?_⟩
  rw [h3.1]
  conv_rhs => rw [← List.map_id g.data]
  apply List.map_congr_left
  intro v hv'
  rcases ht v hv' with rfl | rfl | rfl <;> decide

theorem mapM_forall₂ {α β γ : Type} {f : α → Option β} {g : β → Option γ} {R : α → γ → Prop} :
    ∀ {l : List α}, (∀ a ∈ l, ∃ b c, f a = some b ∧ g b = some c ∧ R a c) →
      ∃ bs cs, l.mapM f = some bs ∧ bs.mapM g = some cs ∧ List.Forall₂ R l cs
  | [], _ => ⟨[], [], rfl, rfl, .nil⟩
  | a :: l, h => by
    obtain ⟨b, c, h1, h2, h3⟩ := h a List.mem_cons_self
    obtain ⟨bs, cs, i1, i2, i3⟩ := mapM_forall₂ (fun x hx => h x (List.mem_cons_of_mem _ hx))
    refine ⟨b :: bs, c :: cs, ?_, ?_, .cons h3 i3⟩
    · rw [List.mapM_cons, h1, i1]; rfl
    · rw [List.mapM_cons, h2, i2]; rfl

theorem mapM_mapIdx_some {f : Grid → Option Saved} : ∀ {gs : List Grid} {bs : List Saved} (k : Nat), gs.mapM f = some bs →
    (gs.mapIdx (fun i g => (i + k, g))).mapM (fun ig => if (fun _ : Nat => true) ig.1 = true then (f ig.2).map some else some none) =
      some (bs.map some)
  | [], bs, _, h => by cases h; rfl
  | g :: gs, bs, k, h => by
    rw [List.mapM_cons] at h
    cases hf : f g with
    | none => rw [hf] at h; cases h
    | some b =>
      rw [hf] at h
      cases hm : gs.mapM f with
      | none => rw [hm] at h; cases h
      | some cs =>
        rw [hm] at h; cases h
        have := mapM_mapIdx_some (k + 1) hm
        rw [List.mapIdx_cons, List.mapM_cons]
        simp only [if_true, hf, Option.map_some] at this ⊢
        have e : (fun i (g : Grid) => (i + 1 + k, g)) = (fun i g => (i + (k + 1), g)) := by
          funext i g; congr 1; omega
        rw [e, this]
        rfl

/-- **C52** (all floors).  Saving an array of well-formed maps with writable files and loading the files in the same order
gives the same floors in the same order. -/
theorem floors_round_trip {gs : List Grid} (hv : ∀ g ∈ gs, Valid g) :
    ∃ fs gs', saveAll (fun _ => true) gs = some (fs.map some, true) ∧ tie fs = some gs' ∧
      List.Forall₂ SameMap gs gs' := by
  obtain ⟨bs, cs, h1, h2, h3⟩ := mapM_forall₂ (f := save) (g := load) (R := SameMap) (fun g hg => save_load (hv g hg))
  refine ⟨bs, cs, ?_, h2, h3⟩
  exact congrArg (Option.map fun fs => (fs, true)) (mapM_mapIdx_some 0 h1)

/-- **C52** (a failure that is not noticed).  If the image file of a floor cannot be opened the floor is skipped, yet saving is
reported as done. -/
theorem failed_floor_reported_done (g : Grid) : saveAll (fun _ => false) [g] = some ([none], true) := rfl

/-! ## Concrete cases -/

def exG : Grid := ⟨⟨3, 2, 1 / 20, -1, 2, 1 / 3, 0⟩, [0, 100, -1, 50, 0, 100]⟩
example : Valid exG := rfl
example : (save exG).map (·.bytes) = some [205, 254, 0, 254, 0, 205] := by decide +kernel
example : ((save exG).bind load).map (·.data) = some [0, 100, -1, -1, 0, 100] := by decide +kernel

end Verif.MapIO
