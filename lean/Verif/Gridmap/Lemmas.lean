import Verif.Gridmap.Spec
import Mathlib.Tactic.Ring
import Mathlib.Tactic.Linarith
import Mathlib.Tactic.Positivity

namespace Verif.Gridmap
open Spec

variable {α : Type}

/-- Closed form of the block counts. -/
def bsL (w : Int) : Nat → List Int → List Int
  | _, [] => []
  | n + 1, s :: ss => ((if s < w then w else s) + w - 1).tdiv w :: bsL w n ss
  | 0, _ :: ss => 1 :: bsL w 0 ss
def apL (w : Int) : Nat → List Int → Int
  | _, [] => 1
  | n + 1, _ :: ss => w * apL w n ss
  | 0, s :: ss => s * apL w 0 ss
def bpL (w : Int) : Nat → List Int → Int
  | _, [] => 1
  | n + 1, s :: ss => ((if s < w then w else s) + w - 1).tdiv w * bpL w n ss
  | 0, _ :: ss => bpL w 0 ss

theorem resetLoop_eq (w : Int) : ∀ (n : Nat) (ss : List Int) (a b : Int) (l : List Int),
    resetLoop w n ss (a, b, l) = (a * apL w n ss, b * bpL w n ss, l ++ bsL w n ss)
  | n, [], a, b, l => by cases n <;> simp [resetLoop, apL, bpL, bsL]
  | n + 1, s :: ss, a, b, l => by
    simp only [resetLoop, resetLoop_eq w n ss, apL, bpL, bsL, List.append_assoc,
      List.singleton_append]
    refine Prod.ext (by ring) (Prod.ext (by simp; ring) rfl)
  | 0, s :: ss, a, b, l => by
    simp only [resetLoop, resetLoop_eq w 0 ss, apL, bpL, bsL, List.append_assoc,
      List.singleton_append]
    refine Prod.ext (by ring) (Prod.ext (by simp) rfl)

theorem blockCount_bounds (w s p : Int) (hw : 0 < w) (h0 : 0 ≤ p) (h1 : p < s) :
    0 ≤ p / w ∧ p / w < ((if s < w then w else s) + w - 1).tdiv w := by
  have hst : s ≤ (if s < w then w else s) := by split <;> omega
  generalize (if s < w then w else s) = st at hst
  refine ⟨Int.ediv_nonneg h0 (by omega), ?_⟩
  rw [Int.tdiv_eq_ediv_of_nonneg (by omega)]
  have h2 := Int.mul_ediv_add_emod p w
  have h3 := Int.emod_nonneg p (show w ≠ 0 by omega)
  rw [Int.lt_iff_add_one_le, Int.le_ediv_iff_mul_le hw]
  nlinarith

theorem blockAddr_range (bit : Nat) : ∀ (n : Nat) (pos size : List Int) (ba a : Int),
    inMap pos size = true →
    ∃ x y, blockAddr bit n pos size (bsL (2 ^ bit) n size) ba a =
        (ba * bpL (2 ^ bit) n size + x, a * apL (2 ^ bit) n size + y) ∧
      0 ≤ x ∧ x < bpL (2 ^ bit) n size ∧ 0 ≤ y ∧ y < apL (2 ^ bit) n size
  | n, [], [], ba, a, _ => by
    cases n <;> exact ⟨0, 0, by simp [blockAddr, apL, bpL]⟩
  | _, [], _ :: _, _, _, h => by simp [inMap] at h
  | _, _ :: _, [], _, _, h => by simp [inMap] at h
  | n + 1, p :: ps, s :: ss, ba, a, h => by
    simp only [inMap, Bool.and_eq_true, decide_eq_true_eq] at h
    obtain ⟨⟨h0, h1⟩, h⟩ := h
    have hw : (0 : Int) < 2 ^ bit := by positivity
    have hb := blockCount_bounds (2 ^ bit) s p hw h0 h1
    have hm0 := Int.emod_nonneg p (show (2 : Int) ^ bit ≠ 0 by omega)
    have hm1 := Int.emod_lt_of_pos p hw
    simp only [bsL, apL, bpL, blockAddr]
    set b := ((if s < 2 ^ bit then (2:Int) ^ bit else s) + 2 ^ bit - 1).tdiv (2 ^ bit) with hbdef
    obtain ⟨x, y, he, hx0, hx1, hy0, hy1⟩ := blockAddr_range bit n ps ss (ba * b + p / 2 ^ bit)
      (a * 2 ^ bit + p % 2 ^ bit) h
    refine ⟨p / 2 ^ bit * bpL (2 ^ bit) n ss + x, p % 2 ^ bit * apL (2 ^ bit) n ss + y, ?_, ?_, ?_, ?_, ?_⟩
    · rw [he]; refine Prod.ext (by simp; ring) (by simp; ring)
    · nlinarith
    · nlinarith
    · nlinarith
    · nlinarith
  | 0, p :: ps, s :: ss, ba, a, h => by
    simp only [inMap, Bool.and_eq_true, decide_eq_true_eq] at h
    obtain ⟨⟨h0, h1⟩, h⟩ := h
    simp only [bsL, apL, bpL, blockAddr]
    obtain ⟨x, y, he, hx0, hx1, hy0, hy1⟩ := blockAddr_range bit 0 ps ss ba (a * s + p) h
    refine ⟨x, p * apL (2 ^ bit) 0 ss + y, ?_, hx0, hx1, ?_, ?_⟩
    · rw [he]; refine Prod.ext (by simp) (by simp; ring)
    · nlinarith
    · nlinarith

/-- Mixed-radix digit separation. -/
theorem digit_inj {b u v d e : Int} (hd0 : 0 ≤ d) (hd : d < b) (he0 : 0 ≤ e) (he : e < b)
    (h : u * b + d = v * b + e) : u = v ∧ d = e := by
  have : u = v := by
    rcases lt_trichotomy u v with h' | h' | h'
    · nlinarith
    · exact h'
    · nlinarith
  subst this
  exact ⟨rfl, by omega⟩

theorem blockAddr_inj (bit : Nat) : ∀ (n : Nat) (pos pos' size : List Int) (ba a ba' a' : Int),
    inMap pos size = true → inMap pos' size = true →
    blockAddr bit n pos size (bsL (2 ^ bit) n size) ba a =
      blockAddr bit n pos' size (bsL (2 ^ bit) n size) ba' a' →
    pos = pos' ∧ ba = ba' ∧ a = a'
  | n, [], [], [], ba, a, ba', a', _, _, h => by
    cases n <;> simpa [blockAddr] using h
  | _, [], _, _ :: _, _, _, _, _, h, _, _ => by simp [inMap] at h
  | _, _ :: _, _, [], _, _, _, _, h, _, _ => by simp [inMap] at h
  | _, _, [], _ :: _, _, _, _, _, _, h, _ => by simp [inMap] at h
  | _, _, _ :: _, [], _, _, _, _, _, h, _ => by simp [inMap] at h
  | n + 1, p :: ps, p' :: ps', s :: ss, ba, a, ba', a', h, h', he => by
    simp only [inMap, Bool.and_eq_true, decide_eq_true_eq] at h h'
    obtain ⟨⟨h0, h1⟩, h⟩ := h
    obtain ⟨⟨h0', h1'⟩, h'⟩ := h'
    have hw : (0 : Int) < 2 ^ bit := by positivity
    have hb := blockCount_bounds (2 ^ bit) s p hw h0 h1
    have hb' := blockCount_bounds (2 ^ bit) s p' hw h0' h1'
    have hm0 := Int.emod_nonneg p (show (2 : Int) ^ bit ≠ 0 by omega)
    have hm1 := Int.emod_lt_of_pos p hw
    have hm0' := Int.emod_nonneg p' (show (2 : Int) ^ bit ≠ 0 by omega)
    have hm1' := Int.emod_lt_of_pos p' hw
    simp only [bsL, blockAddr] at he
    obtain ⟨e1, e2, e3⟩ := blockAddr_inj bit n ps ps' ss _ _ _ _ h h' he
    obtain ⟨f1, f2⟩ := digit_inj hb.1 hb.2 hb'.1 hb'.2 e2
    obtain ⟨g1, g2⟩ := digit_inj hm0 hm1 hm0' hm1' e3
    have hp : p = p' := by
      rw [← Int.mul_ediv_add_emod p (2 ^ bit), ← Int.mul_ediv_add_emod p' (2 ^ bit), f2, g2]
    exact ⟨by rw [e1, hp], f1, g1⟩
  | 0, p :: ps, p' :: ps', s :: ss, ba, a, ba', a', h, h', he => by
    simp only [inMap, Bool.and_eq_true, decide_eq_true_eq] at h h'
    obtain ⟨⟨h0, h1⟩, h⟩ := h
    obtain ⟨⟨h0', h1'⟩, h'⟩ := h'
    simp only [bsL, blockAddr] at he
    obtain ⟨e1, e2, e3⟩ := blockAddr_inj bit 0 ps ps' ss _ _ _ _ h h' he
    obtain ⟨g1, g2⟩ := digit_inj h0 h1 h0' h1' e3
    exact ⟨by rw [e1, g2], e2, g1⟩

theorem apL_nonneg (w : Int) (hw : 0 ≤ w) : ∀ n ss, (∀ s ∈ ss, (0:Int) ≤ s) → 0 ≤ apL w n ss
  | n, [], _ => by cases n <;> simp [apL]
  | n + 1, s :: ss, h => mul_nonneg hw (apL_nonneg w hw n ss fun s h' => h s (by simp [h']))
  | 0, s :: ss, h =>
    mul_nonneg (h s (by simp)) (apL_nonneg w hw 0 ss fun s h' => h s (by simp [h']))

theorem bpL_nonneg (w : Int) (hw : 0 < w) : ∀ n ss, (∀ s ∈ ss, (0:Int) ≤ s) → 0 ≤ bpL w n ss
  | n, [], _ => by cases n <;> simp [bpL]
  | n + 1, s :: ss, h => by
    refine mul_nonneg ?_ (bpL_nonneg w hw n ss fun s h' => h s (by simp [h']))
    rw [Int.tdiv_eq_ediv_of_nonneg (by split <;> [omega; (have := h s (by simp); omega)])]
    exact Int.ediv_nonneg (by split <;> [omega; (have := h s (by simp); omega)]) (by omega)
  | 0, s :: ss, h => bpL_nonneg w hw 0 ss fun s h' => h s (by simp [h'])

/-- Representation invariant of a map after its first `reset`. -/
structure WF (g : GM α) : Prop where
  bser : g.bser = apL (2 ^ g.bit) g.nonc g.size
  bnum : g.bnum = bpL (2 ^ g.bit) g.nonc g.size
  bsize : g.bsize = bsL (2 ^ g.bit) g.nonc g.size
  ser : g.serSize = g.bser * g.bnum
  cap : g.serSize ≤ g.cap
  nonneg : ∀ s ∈ g.size, 0 ≤ s

theorem reset_WF (g : GM α) (size : List Int) (fresh : Int → α) (h : ∀ s ∈ size, 0 ≤ s) :
    WF (g.reset size fresh) := by
  unfold GM.reset
  simp only [resetLoop_eq]
  split
  · exact ⟨by simp, by simp, by simp, by simp, by simp, h⟩
  · rename_i hc
    refine ⟨by simp, by simp, by simp, by simp, ?_, h⟩
    simp only [one_mul] at hc ⊢
    omega

theorem offset_range {g : GM α} (wf : WF g) {p : List Int} (hp : inMap p g.size = true) :
    0 ≤ g.offset p ∧ g.offset p < g.serSize := by
  obtain ⟨x, y, he, hx0, hx1, hy0, hy1⟩ := blockAddr_range g.bit g.nonc p g.size 0 0 hp
  unfold GM.offset
  rw [wf.bsize, he, wf.ser, wf.bser, wf.bnum]
  simp only [zero_mul, zero_add]
  constructor <;> nlinarith

theorem offset_inj {g : GM α} (wf : WF g) {p q : List Int} (hp : inMap p g.size = true)
    (hq : inMap q g.size = true) (h : g.offset p = g.offset q) : p = q := by
  obtain ⟨x, y, he, hx0, hx1, hy0, hy1⟩ := blockAddr_range g.bit g.nonc p g.size 0 0 hp
  obtain ⟨x', y', he', hx0', hx1', hy0', hy1'⟩ := blockAddr_range g.bit g.nonc q g.size 0 0 hq
  unfold GM.offset at h
  rw [wf.bsize, he, he', wf.bser] at h
  simp only [zero_mul, zero_add] at h
  obtain ⟨h1, h2⟩ := digit_inj hy0 hy1 hy0' hy1' h
  have := blockAddr_inj g.bit g.nonc p q g.size 0 0 0 0 hp hq (by rw [he, he', h1, h2])
  exact this.1

theorem get_eq {g : GM α} (wf : WF g) (maxv : α) {p : List Int} (hp : inMap p g.size = true) :
    g.get maxv p = some (g.mem (g.offset p)) := by
  have h := offset_range wf hp
  have hc := wf.cap
  unfold GM.get
  simp only []
  rw [if_neg (by rintro ⟨_, h' | h'⟩ <;> omega), if_pos (by omega)]

theorem set_eq {g : GM α} (wf : WF g) {p : List Int} (hp : inMap p g.size = true) (v : α) :
    g.set p v = some { g with mem := fun i => if i = g.offset p then v else g.mem i } := by
  have h := offset_range wf hp
  have hc := wf.cap
  unfold GM.set
  simp only []
  rw [if_neg (by rintro ⟨_, h' | h'⟩ <;> omega), if_pos (by omega)]

/-- `g` stores the abstract map `m`. -/
structure Rep (maxv : α) (g : GM α) (m : SMap α) : Prop where
  wf : WF g
  size : g.size = m.size
  val : ∀ p v, inMap p m.size = true → m.val p = some v → g.get maxv p = some v

/-- Changing only the memory (and dummy) keeps well-formedness. -/
theorem WF.mem {g : GM α} (wf : WF g) (f : Int → α) : WF { g with mem := f } :=
  ⟨wf.bser, wf.bnum, wf.bsize, wf.ser, wf.cap, wf.nonneg⟩

theorem rep_set {maxv : α} {g : GM α} {m : SMap α} (r : Rep maxv g m) {p : List Int}
    (hp : inMap p m.size = true) (ov : Option α) (v : α) (hov : ∀ w, ov = some w → v = w) :
    ∃ g', g.set p v = some g' ∧ g'.bit = g.bit ∧ g'.nonc = g.nonc ∧
      Rep maxv g' { m with val := fun q => if q = p then ov else m.val q } := by
  have hp' : inMap p g.size = true := by rw [r.size]; exact hp
  refine ⟨_, set_eq r.wf hp' v, rfl, rfl, r.wf.mem _, r.size, ?_⟩
  intro q w hq hv
  simp only at hq hv
  have hq' : inMap q g.size = true := by rw [r.size]; exact hq
  rw [get_eq (r.wf.mem (fun i => if i = g.offset p then v else g.mem i)) maxv hq']
  have hoff : ∀ f : Int → α, GM.offset { g with mem := f } q = g.offset q := fun _ => rfl
  simp only [hoff]
  by_cases h : q = p
  · subst h
    simp only [if_true] at hv ⊢
    rw [hov w hv]
  · rw [if_neg h] at hv
    rw [if_neg (fun h' => h (offset_inj r.wf hq' hp' h'))]
    have := r.val q w hq hv
    rw [get_eq r.wf maxv hq'] at this
    exact this

theorem rep_mem {maxv : α} {g : GM α} {m : SMap α} (r : Rep maxv g m) (f : Int → α)
    (val' : List Int → Option α)
    (h : ∀ p v, inMap p m.size = true → val' p = some v → f (g.offset p) = v) :
    Rep maxv { g with mem := f } { m with val := val' } := by
  refine ⟨r.wf.mem f, r.size, fun p v hp hv => ?_⟩
  rw [get_eq (r.wf.mem f) maxv (by rw [← r.size] at hp; exact hp)]
  exact congrArg some (h p v hp hv)

theorem mem_intRange {lo hi x : Int} : x ∈ intRange lo hi ↔ lo ≤ x ∧ x ≤ hi := by
  unfold intRange
  simp only [List.mem_map, List.mem_range]
  constructor
  · rintro ⟨k, hk, rfl⟩; omega
  · rintro ⟨h1, h2⟩; exact ⟨(x - lo).toNat, by omega, by omega⟩

theorem loopBox_mem {mn mx : List Int} (h1 : mn.length = 3) (h2 : mx.length = 3) :
    ∃ ps, loopBox mn mx = some ps ∧ ∀ p, p ∈ ps ↔ inBox mn mx p = true := by
  match mn, mx, h1, h2 with
  | [a0, a1, a2], [b0, b1, b2], _, _ =>
    refine ⟨_, rfl, fun p => ?_⟩
    simp only [List.mem_flatMap, List.mem_map, mem_intRange]
    constructor
    · rintro ⟨x, hx, y, hy, z, hz, rfl⟩
      simp [inBox]; omega
    · intro h
      match p, h with
      | [x, y, z], h =>
        simp [inBox] at h
        exact ⟨x, by omega, y, by omega, z, by omega, rfl⟩
      | [], h => simp [inBox] at h
      | [_], h => simp [inBox] at h
      | [_, _], h => simp [inBox] at h
      | _ :: _ :: _ :: _ :: _, h => simp [inBox] at h

/-- A loop of writes `dst(p) := value` represents the abstract bulk update. -/
theorem rep_fold {maxv : α} (f : GM α → List Int → Option (GM α)) (dst : List Int → List Int)
    (ov : List Int → Option α) :
    ∀ (ps : List (List Int)) (g : GM α) (m : SMap α), Rep maxv g m →
      (∀ p ∈ ps, inMap (dst p) m.size = true) →
      (∀ p ∈ ps, ∀ g : GM α, ∃ v, f g p = g.set (dst p) v ∧ ∀ w, ov p = some w → v = w) →
      (∀ p ∈ ps, ∀ q ∈ ps, dst p = dst q → p = q) →
      ∃ g', ps.foldlM f g = some g' ∧ g'.bit = g.bit ∧ g'.nonc = g.nonc ∧ g'.size = g.size ∧
        ∀ m' : SMap α, m'.size = m.size →
          (∀ q, inMap q m.size = true → (∀ p ∈ ps, dst p ≠ q) → m'.val q = m.val q) →
          (∀ p ∈ ps, m'.val (dst p) = ov p) → Rep maxv g' m'
  | [], g, m, r, _, _, _ => by
    refine ⟨g, rfl, rfl, rfl, rfl, fun m' hs hq _ => ⟨r.wf, by rw [r.size, hs], fun p v hp hv => ?_⟩⟩
    rw [hs] at hp
    exact r.val p v hp (by rw [← hq p hp (by simp)]; exact hv)
  | p :: ps, g, m, r, hin, hf, hinj => by
    obtain ⟨v, hfv, hov⟩ := hf p (by simp) g
    obtain ⟨g1, hg1, hb1, hn1, r1⟩ := rep_set r (hin p (by simp)) (ov p) v hov
    obtain ⟨g', hg', hb', hn', hs', hrep⟩ := rep_fold f dst ov ps g1 _ r1
      (fun q hq => hin q (by simp [hq])) (fun q hq => hf q (by simp [hq]))
      (fun a ha b hb => hinj a (by simp [ha]) b (by simp [hb]))
    refine ⟨g', by simp [List.foldlM, hfv, hg1, hg'], by rw [hb', hb1], by rw [hn', hn1],
      by rw [hs', r1.size, r.size], fun m' hs hq hp => hrep m' hs ?_ ?_⟩
    · intro q hqm hq'
      simp only
      by_cases h : q = dst p
      · subst h; rw [if_pos rfl]; exact hp p (by simp)
      · rw [if_neg h]
        exact hq q hqm (by
          intro a ha
          rcases List.mem_cons.mp ha with rfl | ha
          · exact fun h' => h h'.symm
          · exact hq' a ha)
    · intro a ha
      exact hp a (by simp [ha])

theorem shift_shift {a b p : List Int} (ha : a.length = 3) (hb : b.length = 3) (hp : p.length = 3) :
    shift a b (shift b a p) = p := by
  match a, b, p, ha, hb, hp with
  | [a0, a1, a2], [b0, b1, b2], [p0, p1, p2], _, _, _ => simp [shift]; omega

theorem inBox_length {a b p : List Int} (h : inBox a b p = true) : p.length = a.length := by
  induction a generalizing b p with
  | nil => cases b <;> cases p <;> simp_all [inBox]
  | cons x xs ih =>
    cases b <;> cases p <;> simp_all [inBox]
    exact ih h.2

theorem inMap_length {p s : List Int} (h : inMap p s = true) : p.length = s.length := by
  induction p generalizing s with
  | nil => cases s <;> simp_all [inMap]
  | cons x xs ih =>
    cases s <;> simp_all [inMap]
    exact ih h.2

theorem shift_inj {a b p q : List Int} (ha : a.length = 3) (hb : b.length = 3) (hp : p.length = 3)
    (hq : q.length = 3) (h : shift a b p = shift a b q) : p = q := by
  rw [← shift_shift hb ha hp, ← shift_shift hb ha hq, h]

end Verif.Gridmap
