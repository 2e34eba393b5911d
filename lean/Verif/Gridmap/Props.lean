import Verif.Gridmap.Lemmas

/-! # C02 (addressing), C03 (refinement to a plain position/value store) -/
namespace Verif.Gridmap
open Spec

variable {α : Type}

/-- C02: after any history of resizes (each with arbitrary non-negative sizes; sizes in between may
shrink or grow), starting from a default-constructed map, every in-range position of the current map
is stored inside the allocated buffer, and distinct in-range positions are stored at distinct
offsets.  Holds for every dimension, every number of metric dimensions and every block width. -/
theorem offset_safe (bit nonc : Nat) (val : Bool) (maxv : α) (fresh0 : Int → α)
    (history : List (List Int × (Int → α))) (size : List Int) (fresh : Int → α)
    (hs : ∀ s ∈ size, 0 ≤ s) :
    let g := (history.foldl (fun g h => g.reset h.1 h.2) (init bit nonc val maxv fresh0)).reset size fresh
    (∀ p, inMap p size = true → 0 ≤ g.offset p ∧ g.offset p < g.cap) ∧
    (∀ p q, inMap p size = true → inMap q size = true → g.offset p = g.offset q → p = q) := by
  intro g
  have wf : WF g := reset_WF _ size fresh hs
  have hsz : g.size = size := by
    show (GM.reset _ size fresh).size = size
    unfold GM.reset; simp only []; split <;> rfl
  refine ⟨fun p hp => ?_, fun p q hp hq h => offset_inj wf (by rw [hsz]; exact hp) (by rw [hsz]; exact hq) h⟩
  have := offset_range wf (p := p) (by rw [hsz]; exact hp)
  have := wf.cap
  omega

/-- Non-vacuity of C02: a 40 x 33 x 16 map with 32-cell blocks after shrinking and growing. -/
example : inMap [39, 32, 15] [40, 33, 16] = true ∧
    (((init 5 2 false (0 : Int) (fun _ => 0)).reset [100, 100, 16] (fun _ => 0)).reset [40, 33, 16]
      (fun _ => 0)).offset [39, 32, 15] = 52751 := by decide

/-- C02 (with `ENABLE_VALIDATION`): no position whatever, in the map or not, makes a read or a write leave the buffer.  A read at an address behind the cells in use returns the
largest value, a write there changes no cell. -/
theorem validated_access (bit nonc : Nat) (maxv : α) (fresh0 : Int → α) (history : List (List Int × (Int → α))) (size : List Int)
    (fresh : Int → α) (hs : ∀ s ∈ size, 0 ≤ s) (p : List Int) (v : α) :
    let g := (history.foldl (fun g h => g.reset h.1 h.2) (init bit nonc true maxv fresh0)).reset size fresh
    (∃ a, g.get maxv p = some a) ∧ (∃ g', g.set p v = some g') ∧
    (g.offset p < 0 ∨ g.serSize ≤ g.offset p → g.get maxv p = some maxv ∧ ∃ g', g.set p v = some g' ∧ g'.mem = g.mem) := by
  intro g
  have wf : WF g := reset_WF _ size fresh hs
  have hv : ∀ (l : List (List Int × (Int → α))) (g0 : GM α), g0.validation = true →
      (l.foldl (fun g h => g.reset h.1 h.2) g0).validation = true := by
    intro l
    induction l with
    | nil => intro g0 h; exact h
    | cons x l ih =>
      intro g0 h
      refine ih _ ?_
      unfold GM.reset; simp only []; split <;> exact h
  have hval : g.validation = true := by
    have := hv (history ++ [(size, fresh)]) (init bit nonc true maxv fresh0) rfl
    simpa [g] using this
  have hc := wf.cap
  unfold GM.get GM.set
  simp only [hval, true_and]
  by_cases h : g.offset p < 0 ∨ g.serSize ≤ g.offset p
  · simp only [if_pos h]
    exact ⟨⟨_, rfl⟩, ⟨_, rfl⟩, fun _ => ⟨trivial, _, rfl, rfl⟩⟩
  · simp only [if_neg h]
    rw [if_pos (by omega), if_pos (by omega)]
    exact ⟨⟨_, rfl⟩, ⟨_, rfl⟩, fun k => k.elim (fun k => by omega) (fun k => by omega)⟩

/-- C02 (what validation does not do): it looks at the address only.  In a map of 5×5 cells with blocks of 4×4, a write to the cell (0, 8), which is not in the map, overwrites the
cell (4, 0). -/
theorem validation_aliases : ∃ g', (((init 2 2 true (9 : Int) (fun _ => 0)).reset [5, 5] (fun _ => 0)).set [0, 8] 7) = some g' ∧
    inMap [0, 8] [5, 5] = false ∧ inMap [4, 0] [5, 5] = true ∧
    ((init 2 2 true (9 : Int) (fun _ => 0)).reset [5, 5] (fun _ => 0)).get 9 [4, 0] = some 0 ∧ g'.get 9 [4, 0] = some 7 := by
  refine ⟨_, rfl, ?_⟩
  decide

/-- Behind the buffer: the same map at (8, 0). -/
example : ((init 2 2 true (9 : Int) (fun _ => 0)).reset [5, 5] (fun _ => 0)).get 9 [8, 0] = some 9 ∧
    ((init 2 2 true (9 : Int) (fun _ => 0)).reset [5, 5] (fun _ => 0)).serSize ≤
      ((init 2 2 true (9 : Int) (fun _ => 0)).reset [5, 5] (fun _ => 0)).offset [8, 0] := by decide

/-- The test used by callers before touching a cell agrees with being in the map (tolerance 0),
and with staying `tol` cells away from the metric borders in general. -/
theorem validate_iff (tol : Int) : ∀ (nonc : Nat) (p size : List Int), p.length = size.length →
    (validateLoop tol nonc p size = true ↔
      ∀ i (h : i < p.length) (h' : i < size.length),
        if i < nonc then tol ≤ p[i] ∧ p[i] < size[i] - tol else 0 ≤ p[i] ∧ p[i] < size[i])
  | nonc, [], [], _ => by cases nonc <;> simp [validateLoop]
  | n + 1, p :: ps, s :: ss, hl => by
    have ih := validate_iff tol n ps ss (by simpa using hl)
    simp only [validateLoop]
    split
    · rename_i hc
      simp only [Bool.false_eq_true, false_iff]
      intro h
      have := h 0 (by simp) (by simp)
      simp at this
      omega
    · rename_i hc
      rw [ih]
      constructor
      · intro h i hi hi'
        cases i with
        | zero => simp; omega
        | succ i => simpa using h i (by simpa using hi) (by simpa using hi')
      · intro h i hi hi'
        have := h (i + 1) (by simpa using hi) (by simpa using hi')
        simp only [Nat.add_lt_add_iff_right] at this
        exact this
  | 0, p :: ps, s :: ss, hl => by
    have ih := validate_iff tol 0 ps ss (by simpa using hl)
    simp only [validateLoop]
    split
    · rename_i hc
      simp only [Bool.false_eq_true, false_iff]
      intro h
      have := h 0 (by simp) (by simp)
      simp at this
      omega
    · rename_i hc
      rw [ih]
      constructor
      · intro h i hi hi'
        cases i with
        | zero => simp; omega
        | succ i => simpa using h i (by simpa using hi) (by simpa using hi')
      · intro h i hi hi'
        have := h (i + 1) (by simpa using hi) (by simpa using hi')
        simp only [Nat.not_lt_zero, if_false] at this
        exact this

example : validateLoop 2 2 [5, 7, 0] [10, 10, 16] = true ∧ validateLoop 2 2 [5, 8, 0] [10, 10, 16] = false := by
  decide

/-- All maps of the family share template parameters. -/
def Uniform (bit nonc : Nat) (st : Nat → GM α) : Prop := ∀ i, (st i).bit = bit ∧ (st i).nonc = nonc

/-- The concrete store represents the abstract one. -/
def RepAll (maxv : α) (st : Nat → GM α) (S : Nat → Option (SMap α)) : Prop :=
  ∀ i m, S i = some m → Rep maxv (st i) m

theorem repAll_upd {maxv : α} {st : Nat → GM α} {S : Nat → Option (SMap α)} (h : RepAll maxv st S)
    {i : Nat} {g : GM α} {m : SMap α} (r : Rep maxv g m) :
    RepAll maxv (Gridmap.upd st i g) (Spec.upd S i (some m)) := by
  intro k m' hk
  unfold Gridmap.upd
  unfold Spec.upd at hk
  split at hk
  · rename_i hki; subst hki; simp at hk; subst hk; simpa using r
  · rename_i hki; rw [if_neg hki]; exact h k m' hk

theorem uniform_upd {bit nonc : Nat} {st : Nat → GM α} (h : Uniform bit nonc st) {i : Nat} {g : GM α}
    (hb : g.bit = bit) (hn : g.nonc = nonc) : Uniform bit nonc (Gridmap.upd st i g) := by
  intro k; unfold Gridmap.upd; split
  · exact ⟨hb, hn⟩
  · exact h k

theorem reset_params (g : GM α) (size : List Int) (fresh : Int → α) :
    (g.reset size fresh).bit = g.bit ∧ (g.reset size fresh).nonc = g.nonc ∧
    (g.reset size fresh).size = size := by
  unfold GM.reset; simp only []; split <;> exact ⟨rfl, rfl, rfl⟩

theorem step_sim {maxv : α} {nonneg : α → Bool} {bit nonc : Nat} {st : Nat → GM α}
    {S S' : Nat → Option (SMap α)} {op : Op α}
    (hu : Uniform bit nonc st) (hr : RepAll maxv st S) (hstep : Spec.Step nonneg S op S') :
    ∃ st', step maxv nonneg st op = some st' ∧ Uniform bit nonc st' ∧ RepAll maxv st' S' := by
  cases hstep with
  | reset i size fresh h =>
    have hp := reset_params (st i) size fresh
    refine ⟨_, rfl, uniform_upd hu (by rw [hp.1]; exact (hu i).1) (by rw [hp.2.1]; exact (hu i).2),
      repAll_upd hr ⟨reset_WF _ _ _ h, hp.2.2, by intro p v _ hv; simp at hv⟩⟩
  | write i p v m hm hp =>
    obtain ⟨g', hg, hb, hn, r⟩ := rep_set (hr i m hm) hp (some v) v (by simp)
    refine ⟨Gridmap.upd st i g', by simp [step, hg], uniform_upd hu (by rw [hb]; exact (hu i).1)
      (by rw [hn]; exact (hu i).2), repAll_upd hr r⟩
  | clear i v m hm =>
    have r := hr i m hm
    refine ⟨Gridmap.upd st i
        { st i with mem := fun k => if 0 ≤ k ∧ k < (st i).serSize then v else (st i).mem k },
      by simp only [step, GM.clear, if_pos r.wf.cap]; rfl, uniform_upd hu (hu i).1 (hu i).2,
      repAll_upd hr (rep_mem r _ _ ?_)⟩
    intro p w hp hw
    rw [if_pos (offset_range r.wf (by rw [r.size]; exact hp))]
    simpa using hw
  | clearPositive i v m hm =>
    have r := hr i m hm
    refine ⟨Gridmap.upd st i
        { st i with mem := fun k => if 0 ≤ k ∧ k < (st i).serSize then
          (if nonneg ((st i).mem k) then v else (st i).mem k) else (st i).mem k },
      by simp only [step, GM.clearPositive, if_pos r.wf.cap]; rfl,
      uniform_upd hu (hu i).1 (hu i).2, repAll_upd hr (rep_mem r _ _ ?_)⟩
    intro p w hp hw
    have hp' : inMap p (st i).size = true := by rw [r.size]; exact hp
    rw [if_pos (offset_range r.wf hp')]
    simp only [Option.map_eq_some_iff] at hw
    obtain ⟨a, ha, hw⟩ := hw
    have hv := r.val p a hp ha
    rw [get_eq r.wf maxv hp'] at hv
    simp only [Option.some.injEq] at hv
    rw [hv, hw]
  | clearPartially i v mn mx m hm hb =>
    have r := hr i m hm
    obtain ⟨h3, h1, h2, hin⟩ := hb
    obtain ⟨ps, hps, hmem⟩ := loopBox_mem h1 h2
    obtain ⟨g', hg, hb', hn', hs', hrep⟩ := rep_fold (maxv := maxv) (fun g p => g.set p v) id
      (fun _ => some v) ps (st i) m r (fun p hp => hin p ((hmem p).mp hp))
      (fun p _ g => ⟨v, rfl, by simp⟩) (fun p _ q _ h => h)
    refine ⟨Gridmap.upd st i g', by simp [step, GM.clearPartially, hps, hg],
      uniform_upd hu (by rw [hb']; exact (hu i).1) (by rw [hn']; exact (hu i).2),
      repAll_upd hr (hrep _ rfl ?_ ?_)⟩
    · intro q hqm hq
      have : ¬ inBox mn mx q = true := fun h => hq q ((hmem q).mpr h) rfl
      simp [this]
    · intro p hp
      simp [(hmem p).mp hp]
  | copyPartially i j mn mx m s hm hs hij hb hb' =>
    have r := hr i m hm
    have rs := hr j s hs
    obtain ⟨h3, h1, h2, hin⟩ := hb
    obtain ⟨_, _, _, hin'⟩ := hb'
    obtain ⟨ps, hps, hmem⟩ := loopBox_mem h1 h2
    obtain ⟨g', hg, hb', hn', hs', hrep⟩ := rep_fold (maxv := maxv)
      (fun g p => do let v ← (st j).get maxv p; g.set p v) id
      (fun p => s.val p) ps (st i) m r (fun p hp => hin p ((hmem p).mp hp))
      (fun p hp g => by
        have hpm := hin' p ((hmem p).mp hp)
        have hge := get_eq rs.wf maxv (p := p) (by rw [rs.size]; exact hpm)
        refine ⟨_, by rw [hge]; rfl, fun w hw => ?_⟩
        have := rs.val p w hpm hw
        rw [hge] at this; simpa using this)
      (fun p _ q _ h => h)
    refine ⟨Gridmap.upd st i g', by
        simp only [step, GM.copyPartially, hps]
        exact congrArg (Option.map (Gridmap.upd st i)) hg,
      uniform_upd hu (by rw [hb']; exact (hu i).1) (by rw [hn']; exact (hu i).2),
      repAll_upd hr (hrep _ rfl ?_ ?_)⟩
    · intro q hqm hq
      have : ¬ inBox mn mx q = true := fun h => hq q ((hmem q).mpr h) rfl
      simp [this]
    · intro p hp
      simp [(hmem p).mp hp]
  | copyPartiallyTo i dmin j smin smax m s hm hs hij hd hb' h3 hin =>
    have r := hr i m hm
    have rs := hr j s hs
    obtain ⟨h3', h1, h2, hin'⟩ := hb'
    obtain ⟨ps, hps, hmem⟩ := loopBox_mem h1 h2
    have hlen : ∀ p ∈ ps, p.length = 3 := fun p hp => by
      rw [inBox_length ((hmem p).mp hp), h1]
    obtain ⟨g', hg, hb', hn', hs', hrep⟩ := rep_fold (maxv := maxv)
      (fun g p => do let v ← (st j).get maxv p; g.set (shift dmin smin p) v) (shift dmin smin)
      (fun p => s.val p) ps (st i) m r (fun p hp => hin p ((hmem p).mp hp))
      (fun p hp g => by
        have hpm := hin' p ((hmem p).mp hp)
        have hge := get_eq rs.wf maxv (p := p) (by rw [rs.size]; exact hpm)
        refine ⟨_, by rw [hge]; rfl, fun w hw => ?_⟩
        have := rs.val p w hpm hw
        rw [hge] at this; simpa using this)
      (fun p hp q hq h => shift_inj hd h1 (hlen p hp) (hlen q hq) h)
    refine ⟨Gridmap.upd st i g', by
        simp only [step, GM.copyPartiallyTo, hps]
        exact congrArg (Option.map (Gridmap.upd st i)) hg,
      uniform_upd hu (by rw [hb']; exact (hu i).1) (by rw [hn']; exact (hu i).2),
      repAll_upd hr (hrep _ rfl ?_ ?_)⟩
    · intro q hqm hq
      show (if inBox smin smax (shift smin dmin q) = true then _ else _) = _
      split
      · rename_i h
        exact absurd (shift_shift hd h1 (by rw [inMap_length hqm, h3])) (hq _ ((hmem _).mpr h))
      · rfl
    · intro p hp
      show (if inBox smin smax (shift smin dmin (shift dmin smin p)) = true then _ else _) = _
      rw [shift_shift h1 hd (hlen p hp), if_pos ((hmem p).mp hp)]
  | assign i j fresh s hs hij =>
    have rs := hr j s hs
    have hp := reset_params (st i) (st j).size fresh
    have wf := reset_WF (st i) (st j).size fresh rs.wf.nonneg
    have hb : (st i).bit = (st j).bit := by rw [(hu i).1, (hu j).1]
    have hn : (st i).nonc = (st j).nonc := by rw [(hu i).2, (hu j).2]
    set g1 := (st i).reset (st j).size fresh with hg1
    have e1 : g1.bser = (st j).bser := by rw [wf.bser, rs.wf.bser, hp.1, hp.2.1, hp.2.2, hb, hn]
    have e2 : g1.bnum = (st j).bnum := by rw [wf.bnum, rs.wf.bnum, hp.1, hp.2.1, hp.2.2, hb, hn]
    have e3 : g1.bsize = (st j).bsize := by rw [wf.bsize, rs.wf.bsize, hp.1, hp.2.1, hp.2.2, hb, hn]
    have e4 : g1.serSize = (st j).serSize := by rw [wf.ser, rs.wf.ser, e1, e2]
    have hc : g1.serSize ≤ g1.cap ∧ g1.serSize ≤ (st j).cap := ⟨wf.cap, by rw [e4]; exact rs.wf.cap⟩
    have r1 : Rep maxv g1 ⟨s.size, fun _ => none⟩ :=
      ⟨wf, by rw [hp.2.2]; exact rs.size, fun p v _ hv => by simp at hv⟩
    refine ⟨Gridmap.upd st i
        { g1 with mem := fun k => if 0 ≤ k ∧ k < g1.serSize then (st j).mem k else g1.mem k },
      by simp only [step, GM.assign, ← hg1, if_pos hc]; rfl,
      uniform_upd hu (by rw [← (hu i).1, ← hp.1]) (by rw [← (hu i).2, ← hp.2.1]),
      repAll_upd hr (rep_mem r1 _ s.val ?_)⟩
    intro p w hpm hw
    have hpj : inMap p (st j).size = true := by rw [rs.size]; exact hpm
    have hp1 : inMap p g1.size = true := by rw [hp.2.2]; exact hpj
    have ho2 : g1.offset p = (st j).offset p := by
      unfold GM.offset; rw [e1, e3, hp.1, hp.2.1, hp.2.2, hb, hn]
    rw [if_pos (offset_range wf hp1)]
    have hv := rs.val p w hpm hw
    rw [get_eq rs.wf maxv hpj] at hv
    rw [ho2]; simpa using hv

/-- C03: refinement.  Starting from default-constructed maps (any initial garbage), every history of
operations that is legal in the abstract position/value store runs without undefined behaviour in the
blocked map, and afterwards every in-range cell whose abstract value is specified is read back with
exactly that value. -/
theorem gridmap_refines (bit nonc : Nat) (val : Bool) (maxv : α) (nonneg : α → Bool)
    (fresh0 : Int → α) (ops : List (Op α)) (S : Nat → Option (SMap α))
    (h : Spec.Steps nonneg (fun _ => none) ops S) :
    ∃ st, run maxv nonneg (fun _ => init bit nonc val maxv fresh0) ops = some st ∧
      ∀ i m, S i = some m → (st i).size = m.size ∧
        ∀ p v, inMap p m.size = true → m.val p = some v → (st i).get maxv p = some v := by
  have main : ∀ (ops : List (Op α)) (S0 S : Nat → Option (SMap α)) (st0 : Nat → GM α),
      Uniform bit nonc st0 → RepAll maxv st0 S0 → Spec.Steps nonneg S0 ops S →
      ∃ st, run maxv nonneg st0 ops = some st ∧ RepAll maxv st S := by
    intro ops
    induction ops with
    | nil => intro S0 S st0 _ hr hs; cases hs; exact ⟨st0, rfl, hr⟩
    | cons op ops ih =>
      intro S0 S st0 hu hr hs
      cases hs with
      | cons h1 h2 =>
        obtain ⟨st1, e1, hu1, hr1⟩ := step_sim hu hr h1
        obtain ⟨st, e, hr'⟩ := ih _ _ st1 hu1 hr1 h2
        exact ⟨st, by simpa [run, List.foldlM, e1] using e, hr'⟩
  obtain ⟨st, e, hr⟩ := main ops _ S (fun _ => init bit nonc val maxv fresh0) (fun _ => ⟨rfl, rfl⟩) (fun i m hm => by simp at hm) h
  exact ⟨st, e, fun i m hm => ⟨(hr i m hm).size, (hr i m hm).val⟩⟩

/-- Non-vacuity of C03: resize two maps, clear, write, copy a sub-box between them. -/
example : ∃ S, Spec.Steps (fun x : Int => decide (0 ≤ x)) (fun _ => none)
    [.reset 0 [40, 40, 4] (fun _ => 7), .reset 1 [40, 40, 4] (fun _ => 9), .clear 0 (-1),
     .write 0 [33, 5, 2] 50, .clear 1 0, .copyPartiallyTo 1 [1, 1, 0] 0 [33, 4, 2] [34, 6, 3]] S ∧
    ∃ m, S 1 = some m ∧ m.val [1, 2, 0] = some 50 ∧ m.val [2, 2, 0] = some (-1) ∧ m.val [3, 2, 0] = some 0 := by
  refine ⟨_, .cons (.reset _ _ _ _ (by decide)) (.cons (.reset _ _ _ _ (by decide))
    (.cons (.clear _ _ _ _ rfl) (.cons (.write _ _ _ _ _ rfl (by decide))
    (.cons (.clear _ _ _ _ rfl) (.cons (.copyPartiallyTo _ _ _ _ _ _ _ _ rfl rfl (by decide) rfl
      ⟨rfl, rfl, rfl, ?_⟩ rfl ?_) (.nil _)))))), _, rfl, by decide, by decide, by decide⟩
  all_goals
    intro p hp
    match p, hp with
    | [x, y, z], hp =>
      simp [inBox, inMap, shift] at hp ⊢
      omega
    | [], hp => simp [inBox] at hp
    | [_], hp => simp [inBox] at hp
    | [_, _], hp => simp [inBox] at hp
    | _ :: _ :: _ :: _ :: _, hp => simp [inBox] at hp

end Verif.Gridmap
