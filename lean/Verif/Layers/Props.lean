import Verif.Layers.Lemmas
import Mathlib.Algebra.Order.Field.Rat
import Mathlib.Data.Rat.Floor
/-! # Properties of the layer chain (C26–C29, C77, C78) -/
set_option linter.unusedSectionVars false
namespace Verif.Layers
open Spec
open Verif.CSpace Verif.Region

variable {K : Type} [Field K] [LinearOrder K] [IsStrictOrderedRing K] [FloorRing K]

/-! ### C29: buffering -/

theorem overlay_buffer (s : Node K) (h : ¬ (s.info.w < 1 ∨ s.info.h < 1)) (b : List (Nat × Msg K)) (i : Nat) (msg : Msg K) :
    cbMapOverlay { s with buffer := b } i msg =
      (cbMapOverlay { s with buffer := [] } i msg).map fun (s', o) => ({ s' with buffer := b }, o) := by
  unfold cbMapOverlay
  simp only
  rw [if_neg h, if_neg h, Option.map_map]
  rfl

theorem overlay_keeps {s s' : Node K} (h : ¬ (s.info.w < 1 ∨ s.info.h < 1)) {i : Nat} {msg : Msg K} {o : List Out}
    (e : cbMapOverlay s i msg = some (s', o)) : s'.info = s.info ∧ s'.buffer = s.buffer := by
  unfold cbMapOverlay at e
  rw [if_neg h, Option.map_eq_some_iff] at e
  obtain ⟨q, -, e⟩ := e
  injection e with e1 e2
  subst e1
  exact ⟨rfl, rfl⟩

theorem replay_buffer : ∀ (evs : List (Nat × Msg K)) (s : Node K), ¬ (s.info.w < 1 ∨ s.info.h < 1) → ∀ (b : List (Nat × Msg K)),
    replay evs { s with buffer := b } = (run { s with buffer := [] } (evs.map fun e => .overlay e.1 e.2)).map
      fun (s', o) => ({ s' with buffer := b }, o) := by
  intro evs
  induction evs with
  | nil => intro s _ b; rfl
  | cons e evs ih =>
    intro s h b
    obtain ⟨i, msg⟩ := e
    simp only [replay, List.map_cons, run, step]
    rw [overlay_buffer s h]
    cases h2 : cbMapOverlay { s with buffer := [] } i msg with
    | none => rfl
    | some q =>
      obtain ⟨s', o⟩ := q
      obtain ⟨k1, k2⟩ := overlay_keeps (s := { s with buffer := [] }) h h2
      simp only at k1 k2
      simp only [Option.map_some]
      rw [ih s' (by rw [k1]; exact h) b]
      have : ({ s' with buffer := [] } : Node K) = s' := by
        cases s'; simp only at k2; subst k2; rfl
      rw [this, Option.map_map, Option.map_map]
      rfl

theorem run_keeps : ∀ (evs : List (Nat × Msg K)) (s : Node K), ¬ (s.info.w < 1 ∨ s.info.h < 1) → ∀ {s' : Node K} {o : List Out},
    run s (evs.map fun e => .overlay e.1 e.2) = some (s', o) → s'.buffer = s.buffer := by
  intro evs
  induction evs with
  | nil => intro s _ s' o e; simp only [List.map_nil, run, Option.some.injEq, Prod.mk.injEq] at e; rw [e.1]
  | cons e evs ih =>
    intro s h s' o he
    obtain ⟨i, msg⟩ := e
    simp only [List.map_cons, run, step] at he
    cases h2 : cbMapOverlay s i msg with
    | none => rw [h2] at he; cases he
    | some q =>
      obtain ⟨s1, o1⟩ := q
      rw [h2] at he
      simp only [Option.map_eq_some_iff] at he
      obtain ⟨⟨s2, o2⟩, h3, h4⟩ := he
      injection h4 with h4 h5
      obtain ⟨k1, k2⟩ := overlay_keeps h h2
      rw [← h4, ih s1 (by rw [k1]; exact h) h3, k2]

theorem run_info : ∀ (evs : List (Nat × Msg K)) (s : Node K), ¬ (s.info.w < 1 ∨ s.info.h < 1) → ∀ {s' : Node K} {o : List Out},
    run s (evs.map fun e => .overlay e.1 e.2) = some (s', o) → s'.info = s.info := by
  intro evs
  induction evs with
  | nil => intro s _ s' o e; simp only [List.map_nil, run, Option.some.injEq, Prod.mk.injEq] at e; rw [e.1]
  | cons e evs ih =>
    intro s h s' o he
    obtain ⟨i, msg⟩ := e
    simp only [List.map_cons, run, step] at he
    cases h2 : cbMapOverlay s i msg with
    | none => rw [h2] at he; cases he
    | some q =>
      obtain ⟨s1, o1⟩ := q
      rw [h2] at he
      simp only [Option.map_eq_some_iff] at he
      obtain ⟨⟨s2, o2⟩, h3, h4⟩ := he
      injection h4 with h4 h5
      obtain ⟨k1, k2⟩ := overlay_keeps h h2
      rw [← h4, ih s1 (by rw [k1]; exact h) h3, k1]

theorem setBaseMap_buffer (s : Node K) (b : List (Nat × Msg K)) (msg : Msg K) :
    setBaseMap { s with buffer := b } msg =
      (setBaseMap { s with buffer := [] } msg).map fun (s', o) => ({ s' with buffer := b }, o) := by
  unfold setBaseMap
  simp only
  split
  · cases s.root.kind <;> (simp only; split <;> simp_all)
  · rfl

theorem setBaseMap_keeps {s s' : Node K} {msg : Msg K} {o : List Out} (e : setBaseMap s msg = some (s', o)) :
    s'.info = infoOf s.ang msg ∧ s'.buffer = s.buffer := by
  unfold setBaseMap at e
  split at e
  · simp only at e
    split at e
    · injection e with e
      injection e with e1 e2
      subst e1
      exact ⟨rfl, rfl⟩
    · cases e
  · cases e

/-- C29: a non-empty base map has the effect of itself followed by the buffered messages in order of arrival. -/
theorem base_replays (s : Node K) (b : Msg K) (hw : 1 ≤ b.grid.w) (hh : 1 ≤ b.grid.h) :
    step s (.base b) = run { s with buffer := [] } (.base b :: s.buffer.map fun e => .overlay e.1 e.2) := by
  have hs : s = { s with buffer := s.buffer } := by cases s; rfl
  simp only [step, run, cbMap]
  conv_lhs => rw [hs, setBaseMap_buffer]
  cases h : setBaseMap { s with buffer := [] } b with
  | none => rfl
  | some q =>
    obtain ⟨s1, o⟩ := q
    obtain ⟨k1, k2⟩ := setBaseMap_keeps h
    simp only at k1 k2
    simp only [Option.map_some, k2, if_true]
    have hne : ¬ (s1.info.w < 1 ∨ s1.info.h < 1) := by
      rw [k1]; simp only [infoOf]; omega
    have hs1 : ({ s1 with buffer := [] } : Node K) = s1 := by
      cases s1; simp only at k2; subst k2; rfl
    by_cases hb : s.buffer = []
    · rw [if_pos hb, hb, List.map_nil, run, hs1]
      simp
    · rw [if_neg hb, if_neg hne, replay_buffer _ _ hne, hs1, Option.map_map]
      cases h2 : run s1 (s.buffer.map fun e => .overlay e.1 e.2) with
      | none => rfl
      | some q =>
        obtain ⟨s2, o2⟩ := q
        have hk := run_keeps _ _ hne h2
        have hs2 : ({ s2 with buffer := [] } : Node K) = s2 := by
          cases s2; simp only at hk; rw [k2] at hk; subst hk; rfl
        simp only [Option.map_some, Function.comp, hs2]

/-! ### The node never fails and what it publishes -/

theorem updateMsg_content {m : Info K} (hw : 1 ≤ m.w) (hh : 1 ≤ m.h) (ha : 1 ≤ m.ang) {region prev : Region} {stamp : Nat} {src : Cells}
    (hr : OutOk m region) (hp : IsFull m region ∧ YawOk m prev ∨ OutOk m prev) {u : Update} {r' : Region} {n : Nat}
    (h : updateMsg m region prev stamp src = some (u, r', n)) : Content m src u := by
  obtain ⟨u', hu, hm, hcase⟩ := updateMsg_ok hw hh ha stamp src hr hp
  rw [hu] at h
  simp only [Option.some.injEq, Prod.mk.injEq] at h
  obtain ⟨hu', -, -⟩ := h
  rw [hu'] at hcase
  rcases hcase with ⟨-, e⟩ | ⟨⟨p1, p2⟩, -, e1, e2, e3, e4, e5, e6, e7⟩
  · left; rw [e]; simp
  · right
    have hreg : Region.Spec.Regular region := by unfold OutOk OkR YawOk at hr; unfold Region.Spec.Regular; omega
    have hprev : Region.Spec.Regular prev := by
      unfold Region.Spec.Regular
      rcases hp with ⟨-, hy⟩ | hp
      · unfold YawOk at hy; omega
      · unfold OutOk OkR YawOk at hp; omega
    have hcov : Region.Spec.Covers ((region.merge prev).normalize m.w m.h) ⟨region.x, region.y, region.yaw⟩ := by
      rw [normalize_covers]
      refine ⟨merge_covers hreg hprev _ (Or.inl ?_), ?_⟩
      · unfold OutOk OkR YawOk at hr
        unfold Region.Spec.Covers
        simp only
        omega
      · unfold OutOk OkR YawOk at hr
        unfold Region.Spec.InMap
        simp only
        omega
    unfold Region.Spec.Covers at hcov
    simp only at hcov
    rw [← e1, ← e2, ← e3, ← e4, ← e5, ← e6] at hcov
    unfold OutOk OkR YawOk at hm
    rw [← e1, ← e2, ← e3, ← e4, ← e5, ← e6] at hm
    refine ⟨by omega, by omega, by omega, by omega, by omega, by omega, by omega, by omega, ?_, ?_⟩
    · rw [e7, rows_length]
      have q1 : ((u.width.toNat : Nat) : Int) = u.width := Int.toNat_of_nonneg (by omega)
      have q2 : ((u.height.toNat : Nat) : Int) = u.height := Int.toNat_of_nonneg (by omega)
      have q3 : ((u.angle.toNat : Nat) : Int) = u.angle := Int.toNat_of_nonneg (by omega)
      push_cast
      rw [q1, q2, q3]; ring
    · intro x y a ⟨rx, ry, ra⟩
      have q1 : ((u.width.toNat : Nat) : Int) = u.width := Int.toNat_of_nonneg (by omega)
      have q2 : ((u.height.toNat : Nat) : Int) = u.height := Int.toNat_of_nonneg (by omega)
      obtain ⟨i, hi⟩ := Int.eq_ofNat_of_zero_le (show 0 ≤ x - u.x by omega)
      obtain ⟨j, hj⟩ := Int.eq_ofNat_of_zero_le (show 0 ≤ y - u.y by omega)
      obtain ⟨k, hk⟩ := Int.eq_ofNat_of_zero_le (show 0 ≤ a - u.yaw by omega)
      have hidx : (((a - u.yaw) * u.height + (y - u.y)) * u.width + (x - u.x)).toNat =
          (k * u.height.toNat + j) * u.width.toNat + i := by
        rw [hi, hj, hk, ← q1, ← q2]
        exact Int.toNat_natCast ((k * u.height.toNat + j) * u.width.toNat + i)
      unfold value?
      rw [hidx, e7, rows_get _ _ _ _ _ _ _ i j k (by omega) (by omega) (by omega), ← hi, ← hj, ← hk]
      congr 2 <;> ring

theorem finalMap_chain {ang : Nat} {root : Kind K} {ks : List (Kind K)} {s : Node K} {xs : List (Layer K)} {uo : Layer K}
    (hc : Chain ang root ks s xs uo) : finalMap s = lastOv s.root.overlay xs := by
  unfold finalMap lastOv
  rw [hc.layers_eq, ← List.cons_append, List.dropLast_concat]
  cases xs with
  | nil => rfl
  | cons x xs =>
    rw [List.getLast?_cons_cons, List.getLast?_eq_some_getLast (List.cons_ne_nil x xs)]
    rfl

/-- The state of the node between messages. -/
def Inv (ang : Nat) (root : Kind K) (ks : List (Kind K)) (s : Node K) : Prop :=
  ∃ xs uo, Chain ang root ks s xs uo ∧ (Waiting ks.length s ∨ Active s xs uo)

theorem inv_init (ang : Nat) (z : K) (root : Kind K) (ks : List (Kind K)) :
    Inv ang root ks (Node.init ang z root (ks ++ [.updateOut])) := by
  refine ⟨ks.map .fresh, .fresh .updateOut, ⟨rfl, rfl, by simp [Node.init], ?_, rfl, rfl⟩, Or.inl ⟨rfl, ?_, by simp [Node.init]⟩⟩
  · rw [List.map_map]; exact (List.map_congr_left (fun _ _ => rfl)).trans (List.map_id _)
  · intro m
    refine ⟨WI_fresh m _, ?_⟩
    intro l hl
    simp only [Node.init] at hl
    obtain ⟨k, -, rfl⟩ := List.mem_map.mp hl
    exact WI_fresh m k

theorem overlay_inv {ang : Nat} (hang : 1 ≤ ang) {root : Kind K} {ks : List (Kind K)} (hks : ∀ k ∈ ks, NotUpdate k)
    {s : Node K} (hs : Inv ang root ks s) {i : Nat} (hi : i < ks.length) {msg : Msg K} (hg : 0 ≤ msg.grid.res) :
    ∃ s' o, step s (.overlay i msg) = some (s', o) ∧ Inv ang root ks s' ∧ ∀ u, .update u ∈ o → Content s'.info (finalMap s') u := by
  obtain ⟨xs, uo, hc, hw | ha⟩ := hs
  · refine ⟨{ s with buffer := s.buffer ++ [(i, msg)] }, [], ?_, ⟨xs, uo, ⟨hc.1, hc.2, hc.3, hc.4, hc.5, hc.6⟩, Or.inl ?_⟩, by simp⟩
    · unfold step cbMapOverlay
      simp only
      rw [if_pos (Or.inl (by rw [hw.1]; omega))]
    · refine ⟨hw.1, hw.2.1, ?_⟩
      intro e he
      rcases List.mem_append.mp he with he | he
      · exact hw.2.2 e he
      · simp only [List.mem_singleton] at he; subst he; exact ⟨hi, hg⟩
  · have hl : i < xs.length := by rw [← hc.kinds, List.length_map] at hi; exact hi
    obtain ⟨A, l, B, hx, hA⟩ : ∃ A l B, xs = A ++ l :: B ∧ A.length = i :=
      ⟨xs.take i, xs[i], xs.drop (i + 1), by simp, by simp; omega⟩
    subst hx
    subst hA
    obtain ⟨B', o, uo', u, -, e, hc', ha', h4, h5, h6, h7, h8, -⟩ := overlay_active hang hks hc ha msg hg
    refine ⟨_, _, e, ⟨_, _, hc', Or.inr ha'⟩, ?_⟩
    intro v hv
    rcases List.mem_append.mp hv with hv | hv
    · exact absurd hv (h8 v)
    · split at hv
      · simp only [List.mem_singleton, Out.update.injEq] at hv
        subst hv
        rw [finalMap_chain hc']
        have hl : lastOv s.root.overlay (A ++ B') = lastOv (lastOv s.root.overlay A) B' := by
          unfold lastOv
          rw [List.getLast?_append]
          cases B'.getLast? <;> simp
        simp only
        rw [hl]
        exact updateMsg_content ha.1 ha.2.1 (by rw [ha.2.2.1, hc.ang_eq]; exact hang) ha'.2.2.2.2.2.2.2.2.2
          (Or.inr ha.2.2.2.2.2.2.2.2.2) h7
      · cases hv

theorem Inv.wi {ang : Nat} {root : Kind K} {ks : List (Kind K)} {s : Node K} (hs : Inv ang root ks s) (m : Info K) (hm : m.ang = ang) :
    WI m s.root ∧ ∀ l ∈ s.layers, WI m l := by
  obtain ⟨xs, uo, hc, hw | ha⟩ := hs
  · exact hw.2.1 m
  · have e : s.info.ang = m.ang := by rw [ha.2.2.1, hc.ang_eq, hm]
    refine ⟨WI_congr e ha.2.2.2.2.2.1, ?_⟩
    rw [hc.layers_eq]
    intro l hl
    rcases List.mem_append.mp hl with hl | hl
    · exact WI_congr e (ha.2.2.2.2.2.2.1 l hl)
    · simp only [List.mem_singleton] at hl; subst hl; exact WI_congr e ha.2.2.2.2.2.2.2.1

theorem base_inv {ang : Nat} (hang : 1 ≤ ang) {root : Kind K} (hroot : NotUpdate root) {ks : List (Kind K)}
    (hks : ∀ k ∈ ks, NotUpdate k) {s : Node K} (hs : Inv ang root ks s) (hbuf : s.buffer = []) {b : Msg K} (hb : GoodBase b) :
    ∃ s' o, step s (.base b) = some (s', o) ∧ Inv ang root ks s' ∧ ∀ u, .update u ∈ o → Content s'.info (finalMap s') u := by
  have hwi := hs.wi
  obtain ⟨xs, uo, hc, -⟩ := hs
  obtain ⟨c, -, root', xs', o, uo', u, -, e, hc', ha', -, h3, h4, h5, h6, h7⟩ := base_ok hang hroot hks hc hwi b hb
  have hst : ({ s with info := infoOf ang b, frame := b.frame, rootMap := c, root := root', layers := xs' ++ [uo'] } : Node K) =
      ⟨ang, infoOf ang b, b.frame, c, root', xs' ++ [uo'], []⟩ := by
    rw [hbuf, hc.ang_eq]
  rw [hst] at e
  refine ⟨_, o ++ (if passes true (s.root :: xs) then [.update u] else []), ?_, ⟨xs', uo', hc' [], Or.inr ha'⟩, ?_⟩
  · simp only [step, cbMap]
    rw [e]
    rfl
  · intro v hv
    rcases List.mem_append.mp hv with hv | hv
    · exact absurd hv (h7 v)
    · split at hv
      · simp only [List.mem_singleton, Out.update.injEq] at hv
        subst hv
        rw [finalMap_chain (hc' [])]
        refine updateMsg_content ha'.1 ha'.2.1 hang ha'.2.2.2.2.2.2.2.2.2 (Or.inl ⟨h4, ?_⟩) h6
        exact (hwi (infoOf ang b) rfl).2 uo (by rw [hc.layers_eq]; simp) |>.2.2.1
      · cases hv

theorem run_overlays {ang : Nat} (hang : 1 ≤ ang) {root : Kind K} {ks : List (Kind K)} (hks : ∀ k ∈ ks, NotUpdate k) :
    ∀ (evs : List (Nat × Msg K)) (s : Node K), Inv ang root ks s → (∀ e ∈ evs, e.1 < ks.length ∧ 0 ≤ e.2.grid.res) →
    ∃ s' o, run s (evs.map fun e => .overlay e.1 e.2) = some (s', o) ∧ Inv ang root ks s' := by
  intro evs
  induction evs with
  | nil => intro s hs _; exact ⟨s, [], rfl, hs⟩
  | cons e evs ih =>
    intro s hs he
    obtain ⟨s1, o1, e1, i1, -⟩ := overlay_inv hang hks hs (he e (by simp)).1 (he e (by simp)).2
    obtain ⟨s2, o2, e2, i2⟩ := ih s1 i1 (fun q hq => he q (by simp [hq]))
    refine ⟨s2, o1 ++ o2, ?_, i2⟩
    simp only [List.map_cons, run]
    rw [e1]
    simp only [e2, Option.map_some]

theorem step_inv {ang : Nat} (hang : 1 ≤ ang) {root : Kind K} (hroot : NotUpdate root) {ks : List (Kind K)}
    (hks : ∀ k ∈ ks, NotUpdate k) {s : Node K} (hs : Inv ang root ks s) {e : Event K} (he : GoodEvent ks.length e) :
    ∃ s' o, step s e = some (s', o) ∧ Inv ang root ks s' := by
  cases e with
  | overlay i msg =>
    obtain ⟨s', o, h, h2, -⟩ := overlay_inv hang hks hs he.1 he.2
    exact ⟨s', o, h, h2⟩
  | base b =>
    rw [base_replays s b he.1 he.2.1]
    have hs0 : Inv ang root ks { s with buffer := [] } := by
      obtain ⟨xs, uo, hc, hw | ha⟩ := hs
      · exact ⟨xs, uo, ⟨hc.1, hc.2, hc.3, hc.4, hc.5, hc.6⟩, Or.inl ⟨hw.1, hw.2.1, by simp⟩⟩
      · exact ⟨xs, uo, ⟨hc.1, hc.2, hc.3, hc.4, hc.5, hc.6⟩, Or.inr ⟨ha.1, ha.2.1, ha.2.2.1, ha.2.2.2.1, rfl, ha.2.2.2.2.2⟩⟩
    have hbuf : ∀ e ∈ s.buffer, e.1 < ks.length ∧ 0 ≤ e.2.grid.res := by
      obtain ⟨xs, uo, hc, hw | ha⟩ := hs
      · exact hw.2.2
      · rw [ha.2.2.2.2.1]; simp
    obtain ⟨s1, o1, e1, i1, -⟩ := base_inv hang hroot hks hs0 rfl he
    obtain ⟨s2, o2, e2, i2⟩ := run_overlays hang hks s.buffer s1 i1 hbuf
    refine ⟨s2, o1 ++ o2, ?_, i2⟩
    simp only [run]
    rw [e1]
    simp only [e2, Option.map_some]

theorem run_inv {ang : Nat} (hang : 1 ≤ ang) {root : Kind K} (hroot : NotUpdate root) {ks : List (Kind K)}
    (hks : ∀ k ∈ ks, NotUpdate k) : ∀ (es : List (Event K)) (s : Node K), Inv ang root ks s → (∀ e ∈ es, GoodEvent ks.length e) →
    ∃ s' o, run s es = some (s', o) ∧ Inv ang root ks s' := by
  intro es
  induction es with
  | nil => intro s hs _; exact ⟨s, [], rfl, hs⟩
  | cons e es ih =>
    intro s hs he
    obtain ⟨s1, o1, e1, i1⟩ := step_inv hang hroot hks hs (he e (by simp))
    obtain ⟨s2, o2, e2, i2⟩ := ih s1 i1 (fun q hq => he q (by simp [hq]))
    refine ⟨s2, o1 ++ o2, ?_, i2⟩
    simp only [run]
    rw [e1]
    simp only [e2, Option.map_some]

/-- C78: with usable messages the node never hits its assertions, whatever the history. -/
theorem run_defined {ang : Nat} (hang : 1 ≤ ang) (z : K) {root : Kind K} (hroot : NotUpdate root) {ks : List (Kind K)}
    (hks : ∀ k ∈ ks, NotUpdate k) (es : List (Event K)) (he : ∀ e ∈ es, GoodEvent ks.length e) :
    (run (Node.init ang z root (ks ++ [.updateOut])) es).isSome := by
  obtain ⟨s', o, e, -⟩ := run_inv hang hroot hks es _ (inv_init ang z root ks) he
  rw [e]; rfl

/-- C27: every update published for a message is empty or carries exactly the node's new map on a rectangle inside it.
A base map arriving while messages are buffered acts as several messages (`base_replays`). -/
theorem update_content {ang : Nat} (hang : 1 ≤ ang) (z : K) {root : Kind K} (hroot : NotUpdate root) {ks : List (Kind K)}
    (hks : ∀ k ∈ ks, NotUpdate k) {es : List (Event K)} (hes : ∀ e ∈ es, GoodEvent ks.length e) {e : Event K}
    (he : GoodEvent ks.length e) {s s' : Node K} {o o' : List Out}
    (hrun : run (Node.init ang z root (ks ++ [.updateOut])) es = some (s, o))
    (hbuf : s.buffer = [] ∨ ∃ i msg, e = .overlay i msg) (hstep : step s e = some (s', o')) {u : Update} (hu : .update u ∈ o') :
    Content s'.info (finalMap s') u := by
  obtain ⟨s0, o0, e0, hs⟩ := run_inv hang hroot hks es _ (inv_init ang z root ks) hes
  rw [hrun] at e0
  obtain ⟨rfl, -⟩ : s = s0 ∧ o = o0 := by simpa using e0
  cases e with
  | overlay i msg =>
    obtain ⟨s1, o1, e1, -, h⟩ := overlay_inv hang hks hs he.1 he.2
    rw [hstep] at e1
    obtain ⟨rfl, rfl⟩ : s' = s1 ∧ o' = o1 := by simpa using e1
    exact h u hu
  | base b =>
    have hb : s.buffer = [] := by
      rcases hbuf with h | ⟨i, msg, h⟩
      · exact h
      · cases h
    obtain ⟨s1, o1, e1, -, h⟩ := base_inv hang hroot hks hs hb he
    rw [hstep] at e1
    obtain ⟨rfl, rfl⟩ : s' = s1 ∧ o' = o1 := by simpa using e1
    exact h u hu

/-! ### C29: order -/

theorem run_append (es es' : List (Event K)) : ∀ s : Node K, run s (es ++ es') =
    match run s es with
    | none => none
    | some (s', o) => (run s' es').map fun (s'', o') => (s'', o ++ o') := by
  induction es with
  | nil => intro s; simp only [List.nil_append, run]; cases run s es' <;> rfl
  | cons e es ih =>
    intro s
    simp only [List.cons_append, run]
    cases step s e with
    | none => rfl
    | some q =>
      obtain ⟨s1, o1⟩ := q
      simp only
      rw [ih s1]
      cases run s1 es with
      | none => rfl
      | some q =>
        obtain ⟨s2, o2⟩ := q
        simp only [Option.map_some]
        cases run s2 es' with
        | none => rfl
        | some q => simp [List.append_assoc]

theorem buffering (ovs : List (Nat × Msg K)) : ∀ s : Node K, (s.info.w < 1 ∨ s.info.h < 1) →
    run s (ovs.map fun e => .overlay e.1 e.2) = some ({ s with buffer := s.buffer ++ ovs }, []) := by
  induction ovs with
  | nil => intro s _; simp [run]
  | cons e ovs ih =>
    intro s h
    simp only [List.map_cons, run, step, cbMapOverlay]
    rw [if_pos h]
    simp only
    have := ih { s with buffer := s.buffer ++ [(e.1, e.2)] } h
    rw [this]
    simp

theorem buffered_order_from (s : Node K) (hs : s.info.w < 1 ∨ s.info.h < 1) (hbuf : s.buffer = []) (ovs : List (Nat × Msg K)) (b : Msg K)
    (hw : 1 ≤ b.grid.w) (hh : 1 ≤ b.grid.h) (rest : List (Event K)) :
    run s (ovs.map (fun e => .overlay e.1 e.2) ++ .base b :: rest) =
      run s (.base b :: (ovs.map (fun e => .overlay e.1 e.2) ++ rest)) := by
  rw [run_append, buffering _ _ hs, ← List.cons_append, run_append]
  simp only [run]
  rw [base_replays _ b hw hh]
  have e : ({ s with buffer := [] } : Node K) = s := by cases s; simp only at hbuf; subst hbuf; rfl
  simp only [e, hbuf, List.nil_append, run]
  rcases step s (.base b) with - | ⟨s1, o1⟩
  · rfl
  · exact Option.map_id'

/-- C29: overlays received before the first base map have the effect of the same overlays received just after it, in
the same order and once each. -/
theorem buffered_order (ang : Nat) (z : K) (root : Kind K) (ks : List (Kind K)) (ovs : List (Nat × Msg K)) (b : Msg K)
    (hw : 1 ≤ b.grid.w) (hh : 1 ≤ b.grid.h) (rest : List (Event K)) :
    run (Node.init ang z root ks) (ovs.map (fun e => .overlay e.1 e.2) ++ .base b :: rest) =
      run (Node.init ang z root ks) (.base b :: (ovs.map (fun e => .overlay e.1 e.2) ++ rest)) :=
  buffered_order_from _ (Or.inl (by simp [Node.init])) rfl ovs b hw hh rest

/-- C29: after a base map nothing stays buffered, and from then on no message is buffered. -/
theorem nothing_buffered {s s' : Node K} {o : List Out} {b : Msg K} (hw : 1 ≤ b.grid.w) (hh : 1 ≤ b.grid.h)
    (h : step s (.base b) = some (s', o)) : s'.buffer = [] ∧ ¬ (s'.info.w < 1 ∨ s'.info.h < 1) := by
  simp only [step, cbMap] at h
  cases h1 : setBaseMap s b with
  | none => rw [h1] at h; cases h
  | some q =>
    obtain ⟨s1, o1⟩ := q
    obtain ⟨k1, k2⟩ := setBaseMap_keeps h1
    have hne : ¬ (s1.info.w < 1 ∨ s1.info.h < 1) := by rw [k1]; simp only [infoOf]; omega
    rw [h1] at h
    simp only at h
    split at h
    · rename_i hb
      simp only [Option.some.injEq, Prod.mk.injEq] at h
      rw [← h.1]; exact ⟨hb, hne⟩
    · have hs1 : s1 = { s1 with buffer := s1.buffer } := by cases s1; rfl
      rw [hs1, replay_buffer _ _ hne, Option.map_map, Option.map_eq_some_iff] at h
      obtain ⟨⟨s2, o2⟩, h2, h3⟩ := h
      simp only [Function.comp, Prod.mk.injEq] at h3
      rw [← h3.1]
      refine ⟨rfl, ?_⟩
      have : s2.info = s1.info := run_info _ { s1 with buffer := [] } hne h2
      simp only [this]
      exact hne

theorem immediate {s s' : Node K} {o : List Out} (hne : ¬ (s.info.w < 1 ∨ s.info.h < 1)) {i : Nat} {msg : Msg K}
    (h : step s (.overlay i msg) = some (s', o)) : s'.buffer = s.buffer ∧ s'.info = s.info :=
  ⟨(overlay_keeps hne h).2, (overlay_keeps hne h).1⟩

/-! ### C26: no ghosts -/

/-- What a layer without an overlay message makes of a cell. -/
def cellOf (k : Kind K) (v : Int) : Int :=
  match k with
  | .unknown c => if v < 0 then c else v
  | .stop => -1
  | _ => v

theorem full_merge_left {m : Info K} (hw : 1 ≤ m.w) (hh : 1 ≤ m.h) (ha : 1 ≤ m.ang) {region prev : Region} (hf : IsFull m region)
    (hy : YawOk m prev) : IsFull m ((region.merge prev).normalize m.w m.h) := by
  have hreg : Region.Spec.Regular region := by unfold IsFull at hf; unfold Region.Spec.Regular; omega
  have hprev : Region.Spec.Regular prev := by unfold YawOk at hy; unfold Region.Spec.Regular; omega
  have hb := normalize_okR (merge_yawOk (isFull_okR hf).1 hy)
  have c1 : Region.Spec.Covers ((region.merge prev).normalize m.w m.h) ⟨0, 0, 0⟩ := by
    rw [normalize_covers]
    refine ⟨merge_covers hreg hprev _ (Or.inl ?_), ?_⟩
    · unfold IsFull at hf; unfold Region.Spec.Covers; simp only; omega
    · unfold Region.Spec.InMap; simp only; omega
  have c2 : Region.Spec.Covers ((region.merge prev).normalize m.w m.h) ⟨m.w - 1, m.h - 1, m.ang - 1⟩ := by
    rw [normalize_covers]
    refine ⟨merge_covers hreg hprev _ (Or.inl ?_), ?_⟩
    · unfold IsFull at hf; unfold Region.Spec.Covers; simp only; omega
    · unfold Region.Spec.InMap; simp only; omega
  generalize (region.merge prev).normalize m.w m.h = q at *
  unfold Region.Spec.Covers at c1 c2
  unfold OkR YawOk at hb
  unfold IsFull
  simp only at c1 c2
  omega

theorem covered_full {m : Info K} {r : Region} (h : IsFull m r) {x y a : Int} (hin : In m x y a) : covered m r x y a = true := by
  unfold covered
  unfold IsFull at h
  unfold In at hin
  simp only [decide_eq_true_eq]
  omega

theorem layerStep_full {m : Info K} (hw : 1 ≤ m.w) (hh : 1 ≤ m.h) (ha : 1 ≤ m.ang) {fr : Nat} {src : Cells} {r : Region} {out out' : Bool}
    {l l' : Layer K} {o : List Out} (hk : NotUpdate l.kind) (hl : WI m l) (hu : l.updated = none) (hr : IsFull m r)
    (h : layerStep m fr src r out l = some (l', o, out')) {x y a : Int} (hin : In m x y a) :
    l'.overlay x y a = cellOf l.kind (src x y a) := by
  obtain ⟨h1, h2, -⟩ := hl
  have hfr := isFull_merge hw hh ha h1 hr
  have hnow := full_merge_left hw hh ha hfr h2
  obtain ⟨k, ov, reg, prev, upd, op, ms⟩ := l
  simp only at hu hk h1 h2 hfr hnow
  subst hu
  have hb : blit m (((reg.merge r).normalize m.w m.h).merge prev) ov src x y a = src x y a := by
    unfold blit
    exact if_pos (covered_full hnow hin)
  cases k with
  | foot R t mode keep =>
    simp only [layerStep, Option.some.injEq, Prod.mk.injEq] at h
    obtain ⟨rfl, -, -⟩ := h
    exact hb
  | unknown c =>
    simp only [layerStep, Option.some.injEq, Prod.mk.injEq] at h
    obtain ⟨rfl, -, -⟩ := h
    simp only [cellOf, hb, covered_full hfr hin, true_and]
  | stop =>
    simp only [layerStep, Option.some.injEq, Prod.mk.injEq] at h
    obtain ⟨rfl, -, -⟩ := h
    rfl
  | staticOut =>
    simp only [layerStep, Option.some.injEq, Prod.mk.injEq] at h
    obtain ⟨rfl, -, -⟩ := h
    exact hb
  | updateOut => exact absurd hk (by simp [NotUpdate])

theorem lastOv_cons (src : Cells) (l : Layer K) (ls : List (Layer K)) : lastOv src (l :: ls) = lastOv l.overlay ls := by
  cases ls with
  | nil => rfl
  | cons q qs =>
    unfold lastOv; rw [List.getLast?_cons_cons]
    simp [List.getLast?_eq_some_getLast (List.cons_ne_nil q qs)]

theorem entry_length (m : Info K) (fr : Nat) : ∀ (xs : List (Layer K)) (src : Cells) (r : Region) (out : Bool)
    {xs' : List (Layer K)} {o : List Out}, entry m fr src r out xs = some (xs', o) → xs'.length = xs.length := by
  intro xs
  induction xs with
  | nil => intro src r out xs' o h; simp only [entry, Option.some.injEq, Prod.mk.injEq] at h; rw [← h.1]
  | cons l xs ih =>
    intro src r out xs' o h
    simp only [entry] at h
    split at h
    · cases h
    · simp only [Option.map_eq_some_iff] at h
      obtain ⟨⟨ys, o2⟩, h2, h3⟩ := h
      simp only [Prod.mk.injEq] at h3
      rw [← h3.1, List.length_cons, List.length_cons, ih _ _ _ h2]

theorem entry_full {m : Info K} (hw : 1 ≤ m.w) (hh : 1 ≤ m.h) (ha : 1 ≤ m.ang) (fr : Nat) {x y a : Int} (hin : In m x y a) :
    ∀ (xs : List (Layer K)) (src : Cells) (r : Region) (out : Bool), (∀ l ∈ xs, NotUpdate l.kind ∧ WI m l ∧ l.updated = none) →
    IsFull m r → ∀ {xs' : List (Layer K)} {o : List Out}, entry m fr src r out xs = some (xs', o) →
    lastOv src xs' x y a = (xs.map (·.kind)).foldl (fun v k => cellOf k v) (src x y a) := by
  intro xs
  induction xs with
  | nil =>
    intro src r out _ _ xs' o h
    simp only [entry, Option.some.injEq, Prod.mk.injEq] at h
    rw [← h.1]; rfl
  | cons l xs ih =>
    intro src r out hl hr xs' o h
    obtain ⟨hk, hwi, hu⟩ := hl l (by simp)
    obtain ⟨l', o1, out', e, -, -, -, a4, -⟩ := layerStep_pre hw hh ha fr src out hk hwi (isFull_okR hr).1
    simp only [entry] at h
    rw [e] at h
    simp only [Option.map_eq_some_iff] at h
    obtain ⟨⟨ys, o2⟩, h2, h3⟩ := h
    simp only [Prod.mk.injEq] at h3
    obtain ⟨rfl, -⟩ := h3
    have := ih l'.overlay l'.region out' (fun q hq => hl q (by simp [hq])) (a4 hr).1 h2
    rw [List.map_cons, List.foldl_cons, ← layerStep_full hw hh ha hk hwi hu hr e hin, ← this]
    rw [lastOv_cons]

/-- The cells below the overlay layer `pre.length`, as a function of the base map. -/
def under (R0 : Info K → Int) (t0 : Info K → Cells) (mode0 : Mode) (keep0 : Bool) (pre : List (Kind K)) (ang : Nat) (b : Msg K)
    (x y a : Int) : Int :=
  pre.foldl (fun v k => cellOf k v) (rootCells R0 t0 mode0 keep0 (infoOf ang b) b x y a)

/-- Only the overlay layer has received messages. -/
def Only (n : Nat) (s : Node K) : Prop := ∀ l ∈ s.layers.take n, l.updated = none

structure After (ang : Nat) (root : Kind K) (pre : List (Kind K)) (k : Kind K) (und : Cells) (b : Msg K) (s : Node K)
    (P : List (Layer K)) (L uo : Layer K) : Prop where
  chain : Chain ang root (pre ++ [k]) s (P ++ [L]) uo
  active : Active s (P ++ [L]) uo
  len : P.length = pre.length
  info : s.info = infoOf ang b
  frame : s.frame = b.frame
  und_eq : ∀ x y a, In s.info x y a → lastOv s.root.overlay P x y a = und x y a
  reg : ∀ c, Region.Spec.Covers uo.outPrev c ↔ Region.Spec.Covers L.regionPrev c
  okp : OkR s.info L.regionPrev
  upd : ∀ l ∈ P, l.updated = none
  angp : L.regionPrev.angle = s.info.ang

theorem kinds_split {pre : List (Kind K)} {k : Kind K} {xs : List (Layer K)} (h : xs.map (·.kind) = pre ++ [k]) :
    ∃ P L, xs = P ++ [L] ∧ P.map (·.kind) = pre ∧ L.kind = k := by
  obtain ⟨P, Q, e, h1, h2⟩ := List.map_eq_append_iff.mp h
  obtain ⟨L, Q', rfl, h3, h4⟩ := List.map_eq_cons_iff.mp h2
  rw [List.map_eq_nil_iff] at h4
  subst h4
  exact ⟨P, L, e, h1, h3⟩

theorem after_base {ang : Nat} (hang : 1 ≤ ang) {R0 : Info K → Int} {t0 : Info K → Cells} {mode0 : Mode} {keep0 : Bool}
    {pre : List (Kind K)} (hpre : ∀ k ∈ pre, NotUpdate k) {k : Kind K} (hk : NotUpdate k)
    {s : Node K} (hs : Inv ang (.foot R0 t0 mode0 keep0) (pre ++ [k]) s) (hbuf : s.buffer = []) (ho : Only pre.length s)
    {b : Msg K} (hb : GoodBase b) {s' : Node K} {o : List Out} (hst : step s (.base b) = some (s', o)) :
    ∃ P L uo, After ang (.foot R0 t0 mode0 keep0) pre k (under R0 t0 mode0 keep0 pre ang b) b s' P L uo ∧
      IsFull s'.info L.regionPrev := by
  have hwi := hs.wi
  obtain ⟨xs, uo, hc, -⟩ := hs
  have hks : ∀ q ∈ pre ++ [k], NotUpdate q := by
    intro q hq
    rcases List.mem_append.mp hq with h | h
    · exact hpre q h
    · simp only [List.mem_singleton] at h; subst h; exact hk
  obtain ⟨c, hcell, root', xs', o', uo', u, e0, e, hc', ha', hu', h3, h4, h5, h6, h7⟩ :=
    base_ok hang (by simp [NotUpdate]) hks hc hwi b hb
  have hst' : ({ s with info := infoOf ang b, frame := b.frame, rootMap := c, root := root', layers := xs' ++ [uo'] } : Node K) =
      ⟨ang, infoOf ang b, b.frame, c, root', xs' ++ [uo'], []⟩ := by
    rw [hbuf, hc.ang_eq]
  rw [hst'] at e
  have hs' : s' = ⟨ang, infoOf ang b, b.frame, c, root', xs' ++ [uo'], []⟩ := by
    simp only [step, cbMap] at hst
    rw [e] at hst
    simp only [if_true, Option.some.injEq, Prod.mk.injEq] at hst
    exact hst.1.symm
  subst hs'
  obtain ⟨P', L', hx', hP', hL'⟩ := kinds_split (hc' []).kinds
  obtain ⟨P, L, hx, hP, hL⟩ := kinds_split hc.kinds
  have hlen : P.length = pre.length := by rw [← hP, List.length_map]
  have hlen' : P'.length = pre.length := by rw [← hP', List.length_map]
  have huP : ∀ l ∈ P, l.updated = none := by
    intro l hl
    apply ho
    rw [hc.layers_eq, hx, List.append_assoc, ← hlen, List.take_left']
    · exact hl
    · rfl
  have hupd : P'.map (·.updated) = P.map (·.updated) := by
    rw [hx, hx', List.map_append, List.map_append] at hu'
    exact (List.append_inj hu' (by simp [hlen, hlen'])).1
  have huP' : ∀ l ∈ P', l.updated = none := by
    intro l hl
    have : l.updated ∈ P.map (·.updated) := by rw [← hupd]; exact List.mem_map.mpr ⟨l, hl, rfl⟩
    obtain ⟨q, hq, e⟩ := List.mem_map.mp this
    rw [← e]; exact huP q hq
  subst hx
  subst hx'
  -- the part of the propagation above the overlay layer
  rw [List.map_append, ← List.cons_append, entry_append] at e0
  generalize e2 : entry (infoOf ang b) b.frame c (fullRegion (infoOf ang b) b.stamp) true
        ({ s.root with overlay := c, mapStamp := b.stamp } :: P.map fun l => { l with overlay := c, mapStamp := b.stamp }) = q at e0
  rcases q with - | ⟨ys, o2⟩
  · cases e0
  simp only [Option.map_eq_some_iff] at e0
  obtain ⟨⟨zs, o3⟩, e3, e4⟩ := e0
  simp only [Prod.mk.injEq] at e4
  have w := hwi (infoOf ang b) rfl
  have hfull := fullRegion_isFull (infoOf ang b) b.stamp
  have hPk : ∀ l ∈ P, NotUpdate l.kind ∧ WI (infoOf ang b) l := fun l hl =>
    ⟨kinds_notUpdate hpre hP l hl, w.2 l (by rw [hc.layers_eq]; simp [hl])⟩
  have hys : ∀ q ∈ ({ s.root with overlay := c, mapStamp := b.stamp } :: P.map fun l => { l with overlay := c, mapStamp := b.stamp }),
      NotUpdate q.kind ∧ WI (infoOf ang b) q ∧ q.updated = none := by
    intro q hq
    rcases List.mem_cons.mp hq with rfl | hq
    · exact ⟨by simp only; rw [hc.root_kind]; simp [NotUpdate], w.1, hc.root_upd⟩
    · obtain ⟨l, hl, rfl⟩ := List.mem_map.mp hq
      exact ⟨(hPk l hl).1, (hPk l hl).2, huP l hl⟩
  have hysl : ys = root' :: P' := by
    have hl1 : zs.length = 1 := by
      have := entry_length _ _ _ _ _ _ e3
      simpa using this
    have h8 : ys ++ zs = (root' :: P') ++ [L'] := by rw [e4.1]; simp
    exact (List.append_inj' h8 (by simpa using hl1)).1
  subst hysl
  refine ⟨P', L', uo', ⟨hc' [], ha', hlen', rfl, rfl, ?_, ?_, ?_, huP', (h3 L' (by simp)).2.2.2.2.2⟩, h3 L' (by simp)⟩
  · intro x y a hin
    have := entry_full hb.1 hb.2.1 hang b.frame hin _ _ _ _ hys hfull e2
    rw [lastOv_cons] at this
    simp only
    rw [this]
    unfold under
    rw [List.map_cons, List.foldl_cons, List.map_map]
    have e8 : (P.map ((fun x => x.kind) ∘ fun l => ({ l with overlay := c, mapStamp := b.stamp } : Layer K))) = pre := by
      rw [← hP]; rfl
    simp only
    rw [e8, hc.root_kind, hcell _ _ _ _ rfl]
    rfl
  · intro q
    have a1 := h4
    have a2 := h3 L' (by simp)
    unfold IsFull at a1 a2
    unfold Region.Spec.Covers
    rw [a1.1, a1.2.1, a1.2.2.1, a1.2.2.2.1, a1.2.2.2.2.1, a1.2.2.2.2.2, a2.1, a2.2.1, a2.2.2.1, a2.2.2.2.1, a2.2.2.2.2.1, a2.2.2.2.2.2]
  · exact isFull_okR (h3 L' (by simp))

theorem merge_self (r : Region) : (r.merge r).angle = r.angle ∧ (r.merge r).stamp = r.stamp := by
  unfold Region.merge
  by_cases h : r.width = 0 ∨ r.height = 0 ∨ r.angle = 0
  · rw [if_pos h]; exact ⟨rfl, rfl⟩
  · rw [if_neg h]
    simp only [if_neg h]
    constructor <;> (repeat' split) <;> omega

theorem updateMsg_stamp {m : Info K} {region prev : Region} {stamp : Nat} {src : Cells} {u : Update} {r' : Region} {n : Nat}
    (h : updateMsg m region prev stamp src = some (u, r', n)) : u.stamp = stamp := by
  unfold updateMsg at h
  simp only at h
  split at h
  · simp only [Option.some.injEq, Prod.mk.injEq] at h
    rw [← h.1]
    split
    · rfl
    · split <;> rfl
  · cases h

theorem updateMsg_reports {m : Info K} (hw : 1 ≤ m.w) (hh : 1 ≤ m.h) (ha : 1 ≤ m.ang) {region prev : Region} {stamp : Nat} {src : Cells}
    (hr : OutOk m region) (hp : OutOk m prev) {u : Update} {r' : Region} {n : Nat}
    (h : updateMsg m region prev stamp src = some (u, r', n)) {x y a : Int} (hrep : Reports u x y a) :
    In m x y a ∧ Region.Spec.Covers (region.merge prev) ⟨x, y, a⟩ := by
  obtain ⟨u', hu, hm, hcase⟩ := updateMsg_ok hw hh ha stamp src hr (Or.inr hp)
  rw [hu] at h
  simp only [Option.some.injEq, Prod.mk.injEq] at h
  obtain ⟨hu', -, -⟩ := h
  rw [hu'] at hcase
  unfold Reports at hrep
  rcases hcase with ⟨-, e⟩ | ⟨-, -, e1, e2, e3, e4, e5, e6, -⟩
  · rw [e] at hrep; simp only at hrep; omega
  · rw [e1, e2, e3, e4, e5, e6] at hrep
    have h2 : Region.Spec.Covers ((region.merge prev).normalize m.w m.h) ⟨x, y, a⟩ := hrep
    obtain ⟨h3, h4⟩ := (normalize_covers _ _ _ _).mp h2
    refine ⟨?_, h3⟩
    unfold Region.Spec.InMap at h4
    unfold OutOk OkR YawOk at hm
    unfold In
    simp only at h4
    omega

/-- What the overlay layer makes of the cells below it. -/
def overlaid (m : Info K) (k : Kind K) (frame : Nat) (msg : Msg K) (und : Cells) : Cells :=
  if frame = msg.frame then applyMsg m k msg und else und

theorem after_overlay {ang : Nat} (hang : 1 ≤ ang) {root : Kind K} {pre : List (Kind K)} (hpre : ∀ k ∈ pre, NotUpdate k)
    {R : Info K → Int} {t : Info K → Cells} {mode : Mode} {keep : Bool} {und : Cells} {b : Msg K} {s : Node K} {P : List (Layer K)}
    {L uo : Layer K} (h : After ang root pre (.foot R t mode keep) und b s P L uo) {msg : Msg K} (hg : 0 ≤ msg.grid.res) {s' : Node K}
    {o : List Out} (hst : step s (.overlay pre.length msg) = some (s', o)) :
    ∃ L' uo', After ang root pre (.foot R t mode keep) und b s' P L' uo' ∧
      (∀ x y a, In s.info x y a → Region.Spec.Covers (L'.regionPrev.merge L.regionPrev) ⟨x, y, a⟩ →
        finalMap s' x y a = overlaid s.info (.foot R t mode keep) s.frame msg und x y a) ∧
      (∀ u, .update u ∈ o → ∀ x y a, Reports u x y a →
        In s.info x y a ∧ Region.Spec.Covers (L'.regionPrev.merge L.regionPrev) ⟨x, y, a⟩) ∧
      (∀ x y a, In s.info x y a → ¬ Region.Spec.Covers (L'.regionPrev.merge L.regionPrev) ⟨x, y, a⟩ →
        finalMap s' x y a = overlaid s.info (.foot R t mode keep) s.frame msg (finalMap s) x y a) ∧
      (∀ c, Region.Spec.Covers L'.regionPrev c ↔ Region.Spec.Covers (window s.info msg) c ∧ Region.Spec.InMap s.info.w s.info.h c) ∧
      ∃ u, o = [.update u] ∧ (0 < L'.regionPrev.width ∧ 0 < L'.regionPrev.height →
        ∀ x y a, In s.info x y a → Region.Spec.Covers (L'.regionPrev.merge L.regionPrev) ⟨x, y, a⟩ → Reports u x y a) ∧
        u.stamp = uo.mapStamp ∧ uo'.mapStamp =
          if 0 < L'.regionPrev.width ∧ 0 < L'.regionPrev.height then msg.stamp else 0 := by
  have hc := h.chain
  have ha := h.active
  have hks : ∀ q ∈ pre ++ [.foot R t mode keep], NotUpdate q := by
    intro q hq
    rcases List.mem_append.mp hq with h | h
    · exact hpre q h
    · simp only [List.mem_singleton] at h; subst h; simp [NotUpdate]
  obtain ⟨B', o1, uo', u, e, e2, hc', ha', h4, h5, h6, h7, h8, h9, h10⟩ := overlay_active hang hks hc ha msg hg
  rw [h.len, hst] at e2
  obtain ⟨e2, e3⟩ : s' = { s with layers := P ++ B' ++ [uo'] } ∧ o = _ := by simpa using e2
  subst e2
  have hLk : L.kind = .foot R t mode keep := by
    have := hc.kinds
    rw [List.map_append] at this
    have := (List.append_inj' this (by simp)).2
    simpa using this
  have hang' : 1 ≤ s.info.ang := by rw [ha.2.2.1, hc.ang_eq]; exact hang
  have hwy := window_yawOk s.info msg ha.2.2.2.1 hg
  have hreg : OkR s.info (((window s.info msg).merge (window s.info msg)).normalize s.info.w s.info.h) :=
    normalize_okR (merge_yawOk hwy hwy)
  -- the new overlay layer
  obtain ⟨L', hL', hLp, hLov⟩ : ∃ L', B' = [L'] ∧
      L'.regionPrev = ((window s.info msg).merge (window s.info msg)).normalize s.info.w s.info.h ∧ L'.region = L'.regionPrev ∧
      L'.overlay = overlaid s.info (.foot R t mode keep) s.frame msg
        (blit s.info (L'.regionPrev.merge L.regionPrev) L.overlay (lastOv s.root.overlay P)) := by
    obtain ⟨k, ov, reg, prev, upd, op, ms⟩ := L
    simp only at hLk
    subst hLk
    simp only [entry, layerStep, Option.map_some, Option.some.injEq, Prod.mk.injEq] at e
    obtain ⟨rfl, -⟩ := e
    exact ⟨_, rfl, rfl, rfl, by simp only [overlaid]⟩
  obtain ⟨hLr, hLov⟩ := hLov
  subst hL'
  have hokL : OkR s.info L'.regionPrev := by rw [hLp]; exact hreg
  have hcov : ∀ c, Region.Spec.Covers uo'.outPrev c ↔ Region.Spec.Covers L'.regionPrev c := by
    intro c
    rw [h5]
    have e9 : lastReg (window s.info msg) [L'] = L'.regionPrev := by simp [lastReg, hLr]
    rw [e9]
    exact (zero_merge hokL).2 c
  have hregular : ∀ {r : Region}, OkR s.info r → Region.Spec.Regular r := by
    intro r hr; unfold OkR YawOk at hr; unfold Region.Spec.Regular; omega
  have hregW : Region.Spec.Regular (window s.info msg) := by
    unfold YawOk at hwy; unfold Region.Spec.Regular; omega
  have ho' : OutOk s.info uo'.outPrev := ha'.2.2.2.2.2.2.2.2.2
  have ho : OutOk s.info uo.outPrev := ha.2.2.2.2.2.2.2.2.2
  have r1 : Region.Spec.Regular uo'.outPrev := by
    unfold OutOk OkR YawOk at ho'; unfold Region.Spec.Regular; omega
  have r2 : Region.Spec.Regular uo.outPrev := by
    unfold OutOk OkR YawOk at ho; unfold Region.Spec.Regular; omega
  refine ⟨L', uo', ⟨hc', ha', h.len, h.info, h.frame, h.und_eq, hcov, hokL, h.upd, by rw [hLp]; exact (merge_self _).1⟩, ?_, ?_, ?_, ?_, ?_⟩
  · intro x y a hin hcv
    rw [finalMap_chain hc']
    have e10 : lastOv s.root.overlay (P ++ [L']) = L'.overlay := by unfold lastOv; simp
    simp only
    rw [e10, hLov]
    have hb : blit s.info (L'.regionPrev.merge L.regionPrev) L.overlay (lastOv s.root.overlay P) x y a = und x y a := by
      rw [← h.und_eq x y a hin]
      unfold blit
      refine if_pos ?_
      have := (normalize_covers (L'.regionPrev.merge L.regionPrev) s.info.w s.info.h ⟨x, y, a⟩).mpr ⟨hcv, by
        unfold In at hin; unfold Region.Spec.InMap; simp only; omega⟩
      unfold covered
      unfold Region.Spec.Covers at this
      unfold In at hin
      simp only [decide_eq_true_eq]
      simp only at this
      omega
    unfold overlaid
    split
    · exact applyMsg_point _ _ _ _ _ _ _ _ hb
    · exact hb
  · intro v hv x y a hrep
    rw [e3] at hv
    rcases List.mem_append.mp hv with hv | hv
    · exact absurd hv (h8 v)
    · split at hv
      · simp only [List.mem_singleton, Out.update.injEq] at hv
        subst hv
        obtain ⟨h11, h12⟩ := updateMsg_reports ha.1 ha.2.1 hang' ho' ho h7 hrep
        refine ⟨h11, ?_⟩
        refine merge_least r1 r2 _ ?_ _ h12
        intro c hcc
        exact merge_covers (hregular hokL) (hregular h.okp) c (hcc.imp (hcov c).mp (h.reg c).mp)
      · cases hv
  · intro x y a hin hcv
    rw [finalMap_chain hc', finalMap_chain hc]
    have e10 : lastOv s.root.overlay (P ++ [L']) = L'.overlay := by unfold lastOv; simp
    have e11 : lastOv s.root.overlay (P ++ [L]) = L.overlay := by unfold lastOv; simp
    simp only
    rw [e10, e11, hLov]
    have hb : blit s.info (L'.regionPrev.merge L.regionPrev) L.overlay (lastOv s.root.overlay P) x y a = L.overlay x y a := by
      unfold blit
      refine if_neg ?_
      intro hcd
      apply hcv
      have h20 := normalize_covers (L'.regionPrev.merge L.regionPrev) s.info.w s.info.h ⟨x, y, a⟩
      unfold covered at hcd
      simp only [decide_eq_true_eq] at hcd
      refine (h20.mp ?_).1
      unfold Region.Spec.Covers
      simp only
      omega
    unfold overlaid
    split
    · exact applyMsg_point _ _ _ _ _ _ _ _ hb
    · exact hb
  · intro c
    rw [hLp, normalize_covers]
    refine and_congr_left (fun _ => ⟨fun hh => ?_, fun hh => merge_covers hregW hregW c (Or.inl hh)⟩)
    exact merge_least hregW hregW _ (fun c hcc => hcc.elim id id) c hh
  · have ho1 : o1 = [] := by
      obtain ⟨k, ov, reg, prev, upd, op, ms⟩ := L
      simp only at hLk
      subst hLk
      simp only [entry, layerStep, Option.map_some, Option.some.injEq, Prod.mk.injEq] at e
      simpa using e.2.symm
    have hpass : passes true [L] = true := by unfold passes; simp [hLk]
    have hemp : (0 < L'.regionPrev.width ∧ 0 < L'.regionPrev.height) ↔ (0 < uo'.outPrev.width ∧ 0 < uo'.outPrev.height) := by
      have a1 := hcov ⟨L'.regionPrev.x, L'.regionPrev.y, L'.regionPrev.yaw⟩
      have a2 := hcov ⟨uo'.outPrev.x, uo'.outPrev.y, uo'.outPrev.yaw⟩
      have a3 : L'.regionPrev.angle = s.info.ang := by rw [hLp]; exact (merge_self _).1
      unfold Region.Spec.Covers at a1 a2
      unfold OutOk OkR YawOk at ho'
      simp only at a1 a2
      omega
    refine ⟨u, by rw [e3, ho1, hpass]; rfl, ?_, ?_, ?_⟩
    · intro hne x y a hin hcv
      obtain ⟨u', hu, hm, hcase⟩ := updateMsg_ok ha.1 ha.2.1 hang' uo.mapStamp (lastOv (lastOv s.root.overlay P) [L']) ho' (Or.inr ho)
      rw [hu] at h7
      simp only [Option.some.injEq, Prod.mk.injEq] at h7
      rw [h7.1] at hcase
      have hne' := hemp.mp hne
      rcases hcase with ⟨hz, -⟩ | ⟨-, -, e1, e2, e3, e4, e5, e6, -⟩
      · omega
      · unfold Reports
        rw [e1, e2, e3, e4, e5, e6]
        have : Region.Spec.Covers (uo'.outPrev.merge uo.outPrev) ⟨x, y, a⟩ :=
          merge_least (hregular hokL) (hregular h.okp) _ (fun c hcc => merge_covers r1 r2 c (hcc.imp (hcov c).mpr (h.reg c).mpr)) _ hcv
        exact (normalize_covers _ _ _ ⟨x, y, a⟩).mpr ⟨this, by
          unfold In at hin; unfold Region.Spec.InMap; simp only; omega⟩
    · exact updateMsg_stamp h7
    · rw [h6]
      have e9 : lastReg (window s.info msg) [L'] = L'.regionPrev := by simp [lastReg, hLr]
      rw [e9] at h5
      have est : L'.regionPrev.stamp = msg.stamp := by
        rw [hLp]; exact (merge_self _).2
      split
      · rename_i hne
        rw [h5]
        show (Region.zero.merge L'.regionPrev).stamp = _
        have : Region.zero.merge L'.regionPrev = L'.regionPrev := by
          unfold Region.merge
          rw [if_neg ?_]
          · simp [Region.zero]
          · have a3 : L'.regionPrev.angle = s.info.ang := by rw [hLp]; exact (merge_self _).1
            omega
        rw [this, est]
      · rename_i hne
        rw [h5]
        show (Region.zero.merge L'.regionPrev).stamp = _
        unfold Region.merge
        rw [if_pos ?_]
        · rfl
        · unfold OkR YawOk at hokL; omega

structure Pre (ang : Nat) (root : Kind K) (pre : List (Kind K)) (k : Kind K) (s : Node K) : Prop where
  inv : Inv ang root (pre ++ [k]) s
  only : Only pre.length s
  buf : ∀ e ∈ s.buffer, e.1 = pre.length ∧ 0 ≤ e.2.grid.res

theorem After.pre {ang : Nat} {root : Kind K} {pre : List (Kind K)} {k : Kind K} {und : Cells} {b : Msg K} {s : Node K}
    {P : List (Layer K)} {L uo : Layer K} (h : After ang root pre k und b s P L uo) : Pre ang root pre k s := by
  refine ⟨⟨_, _, h.chain, Or.inr h.active⟩, ?_, by rw [h.active.2.2.2.2.1]; simp⟩
  intro l hl
  rw [h.chain.layers_eq, List.append_assoc, ← h.len, List.take_left' rfl] at hl
  exact h.upd l hl

theorem pre_init (ang : Nat) (z : K) (root : Kind K) (pre : List (Kind K)) (k : Kind K) :
    Pre ang root pre k (Node.init ang z root (pre ++ [k] ++ [.updateOut])) := by
  refine ⟨inv_init ang z root (pre ++ [k]), ?_, by simp [Node.init]⟩
  intro l hl
  have := List.mem_of_mem_take hl
  simp only [Node.init] at this
  obtain ⟨q, -, rfl⟩ := List.mem_map.mp this
  rfl

theorem run_after {ang : Nat} (hang : 1 ≤ ang) {root : Kind K} {pre : List (Kind K)} (hpre : ∀ k ∈ pre, NotUpdate k)
    {R : Info K → Int} {t : Info K → Cells} {mode : Mode} {keep : Bool} {und : Cells} {b : Msg K} {P : List (Layer K)} :
    ∀ (es : List (Event K)) (s : Node K) (L uo : Layer K), After ang root pre (.foot R t mode keep) und b s P L uo →
    (∀ e ∈ es, ∃ msg : Msg K, e = .overlay pre.length msg ∧ 0 ≤ msg.grid.res) → ∀ {s' : Node K} {o : List Out}, run s es = some (s', o) →
    ∃ L' uo', After ang root pre (.foot R t mode keep) und b s' P L' uo' := by
  intro es
  induction es with
  | nil =>
    intro s L uo h _ s' o e
    simp only [run, Option.some.injEq, Prod.mk.injEq] at e
    rw [← e.1]; exact ⟨L, uo, h⟩
  | cons e es ih =>
    intro s L uo h he s' o hr
    obtain ⟨msg, rfl, hg⟩ := he e (by simp)
    simp only [run] at hr
    cases h1 : step s (.overlay pre.length msg) with
    | none => rw [h1] at hr; cases hr
    | some q =>
      obtain ⟨s1, o1⟩ := q
      rw [h1] at hr
      simp only [Option.map_eq_some_iff] at hr
      obtain ⟨⟨s2, o2⟩, h2, h3⟩ := hr
      simp only [Prod.mk.injEq] at h3
      obtain ⟨rfl, -⟩ := h3
      obtain ⟨L', uo', h', -⟩ := after_overlay hang hpre h hg h1
      exact ih s1 L' uo' h' (fun q hq => he q (by simp [hq])) h2

theorem pre_base {ang : Nat} (hang : 1 ≤ ang) {R0 : Info K → Int} {t0 : Info K → Cells} {mode0 : Mode} {keep0 : Bool}
    {pre : List (Kind K)} (hpre : ∀ k ∈ pre, NotUpdate k) {R : Info K → Int} {t : Info K → Cells} {mode : Mode} {keep : Bool}
    {s : Node K} (h : Pre ang (.foot R0 t0 mode0 keep0) pre (.foot R t mode keep) s)
    {b : Msg K} (hb : GoodBase b) {s' : Node K} {o : List Out} (hst : step s (.base b) = some (s', o)) :
    ∃ P L uo, After ang (.foot R0 t0 mode0 keep0) pre (.foot R t mode keep) (under R0 t0 mode0 keep0 pre ang b) b s' P L uo := by
  rw [base_replays s b hb.1 hb.2.1] at hst
  have hs0 : Inv ang (.foot R0 t0 mode0 keep0) (pre ++ [.foot R t mode keep]) { s with buffer := [] } := by
    obtain ⟨xs, uo, hc, hw | ha⟩ := h.inv
    · exact ⟨xs, uo, ⟨hc.1, hc.2, hc.3, hc.4, hc.5, hc.6⟩, Or.inl ⟨hw.1, hw.2.1, by simp⟩⟩
    · exact ⟨xs, uo, ⟨hc.1, hc.2, hc.3, hc.4, hc.5, hc.6⟩, Or.inr ⟨ha.1, ha.2.1, ha.2.2.1, ha.2.2.2.1, rfl, ha.2.2.2.2.2⟩⟩
  simp only [run] at hst
  cases h1 : step { s with buffer := [] } (.base b) with
  | none => rw [h1] at hst; cases hst
  | some q =>
    obtain ⟨s1, o1⟩ := q
    rw [h1] at hst
    simp only [Option.map_eq_some_iff] at hst
    obtain ⟨⟨s2, o2⟩, h2, h3⟩ := hst
    simp only [Prod.mk.injEq] at h3
    obtain ⟨rfl, -⟩ := h3
    obtain ⟨P, L, uo, ha, -⟩ := after_base hang hpre (by simp [NotUpdate]) hs0 rfl h.only hb h1
    obtain ⟨L', uo', ha'⟩ := run_after hang hpre _ s1 L uo ha (by
      intro e he
      obtain ⟨q, hq, rfl⟩ := List.mem_map.mp he
      exact ⟨q.2, by rw [(h.buf q hq).1], (h.buf q hq).2⟩) h2
    exact ⟨P, L', uo', ha'⟩

theorem pre_step {ang : Nat} (hang : 1 ≤ ang) {R0 : Info K → Int} {t0 : Info K → Cells} {mode0 : Mode} {keep0 : Bool}
    {pre : List (Kind K)} (hpre : ∀ k ∈ pre, NotUpdate k) {R : Info K → Int} {t : Info K → Cells} {mode : Mode} {keep : Bool}
    {s : Node K} (h : Pre ang (.foot R0 t0 mode0 keep0) pre (.foot R t mode keep) s) {e : Event K} (he : To pre.length e)
    {s' : Node K} {o : List Out} (hst : step s e = some (s', o)) :
    Pre ang (.foot R0 t0 mode0 keep0) pre (.foot R t mode keep) s' := by
  cases e with
  | base b =>
    obtain ⟨P, L, uo, ha⟩ := pre_base hang hpre h he hst
    exact ha.pre
  | overlay i msg =>
    obtain ⟨rfl, hg⟩ := he
    have hks : ∀ q ∈ pre ++ [.foot R t mode keep], NotUpdate q := by
      intro q hq
      rcases List.mem_append.mp hq with h | h
      · exact hpre q h
      · simp only [List.mem_singleton] at h; subst h; simp [NotUpdate]
    obtain ⟨xs, uo, hc, hw | ha⟩ := h.inv
    · simp only [step, cbMapOverlay] at hst
      rw [if_pos (Or.inl (by rw [hw.1]; omega))] at hst
      simp only [Option.some.injEq, Prod.mk.injEq] at hst
      obtain ⟨rfl, -⟩ := hst
      have hb : ∀ e ∈ s.buffer ++ [(pre.length, msg)], e.1 = pre.length ∧ 0 ≤ e.2.grid.res := by
        intro e he
        rcases List.mem_append.mp he with he | he
        · exact h.buf e he
        · simp only [List.mem_singleton] at he; subst he; exact ⟨rfl, hg⟩
      refine ⟨⟨xs, uo, ⟨hc.1, hc.2, hc.3, hc.4, hc.5, hc.6⟩, Or.inl ⟨hw.1, hw.2.1, ?_⟩⟩, h.only, hb⟩
      intro e he
      have := hb e he
      refine ⟨?_, this.2⟩
      rw [this.1]; simp
    · obtain ⟨P, L, rfl, hP, hL⟩ := kinds_split hc.kinds
      obtain ⟨B', o1, uo', u, e, e2, hc', ha', -⟩ := overlay_active hang hks hc ha msg hg
      have hlen : P.length = pre.length := by rw [← hP, List.length_map]
      rw [hlen, hst] at e2
      obtain ⟨e2, -⟩ : s' = { s with layers := P ++ B' ++ [uo'] } ∧ o = _ := by simpa using e2
      subst e2
      refine ⟨⟨_, _, hc', Or.inr ha'⟩, ?_, h.buf⟩
      intro l hl
      apply h.only l
      simp only at hl
      rw [List.append_assoc, ← hlen, List.take_left' rfl] at hl
      rw [hc.layers_eq, List.append_assoc, ← hlen, List.take_left' rfl]
      exact hl

theorem run_pre {ang : Nat} (hang : 1 ≤ ang) {R0 : Info K → Int} {t0 : Info K → Cells} {mode0 : Mode} {keep0 : Bool}
    {pre : List (Kind K)} (hpre : ∀ k ∈ pre, NotUpdate k) {R : Info K → Int} {t : Info K → Cells} {mode : Mode} {keep : Bool} :
    ∀ (es : List (Event K)) (s : Node K), Pre ang (.foot R0 t0 mode0 keep0) pre (.foot R t mode keep) s →
    (∀ e ∈ es, To pre.length e) → ∀ {s' : Node K} {o : List Out}, run s es = some (s', o) →
    Pre ang (.foot R0 t0 mode0 keep0) pre (.foot R t mode keep) s' := by
  intro es
  induction es with
  | nil =>
    intro s h _ s' o e
    simp only [run, Option.some.injEq, Prod.mk.injEq] at e
    rw [← e.1]; exact h
  | cons e es ih =>
    intro s h he s' o hr
    simp only [run] at hr
    cases h1 : step s e with
    | none => rw [h1] at hr; cases hr
    | some q =>
      obtain ⟨s1, o1⟩ := q
      rw [h1] at hr
      simp only [Option.map_eq_some_iff] at hr
      obtain ⟨⟨s2, o2⟩, h2, h3⟩ := hr
      simp only [Prod.mk.injEq] at h3
      obtain ⟨rfl, -⟩ := h3
      exact ih s1 (pre_step hang hpre h (he e (by simp)) h1) (fun q hq => he q (by simp [hq])) h2

/-- C26: for the last overlay layer of the chain, whatever base maps and overlay messages came before (`es₁`, `es₂`, the
last base map being `b`), each cell reported by the update for the message `msg` has the value a freshly started node
computes from `b` and `msg` alone. -/
theorem no_ghosts_partial {ang : Nat} (hang : 1 ≤ ang) (z : K) {R0 : Info K → Int} {t0 : Info K → Cells} {mode0 : Mode} {keep0 : Bool}
    {pre : List (Kind K)} (hpre : ∀ k ∈ pre, NotUpdate k) {R : Info K → Int} {t : Info K → Cells} {mode : Mode} {keep : Bool}
    {es₁ es₂ : List (Event K)} (h₁ : ∀ e ∈ es₁, To pre.length e) {b : Msg K} (hb : GoodBase b)
    (h₂ : ∀ e ∈ es₂, ∃ msg : Msg K, e = .overlay pre.length msg ∧ 0 ≤ msg.grid.res) {msg : Msg K} (hg : 0 ≤ msg.grid.res)
    {s s' sf : Node K} {o o' of : List Out}
    (hrun : run (Node.init ang z (.foot R0 t0 mode0 keep0) (pre ++ [.foot R t mode keep] ++ [.updateOut]))
      (es₁ ++ .base b :: es₂) = some (s, o))
    (hstep : step s (.overlay pre.length msg) = some (s', o'))
    (hfresh : run (Node.init ang z (.foot R0 t0 mode0 keep0) (pre ++ [.foot R t mode keep] ++ [.updateOut]))
      [.base b, .overlay pre.length msg] = some (sf, of))
    {u : Update} (hu : .update u ∈ o') (x y a : Int) (hrep : Reports u x y a) :
    value? u x y a = some (finalMap sf x y a) := by
  have h0 := pre_init ang z (.foot R0 t0 mode0 keep0) pre (.foot R t mode keep)
  have hks : ∀ q ∈ pre ++ [.foot R t mode keep], NotUpdate q := by
    intro q hq
    rcases List.mem_append.mp hq with h | h
    · exact hpre q h
    · simp only [List.mem_singleton] at h; subst h; simp [NotUpdate]
  -- the present node
  have hA : ∃ P L uo, After ang (.foot R0 t0 mode0 keep0) pre (.foot R t mode keep) (under R0 t0 mode0 keep0 pre ang b) b s P L uo := by
    rw [run_append] at hrun
    cases e1 : run (Node.init ang z (.foot R0 t0 mode0 keep0) (pre ++ [.foot R t mode keep] ++ [.updateOut])) es₁ with
    | none => rw [e1] at hrun; cases hrun
    | some q =>
      obtain ⟨s1, o1⟩ := q
      rw [e1] at hrun
      have hp := run_pre hang hpre es₁ _ h0 h₁ e1
      simp only [run, Option.map_eq_some_iff] at hrun
      obtain ⟨⟨s2, o2⟩, hrun, e2⟩ := hrun
      simp only [Prod.mk.injEq] at e2
      obtain ⟨rfl, -⟩ := e2
      cases e3 : step s1 (.base b) with
      | none => rw [e3] at hrun; cases hrun
      | some q =>
        obtain ⟨s3, o3⟩ := q
        rw [e3] at hrun
        simp only [Option.map_eq_some_iff] at hrun
        obtain ⟨⟨s4, o4⟩, hrun, e4⟩ := hrun
        simp only [Prod.mk.injEq] at e4
        obtain ⟨rfl, -⟩ := e4
        obtain ⟨P, L, uo, ha⟩ := pre_base hang hpre hp hb e3
        obtain ⟨L', uo', ha'⟩ := run_after hang hpre es₂ s3 L uo ha h₂ hrun
        exact ⟨P, L', uo', ha'⟩
  obtain ⟨P, L, uo, hA⟩ := hA
  obtain ⟨L', uo', hA', hfin, hrep', -⟩ := after_overlay hang hpre hA hg hstep
  obtain ⟨hin, hcov⟩ := hrep' u hu x y a hrep
  -- the value
  obtain ⟨s1, o1, e1, -, hcont⟩ := overlay_inv hang hks hA.pre.inv (i := pre.length) (msg := msg) (by simp) hg
  rw [hstep] at e1
  obtain ⟨rfl, rfl⟩ : s' = s1 ∧ o' = o1 := by simpa using e1
  have hval : value? u x y a = some (finalMap s' x y a) := by
    rcases hcont u hu with ⟨c1, c2, -⟩ | ⟨-, -, -, -, -, -, -, -, -, hv⟩
    · unfold Reports at hrep; omega
    · exact hv x y a hrep
  rw [hval, hfin x y a hin hcov]
  -- the fresh node
  simp only [run] at hfresh
  cases e3 : step (Node.init ang z (.foot R0 t0 mode0 keep0) (pre ++ [.foot R t mode keep] ++ [.updateOut])) (.base b) with
  | none => rw [e3] at hfresh; cases hfresh
  | some q =>
    obtain ⟨s3, o3⟩ := q
    rw [e3] at hfresh
    simp only at hfresh
    obtain ⟨P3, L3, uo3, hA3, hfull⟩ := after_base hang hpre (by simp [NotUpdate]) h0.inv rfl h0.only hb e3
    cases e5 : step s3 (.overlay pre.length msg) with
    | none => rw [e5] at hfresh; cases hfresh
    | some q =>
      obtain ⟨s5, o5⟩ := q
      rw [e5] at hfresh
      simp only [Option.map_some, Option.some.injEq, Prod.mk.injEq] at hfresh
      obtain ⟨rfl, -⟩ := hfresh
      obtain ⟨L5, uo5, hA5, hfin5, -⟩ := after_overlay hang hpre hA3 hg e5
      have hi : s3.info = s.info := by rw [hA3.info, hA.info]
      have hf : s3.frame = s.frame := by rw [hA3.frame, hA.frame]
      rw [hfin5 x y a (by rw [hi]; exact hin) ?_, hi, hf]
      have r5 : Region.Spec.Regular L5.regionPrev := by
        have := hA5.okp; unfold OkR YawOk at this; unfold Region.Spec.Regular; omega
      have r3 : Region.Spec.Regular L3.regionPrev := by
        have := hA3.okp; unfold OkR YawOk at this; unfold Region.Spec.Regular; omega
      refine merge_covers r5 r3 _ (Or.inr ?_)
      unfold IsFull at hfull
      unfold In at hin
      rw [hi] at hfull
      unfold Region.Spec.Covers
      simp only
      omega

/-! ### C28: stamps -/

theorem after_history {ang : Nat} (hang : 1 ≤ ang) (z : K) {R0 : Info K → Int} {t0 : Info K → Cells} {mode0 : Mode} {keep0 : Bool}
    {pre : List (Kind K)} (hpre : ∀ k ∈ pre, NotUpdate k) {R : Info K → Int} {t : Info K → Cells} {mode : Mode} {keep : Bool}
    {es₁ es₂ : List (Event K)} (h₁ : ∀ e ∈ es₁, To pre.length e) {b : Msg K} (hb : GoodBase b)
    (h₂ : ∀ e ∈ es₂, ∃ msg : Msg K, e = .overlay pre.length msg ∧ 0 ≤ msg.grid.res) {s : Node K} {o : List Out}
    (hrun : run (Node.init ang z (.foot R0 t0 mode0 keep0) (pre ++ [.foot R t mode keep] ++ [.updateOut]))
      (es₁ ++ .base b :: es₂) = some (s, o)) :
    ∃ P L uo, After ang (.foot R0 t0 mode0 keep0) pre (.foot R t mode keep) (under R0 t0 mode0 keep0 pre ang b) b s P L uo := by
  have h0 := pre_init ang z (.foot R0 t0 mode0 keep0) pre (.foot R t mode keep)
  rw [run_append] at hrun
  cases e1 : run (Node.init ang z (.foot R0 t0 mode0 keep0) (pre ++ [.foot R t mode keep] ++ [.updateOut])) es₁ with
  | none => rw [e1] at hrun; cases hrun
  | some q =>
    obtain ⟨s1, o1⟩ := q
    rw [e1] at hrun
    have hp := run_pre hang hpre es₁ _ h0 h₁ e1
    simp only [run, Option.map_eq_some_iff] at hrun
    obtain ⟨⟨s2, o2⟩, hrun, e2⟩ := hrun
    simp only [Prod.mk.injEq] at e2
    obtain ⟨rfl, -⟩ := e2
    cases e3 : step s1 (.base b) with
    | none => rw [e3] at hrun; cases hrun
    | some q =>
      obtain ⟨s3, o3⟩ := q
      rw [e3] at hrun
      simp only [Option.map_eq_some_iff] at hrun
      obtain ⟨⟨s4, o4⟩, hrun, e4⟩ := hrun
      simp only [Prod.mk.injEq] at e4
      obtain ⟨rfl, -⟩ := e4
      obtain ⟨P, L, uo, ha⟩ := pre_base hang hpre hp hb e3
      obtain ⟨L', uo', ha'⟩ := run_after hang hpre es₂ s3 L uo ha h₂ hrun
      exact ⟨P, L', uo', ha'⟩

theorem meets_iff {m : Info K} {msg : Msg K} (hang : 1 ≤ m.ang) {r : Region}
    (h : ∀ c, Region.Spec.Covers r c ↔ Region.Spec.Covers (window m msg) c ∧ Region.Spec.InMap m.w m.h c) (hra : r.angle = m.ang) :
    Meets m msg ↔ (0 < r.width ∧ 0 < r.height) := by
  constructor
  · rintro ⟨x, y, h1, h2, h3, h4, h5, h6, h7, h8⟩
    have := (h ⟨x, y, 0⟩).mpr ⟨⟨⟨h5, h6⟩, ⟨h7, h8⟩, ⟨le_refl _, by show (0 : Int) < 0 + m.ang; omega⟩⟩, ⟨h1, h2, h3, h4⟩⟩
    unfold Region.Spec.Covers at this
    simp only at this
    omega
  · intro hp
    obtain ⟨h1, h2⟩ := (h ⟨r.x, r.y, r.yaw⟩).mp (by unfold Region.Spec.Covers; simp only; omega)
    exact ⟨r.x, r.y, h2.1, h2.2.1, h2.2.2.1, h2.2.2.2, h1.1.1, h1.1.2, h1.2.1.1, h1.2.1.2⟩

/-- C28: the update published for the message `msg₂` to the last overlay layer carries the stamp of the message `msg₁`
before it (0 if that one missed the map), not its own. -/
theorem stamp_lags_partial {ang : Nat} (hang : 1 ≤ ang) (z : K) {R0 : Info K → Int} {t0 : Info K → Cells} {mode0 : Mode} {keep0 : Bool}
    {pre : List (Kind K)} (hpre : ∀ k ∈ pre, NotUpdate k) {R : Info K → Int} {t : Info K → Cells} {mode : Mode} {keep : Bool}
    {es₁ es₂ : List (Event K)} (h₁ : ∀ e ∈ es₁, To pre.length e) {b : Msg K} (hb : GoodBase b)
    (h₂ : ∀ e ∈ es₂, ∃ msg : Msg K, e = .overlay pre.length msg ∧ 0 ≤ msg.grid.res)
    {msg₁ msg₂ : Msg K} (hg₁ : 0 ≤ msg₁.grid.res) (hg₂ : 0 ≤ msg₂.grid.res) {s s₁ s₂ : Node K} {o o₁ o₂ : List Out}
    (hrun : run (Node.init ang z (.foot R0 t0 mode0 keep0) (pre ++ [.foot R t mode keep] ++ [.updateOut]))
      (es₁ ++ .base b :: es₂) = some (s, o))
    (hs₁ : step s (.overlay pre.length msg₁) = some (s₁, o₁)) (hs₂ : step s₁ (.overlay pre.length msg₂) = some (s₂, o₂)) :
    ∃ u, o₂ = [.update u] ∧ (Meets (infoOf ang b) msg₁ → u.stamp = msg₁.stamp) ∧ (¬ Meets (infoOf ang b) msg₁ → u.stamp = 0) := by
  obtain ⟨P, L, uo, hA⟩ := after_history hang z hpre h₁ hb h₂ hrun
  obtain ⟨L1, uo1, hA1, -, -, -, hc1, u1, -, -, -, hst1⟩ := after_overlay hang hpre hA hg₁ hs₁
  obtain ⟨L2, uo2, hA2, -, -, -, hc2, u2, ho2, -, hst2, -⟩ := after_overlay hang hpre hA1 hg₂ hs₂
  have hinfo : s.info = infoOf ang b := hA.info
  have hinfo1 : s₁.info = infoOf ang b := hA1.info
  rw [hinfo] at hc1
  have hm := meets_iff (msg := msg₁) hang hc1 (hinfo1 ▸ hA1.angp)
  refine ⟨u2, ho2, ?_, ?_⟩
  · intro h; rw [hst2, hst1, if_pos (hm.mp h)]
  · intro h; rw [hst2, hst1, if_neg (fun h' => h (hm.mpr h'))]

/-- C28: the update published for a base map carries the stamp of the base map. -/
theorem base_stamp_partial {ang : Nat} (hang : 1 ≤ ang) {root : Kind K} (hroot : NotUpdate root) {ks : List (Kind K)}
    (hks : ∀ k ∈ ks, NotUpdate k) (z : K) {es : List (Event K)} (hes : ∀ e ∈ es, GoodEvent ks.length e) {b : Msg K}
    (hb : GoodBase b) {s s' : Node K} {o o' : List Out}
    (hrun : run (Node.init ang z root (ks ++ [.updateOut])) es = some (s, o)) (hbuf : s.buffer = [])
    (hstep : step s (.base b) = some (s', o')) {u : Update} (hu : .update u ∈ o') : u.stamp = b.stamp := by
  obtain ⟨s0, o0, e0, hs⟩ := run_inv hang hroot hks es _ (inv_init ang z root ks) hes
  rw [hrun] at e0
  obtain ⟨rfl, -⟩ : s = s0 ∧ o = o0 := by simpa using e0
  have hwi := hs.wi
  obtain ⟨xs, uo, hc, -⟩ := hs
  obtain ⟨c, -, root', xs', o1, uo', v, -, e, -, -, -, -, -, -, h6, h7⟩ := base_ok hang hroot hks hc hwi b hb
  simp only [step, cbMap] at hstep
  rw [e] at hstep
  simp only [hbuf, if_true, Option.some.injEq, Prod.mk.injEq] at hstep
  rw [← hstep.2] at hu
  rcases List.mem_append.mp hu with hv | hv
  · exact absurd hv (h7 u)
  · split at hv
    · simp only [List.mem_singleton, Out.update.injEq] at hv
      subst hv
      exact updateMsg_stamp h6
    · cases hv

/-! ### C77: a subscriber applying the updates -/

theorem sync_step {ang : Nat} (hang : 1 ≤ ang) {root : Kind K} {pre : List (Kind K)} (hpre : ∀ k ∈ pre, NotUpdate k)
    {R : Info K → Int} {t : Info K → Cells} {mode : Mode} {keep : Bool} {und : Cells} {b : Msg K} {s : Node K} {P : List (Layer K)}
    {L uo : Layer K} (h : After ang root pre (.foot R t mode keep) und b s P L uo) {msg : Msg K} (hg : 0 ≤ msg.grid.res) {s' : Node K}
    {o : List Out} (hst : step s (.overlay pre.length msg) = some (s', o))
    (hmeet : Meets (infoOf ang b) msg) (hloc : Local (infoOf ang b) (.foot R t mode keep) msg) (copy : Cells)
    (hcopy : ∀ x y a, In (infoOf ang b) x y a → copy x y a = finalMap s x y a) :
    (∀ x y a, In (infoOf ang b) x y a → o.foldl Spec.apply copy x y a = finalMap s' x y a) ∧
    ∃ L' uo', After ang root pre (.foot R t mode keep) und b s' P L' uo' := by
  have hks : ∀ q ∈ pre ++ [.foot R t mode keep], NotUpdate q := by
    intro q hq
    rcases List.mem_append.mp hq with h | h
    · exact hpre q h
    · simp only [List.mem_singleton] at h; subst h; simp [NotUpdate]
  obtain ⟨L', uo', hA', hin1, hrep, hout, hc1, u, ho, hcov, -, -⟩ := after_overlay hang hpre h hg hst
  have hinfo : s.info = infoOf ang b := h.info
  have hinfo' : s'.info = infoOf ang b := hA'.info
  refine ⟨?_, L', uo', hA'⟩
  rw [hinfo] at hc1 hcov hout hin1
  have hm := (meets_iff (msg := msg) hang hc1 (hinfo' ▸ hA'.angp)).mp hmeet
  obtain ⟨s1, o1, e1, -, hcont⟩ := overlay_inv hang hks h.pre.inv (i := pre.length) (msg := msg) (by simp) hg
  rw [hst] at e1
  obtain ⟨rfl, rfl⟩ : s' = s1 ∧ o = o1 := by simpa using e1
  subst ho
  intro x y a hin
  simp only [List.foldl_cons, List.foldl_nil, Spec.apply]
  by_cases hc : Region.Spec.Covers (L'.regionPrev.merge L.regionPrev) ⟨x, y, a⟩
  · have hr := hcov hm x y a hin hc
    refine (if_pos hr).trans ?_
    rcases hcont u (by simp) with ⟨c1, c2, -⟩ | ⟨-, -, -, -, -, -, -, -, -, hv⟩
    · unfold Reports at hr; omega
    · rw [hv x y a hr]; rfl
  · refine (if_neg (fun hr => hc (hrep u (by simp) x y a hr).2)).trans ?_
    rw [hcopy x y a hin, hout x y a hin hc]
    unfold overlaid
    split
    · refine (hloc (finalMap s) x y a hin ?_).symm
      rintro ⟨q1, q2, q3, q4⟩
      apply hc
      have r5 : Region.Spec.Regular L'.regionPrev := by
        have := hA'.okp; unfold OkR YawOk at this; unfold Region.Spec.Regular; omega
      have r3 : Region.Spec.Regular L.regionPrev := by
        have := h.okp; unfold OkR YawOk at this; unfold Region.Spec.Regular; omega
      refine merge_covers r5 r3 _ (Or.inl ((hc1 _).mpr ⟨⟨⟨q1, q2⟩, ⟨q3, q4⟩, ⟨?_, ?_⟩⟩, ?_⟩))
      · unfold In at hin; show (0 : Int) ≤ a; omega
      · unfold In at hin; show a < 0 + ((infoOf ang b).ang : Int); omega
      · unfold In at hin; exact ⟨hin.1, hin.2.1, hin.2.2.1, hin.2.2.2.1⟩
    · rfl

/-- C77: a copy of the node's map to which every update is applied in order stays identical to the node's map, as long
as each message to the last overlay layer meets the map and changes nothing outside its own rectangle. -/
theorem subscriber_sync_partial {ang : Nat} (hang : 1 ≤ ang) (z : K) {R0 : Info K → Int} {t0 : Info K → Cells} {mode0 : Mode}
    {keep0 : Bool} {pre : List (Kind K)} (hpre : ∀ k ∈ pre, NotUpdate k) {R : Info K → Int} {t : Info K → Cells} {mode : Mode}
    {keep : Bool} {es₁ es₂ : List (Event K)} (h₁ : ∀ e ∈ es₁, To pre.length e) {b : Msg K} (hb : GoodBase b)
    (h₂ : ∀ e ∈ es₂, ∃ msg : Msg K, e = .overlay pre.length msg ∧ 0 ≤ msg.grid.res) {s : Node K} {o : List Out}
    (hrun : run (Node.init ang z (.foot R0 t0 mode0 keep0) (pre ++ [.foot R t mode keep] ++ [.updateOut]))
      (es₁ ++ .base b :: es₂) = some (s, o))
    {es₃ : List (Event K)} (h₃ : ∀ e ∈ es₃, ∃ msg : Msg K, e = .overlay pre.length msg ∧ 0 ≤ msg.grid.res ∧
      Meets (infoOf ang b) msg ∧ Local (infoOf ang b) (.foot R t mode keep) msg)
    {s' : Node K} {o' : List Out} (hrun' : run s es₃ = some (s', o')) (copy : Cells)
    (hcopy : ∀ x y a, In (infoOf ang b) x y a → copy x y a = finalMap s x y a) :
    ∀ x y a, In (infoOf ang b) x y a → o'.foldl Spec.apply copy x y a = finalMap s' x y a := by
  obtain ⟨P, L, uo, hA⟩ := after_history hang z hpre h₁ hb h₂ hrun
  clear hrun h₁ h₂
  induction es₃ generalizing s L uo copy o' with
  | nil =>
    simp only [run, Option.some.injEq, Prod.mk.injEq] at hrun'
    obtain ⟨rfl, rfl⟩ := hrun'
    exact hcopy
  | cons e es ih =>
    obtain ⟨msg, rfl, hg, hm, hl⟩ := h₃ e (by simp)
    simp only [run] at hrun'
    cases h1 : step s (.overlay pre.length msg) with
    | none => rw [h1] at hrun'; cases hrun'
    | some q =>
      obtain ⟨s1, o1⟩ := q
      rw [h1] at hrun'
      simp only [Option.map_eq_some_iff] at hrun'
      obtain ⟨⟨s2, o2⟩, h2, h3⟩ := hrun'
      simp only [Prod.mk.injEq] at h3
      obtain ⟨rfl, rfl⟩ := h3
      obtain ⟨hc, L', uo', hA'⟩ := sync_step hang hpre hA hg h1 hm hl copy hcopy
      rw [List.foldl_append]
      exact ih (fun q hq => h₃ q (by simp [hq])) h2 _ hc L' uo' hA'

/-- The condition of `subscriber_sync_partial` holds for a layer that does not inflate, at the map's resolution. -/
theorem local_plain {m : Info K} (hm : 0 < m.res) {R : Info K → Int} (hR : R m = 0) (t : Info K → Cells) (mode : Mode) (keep : Bool)
    {msg : Msg K} (hres : msg.grid.res = m.res) (hlen : msg.grid.data.length = msg.grid.w * msg.grid.h) :
    Local m (.foot R t mode keep) msg := by
  intro c x y a hin hw
  have hscale : scale msg.grid m = 1 := by unfold scale; rw [hres, div_self hm.ne']
  have hww : (window m msg).width = msg.grid.w := by
    unfold window; simp only; rw [hres, mul_div_assoc, div_self hm.ne', mul_one, lround_nat]
  have hwh : (window m msg).height = msg.grid.h := by
    unfold window; simp only; rw [hres, mul_div_assoc, div_self hm.ne', mul_one, lround_nat]
  have hx : (window m msg).x = offX msg.grid m := rfl
  have hy : (window m msg).y = offY msg.grid m := rfl
  rw [hww, hwh, hx, hy] at hw
  have hcell : ∀ i < msg.grid.data.length,
      ¬ (x = (i % msg.grid.w : Nat) + offX msg.grid m ∧ y = (i / msg.grid.w : Nat) + offY msg.grid m) := by
    rintro i hi ⟨rfl, rfl⟩
    rw [hlen] at hi
    have hpos : 0 < msg.grid.w := by
      by_contra h
      have : msg.grid.w = 0 := by omega
      rw [this] at hi; simp at hi
    have h1 := Nat.mod_lt i hpos
    have h2 : i / msg.grid.w < msg.grid.h := by
      rw [Nat.div_lt_iff_lt_mul hpos, Nat.mul_comm]; exact hi
    apply hw
    clear hi
    generalize i % msg.grid.w = p at *
    generalize i / msg.grid.w = q at *
    omega
  have hmem : ∀ iv ∈ msg.grid.items, iv.1 < msg.grid.data.length := by
    intro iv hiv
    unfold Grid.items at hiv
    obtain ⟨i, hi, rfl⟩ := List.mem_map.mp hiv
    exact List.mem_range.mp hi
  have fold_same : ∀ (f : (Int → Int → Int) → Nat × Int → (Int → Int → Int)),
      (∀ d iv, iv.1 < msg.grid.data.length → f d iv x y = d x y) → ∀ (l : List (Nat × Int)), (∀ iv ∈ l, iv.1 < msg.grid.data.length) →
      ∀ d, l.foldl f d x y = d x y := by
    intro f hf l
    induction l with
    | nil => intros; rfl
    | cons iv l ih =>
      intro hl d
      rw [List.foldl_cons, ih (fun q hq => hl q (by simp [hq])), hf d iv (hl iv (by simp))]
  have hput : ∀ (d : Int → Int → Int) (iv : Nat × Int), iv.1 < msg.grid.data.length →
      putValue (R m) (fun x y => t m x y a) msg.grid m d iv x y = d x y := by
    rintro d ⟨i, val⟩ hi
    obtain ⟨ex, ey⟩ := cell_eq msg.grid m hres hm.ne' i
    have hne := hcell i hi
    rw [← ex, ← ey] at hne
    unfold putValue
    simp only
    split
    · rfl
    · split
      · rfl
      · split
        · simp only; rw [if_neg hne]
        · unfold stamp rectOf
          rw [if_pos hres, hR]
          refine if_neg ?_
          unfold maskedRect
          simp only [neg_zero, ite_self]
          omega
  have hrest : ∀ (before d : Int → Int → Int) (iv : Nat × Int), iv.1 < msg.grid.data.length →
      restoreUnknown msg.grid m before d iv x y = d x y := by
    rintro before d ⟨i, val⟩ hi
    obtain ⟨ex, ey⟩ := cell_eq msg.grid m hres hm.ne' i
    have hne := hcell i hi
    rw [← ex, ← ey] at hne
    unfold restoreUnknown
    simp only
    split
    · rfl
    · split
      · simp only; rw [if_neg hne]
      · rfl
  have hclear : ∀ (d : Int → Int → Int) (iv : Nat × Int), iv.1 < msg.grid.data.length →
      clearValue (R m) msg.grid m d iv x y = d x y := by
    rintro d ⟨i, val⟩ hi
    have hne := hcell i hi
    unfold clearValue
    simp only [hscale, mul_one, lround_nat, Int.ceil_one]
    split
    · rfl
    · split
      · rfl
      · split
        · rfl
        · refine if_neg ?_
          omega
  simp only [applyMsg, generate]
  rw [if_pos ⟨hin.2.2.2.2.1, hin.2.2.2.2.2⟩]
  have hct : clearTravelable mode false (R m) msg.grid m (fun x y => c x y a) x y = c x y a := by
    unfold clearTravelable
    split
    · rfl
    · exact fold_same _ hclear _ hmem _
  unfold generateSpecified
  cases keep with
  | false =>
    simp only [Bool.false_eq_true, if_false]
    rw [fold_same _ hput _ hmem, hct]
  | true =>
    simp only [if_true]
    rw [fold_same _ (hrest _) _ hmem, fold_same _ hput _ hmem, hct]

/-! ### Counterexamples and examples -/

/-- A map of one row. -/
def rowMsg (n : Nat) (ox : ℚ) (st : Nat) (d : List Int) : Msg ℚ := ⟨⟨n, 1, 1, ox, 0, d⟩, 0, st⟩

/-- A layer that does not inflate, and one that inflates by two cells with half the cost. -/
def plainK : Kind ℚ := .foot (fun _ => 0) (fun _ x y _ => if x = 0 ∧ y = 0 then 100 else 0) .max false
def inflK : Kind ℚ :=
  .foot (fun _ => 2) (fun _ x y _ => if x = 0 ∧ y = 0 then 100 else if y = 0 then 50 else 0) .max false

def base8 : Event ℚ := .base (rowMsg 8 0 1 [0, 0, 0, 0, 0, 0, 0, 0])
def ov1 : Event ℚ := .overlay 0 (rowMsg 3 1 5 [0, 100, 0])
def ov2 : Event ℚ := .overlay 0 (rowMsg 3 4 6 [0, 100, 0])
/-- Beyond the map. -/
def ovFar : Event ℚ := .overlay 0 (rowMsg 3 20 6 [0, 100, 0])

/-- What can be seen from a history: the row of the map, and the updates. -/
def seen (q : Option (Node ℚ × List Out)) : Option (List Int × List Update) :=
  q.map fun (s, o) => ((List.range 8).map fun i => finalMap s i 0 0,
    o.filterMap fun o => match o with | .update u => some u | _ => none)

/-- The row of a subscriber that starts with a map of zeros. -/
def copyRow (q : Option (Node ℚ × List Out)) : Option (List Int) :=
  q.map fun (_, o) => (List.range 8).map fun i => o.foldl Spec.apply (fun _ _ _ => 0) i 0 0

/-- C26 is false for an inflating layer that is not the last: with a further layer below, the inflation of the first
message outside its rectangle (cell 0) stays in the map and is reported, ... -/
theorem ghost_inflation : seen (run (Node.init 1 0 plainK [inflK, plainK, .updateOut]) [base8, ov1, ov2]) =
    some ([50, 0, 0, 50, 50, 100, 50, 50],
      [⟨1, 0, 0, 0, 8, 1, 1, [0, 0, 0, 0, 0, 0, 0, 0]⟩, ⟨1, 0, 0, 0, 8, 1, 1, [50, 50, 100, 50, 50, 0, 0, 0]⟩,
       ⟨5, 0, 0, 0, 8, 1, 1, [50, 0, 0, 50, 50, 100, 50, 50]⟩]) := by decide +kernel

/-- ... although a fresh node does not produce it. -/
theorem ghost_inflation_fresh : seen (run (Node.init 1 0 plainK [inflK, plainK, .updateOut]) [base8, ov2]) =
    some ([0, 0, 0, 50, 50, 100, 50, 50],
      [⟨1, 0, 0, 0, 8, 1, 1, [0, 0, 0, 0, 0, 0, 0, 0]⟩, ⟨1, 0, 0, 0, 8, 1, 1, [0, 0, 0, 50, 50, 100, 50, 50]⟩]) := by
  decide +kernel

/-- C28 is false: the update for the message stamped 6 carries 5, and the one for the message stamped 5 carries 1. -/
theorem stamp_of_previous : (seen (run (Node.init 1 0 plainK [plainK, .updateOut]) [base8, ov1, ov2])).map
    (fun q => q.2.map (·.stamp)) = some [1, 1, 5] := by decide +kernel

/-- C77 is false with inflation: the inflation outside the rectangles (cell 7) never reaches the subscriber, ... -/
theorem subscriber_misses_inflation :
    (seen (run (Node.init 1 0 plainK [inflK, .updateOut]) [base8, ov1, ov2])).map (·.1) =
      some [50, 0, 0, 50, 50, 100, 50, 50] ∧
    copyRow (run (Node.init 1 0 plainK [inflK, .updateOut]) [base8, ov1, ov2]) =
      some [50, 0, 0, 50, 50, 100, 50, 0] := by decide +kernel

/-- ... and without inflation when a message misses the map: the obstacle of the previous one disappears from the node's
map but not from the subscriber's. -/
theorem subscriber_keeps_obstacle :
    (seen (run (Node.init 1 0 plainK [plainK, .updateOut]) [base8, ov1, ovFar, ov2])).map (·.1) =
      some [0, 0, 0, 0, 0, 100, 0, 0] ∧
    copyRow (run (Node.init 1 0 plainK [plainK, .updateOut]) [base8, ov1, ovFar, ov2]) =
      some [0, 0, 100, 0, 0, 100, 0, 0] := by decide +kernel

/-- C29: an empty base map while messages are buffered is undefined. -/
theorem empty_base_undefined :
    (run (Node.init 1 0 plainK [plainK, .updateOut]) [ov1, .base (rowMsg 0 0 1 [])]).isNone = true := by decide +kernel

/-- A good history: overlays before the base map, then more overlays. -/
example : seen (run (Node.init 1 0 plainK [plainK, .updateOut]) [ov1, base8, ov2]) =
    seen (run (Node.init 1 0 plainK [plainK, .updateOut]) [base8, ov1, ov2]) ∧
    (seen (run (Node.init 1 0 plainK [plainK, .updateOut]) [ov1, base8, ov2])).map (·.1) =
      some [0, 0, 0, 0, 0, 100, 0, 0] := by decide +kernel

example : (∀ e ∈ [base8, ov1, ov2], To 0 e) ∧ (∀ e ∈ [base8, ov1, ov2], GoodEvent 1 e) := by
  simp [base8, ov1, ov2, To, GoodEvent, GoodBase, rowMsg]

example : Meets (infoOf 1 (rowMsg 8 0 1 [0, 0, 0, 0, 0, 0, 0, 0])) (rowMsg 3 4 6 [0, 100, 0]) ∧
    Local (infoOf 1 (rowMsg 8 0 1 [0, 0, 0, 0, 0, 0, 0, 0])) plainK (rowMsg 3 4 6 [0, 100, 0]) := by
  refine ⟨⟨4, 0, ?_⟩, local_plain (by simp [infoOf, rowMsg]) rfl _ _ _ rfl rfl⟩
  decide +kernel

example : copyRow (run (Node.init 1 0 plainK [plainK, .updateOut]) [base8, ov1, ov2]) = some [0, 0, 0, 0, 0, 100, 0, 0] := by
  decide +kernel

end Verif.Layers
