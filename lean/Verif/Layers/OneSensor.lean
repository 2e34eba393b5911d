import Verif.Layers.Props
import Verif.Layers.Static
/-! # A chain with one sensor layer: the node's map and what the node publishes -/
namespace Verif.Layers
open Spec Verif.CSpace Verif.CSpace.Spec Verif.Region
variable {K : Type} [Field K] [LinearOrder K] [IsStrictOrderedRing K] [FloorRing K]

/-- Combining by maximum lowers no known cell. -/
theorem generate_ge (keep : Bool) (R : Int) (t : Cells) (g : Grid K) (m : Info K) (c : Cells) (x y a : Int)
    (h : 0 ≤ c x y a) : c x y a ≤ generate .max false keep R t g m c x y a := by
  unfold generate
  split
  · have e : clearTravelable .max false R g m (fun x y => c x y a) = fun x y => c x y a := by
      unfold clearTravelable; rw [if_pos (Or.inl (by decide))]
    rw [e]
    unfold generateSpecified
    have h1 : c x y a ≤ g.items.foldl (putValue R (fun x y => t x y a) g m) (fun x y => c x y a) x y :=
      (fold_max R (fun x y => t x y a) g m x y g.items (fun x y => c x y a)).1
    cases keep with
    | false => exact h1
    | true =>
      simp only [if_true]
      rw [restore_fold]
      split
      · rename_i hex
        have := hex.2
        omega
      · exact h1
  · exact le_rfl

/-- Outside the current rectangle of the sensor layer the node's map is the map below that layer. -/
def Quiet (und : Cells) (s : Node K) (L : Layer K) : Prop :=
  ∀ x y a, In s.info x y a → ¬ Region.Spec.Covers L.regionPrev ⟨x, y, a⟩ → finalMap s x y a = und x y a

theorem local_overlaid {m : Info K} {k : Kind K} {msg : Msg K} (hloc : Local m k msg) (fr : Nat) (c : Cells) {x y a : Int} (hin : In m x y a)
    (hw : ¬ Region.Spec.Covers (window m msg) ⟨x, y, a⟩) : overlaid m k fr msg c x y a = c x y a := by
  unfold overlaid
  split
  · apply hloc c x y a hin
    intro hc
    apply hw
    unfold In at hin
    unfold Region.Spec.Covers
    simp only [window] at hc ⊢
    omega
  · rfl

/-- The rectangle of the update message, empty or not, lies in the map. -/
def Boxed (m : Info K) (u : Update) : Prop :=
  (0 ≤ u.x ∧ 0 ≤ u.width ∧ u.x + u.width ≤ m.w) ∧ (0 ≤ u.y ∧ 0 ≤ u.height ∧ u.y + u.height ≤ m.h) ∧ u.yaw = 0 ∧ 0 ≤ u.angle ∧ u.angle ≤ m.ang

theorem updateMsg_boxed {m : Info K} (hw : 1 ≤ m.w) (hh : 1 ≤ m.h) (ha : 1 ≤ m.ang) {region prev : Region} {stamp : Nat} {src : Cells}
    (hr : OutOk m region) (hp : OutOk m prev) {u : Update} {r' : Region} {n : Nat}
    (h : updateMsg m region prev stamp src = some (u, r', n)) : Boxed m u := by
  have hm := outOk_merge hw hh ha hr (Or.inr hp)
  unfold updateMsg at h
  simp only at h
  rw [okR_normalize hr] at h
  generalize (region.merge prev).normalize m.w m.h = q at *
  unfold OutOk OkR YawOk at hm
  split at h
  · simp only [Option.some.injEq, Prod.mk.injEq] at h
    obtain ⟨h, -, -⟩ := h
    subst h
    unfold Boxed
    split
    · simp only; omega
    · split
      · simp only; omega
      · simp only; omega
  · cases h

theorem overlay_boxed {ang : Nat} (hang : 1 ≤ ang) {root : Kind K} {pre : List (Kind K)} {k : Kind K} (hks : ∀ q ∈ pre ++ [k], NotUpdate q)
    {und : Cells} {b : Msg K} {s : Node K} {P : List (Layer K)}
    {L uo : Layer K} (h : After ang root pre k und b s P L uo) {msg : Msg K} (hg : 0 ≤ msg.grid.res)
    {s' : Node K} {o : List Out} (hst : step s (.overlay pre.length msg) = some (s', o)) : ∀ u, .update u ∈ o → Boxed (infoOf ang b) u := by
  have ha := h.active
  have hang' : 1 ≤ s.info.ang := by rw [ha.2.2.1, h.chain.ang_eq]; exact hang
  obtain ⟨B', o1, uo', u, e, e2, hc', ha', h4, h5, h6, h7, h8, h9, h10⟩ := overlay_active hang hks h.chain ha msg hg
  rw [h.len, hst] at e2
  obtain ⟨-, e3⟩ : s' = { s with layers := P ++ B' ++ [uo'] } ∧ o = _ := by simpa using e2
  intro v hv
  rw [e3] at hv
  rcases List.mem_append.mp hv with hv | hv
  · exact absurd hv (h8 v)
  · split at hv
    · simp only [List.mem_singleton, Out.update.injEq] at hv
      subst hv
      rw [← h.info]
      exact updateMsg_boxed ha.1 ha.2.1 hang' ha'.2.2.2.2.2.2.2.2.2 ha.2.2.2.2.2.2.2.2.2 h7
    · cases hv

/-- One message to the sensor layer. -/
theorem quiet_step {ang : Nat} (hang : 1 ≤ ang) {root : Kind K} {pre : List (Kind K)} (hpre : ∀ k ∈ pre, NotUpdate k)
    {R : Info K → Int} {t : Info K → Cells} {mode : Mode} {keep : Bool} {und : Cells} {b : Msg K} {s : Node K} {P : List (Layer K)}
    {L uo : Layer K} (h : After ang root pre (.foot R t mode keep) und b s P L uo) (hq : Quiet und s L) {msg : Msg K} (hg : 0 ≤ msg.grid.res)
    (hloc : Local (infoOf ang b) (.foot R t mode keep) msg) {s' : Node K} {o : List Out} (hst : step s (.overlay pre.length msg) = some (s', o)) :
    ∃ L' uo' u, After ang root pre (.foot R t mode keep) und b s' P L' uo' ∧ Quiet und s' L' ∧
      (∀ x y a, In (infoOf ang b) x y a → finalMap s' x y a = overlaid (infoOf ang b) (.foot R t mode keep) b.frame msg und x y a) ∧
      o = [.update u] ∧ Content (infoOf ang b) (finalMap s') u ∧ Boxed (infoOf ang b) u ∧
      ∀ x y a, In (infoOf ang b) x y a → ¬ Reports u x y a → finalMap s' x y a = und x y a := by
  have hks : ∀ q ∈ pre ++ [.foot R t mode keep], NotUpdate q := by
    intro q hq
    rcases List.mem_append.mp hq with h | h
    · exact hpre q h
    · simp only [List.mem_singleton] at h; subst h; simp [NotUpdate]
  obtain ⟨L', uo', hA', hin1, hrep, hout, hc1, u, ho, hcov, -, -⟩ := after_overlay hang hpre h hg hst
  have hinfo : s.info = infoOf ang b := h.info
  have hinfo' : s'.info = infoOf ang b := hA'.info
  obtain ⟨s1, o1, e1, -, hcont⟩ := overlay_inv hang hks h.pre.inv (i := pre.length) (msg := msg) (by simp) hg
  rw [hst] at e1
  obtain ⟨rfl, rfl⟩ : s' = s1 ∧ o = o1 := by simpa using e1
  rw [hinfo, h.frame] at hin1 hout
  rw [hinfo] at hc1 hcov
  have r5 : Region.Spec.Regular L'.regionPrev := by
    have := hA'.okp; unfold OkR YawOk at this; unfold Region.Spec.Regular; omega
  have r3 : Region.Spec.Regular L.regionPrev := by
    have := h.okp; unfold OkR YawOk at this; unfold Region.Spec.Regular; omega
  -- the cell is outside the rectangle of the message
  have hwin : ∀ x y a, In (infoOf ang b) x y a → ¬ Region.Spec.Covers L'.regionPrev ⟨x, y, a⟩ →
      ¬ Region.Spec.Covers (window (infoOf ang b) msg) ⟨x, y, a⟩ := by
    intro x y a hin hn hc
    exact hn ((hc1 _).mpr ⟨hc, by unfold In at hin; exact ⟨hin.1, hin.2.1, hin.2.2.1, hin.2.2.2.1⟩⟩)
  have hfin : ∀ x y a, In (infoOf ang b) x y a →
      finalMap s' x y a = overlaid (infoOf ang b) (.foot R t mode keep) b.frame msg und x y a := by
    intro x y a hin
    by_cases hc : Region.Spec.Covers (L'.regionPrev.merge L.regionPrev) ⟨x, y, a⟩
    · exact hin1 x y a hin hc
    · have n1 : ¬ Region.Spec.Covers L'.regionPrev ⟨x, y, a⟩ := fun q => hc (merge_covers r5 r3 _ (Or.inl q))
      have n2 : ¬ Region.Spec.Covers L.regionPrev ⟨x, y, a⟩ := fun q => hc (merge_covers r5 r3 _ (Or.inr q))
      rw [hout x y a hin hc, local_overlaid hloc _ _ hin (hwin x y a hin n1), local_overlaid hloc _ _ hin (hwin x y a hin n1)]
      exact hq x y a (by rw [hinfo]; exact hin) n2
  have hquiet : ∀ x y a, In (infoOf ang b) x y a → ¬ Region.Spec.Covers L'.regionPrev ⟨x, y, a⟩ → finalMap s' x y a = und x y a := by
    intro x y a hin hn
    rw [hfin x y a hin, local_overlaid hloc _ _ hin (hwin x y a hin hn)]
  refine ⟨L', uo', u, hA', ?_, hfin, ho, ?_, overlay_boxed hang hks h hg hst u (by rw [ho]; simp), ?_⟩
  · intro x y a hin hn
    rw [hinfo'] at hin
    exact hquiet x y a hin hn
  · have := hcont u (by rw [ho]; simp)
    rw [hinfo'] at this
    exact this
  · intro x y a hin hn
    apply hquiet x y a hin
    intro hc
    apply hn
    refine hcov ?_ x y a hin (merge_covers r5 r3 _ (Or.inl hc))
    unfold Region.Spec.Covers at hc
    simp only at hc
    omega

/-- Layers that output nothing output nothing. -/
theorem entry_silent {m : Info K} {fr : Nat} : ∀ (ls : List (Layer K)) (src : Cells) (r : Region) (out : Bool) (ls' : List (Layer K)) (o : List Out),
    entry m fr src r out ls = some (ls', o) → (∀ l ∈ ls, ¬ IsStatic l.kind ∧ NotUpdate l.kind) → o = [] := by
  intro ls
  induction ls with
  | nil =>
    intro src r out ls' o h _
    simp only [entry, Option.some.injEq, Prod.mk.injEq] at h
    exact h.2.symm
  | cons l ls ih =>
    intro src r out ls' o h hn
    unfold entry at h
    cases hl : layerStep m fr src r out l with
    | none => rw [hl] at h; exact absurd h (by simp)
    | some q =>
      obtain ⟨l1, o1, out1⟩ := q
      rw [hl] at h
      simp only [Option.map_eq_some_iff] at h
      obtain ⟨⟨ls2, o2⟩, h2, h3⟩ := h
      simp only [Prod.mk.injEq] at h3
      obtain ⟨-, rfl⟩ := h3
      have e2 := ih _ _ _ _ _ h2 (fun l hl => hn l (by simp [hl]))
      have hnl := hn l (by simp)
      have e1 : o1 = [] := by
        obtain ⟨k, ov, reg, prev, upd, op, ms⟩ := l
        cases k with
        | foot R t mode keep => simp only [layerStep, Option.some.injEq, Prod.mk.injEq] at hl; exact hl.2.1.symm
        | unknown cost => simp only [layerStep, Option.some.injEq, Prod.mk.injEq] at hl; exact hl.2.1.symm
        | stop => simp only [layerStep, Option.some.injEq, Prod.mk.injEq] at hl; exact hl.2.1.symm
        | staticOut => exact absurd trivial hnl.1
        | updateOut => exact hnl.2.elim
      rw [e1, e2]; rfl

/-- What the node publishes for a base map when the whole map is output just before the sensor layer. -/
theorem base_output {ang : Nat} (hang : 1 ≤ ang) {R0 : Info K → Int} {t0 : Info K → Cells} {mode0 : Mode} {keep0 : Bool}
    {pre : List (Kind K)} (hpre : ∀ k ∈ pre, NotUpdate k ∧ ¬ IsStatic k) {k : Kind K} (hk : NotUpdate k ∧ ¬ IsStatic k)
    {s : Node K} (hs : Inv ang (.foot R0 t0 mode0 keep0) (pre ++ [.staticOut] ++ [k]) s) (hbuf : s.buffer = []) (ho : Only pre.length s)
    {b : Msg K} (hb : GoodBase b) {s' : Node K} {o : List Out} (hst : step s (.base b) = some (s', o)) :
    ∃ c, o = [.map b.stamp c] ∧ ∀ x y a, In (infoOf ang b) x y a → c x y a = under R0 t0 mode0 keep0 (pre ++ [.staticOut]) ang b x y a := by
  have hwi := hs.wi
  obtain ⟨xs, uo, hc, -⟩ := hs
  have hks : ∀ q ∈ pre ++ [.staticOut] ++ [k], NotUpdate q := by
    intro q hq
    simp only [List.mem_append, List.mem_singleton] at hq
    rcases hq with (h | rfl) | rfl
    · exact (hpre q h).1
    · simp [NotUpdate]
    · exact hk.1
  obtain ⟨c, hcell, root', xs', o', uo', u, e0, e, hc', -⟩ := base_ok hang (by simp [NotUpdate]) hks hc hwi b hb
  obtain ⟨Q, L, hx, hQ, hL⟩ := kinds_split hc.kinds
  obtain ⟨P, S, hx2, hP, hS⟩ := kinds_split hQ
  subst hx
  subst hx2
  have hlen : P.length = pre.length := by rw [← hP, List.length_map]
  have huP : ∀ l ∈ P, l.updated = none := by
    intro l hl
    apply ho
    rw [hc.layers_eq, List.append_assoc, List.append_assoc, ← hlen, List.take_left']
    · exact hl
    · rfl
  have hpass : passes true (s.root :: (P ++ [S] ++ [L])) = false := by
    unfold passes
    rw [Bool.true_and, List.all_eq_false]
    refine ⟨S, by simp, ?_⟩
    rw [hS]; simp
  have hst' : o = o' := by
    simp only [step, cbMap] at hst
    rw [e, hpass] at hst
    simp only [hbuf, if_true, Bool.false_eq_true, if_false, List.append_nil, Option.some.injEq, Prod.mk.injEq] at hst
    exact hst.2.symm
  subst hst'
  clear e hst
  have w := hwi (infoOf ang b) rfl
  have hfull := fullRegion_isFull (infoOf ang b) b.stamp
  rw [List.map_append, List.map_append, List.append_assoc, ← List.cons_append, entry_append] at e0
  generalize e2 : entry (infoOf ang b) b.frame c (fullRegion (infoOf ang b) b.stamp) true
        ({ s.root with overlay := c, mapStamp := b.stamp } :: P.map fun l => { l with overlay := c, mapStamp := b.stamp }) = q at e0
  rcases q with - | ⟨ys, o2⟩
  · cases e0
  simp only [Option.map_eq_some_iff] at e0
  obtain ⟨⟨zs, o3⟩, e3, e4⟩ := e0
  simp only [Prod.mk.injEq] at e4
  have hys : ∀ q ∈ ({ s.root with overlay := c, mapStamp := b.stamp } :: P.map fun l => { l with overlay := c, mapStamp := b.stamp }),
      (NotUpdate q.kind ∧ ¬ IsStatic q.kind) ∧ WI (infoOf ang b) q ∧ q.updated = none := by
    intro q hq
    rcases List.mem_cons.mp hq with rfl | hq
    · exact ⟨by simp only; rw [hc.root_kind]; simp [NotUpdate, IsStatic], w.1, hc.root_upd⟩
    · obtain ⟨l, hl, rfl⟩ := List.mem_map.mp hq
      refine ⟨hpre l.kind ?_, w.2 l (by rw [hc.layers_eq]; simp [hl]), huP l hl⟩
      rw [← hP]; exact List.mem_map_of_mem hl
  have es : o2 = [] := entry_silent _ _ _ _ _ _ e2 (fun l hl => ⟨(hys l hl).1.2, (hys l hl).1.1⟩)
  have hp1 : passes true ({ s.root with overlay := c, mapStamp := b.stamp } :: P.map fun l => { l with overlay := c, mapStamp := b.stamp }) = true := by
    unfold passes
    rw [Bool.true_and, List.all_eq_true]
    intro q hq
    have h1 := (hys q hq).1
    cases hqk : q.kind with
    | foot R t mode keep => rfl
    | unknown cost => rfl
    | stop => rfl
    | staticOut => rw [hqk] at h1; exact absurd trivial h1.2
    | updateOut => rw [hqk] at h1; exact h1.1.elim
  rw [hp1] at e3
  refine ⟨lastOv c ys, ?_, ?_⟩
  · rw [← e4.2, es, List.nil_append]
    simp only [List.map_cons, List.map_nil, List.singleton_append, entry] at e3
    obtain ⟨Sk, Sov, Sreg, Sprev, Supd, Sop, Sms⟩ := S
    simp only at hS
    subst hS
    obtain ⟨Lk, Lov, Lreg, Lprev, Lupd, Lop, Lms⟩ := L
    simp only at hL
    subst hL
    simp only [layerStep, if_true] at e3
    cases Lk with
    | foot R t mode keep =>
      simp only [Option.map_some, Option.some.injEq, Prod.mk.injEq] at e3
      simpa using e3.2.symm
    | unknown cost =>
      simp only [Option.map_some, Option.some.injEq, Prod.mk.injEq] at e3
      simpa using e3.2.symm
    | stop =>
      simp only [Option.map_some, Option.some.injEq, Prod.mk.injEq] at e3
      simpa using e3.2.symm
    | staticOut => exact absurd trivial hk.2
    | updateOut => exact hk.1.elim
  · intro x y a hin
    have := entry_full hb.1 hb.2.1 hang b.frame hin _ _ _ _ (fun q hq => ⟨(hys q hq).1.1, (hys q hq).2⟩) hfull e2
    rw [this]
    unfold under
    rw [List.map_cons, List.foldl_cons, List.map_map, List.foldl_append]
    have e8 : (P.map ((fun x => x.kind) ∘ fun l => ({ l with overlay := c, mapStamp := b.stamp } : Layer K))) = pre := by
      rw [← hP]; rfl
    simp only
    rw [e8, hc.root_kind, hcell _ _ _ _ rfl]
    rfl

end Verif.Layers
