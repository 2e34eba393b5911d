import Verif.Layers.Props
import Verif.Layers.Static
/-! # What an overlay message blocks is blocked in the update published for it -/
namespace Verif.Layers
open Verif.CSpace Verif.Region Verif.Layers.Spec Verif.Region.Spec

variable {K : Type} [Field K] [LinearOrder K] [IsStrictOrderedRing K] [FloorRing K]

/-! ### Frame and metadata of the last base map -/

/-- The node's metadata and frame are those of the base map. -/
def Rel (ang : Nat) (acc : Option (Msg K)) (s : Node K) : Prop :=
  s.ang = ang ∧ ∀ b, acc = some b → s.info = infoOf ang b ∧ s.frame = b.frame

theorem overlay_frame {s s' : Node K} {i : Nat} {msg : Msg K} {o : List Out} (e : cbMapOverlay s i msg = some (s', o)) :
    s'.info = s.info ∧ s'.frame = s.frame ∧ s'.ang = s.ang := by
  unfold cbMapOverlay at e
  split at e
  · cases e; exact ⟨rfl, rfl, rfl⟩
  · rw [Option.map_eq_some_iff] at e
    obtain ⟨q, -, e⟩ := e
    injection e with e1 e2
    subst e1
    exact ⟨rfl, rfl, rfl⟩

theorem replay_frame : ∀ (q : List (Nat × Msg K)) (s s' : Node K) (o : List Out), replay q s = some (s', o) →
    s'.info = s.info ∧ s'.frame = s.frame ∧ s'.ang = s.ang := by
  intro q
  induction q with
  | nil => intro s s' o h; cases h; exact ⟨rfl, rfl, rfl⟩
  | cons e q ih =>
    intro s s' o h
    obtain ⟨i, msg⟩ := e
    simp only [replay] at h
    cases h1 : cbMapOverlay s i msg with
    | none => rw [h1] at h; cases h
    | some r =>
      obtain ⟨s1, o1⟩ := r
      rw [h1] at h
      simp only [Option.map_eq_some_iff] at h
      obtain ⟨⟨s2, o2⟩, h2, h3⟩ := h
      simp only [Prod.mk.injEq] at h3
      obtain ⟨rfl, -⟩ := h3
      obtain ⟨a1, a2, a3⟩ := overlay_frame h1
      obtain ⟨b1, b2, b3⟩ := ih s1 _ o2 h2
      exact ⟨b1.trans a1, b2.trans a2, b3.trans a3⟩

theorem setBaseMap_frame {s s' : Node K} {msg : Msg K} {o : List Out} (e : setBaseMap s msg = some (s', o)) :
    s'.info = infoOf s.ang msg ∧ s'.frame = msg.frame ∧ s'.ang = s.ang := by
  unfold setBaseMap at e
  split at e
  · simp only at e
    split at e
    · cases e; exact ⟨rfl, rfl, rfl⟩
    · cases e
  · cases e

theorem step_frame {ang : Nat} {acc : Option (Msg K)} {s s' : Node K} {e : Event K} {o : List Out} (hr : Rel ang acc s)
    (h : step s e = some (s', o)) : Rel ang (nextBase acc e) s' := by
  cases e with
  | overlay i msg =>
    obtain ⟨a1, a2, a3⟩ := overlay_frame h
    refine ⟨a3.trans hr.1, fun b hb => ?_⟩
    obtain ⟨c1, c2⟩ := hr.2 b hb
    exact ⟨a1.trans c1, a2.trans c2⟩
  | base msg =>
    simp only [step, cbMap] at h
    cases h1 : setBaseMap s msg with
    | none => rw [h1] at h; cases h
    | some q =>
      obtain ⟨s1, o1⟩ := q
      obtain ⟨a1, a2, a3⟩ := setBaseMap_frame h1
      rw [h1] at h
      simp only at h
      have key : s'.info = s1.info ∧ s'.frame = s1.frame ∧ s'.ang = s1.ang := by
        split at h
        · cases h; exact ⟨rfl, rfl, rfl⟩
        · split at h
          · cases h
          · simp only [Option.map_eq_some_iff] at h
            obtain ⟨⟨s2, o2⟩, h2, h3⟩ := h
            simp only [Prod.mk.injEq] at h3
            obtain ⟨rfl, -⟩ := h3
            have := replay_frame _ _ _ _ h2
            exact this
      obtain ⟨b1, b2, b3⟩ := key
      refine ⟨b3.trans (a3.trans hr.1), fun b hb => ?_⟩
      obtain rfl : msg = b := by simpa [nextBase] using hb
      exact ⟨b1.trans (by rw [a1, hr.1]), b2.trans a2⟩

theorem run_frame {ang : Nat} : ∀ (es : List (Event K)) (acc : Option (Msg K)) (s s' : Node K) (o : List Out), Rel ang acc s →
    run s es = some (s', o) → Rel ang (es.foldl nextBase acc) s' := by
  intro es
  induction es with
  | nil => intro acc s s' o hr h; cases h; exact hr
  | cons e es ih =>
    intro acc s s' o hr h
    simp only [run] at h
    cases h1 : step s e with
    | none => rw [h1] at h; cases h
    | some q =>
      obtain ⟨s1, o1⟩ := q
      rw [h1] at h
      simp only [Option.map_eq_some_iff] at h
      obtain ⟨⟨s2, o2⟩, h2, h3⟩ := h
      simp only [Prod.mk.injEq] at h3
      obtain ⟨rfl, -⟩ := h3
      exact ih _ s1 _ o2 (step_frame hr h1) h2

/-! ### Down the chain -/

theorem yawOk_regular {m : Info K} {r : Region} (h : YawOk m r) : Regular r := by
  unfold YawOk at h; unfold Regular; omega

theorem blit_covered {m : Info K} {r : Region} {dst src : Cells} {x y a : Int} (hin : In m x y a) (hc : Covers r ⟨x, y, a⟩) :
    blit m r dst src x y a = src x y a := by
  unfold In at hin
  have h := (normalize_covers r m.w m.h ⟨x, y, a⟩).mpr ⟨hc, by unfold InMap; simp only; omega⟩
  unfold Covers at h
  simp only at h
  unfold blit covered
  rw [if_pos]
  rw [decide_eq_true_iff]
  omega

/-- The region of a layer after its turn, and the cells copied from above. -/
theorem region_covers {m : Info K} {l : Layer K} {r : Region} {x y a : Int} (hl : WI m l) (hr : YawOk m r) (hin : In m x y a)
    (hc : Covers r ⟨x, y, a⟩) :
    Covers ((l.region.merge r).normalize m.w m.h) ⟨x, y, a⟩ ∧
      Covers (((l.region.merge r).normalize m.w m.h).merge l.regionPrev) ⟨x, y, a⟩ ∧
      YawOk m ((l.region.merge r).normalize m.w m.h) := by
  have h1 := merge_covers (yawOk_regular hl.1) (yawOk_regular hr) ⟨x, y, a⟩ (Or.inr hc)
  have h2 := (normalize_covers (l.region.merge r) m.w m.h ⟨x, y, a⟩).mpr ⟨h1, by unfold In at hin; unfold InMap; simp only; omega⟩
  have h3 := (normalize_okR (merge_yawOk hl.1 hr)).1
  exact ⟨h2, merge_covers (yawOk_regular h3) (yawOk_regular hl.2.1) _ (Or.inl h2), h3⟩

/-- A raising layer below keeps what is blocked above it in the region passed on, and passes the region on. -/
theorem layerStep_blocks {m : Info K} {fr : Nat} {src : Cells} {r : Region} {out out' : Bool} {l l' : Layer K} {o : List Out}
    (h : layerStep m fr src r out l = some (l', o, out')) (hk : Raises l.kind) (hl : WI m l) (hr : YawOk m r) {x y a : Int}
    (hin : In m x y a) (hc : Covers r ⟨x, y, a⟩) (hs : 100 ≤ src x y a) :
    100 ≤ l'.overlay x y a ∧ Covers l'.region ⟨x, y, a⟩ ∧ YawOk m l'.region := by
  obtain ⟨c1, c2, c3⟩ := region_covers hl hr hin hc
  obtain ⟨k, ov, reg, prev, upd, op, ms⟩ := l
  have hb : 100 ≤ blit m (((reg.merge r).normalize m.w m.h).merge prev) ov src x y a := by
    rw [blit_covered hin c2]; exact hs
  cases k with
  | foot R t mode keep =>
    change mode = .max at hk
    subst hk
    simp only [layerStep, Option.some.injEq, Prod.mk.injEq] at h
    obtain ⟨rfl, -, -⟩ := h
    refine ⟨?_, c1, c3⟩
    cases upd with
    | none => exact hb
    | some msg =>
      simp only
      split
      · exact generate_above keep _ _ _ _ _ x y a hb
      · exact hb
  | unknown cost =>
    simp only [layerStep, Option.some.injEq, Prod.mk.injEq] at h
    obtain ⟨rfl, -, -⟩ := h
    refine ⟨?_, c1, c3⟩
    have e : ∀ (c : Cells), 100 ≤ c x y a → ∀ q : Prop, [Decidable q] → 100 ≤ (if q ∧ c x y a < 0 then cost else c x y a) := by
      intro c hc q _
      rw [if_neg (by omega)]
      exact hc
    cases upd with
    | none => exact e _ hb _
    | some msg =>
      simp only [applyMsg, ite_self]
      exact e _ hb _
  | stop => exact hk.elim
  | staticOut => exact hk.elim
  | updateOut => exact hk.elim

theorem lastReg_cons (r : Region) (l : Layer K) (ls : List (Layer K)) : lastReg r (l :: ls) = lastReg l.region ls := by
  unfold lastReg
  cases ls with
  | nil => rfl
  | cons q qs => rw [List.getLast?_cons_cons, List.getLast?_cons]; simp

theorem entry_blocks {m : Info K} {fr : Nat} {x y a : Int} (hin : In m x y a) : ∀ (ls : List (Layer K)) (src : Cells) (r : Region)
    (out : Bool) (ls' : List (Layer K)) (o : List Out), entry m fr src r out ls = some (ls', o) → (∀ l ∈ ls, Raises l.kind ∧ WI m l) →
    YawOk m r → Covers r ⟨x, y, a⟩ → 100 ≤ src x y a →
    100 ≤ lastOv src ls' x y a ∧ Covers (lastReg r ls') ⟨x, y, a⟩ := by
  intro ls
  induction ls with
  | nil =>
    intro src r out ls' o h _ _ hc hs
    cases h
    exact ⟨hs, hc⟩
  | cons l ls ih =>
    intro src r out ls' o h hl hr hc hs
    simp only [entry] at h
    cases h1 : layerStep m fr src r out l with
    | none => rw [h1] at h; cases h
    | some q =>
      obtain ⟨l1, o1, out1⟩ := q
      rw [h1] at h
      simp only [Option.map_eq_some_iff] at h
      obtain ⟨⟨ls2, o2⟩, h2, h3⟩ := h
      simp only [Prod.mk.injEq] at h3
      obtain ⟨rfl, -⟩ := h3
      obtain ⟨k1, k2⟩ := hl l (List.mem_cons_self ..)
      obtain ⟨b1, b2, b3⟩ := layerStep_blocks h1 k1 k2 hr hin hc hs
      rw [lastOv_cons, lastReg_cons]
      exact ih _ _ _ _ _ h2 (fun q hq => hl q (List.mem_cons_of_mem _ hq)) b3 b2 b1

/-- The overlay layer itself, whatever it held before, followed by raising layers. -/
theorem entry_first {m : Info K} {fr : Nat} {x y a : Int} (hin : In m x y a) {l : Layer K} {B : List (Layer K)} {src : Cells} {msg : Msg K}
    {out : Bool} {ls' : List (Layer K)} {o : List Out} {R : Info K → Int} {t : Info K → Cells} {mode : Mode} {keep : Bool}
    (hk : l.kind = .foot R t mode keep) (hl : WI m l) (hB : ∀ q ∈ B, Raises q.kind ∧ WI m q) (hf : fr = msg.frame)
    (hr : YawOk m (window m msg)) (hc : Covers (window m msg) ⟨x, y, a⟩)
    (hgen : ∀ c, 100 ≤ generate mode false keep (R m) (t m) msg.grid m c x y a)
    (h : entry m fr src (window m msg) out ({ l with updated := some msg, region := window m msg } :: B) = some (ls', o)) :
    100 ≤ lastOv src ls' x y a ∧ Covers (lastReg (window m msg) ls') ⟨x, y, a⟩ := by
  simp only [entry] at h
  have hl' : WI m { l with updated := some msg, region := window m msg } := ⟨hr, hl.2.1, hl.2.2.1, by simp only [hk]; intro h; cases h⟩
  obtain ⟨c1, -, c3⟩ := region_covers hl' hr hin hc
  obtain ⟨k, ov, reg, prev, upd, op, ms⟩ := l
  simp only at hk
  subst hk
  simp only [layerStep, hf, if_true, applyMsg, Option.map_eq_some_iff] at h
  obtain ⟨⟨ls2, o2⟩, h2, h3⟩ := h
  simp only [Prod.mk.injEq] at h3
  obtain ⟨rfl, -⟩ := h3
  rw [lastOv_cons, lastReg_cons]
  exact entry_blocks hin _ _ _ _ _ _ h2 hB c3 c1 (hgen _)

/-- An overlay message to the footprint layer after `pre`, with only raising layers between it and the update output: the node publishes
exactly one update, and this update reports every cell of the message's rectangle that the layer raises to 100 or more whatever was there
before, with a value of at least 100. -/
theorem overlay_blocks {ang : Nat} (hang : 1 ≤ ang) (z : K) {root : Kind K} (hroot : NotUpdate root) {pre post : List (Kind K)}
    {R : Info K → Int} {t : Info K → Cells} {mode : Mode} {keep : Bool} (hpre : ∀ k ∈ pre, NotUpdate k) (hpost : ∀ k ∈ post, Raises k)
    {es : List (Event K)} (hes : ∀ e ∈ es, GoodEvent (pre ++ .foot R t mode keep :: post).length e) {b msg : Msg K}
    (hb : lastBase es = some b) (hg : 0 ≤ msg.grid.res) (hfr : msg.frame = b.frame) {s s' : Node K} {o o' : List Out}
    (hrun : run (Node.init ang z root ((pre ++ .foot R t mode keep :: post) ++ [.updateOut])) es = some (s, o))
    (hstep : step s (.overlay pre.length msg) = some (s', o')) {x y a : Int} (hin : In (infoOf ang b) x y a)
    (hc : Covers (window (infoOf ang b) msg) ⟨x, y, a⟩)
    (hgen : ∀ c, 100 ≤ generate mode false keep (R (infoOf ang b)) (t (infoOf ang b)) msg.grid (infoOf ang b) c x y a)
    {u : Update} (hu : .update u ∈ o') :
    Content (infoOf ang b) (finalMap s') u ∧ Reports u x y a ∧ 100 ≤ finalMap s' x y a := by
  have hks : ∀ k ∈ pre ++ .foot R t mode keep :: post, NotUpdate k := by
    intro k hk
    rcases List.mem_append.mp hk with h | h
    · exact hpre k h
    · rcases List.mem_cons.mp h with rfl | h
      · trivial
      · have := hpost k h
        cases k <;> trivial
  have hrel := run_frame (ang := ang) es none _ s o ⟨rfl, fun b hb => by cases hb⟩ hrun
  obtain ⟨hinfo, hframe⟩ := hrel.2 b hb
  obtain ⟨s0, o0, e0, hs⟩ := run_inv hang hroot hks es _ (inv_init ang z root _) hes
  rw [hrun] at e0
  obtain ⟨rfl, -⟩ : s = s0 ∧ o = o0 := by simpa using e0
  obtain ⟨s1, o1, e1, -, hcont⟩ := overlay_inv hang hks hs (show pre.length < _ by simp) hg
  rw [hstep] at e1
  obtain ⟨rfl, rfl⟩ : s' = s1 ∧ o' = o1 := by simpa using e1
  have hi' : s'.info = infoOf ang b := by
    have := overlay_frame (s := s) (s' := s') (i := pre.length) (msg := msg) (o := o') hstep
    rw [this.1, hinfo]
  have hcontent := hcont u hu
  rw [hi'] at hcontent
  refine ⟨hcontent, ?_⟩
  obtain ⟨xs, uo, hch, hw | ha⟩ := hs
  · exfalso
    have h1 := hw.1
    rw [hinfo] at h1
    unfold In at hin
    omega
  obtain ⟨A, q, hx, hA⟩ : ∃ A q, xs = A ++ q ∧ A.length = pre.length :=
    ⟨xs.take pre.length, xs.drop pre.length, by simp, by
      have := congrArg List.length hch.kinds
      simp at this ⊢
      omega⟩
  have hkk := hch.kinds
  rw [hx, List.map_append] at hkk
  obtain ⟨hkA, hkq⟩ := List.append_inj hkk (by simp [hA])
  cases q with
  | nil => simp at hkq
  | cons l B =>
    simp only [List.map_cons, List.cons.injEq] at hkq
    obtain ⟨hkl, hkB⟩ := hkq
    subst hx
    obtain ⟨B', ob, uo', u', hent, e, hc', ha', h4, h5, h6, h7, h8, h9, -⟩ := overlay_active hang hks hch ha msg hg
    rw [hA] at e
    rw [hstep] at e
    simp only [Option.some.injEq, Prod.mk.injEq] at e
    obtain ⟨rfl, rfl⟩ := e
    have hBr : ∀ q ∈ B, Raises q.kind := by
      intro q hq
      apply hpost
      rw [← hkB]
      exact List.mem_map.mpr ⟨q, hq, rfl⟩
    have hin' : In s.info x y a := by rw [hinfo]; exact hin
    have hc2 : Covers (window s.info msg) ⟨x, y, a⟩ := by rw [hinfo]; exact hc
    obtain ⟨r1, r2⟩ := entry_first hin' hkl (ha.2.2.2.2.2.2.1 l (by simp))
      (fun q hq => ⟨hBr q hq, ha.2.2.2.2.2.2.1 q (by simp [hq])⟩) (by rw [hframe, hfr]) (window_yawOk s.info msg ha.2.2.2.1 hg) hc2
      (by rw [hinfo]; exact hgen) hent
    have hlast : finalMap { s with layers := A ++ B' ++ [uo'] } x y a = lastOv (lastOv s.root.overlay A) B' x y a := by
      rw [finalMap_chain hc']
      have hl : lastOv s.root.overlay (A ++ B') = lastOv (lastOv s.root.overlay A) B' := by
        unfold lastOv
        rw [List.getLast?_append]
        cases B'.getLast? <;> simp
      simp only
      rw [hl]
    refine ⟨?_, by rw [hlast]; exact r1⟩
    have hu' : u = u' := by
      rcases List.mem_append.mp hu with h | h
      · exact absurd h (h8 u)
      · split at h
        · simpa using h
        · cases h
    subst hu'
    -- the rectangle
    obtain ⟨ho, hcov⟩ := zero_merge h4
    rw [← h5] at ho hcov
    obtain ⟨u2, e2, -, hcase⟩ := updateMsg_ok ha.1 ha.2.1 (by rw [ha.2.2.1, hch.ang_eq]; exact hang) uo.mapStamp
      (lastOv (lastOv s.root.overlay A) B') ho (Or.inr ha.2.2.2.2.2.2.2.2.2)
    rw [h7] at e2
    obtain rfl : u = u2 := by simpa using e2
    have hcr := (hcov ⟨x, y, a⟩).mpr r2
    rcases hcase with ⟨hz, -⟩ | ⟨-, -, p1, p2, p3, p4, p5, p6, -⟩
    · unfold Covers at hcr; simp only at hcr; omega
    · have hm := merge_covers (yawOk_regular (outOk_yawOk ho)) (yawOk_regular (outOk_yawOk ha.2.2.2.2.2.2.2.2.2)) ⟨x, y, a⟩ (Or.inl hcr)
      have hn := (normalize_covers (uo'.outPrev.merge uo.outPrev) s.info.w s.info.h ⟨x, y, a⟩).mpr
        ⟨hm, by unfold In at hin'; unfold InMap; simp only; omega⟩
      unfold Covers at hn
      simp only at hn
      unfold Reports
      rw [p1, p2, p3, p4, p5, p6]
      exact hn

end Verif.Layers
