import Verif.Layers.Lemmas
/-! # Blocked cells of the base map stay blocked in the published map -/
namespace Verif.Layers
open Spec Verif.CSpace Verif.CSpace.Spec Verif.Region
variable {K : Type} [Field K] [LinearOrder K] [IsStrictOrderedRing K] [FloorRing K]

/-- The cells of `P` are blocked. -/
def Above (P : Int → Int → Int → Prop) (c : Cells) : Prop := ∀ x y a, P x y a → 100 ≤ c x y a

theorem generate_above (keep : Bool) (R : Int) (t : Cells) (g : Grid K) (m : Info K) (c : Cells) (x y a : Int)
    (h : 100 ≤ c x y a) : 100 ≤ generate .max false keep R t g m c x y a := by
  unfold generate
  split
  · have e : clearTravelable .max false R g m (fun x y => c x y a) = fun x y => c x y a := by
      unfold clearTravelable; rw [if_pos (Or.inl (by decide))]
    rw [e]
    unfold generateSpecified
    have h1 : 100 ≤ g.items.foldl (putValue R (fun x y => t x y a) g m) (fun x y => c x y a) x y :=
      le_trans h (fold_max R (fun x y => t x y a) g m x y g.items (fun x y => c x y a)).1
    cases keep with
    | false => exact h1
    | true =>
      simp only [if_true]
      rw [restore_fold]
      split
      · rename_i hex
        have := hex.2
        omega
      · exact h1
  · exact h

/-- What holds of the layers below the root: the static ones keep `P` blocked. -/
def OK (P : Int → Int → Int → Prop) : List (Layer K) → Prop
  | [] => True
  | l :: ls => (Raises l.kind ∧ Above P l.overlay ∧ OK P ls) ∨ (IsStatic l.kind ∧ ∀ l' ∈ ls, ¬ IsStatic l'.kind)

theorem ok_of_kinds (P : Int → Int → Int → Prop) : ∀ (ls : List (Layer K)), StaticMax (ls.map (·.kind)) → (∀ l ∈ ls, Above P l.overlay) → OK P ls := by
  intro ls
  induction ls with
  | nil => intro _ _; trivial
  | cons l ls ih =>
    rintro ⟨pre, post, e, h1, h2⟩ ha
    cases pre with
    | nil =>
      simp only [List.map_cons, List.nil_append, List.cons.injEq] at e
      right
      refine ⟨by rw [e.1]; trivial, ?_⟩
      intro l' hl'
      apply h2
      rw [← e.2]
      exact List.mem_map_of_mem hl'
    | cons k pre =>
      simp only [List.map_cons, List.cons_append, List.cons.injEq] at e
      left
      refine ⟨by rw [e.1]; exact h1 k (by simp), ha l (by simp), ih ⟨pre, post, e.2, fun k hk => h1 k (by simp [hk]), h2⟩ (fun l hl => ha l (by simp [hl]))⟩

theorem blit_above {P : Int → Int → Int → Prop} (m : Info K) (r : Region) {dst src : Cells} (h1 : Above P dst) (h2 : Above P src) :
    Above P (blit m r dst src) := by
  intro x y a hp
  unfold blit
  split
  · exact h2 x y a hp
  · exact h1 x y a hp

theorem layerStep_above {P : Int → Int → Int → Prop} {m : Info K} {fr : Nat} {src : Cells} {r : Region} {out out' : Bool} {l l' : Layer K}
    {o : List Out} (h : layerStep m fr src r out l = some (l', o, out')) (hk : Raises l.kind) (hs : Above P src)
    (hl : Above P l.overlay) : Above P l'.overlay ∧ o = [] := by
  obtain ⟨k, ov, reg, prev, upd, op, ms⟩ := l
  have hb : ∀ r, Above P (blit m r ov src) := fun r => blit_above m r hl hs
  cases k with
  | foot R t mode keep =>
    change mode = .max at hk
    subst hk
    simp only [layerStep, Option.some.injEq, Prod.mk.injEq] at h
    obtain ⟨rfl, rfl, -⟩ := h
    refine ⟨?_, rfl⟩
    intro x y a hp
    cases upd with
    | none => exact hb _ x y a hp
    | some msg =>
      simp only
      split
      · exact generate_above keep _ _ _ _ _ x y a (hb _ x y a hp)
      · exact hb _ x y a hp
  | unknown cost =>
    simp only [layerStep, Option.some.injEq, Prod.mk.injEq] at h
    obtain ⟨rfl, rfl, -⟩ := h
    refine ⟨?_, rfl⟩
    intro x y a hp
    have e : ∀ (c : Cells), 100 ≤ c x y a → ∀ q : Prop, [Decidable q] → 100 ≤ (if q ∧ c x y a < 0 then cost else c x y a) := by
      intro c hc q _
      rw [if_neg (by omega)]
      exact hc
    cases upd with
    | none => exact e _ (hb _ x y a hp) _
    | some msg =>
      simp only [applyMsg, ite_self]
      exact e _ (hb _ x y a hp) _
  | stop => exact hk.elim
  | staticOut => exact hk.elim
  | updateOut => exact hk.elim

theorem entry_noStatic {m : Info K} {fr : Nat} : ∀ (ls : List (Layer K)) (src : Cells) (r : Region) (out : Bool) (ls' : List (Layer K)) (o : List Out),
    entry m fr src r out ls = some (ls', o) → (∀ l ∈ ls, ¬ IsStatic l.kind) →
    (∀ l ∈ ls', ¬ IsStatic l.kind) ∧ ∀ st c, Out.map st c ∉ o := by
  intro ls
  induction ls with
  | nil =>
    intro src r out ls' o h _
    simp only [entry, Option.some.injEq, Prod.mk.injEq] at h
    obtain ⟨rfl, rfl⟩ := h
    simp
  | cons l ls ih =>
    intro src r out ls' o h hn
    unfold entry at h
    cases hl : layerStep m fr src r out l with
    | none => rw [hl] at h; exact absurd h (by simp)
    | some q =>
      obtain ⟨l1, o1, out1⟩ := q
      rw [hl] at h
      simp only [Option.map_eq_some_iff] at h
      obtain ⟨⟨ls2, o2⟩, h2, h3⟩ := h
      simp only [Prod.mk.injEq] at h3
      obtain ⟨rfl, rfl⟩ := h3
      obtain ⟨i1, i2⟩ := ih _ _ _ _ _ h2 (fun l hl => hn l (by simp [hl]))
      have hk := (layerStep_flag hl).1
      have hnl := hn l (by simp)
      refine ⟨?_, ?_⟩
      · intro l' hl'
        rcases List.mem_cons.mp hl' with rfl | hl'
        · rw [hk]; exact hnl
        · exact i1 l' hl'
      · intro st c hm
        rcases List.mem_append.mp hm with hm | hm
        · obtain ⟨k, ov, reg, prev, upd, op, ms⟩ := l
          cases k with
          | foot R t mode keep => simp only [layerStep, Option.some.injEq, Prod.mk.injEq] at hl; rw [← hl.2.1] at hm; simp at hm
          | unknown cost => simp only [layerStep, Option.some.injEq, Prod.mk.injEq] at hl; rw [← hl.2.1] at hm; simp at hm
          | stop => simp only [layerStep, Option.some.injEq, Prod.mk.injEq] at hl; rw [← hl.2.1] at hm; simp at hm
          | staticOut => exact hnl trivial
          | updateOut =>
            simp only [layerStep] at hl
            split at hl
            · exact absurd hl (by simp)
            · simp only [Option.some.injEq, Prod.mk.injEq] at hl
              rw [← hl.2.1] at hm
              split at hm <;> simp at hm
        · exact i2 st c hm

theorem entry_above {P : Int → Int → Int → Prop} {m : Info K} {fr : Nat} : ∀ (ls : List (Layer K)) (src : Cells) (r : Region) (out : Bool)
    (ls' : List (Layer K)) (o : List Out), entry m fr src r out ls = some (ls', o) → OK P ls → Above P src →
    OK P ls' ∧ ∀ st c, Out.map st c ∈ o → Above P c := by
  intro ls
  induction ls with
  | nil =>
    intro src r out ls' o h _ _
    simp only [entry, Option.some.injEq, Prod.mk.injEq] at h
    obtain ⟨rfl, rfl⟩ := h
    exact ⟨trivial, by simp⟩
  | cons l ls ih =>
    intro src r out ls' o h hok hs
    unfold entry at h
    cases hl : layerStep m fr src r out l with
    | none => rw [hl] at h; exact absurd h (by simp)
    | some q =>
      obtain ⟨l1, o1, out1⟩ := q
      rw [hl] at h
      simp only [Option.map_eq_some_iff] at h
      obtain ⟨⟨ls2, o2⟩, h2, h3⟩ := h
      simp only [Prod.mk.injEq] at h3
      obtain ⟨rfl, rfl⟩ := h3
      have hk := (layerStep_flag hl).1
      rcases hok with ⟨hr, ha, hok⟩ | ⟨hst, hn⟩
      · obtain ⟨g1, rfl⟩ := layerStep_above hl hr hs ha
        obtain ⟨i1, i2⟩ := ih _ _ _ _ _ h2 hok g1
        exact ⟨Or.inl ⟨by rw [hk]; exact hr, g1, i1⟩, by simpa using i2⟩
      · obtain ⟨i1, i2⟩ := entry_noStatic _ _ _ _ _ _ h2 hn
        refine ⟨Or.inr ⟨by rw [hk]; exact hst, i1⟩, ?_⟩
        intro st c hm
        rcases List.mem_append.mp hm with hm | hm
        · obtain ⟨k, ov, reg, prev, upd, op, ms⟩ := l
          cases k with
          | staticOut =>
            simp only [layerStep, Option.some.injEq, Prod.mk.injEq] at hl
            rw [← hl.2.1] at hm
            split at hm
            · simp only [List.mem_cons, Out.map.injEq, List.not_mem_nil, or_false] at hm
              rw [hm.2]; exact hs
            · simp at hm
          | foot R t mode keep => exact hst.elim
          | unknown cost => exact hst.elim
          | stop => exact hst.elim
          | updateOut => exact hst.elim
        · exact absurd hm (i2 st c)

theorem overlayAt_above {P : Int → Int → Int → Prop} {m : Info K} {fr : Nat} {msg : Msg K} : ∀ (ls : List (Layer K)) (src : Cells) (i : Nat)
    (ls' : List (Layer K)) (o : List Out), overlayAt m fr msg src i ls = some (ls', o) → OK P ls → Above P src →
    OK P ls' ∧ ∀ st c, Out.map st c ∈ o → Above P c := by
  intro ls
  induction ls with
  | nil =>
    intro src i ls' o h _ _
    cases i <;>
    · simp only [overlayAt, Option.some.injEq, Prod.mk.injEq] at h
      obtain ⟨rfl, rfl⟩ := h
      exact ⟨trivial, by simp⟩
  | cons l ls ih =>
    intro src i ls' o h hok hs
    cases i with
    | zero => exact entry_above _ _ _ _ _ _ h hok hs
    | succ i =>
      simp only [overlayAt, Option.map_eq_some_iff] at h
      obtain ⟨⟨ls2, o2⟩, h2, h3⟩ := h
      simp only [Prod.mk.injEq] at h3
      obtain ⟨rfl, rfl⟩ := h3
      rcases hok with ⟨hr, ha, hok⟩ | ⟨hst, hn⟩
      · obtain ⟨i1, i2⟩ := ih _ _ _ _ h2 hok ha
        exact ⟨Or.inl ⟨hr, ha, i1⟩, i2⟩
      · have key : ∀ (ls : List (Layer K)) (src : Cells) (i : Nat) (ls' : List (Layer K)) (o : List Out),
            overlayAt m fr msg src i ls = some (ls', o) → (∀ l ∈ ls, ¬ IsStatic l.kind) →
            (∀ l ∈ ls', ¬ IsStatic l.kind) ∧ ∀ st c, Out.map st c ∉ o := by
          intro ls
          induction ls with
          | nil =>
            intro src i ls' o h _
            cases i <;>
            · simp only [overlayAt, Option.some.injEq, Prod.mk.injEq] at h
              obtain ⟨rfl, rfl⟩ := h
              simp
          | cons l ls ih2 =>
            intro src i ls' o h hn
            cases i with
            | zero => exact entry_noStatic _ _ _ _ _ _ h (by
                intro l' hl'
                rcases List.mem_cons.mp hl' with rfl | hl'
                · exact hn l (by simp)
                · exact hn l' (by simp [hl']))
            | succ i =>
              simp only [overlayAt, Option.map_eq_some_iff] at h
              obtain ⟨⟨ls2, o2⟩, h2, h3⟩ := h
              simp only [Prod.mk.injEq] at h3
              obtain ⟨rfl, rfl⟩ := h3
              obtain ⟨j1, j2⟩ := ih2 _ _ _ _ h2 (fun l hl => hn l (by simp [hl]))
              refine ⟨?_, j2⟩
              intro l' hl'
              rcases List.mem_cons.mp hl' with rfl | hl'
              · exact hn _ (by simp)
              · exact j1 l' hl'
        obtain ⟨i1, i2⟩ := key _ _ _ _ _ h2 hn
        exact ⟨Or.inr ⟨hst, i1⟩, fun st c hm => absurd hm (i2 st c)⟩

/-! ### Along a history -/

theorem entry_kinds {m : Info K} {fr : Nat} : ∀ (ls : List (Layer K)) (src : Cells) (r : Region) (out : Bool) (ls' : List (Layer K)) (o : List Out),
    entry m fr src r out ls = some (ls', o) → ls'.map (·.kind) = ls.map (·.kind) := by
  intro ls
  induction ls with
  | nil =>
    intro src r out ls' o h
    simp only [entry, Option.some.injEq, Prod.mk.injEq] at h
    rw [← h.1]
  | cons l ls ih =>
    intro src r out ls' o h
    unfold entry at h
    cases hl : layerStep m fr src r out l with
    | none => rw [hl] at h; exact absurd h (by simp)
    | some q =>
      obtain ⟨l1, o1, out1⟩ := q
      rw [hl] at h
      simp only [Option.map_eq_some_iff] at h
      obtain ⟨⟨ls2, o2⟩, h2, h3⟩ := h
      simp only [Prod.mk.injEq] at h3
      obtain ⟨rfl, rfl⟩ := h3
      simp only [List.map_cons, (layerStep_flag hl).1, ih _ _ _ _ _ h2]

theorem overlayAt_kinds {m : Info K} {fr : Nat} {msg : Msg K} : ∀ (ls : List (Layer K)) (src : Cells) (i : Nat)
    (ls' : List (Layer K)) (o : List Out), overlayAt m fr msg src i ls = some (ls', o) → ls'.map (·.kind) = ls.map (·.kind) := by
  intro ls
  induction ls with
  | nil =>
    intro src i ls' o h
    cases i <;>
    · simp only [overlayAt, Option.some.injEq, Prod.mk.injEq] at h
      rw [← h.1]
  | cons l ls ih =>
    intro src i ls' o h
    cases i with
    | zero => exact entry_kinds ({ l with updated := some msg, region := window m msg } :: ls) _ _ _ _ _ h
    | succ i =>
      simp only [overlayAt, Option.map_eq_some_iff] at h
      obtain ⟨⟨ls2, o2⟩, h2, h3⟩ := h
      simp only [Prod.mk.injEq] at h3
      obtain ⟨rfl, rfl⟩ := h3
      simp only [List.map_cons, ih _ _ _ _ h2]

section
variable (ang : Nat) (R : Info K → Int) (t : Info K → Cells) (mode : Mode) (keep : Bool) (ks : List (Kind K))

/-- The node between messages. -/
structure J (b : Option (Msg K)) (s : Node K) : Prop where
  ang_eq : s.ang = ang
  root_kind : s.root.kind = .foot R t mode keep
  root_upd : s.root.updated = none
  kinds : s.layers.map (·.kind) = ks
  root_above : Above (fun x y a => 100 ≤ s.rootMap x y a) s.root.overlay
  above : OK (fun x y a => 100 ≤ s.rootMap x y a) s.layers
  base : match b with
    | none => s.info.w = 0
    | some b => s.info = infoOf ang b ∧ s.rootMap = rootCells R t mode keep (infoOf ang b) b

/-- What is published keeps the root's blocked cells. -/
def Kept (b : Option (Msg K)) (o : List Out) : Prop :=
  ∀ st c, Out.map st c ∈ o → ∃ b', b = some b' ∧
    ∀ x y a, 100 ≤ rootCells R t mode keep (infoOf ang b') b' x y a → 100 ≤ c x y a

variable {ang R t mode keep ks}

theorem cbMapOverlay_J {b : Option (Msg K)} {s s' : Node K} {i : Nat} {msg : Msg K} {o : List Out} (hj : J ang R t mode keep ks b s)
    (h : cbMapOverlay s i msg = some (s', o)) : J ang R t mode keep ks b s' ∧ Kept ang R t mode keep b o := by
  unfold cbMapOverlay at h
  split at h
  · simp only [Option.some.injEq, Prod.mk.injEq] at h
    obtain ⟨rfl, rfl⟩ := h
    exact ⟨⟨hj.ang_eq, hj.root_kind, hj.root_upd, hj.kinds, hj.root_above, hj.above, hj.base⟩, fun st c hm => by simp at hm⟩
  · rename_i hw
    simp only [Option.map_eq_some_iff] at h
    obtain ⟨⟨ls, o1⟩, h1, h2⟩ := h
    simp only [Prod.mk.injEq] at h2
    obtain ⟨rfl, rfl⟩ := h2
    obtain ⟨a1, a2⟩ := overlayAt_above _ _ _ _ _ h1 hj.above hj.root_above
    refine ⟨⟨hj.ang_eq, hj.root_kind, hj.root_upd, (overlayAt_kinds _ _ _ _ _ h1).trans hj.kinds, hj.root_above, a1, hj.base⟩, ?_⟩
    intro st c hm
    have hb := hj.base
    cases b with
    | none => simp only at hb; omega
    | some b => exact ⟨b, rfl, fun x y a hp => a2 st c hm x y a (by rw [hb.2]; exact hp)⟩

theorem replay_J {b : Option (Msg K)} : ∀ (q : List (Nat × Msg K)) (s s' : Node K) (o : List Out), J ang R t mode keep ks b s →
    replay q s = some (s', o) → J ang R t mode keep ks b s' ∧ Kept ang R t mode keep b o := by
  intro q
  induction q with
  | nil =>
    intro s s' o hj h
    simp only [replay, Option.some.injEq, Prod.mk.injEq] at h
    obtain ⟨rfl, rfl⟩ := h
    exact ⟨hj, fun st c hm => by simp at hm⟩
  | cons p q ih =>
    intro s s' o hj h
    obtain ⟨i, msg⟩ := p
    unfold replay at h
    cases hc : cbMapOverlay s i msg with
    | none => rw [hc] at h; exact absurd h (by simp)
    | some r =>
      obtain ⟨s1, o1⟩ := r
      rw [hc] at h
      simp only [Option.map_eq_some_iff] at h
      obtain ⟨⟨s2, o2⟩, h1, h2⟩ := h
      simp only [Prod.mk.injEq] at h2
      obtain ⟨rfl, rfl⟩ := h2
      obtain ⟨j1, k1⟩ := cbMapOverlay_J hj hc
      obtain ⟨j2, k2⟩ := ih _ _ _ j1 h1
      refine ⟨j2, fun st c hm => ?_⟩
      rcases List.mem_append.mp hm with hm | hm
      · exact k1 st c hm
      · exact k2 st c hm

theorem setBaseMap_J (hks : StaticMax ks) {b : Option (Msg K)} {s s' : Node K} {msg : Msg K} {o : List Out} (hj : J ang R t mode keep ks b s)
    (h : setBaseMap s msg = some (s', o)) : J ang R t mode keep ks (some msg) s' ∧ Kept ang R t mode keep (some msg) o := by
  obtain ⟨sa, si, sf, sm, ⟨rk, ro, rr, rp, ru, rq, rs⟩, sl, sb⟩ := s
  obtain ⟨e1, e2, e3, e4, -, -, -⟩ := hj
  simp only at e1 e2 e3 e4
  subst e1; subst e2; subst e3
  unfold setBaseMap at h
  split at h
  swap
  · exact absurd h (by simp)
  simp only at h
  set c := rootCells R t mode keep (infoOf sa msg) msg with hc
  have hself : Above (fun x y a => 100 ≤ c x y a) c := fun x y a hp => hp
  unfold entry at h
  have hroot : layerStep (infoOf sa msg) msg.frame c (fullRegion (infoOf sa msg) msg.stamp) true
      ⟨.foot R t mode keep, c, rr, rp, none, rq, msg.stamp⟩ =
      some (⟨.foot R t mode keep, blit (infoOf sa msg) (((rr.merge (fullRegion (infoOf sa msg) msg.stamp)).normalize (infoOf sa msg).w (infoOf sa msg).h).merge rp) c c,
        (rr.merge (fullRegion (infoOf sa msg) msg.stamp)).normalize (infoOf sa msg).w (infoOf sa msg).h,
        (rr.merge (fullRegion (infoOf sa msg) msg.stamp)).normalize (infoOf sa msg).w (infoOf sa msg).h, none, rq, msg.stamp⟩, [], true) := rfl
  rw [hroot] at h
  simp only at h
  cases hen : entry (infoOf sa msg) msg.frame (blit (infoOf sa msg) (((rr.merge (fullRegion (infoOf sa msg) msg.stamp)).normalize (infoOf sa msg).w (infoOf sa msg).h).merge rp) c c)
      ((rr.merge (fullRegion (infoOf sa msg) msg.stamp)).normalize (infoOf sa msg).w (infoOf sa msg).h) true
      (sl.map fun l => { l with overlay := c, mapStamp := msg.stamp }) with
  | none => rw [hen] at h; exact absurd h (by simp)
  | some q =>
    obtain ⟨ls, o1⟩ := q
    rw [hen] at h
    simp only [Option.map_some, List.nil_append, Option.some.injEq, Prod.mk.injEq] at h
    obtain ⟨rfl, rfl⟩ := h
    have hb : Above (fun x y a => 100 ≤ c x y a) (blit (infoOf sa msg) (((rr.merge (fullRegion (infoOf sa msg) msg.stamp)).normalize (infoOf sa msg).w (infoOf sa msg).h).merge rp) c c) :=
      blit_above _ _ hself hself
    have hkinds : (sl.map fun l => { l with overlay := c, mapStamp := msg.stamp }).map (·.kind) = sl.map (·.kind) := by
      rw [List.map_map]; rfl
    have hok : OK (fun x y a => 100 ≤ c x y a) (sl.map fun l => { l with overlay := c, mapStamp := msg.stamp }) := by
      refine ok_of_kinds _ _ (by rw [hkinds, e4]; exact hks) ?_
      intro l hl
      obtain ⟨l0, -, rfl⟩ := List.mem_map.mp hl
      exact hself
    obtain ⟨i1, i2⟩ := entry_above _ _ _ _ _ _ hen hok hb
    exact ⟨⟨rfl, rfl, rfl, by rw [entry_kinds _ _ _ _ _ _ hen, hkinds, e4], hb, i1, rfl, rfl⟩, fun st c' hm => ⟨msg, rfl, fun x y a hp => i2 st c' hm x y a hp⟩⟩

theorem step_J (hks : StaticMax ks) {b : Option (Msg K)} {s s' : Node K} {e : Event K} {o : List Out} (hj : J ang R t mode keep ks b s)
    (h : step s e = some (s', o)) :
    J ang R t mode keep ks (nextBase b e) s' ∧
      Kept ang R t mode keep (nextBase b e) o := by
  cases e with
  | overlay i msg => exact cbMapOverlay_J hj h
  | base msg =>
    unfold step cbMap at h
    cases hs : setBaseMap s msg with
    | none => simp only [hs] at h; exact absurd h (by simp)
    | some q =>
      obtain ⟨s1, o1⟩ := q
      simp only [hs] at h
      obtain ⟨j1, k1⟩ := setBaseMap_J hks hj hs
      split at h
      · simp only [Option.some.injEq, Prod.mk.injEq] at h
        obtain ⟨rfl, rfl⟩ := h
        exact ⟨j1, k1⟩
      · split at h
        · exact absurd h (by simp)
        · simp only [Option.map_eq_some_iff] at h
          obtain ⟨⟨s2, o2⟩, h1, h2⟩ := h
          simp only [Prod.mk.injEq] at h2
          obtain ⟨rfl, rfl⟩ := h2
          obtain ⟨j2, k2⟩ := replay_J _ _ _ _ j1 h1
          refine ⟨⟨j2.ang_eq, j2.root_kind, j2.root_upd, j2.kinds, j2.root_above, j2.above, j2.base⟩, fun st c hm => ?_⟩
          rcases List.mem_append.mp hm with hm | hm
          · exact k1 st c hm
          · exact k2 st c hm

theorem run_J (hks : StaticMax ks) : ∀ (es : List (Event K)) (b : Option (Msg K)) (s s' : Node K) (o : List Out),
    J ang R t mode keep ks b s → run s es = some (s', o) →
    J ang R t mode keep ks (es.foldl nextBase b) s' := by
  intro es
  induction es with
  | nil =>
    intro b s s' o hj h
    simp only [run, Option.some.injEq, Prod.mk.injEq] at h
    rw [← h.1]; exact hj
  | cons e es ih =>
    intro b s s' o hj h
    unfold run at h
    cases hs : step s e with
    | none => rw [hs] at h; exact absurd h (by simp)
    | some q =>
      obtain ⟨s1, o1⟩ := q
      rw [hs] at h
      simp only [Option.map_eq_some_iff] at h
      obtain ⟨⟨s2, o2⟩, h1, h2⟩ := h
      simp only [Prod.mk.injEq] at h2
      obtain ⟨rfl, rfl⟩ := h2
      exact ih _ _ _ _ (step_J hks hj hs).1 h1

end

/-- After every history of base maps and overlays: whenever the node publishes a whole map, it is the map of the last base
map received, and every cell that inflation of that base map blocks is blocked in it. -/
theorem static_map_blocks (ang : Nat) (z : K) (R : Info K → Int) (t : Info K → Cells) (mode : Mode) (keep : Bool) (ks : List (Kind K))
    (hks : StaticMax ks) (es : List (Event K)) (e : Event K) (s s' : Node K) (o o' : List Out)
    (h : run (Node.init ang z (.foot R t mode keep) ks) es = some (s, o)) (hst : step s e = some (s', o')) (st : Nat) (c : Cells)
    (hm : Out.map st c ∈ o') :
    ∃ b, lastBase (es ++ [e]) = some b ∧ s'.info = infoOf ang b ∧
      ∀ x y a, 100 ≤ rootCells R t mode keep (infoOf ang b) b x y a → 100 ≤ c x y a := by
  have h0 : J ang R t mode keep ks none (Node.init ang z (.foot R t mode keep) ks) := by
    refine ⟨rfl, rfl, rfl, ?_, ?_, ?_, rfl⟩
    · simp [Node.init, Function.comp_def, Layer.fresh]
    · intro x y a hp
      simp [Node.init] at hp
    · apply ok_of_kinds
      · simpa [Node.init, Function.comp_def, Layer.fresh] using hks
      · intro l _ x y a hp
        simp [Node.init] at hp
  have h1 := run_J hks es none _ _ _ h0 h
  obtain ⟨h2, h3⟩ := step_J hks h1 hst
  obtain ⟨b, hb, h4⟩ := h3 st c hm
  have hl : lastBase (es ++ [e]) = some b := by
    rw [← hb]; unfold lastBase; rw [List.foldl_append]; rfl
  refine ⟨b, hl, ?_, h4⟩
  have := h2.base
  rw [hb] at this
  exact this.1

end Verif.Layers
