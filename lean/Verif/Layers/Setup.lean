import Verif.Layers.SetupSpec
import Mathlib.Data.List.Basic
import Mathlib.Tactic.SplitIfs
/-! # C146: the layers form one chain, in the listed order -/
namespace Verif.Layers.Setup
open Spec

/-- The heap holds the chain `l`. -/
structure Good (s : Chain) (l : List (Kind × Overlay)) : Prop where
  ne : l ≠ []
  cm : s.costmaps = List.range s.nodes.length
  ch : ∀ i n, s.nodes[i]? = some n → n.child = (if i + 1 < s.nodes.length then some (i + 1) else none) ∧ (n.root = true ↔ i = 0) ∧
    n.output = 2 * i + 1 ∧ n.input = 2 * i - 1
  ls : s.nodes.map (fun n => (n.kind, n.mode)) = l

theorem Good.len {s : Chain} {l} (h : Good s l) : s.nodes.length = l.length := by rw [← h.ls, List.length_map]

theorem good_root (k : Kind) : Good (addRootLayer ⟨[], [], []⟩ k) [(k, .max)] := by
  refine ⟨by simp, rfl, ?_, rfl⟩
  intro i n h
  cases i with
  | zero => simp [addRootLayer] at h ⊢; subst h; simp [newLayer]
  | succ i => simp [addRootLayer] at h

theorem good_add {s : Chain} {l} (h : Good s l) (k : Kind) (m : Overlay) :
    ∃ s', addLayer s k m = some s' ∧ Good s' (l ++ [(k, m)]) ∧ s'.subs = s.subs := by
  have hpos : 0 < s.nodes.length := by rw [h.len]; exact List.length_pos_of_ne_nil h.ne
  obtain ⟨n, hn⟩ : ∃ n, s.nodes.length = n + 1 := ⟨s.nodes.length - 1, by omega⟩
  have hl : s.costmaps.getLast? = some n := by rw [h.cm, hn, List.range_succ, List.getLast?_concat]
  have hnl : n < s.nodes.length := by omega
  obtain ⟨p, hp⟩ : ∃ p, s.nodes[n]? = some p := ⟨s.nodes[n], List.getElem?_eq_getElem hnl⟩
  have hpo := (h.ch n p hp).2.2.1
  have hsc : setChild (s.nodes ++ [newLayer k m s.nodes.length]) n s.nodes.length =
      ((s.nodes ++ [newLayer k m s.nodes.length]).modify n fun x => { x with child := some s.nodes.length }).modify s.nodes.length
        fun x => { x with root := false, input := p.output } := by
    unfold setChild
    rw [List.getElem?_append_left hnl, hp]
  unfold addLayer
  rw [hl]
  simp only [hsc]
  refine ⟨_, rfl, ⟨by simp, ?_, ?_, ?_⟩, rfl⟩
  · simp only [List.length_modify, List.length_append, List.length_singleton]
    rw [h.cm, List.range_succ]
  · intro i x hx
    simp only [List.length_modify, List.length_append, List.length_singleton] at hx ⊢
    rw [List.getElem?_modify, List.getElem?_modify] at hx
    rcases Nat.lt_trichotomy i s.nodes.length with hi | hi | hi
    · rw [List.getElem?_append_left hi] at hx
      obtain ⟨y, hy⟩ : ∃ y, s.nodes[i]? = some y := ⟨s.nodes[i], List.getElem?_eq_getElem hi⟩
      obtain ⟨c1, c2⟩ := h.ch i y hy
      have e1 : ¬ s.nodes.length = i := by omega
      rw [hy] at hx
      by_cases hin : n = i
      · simp only [e1, hin, if_true, if_false, Option.map_eq_map, Option.map_some, Option.some.injEq] at hx
        subst hx
        refine ⟨?_, c2⟩
        simp only
        rw [if_pos (by omega)]
        congr 1; omega
      · simp only [e1, hin, if_false, Option.map_eq_map, Option.map_some, Option.some.injEq] at hx
        subst hx
        refine ⟨?_, c2⟩
        rw [c1, if_pos (by omega), if_pos (by omega)]
    · subst hi
      have e1 : ¬ n = s.nodes.length := by omega
      rw [List.getElem?_append_right (Nat.le_refl _)] at hx
      simp [e1] at hx
      subst hx
      refine ⟨by simp [newLayer], by simp; exact List.ne_nil_of_length_pos hpos, rfl, ?_⟩
      simp only [hpo]; omega
    · rw [List.getElem?_eq_none (by simp; omega)] at hx
      simp at hx
  · rw [← h.ls]
    apply List.ext_getElem?
    intro i
    have hk : [(k, m)] = [newLayer k m s.nodes.length].map (fun n : Node => (n.kind, n.mode)) := rfl
    rw [hk, ← List.map_append]
    simp only [List.getElem?_map, List.getElem?_modify]
    cases (s.nodes ++ [newLayer k m s.nodes.length])[i]? with
    | none => simp
    | some y => simp only [Option.map_eq_map, Option.map_some]; split_ifs <;> rfl

theorem loadClass_iff (t : Option String) (k : Kind) : t.bind loadClass = some k ↔
    (t, k) ∈ [(some "Costmap3dLayerFootprint", Kind.footprint), (some "Costmap3dLayerPlain", .plain),
      (some "Costmap3dLayerStopPropagation", .stopPropagation), (some "Costmap3dLayerUnknownHandle", .unknownHandle)] := by
  cases t with
  | none => simp
  | some t =>
    simp only [Option.bind_some, loadClass, List.mem_cons, Prod.mk.injEq, Option.some.injEq, List.not_mem_nil, or_false]
    constructor
    · intro h
      split_ifs at h with h1 h2 h3 h4 <;> cases h <;> simp_all
    · rintro (⟨rfl, rfl⟩ | ⟨rfl, rfl⟩ | ⟨rfl, rfl⟩ | ⟨rfl, rfl⟩) <;> decide

theorem overlay_iff (o : Option String) (m : Overlay) :
    modeOf o = some m ↔
      (o, m) ∈ [(none, Overlay.max), (some "max", .max), (some "overwrite", .overwrite)] := by
  cases o with
  | none => cases m <;> simp [modeOf]
  | some s =>
    simp only [modeOf, overlayOf, List.mem_cons, Prod.mk.injEq, Option.some.injEq, List.not_mem_nil, or_false, reduceCtorEq, false_and, false_or]
    constructor
    · intro h
      split_ifs at h with h1 h2 <;> cases h
      · exact Or.inr ⟨h1, rfl⟩
      · exact Or.inl ⟨h2, rfl⟩
    · rintro (⟨rfl, rfl⟩ | ⟨rfl, rfl⟩) <;> decide

theorem add_listed {s : Chain} {l} (h : Good s l) (x : LayerXml) :
    (∀ k m, Valid x k m → ∃ s', addListed s x = some s' ∧ Good s' (l ++ [(k, m)]) ∧ s'.subs = s.subs ++ [(x.name, l.length)]) ∧
    (∀ s', addListed s x = some s' → ∃ k m, Valid x k m) := by
  unfold addListed
  constructor
  · rintro k m ⟨hk, hm⟩
    rw [(overlay_iff _ m).mpr hm, (loadClass_iff _ k).mpr hk]
    obtain ⟨s', hs', hg, hsub⟩ := good_add h k m
    simp only [Option.bind_some, hs']
    exact ⟨_, rfl, ⟨hg.ne, hg.cm, hg.ch, hg.ls⟩, by rw [hsub, h.len]⟩
  · intro s' hs'
    obtain ⟨m, hm, hs'⟩ := Option.bind_eq_some_iff.mp hs'
    obtain ⟨k, hk, -⟩ := Option.bind_eq_some_iff.mp hs'
    exact ⟨k, m, (loadClass_iff _ k).mp hk, (overlay_iff _ m).mp hm⟩

theorem add_fold (xs : List LayerXml) : ∀ {s : Chain} {l : List (Kind × Overlay)}, Good s l →
    (∀ ls, Asks xs ls → ∃ s', xs.foldlM addListed s = some s' ∧ Good s' (l ++ ls) ∧ s'.subs = s.subs ++ (xs.map (·.name)).zipIdx l.length) ∧
    (∀ s', xs.foldlM addListed s = some s' → ∃ ls, Asks xs ls) := by
  induction xs with
  | nil =>
    intro s l h
    refine ⟨?_, fun s' _ => ⟨[], List.Forall₂.nil⟩⟩
    intro ls hls
    cases hls
    exact ⟨s, rfl, by simpa using h, by simp⟩
  | cons x xs ih =>
    intro s l h
    obtain ⟨a1, a2⟩ := add_listed h x
    constructor
    · intro ls hls
      cases hls with
      | cons hv hr =>
        obtain ⟨s1, e1, g1, b1⟩ := a1 _ _ hv
        obtain ⟨s2, e2, g2, b2⟩ := (ih g1).1 _ hr
        refine ⟨s2, ?_, by simpa using g2, ?_⟩
        · rw [List.foldlM_cons, e1]; exact e2
        · rw [b2, b1]; simp
    · intro s' hs'
      rw [List.foldlM_cons] at hs'
      obtain ⟨s1, e1, e2⟩ := Option.bind_eq_some_iff.mp hs'
      obtain ⟨k, m, hv⟩ := a2 s1 e1
      obtain ⟨s1', e1', g1, -⟩ := a1 k m hv
      rw [e1] at e1'
      cases e1'
      obtain ⟨ls, hls⟩ := (ih g1).2 s' e2
      exact ⟨(k, m) :: ls, .cons hv hls⟩

theorem add_all (xs : List LayerXml) {s : Chain} {l : List (Kind × Overlay)} (h : Good s l) :
    (∀ ls, xs ≠ [] → Asks xs ls → ∃ s', addAll s xs = some s' ∧ Good s' (l ++ ls) ∧ s'.subs = s.subs ++ (xs.map (·.name)).zipIdx l.length) ∧
    (∀ s', addAll s xs = some s' → xs ≠ [] ∧ ∃ ls, Asks xs ls) := by
  unfold addAll
  constructor
  · intro ls hne hls
    rw [if_neg (by have := List.length_pos_of_ne_nil hne; omega)]
    exact (add_fold xs h).1 ls hls
  · intro s' hs'
    split at hs'
    · cases hs'
    · rename_i hl
      refine ⟨fun h0 => hl (by simp [h0]), (add_fold xs h).2 s' hs'⟩

theorem good_follow {s : Chain} {l} (h : Good s l) (k : Nat) : follow s k = if k < l.length then some k else none := by
  have hpos : 0 < l.length := List.length_pos_of_ne_nil h.ne
  induction k with
  | zero =>
    rw [if_pos hpos]
    obtain ⟨n, hn⟩ : ∃ n, s.nodes.length = n + 1 := ⟨s.nodes.length - 1, by rw [h.len]; omega⟩
    show s.costmaps.head? = _
    rw [h.cm, hn, List.range_succ_eq_map]; rfl
  | succ k ih =>
    show (follow s k).bind _ = _
    rw [ih]
    by_cases hk : k < l.length
    · rw [if_pos hk]
      have hk' : k < s.nodes.length := by rw [h.len]; exact hk
      have := (h.ch k _ (List.getElem?_eq_getElem hk')).1
      simp only [Option.bind_some, List.getElem?_eq_getElem hk', this, h.len]
    · rw [if_neg hk, if_neg (by omega)]; rfl

theorem build_good (c : Config) (hang : 0 < c.angResolution) (st dyn : List (Kind × Overlay)) (hst : AsksParam c.staticLayers st) (hdyn : AsksDynamic c dyn) :
    ∃ s, build c = some s ∧ Good s ([(.footprint, .max)] ++ st ++ [(.staticOutput, .max)] ++ dyn ++ [(.updateOutput, .max)]) ∧ s.subs = topics c := by
  have g0 := good_root .footprint
  obtain ⟨s1, e1, g1, b1⟩ : ∃ s1, staticPart c (addRootLayer ⟨[], [], []⟩ .footprint) = some s1 ∧
      Good s1 ([(.footprint, .max)] ++ st) ∧ s1.subs = ((c.staticLayers.getD []).map (·.name)).zipIdx 1 := by
    unfold AsksParam at hst
    unfold staticPart
    cases hc : c.staticLayers with
    | none => rw [hc] at hst; subst hst; exact ⟨_, rfl, by simpa using g0, rfl⟩
    | some xs =>
      rw [hc] at hst
      obtain ⟨s', a, b, d⟩ := (add_all xs g0).1 st hst.1 hst.2
      exact ⟨s', a, b, by rw [d]; simp [addRootLayer]⟩
  have hlen : st.length = (c.staticLayers.getD []).length := by
    unfold AsksParam at hst
    cases hc : c.staticLayers with
    | none => rw [hc] at hst; subst hst; rfl
    | some xs => rw [hc] at hst; exact hst.2.length_eq.symm
  obtain ⟨s2, e2, g2, b2⟩ := good_add g1 .staticOutput .max
  obtain ⟨s3, e3, g3, b3⟩ : ∃ s3, dynamicPart c s2 = some s3 ∧
      Good s3 ([(.footprint, .max)] ++ st ++ [(.staticOutput, .max)] ++ dyn) ∧ s3.subs = topics c := by
    unfold AsksDynamic at hdyn
    unfold topics dynamicNames dynamicPart
    cases hc : c.layers with
    | none =>
      rw [hc] at hdyn
      obtain ⟨m, hm, rfl⟩ := hdyn
      have ho : overlayOf (c.overlayMode.getD "max") = some m := by
        have := (overlay_iff _ m).mpr hm
        cases hcm : c.overlayMode with
        | none => rw [hcm] at this; simpa [overlayOf, modeOf] using this
        | some x => rw [hcm] at this; exact this
      obtain ⟨s3, e3, g3, b3⟩ := good_add g2 .footprint m
      refine ⟨{ s3 with subs := s3.subs ++ [("map_overlay", s2.nodes.length)] }, ?_, ⟨g3.ne, g3.cm, g3.ch, g3.ls⟩, ?_⟩
      · simp only [ho, e3, Option.bind_some]
      · simp only [b3, b2, b1, g2.len]
        simp [hlen]
    | some xs =>
      rw [hc] at hdyn
      obtain ⟨s3, e3, g3, b3⟩ := (add_all xs g2).1 dyn hdyn.1 hdyn.2
      refine ⟨s3, e3, g3, ?_⟩
      rw [b3, b2, b1]
      simp only [List.length_append, List.length_singleton, hlen, List.length_map]
      congr 2; omega
  obtain ⟨s4, e4, g4, b4⟩ := good_add g3 .updateOutput .max
  refine ⟨s4, ?_, g4, by rw [b4, b3]⟩
  unfold build
  rw [if_pos hang]
  rw [e1, Option.bind_some, e2, Option.bind_some, e3, Option.bind_some]
  exact e4

/-- **C146**: a node whose configuration asks for valid layers starts, and following the chain from the root gives exactly: the base map's footprint layer, the static layers in the listed order,
the output of the static map, the other layers in the listed order, the output of the updates, and nothing more; only the first is a root, each layer reads the map the previous one writes, and each overlay topic feeds the layer it names. -/
theorem chain_in_order (c : Config) (hang : 0 < c.angResolution) (st dyn : List (Kind × Overlay)) (hst : AsksParam c.staticLayers st) (hdyn : AsksDynamic c dyn) :
    ∃ s, build c = some s ∧
      (∀ k, (layerAt s k).map (fun n => (n.kind, n.mode)) = ([(.footprint, .max)] ++ st ++ [(.staticOutput, .max)] ++ dyn ++ [(.updateOutput, .max)])[k]?) ∧
      (∀ k n, layerAt s k = some n → (n.root = true ↔ k = 0)) ∧ MapsPassedOn s ∧
      s.subs.map (fun p => (p.1, some p.2)) = (topics c).map (fun p => (p.1, follow s p.2)) := by
  obtain ⟨s, e, g, b⟩ := build_good c hang st dyn hst hdyn
  have hlay : ∀ k, layerAt s k = s.nodes[k]? := by
    intro k
    unfold layerAt
    rw [good_follow g]
    split
    · rfl
    · rename_i hk
      rw [List.getElem?_eq_none (by rw [g.len]; omega)]; rfl
  refine ⟨s, e, ?_, ?_, ?_, ?_⟩
  · intro k
    rw [hlay, ← List.getElem?_map, g.ls]
  · intro k n hn
    rw [hlay] at hn
    exact (g.ch k n hn).2.1
  · refine ⟨?_, ?_, ?_⟩
    · intro k a b ha hb
      rw [hlay] at ha hb
      rw [(g.ch _ a ha).2.2.1, (g.ch _ b hb).2.2.2]; omega
    · intro j k a b ha hb he
      rw [hlay] at ha hb
      rw [(g.ch _ a ha).2.2.1, (g.ch _ b hb).2.2.1] at he; omega
    · intro k a b ha hb
      rw [hlay] at ha hb
      rw [(g.ch _ a ha).2.2.2, (g.ch _ b hb).2.2.1]; omega
  · rw [b]
    apply List.map_congr_left
    rintro ⟨t, p⟩ hp
    have hlen1 : st.length = (c.staticLayers.getD []).length := by
      unfold AsksParam at hst
      cases hc : c.staticLayers with
      | none => rw [hc] at hst; subst hst; rfl
      | some xs => rw [hc] at hst; exact hst.2.length_eq.symm
    have hlen2 : dyn.length = (dynamicNames c).length := by
      unfold AsksDynamic at hdyn
      unfold dynamicNames
      cases hc : c.layers with
      | none => rw [hc] at hdyn; obtain ⟨m, -, rfl⟩ := hdyn; rfl
      | some xs => rw [hc] at hdyn; simpa using hdyn.2.length_eq.symm
    have hp' : p < 3 + st.length + dyn.length := by
      unfold topics at hp
      rcases List.mem_append.mp hp with hp | hp
      · have := List.snd_lt_add_of_mem_zipIdx hp
        simp at this; omega
      · have := List.snd_lt_add_of_mem_zipIdx hp
        rw [← hlen2] at this
        simp at this; omega
    simp only [Prod.mk.injEq, true_and]
    rw [good_follow g, if_pos (by simp; omega)]

/-- **C146**: the node starts exactly when the angular resolution is positive and every listed layer has a known class and, if it names one, a known overlay mode. -/
theorem starts_iff (c : Config) : (build c).isSome ↔ 0 < c.angResolution ∧ (∃ st, AsksParam c.staticLayers st) ∧ ∃ dyn, AsksDynamic c dyn := by
  constructor
  · intro h
    obtain ⟨s, hs⟩ := Option.isSome_iff_exists.mp h
    unfold build at hs
    by_cases hang : c.angResolution > 0
    · rw [if_pos hang] at hs
      have g0 := good_root .footprint
      obtain ⟨s1, e1, hs⟩ := Option.bind_eq_some_iff.mp hs
      obtain ⟨s2, e2, hs⟩ := Option.bind_eq_some_iff.mp hs
      obtain ⟨s3, e3, -⟩ := Option.bind_eq_some_iff.mp hs
      have h1 : ∃ st, AsksParam c.staticLayers st ∧ Good s1 ([(.footprint, .max)] ++ st) := by
        unfold AsksParam
        unfold staticPart at e1
        cases hc : c.staticLayers with
        | none => rw [hc] at e1; cases e1; exact ⟨[], rfl, by simpa using g0⟩
        | some xs =>
          rw [hc] at e1
          obtain ⟨hne, ls, hls⟩ := (add_all xs g0).2 s1 e1
          obtain ⟨s1', a, b, -⟩ := (add_all xs g0).1 ls hne hls
          have a' : addAll (addRootLayer ⟨[], [], []⟩ .footprint) xs = some s1 := e1
          rw [a] at a'; cases a'
          exact ⟨ls, ⟨hne, hls⟩, b⟩
      obtain ⟨st, hst, g1⟩ := h1
      obtain ⟨s2', e2', g2, -⟩ := good_add g1 .staticOutput .max
      rw [e2] at e2'; cases e2'
      refine ⟨hang, ⟨st, hst⟩, ?_⟩
      unfold AsksDynamic
      unfold dynamicPart at e3
      cases hc : c.layers with
      | none =>
        rw [hc] at e3
        obtain ⟨m, hm, -⟩ := Option.bind_eq_some_iff.mp e3
        refine ⟨[(.footprint, m)], m, (overlay_iff _ m).mp ?_, rfl⟩
        cases hcm : c.overlayMode with
        | none => rw [hcm] at hm; simpa [overlayOf, modeOf] using hm
        | some x => rw [hcm] at hm; exact hm
      | some xs =>
        rw [hc] at e3
        obtain ⟨hne, ls, hls⟩ := (add_all xs g2).2 s3 e3
        exact ⟨ls, hne, hls⟩
    · rw [if_neg hang] at hs; cases hs
  · rintro ⟨hang, ⟨st, hst⟩, dyn, hdyn⟩
    obtain ⟨s, e, -⟩ := build_good c hang st dyn hst hdyn
    rw [e]; rfl

/-- The hypotheses can be met: one static layer, two others. -/
example : AsksParam (some [⟨"a", none, some "Costmap3dLayerPlain"⟩]) [(.plain, .max)] ∧
    AsksDynamic ⟨16, none, some [⟨"b", some "overwrite", some "Costmap3dLayerFootprint"⟩, ⟨"c", some "max", some "Costmap3dLayerUnknownHandle"⟩], none⟩
      [(.footprint, .overwrite), (.unknownHandle, .max)] ∧
    (build ⟨16, some [⟨"a", none, some "Costmap3dLayerPlain"⟩], some [⟨"b", some "overwrite", some "Costmap3dLayerFootprint"⟩, ⟨"c", some "max", some "Costmap3dLayerUnknownHandle"⟩], none⟩).map (·.subs) =
      some [("a", 1), ("b", 3), ("c", 4)] ∧
    build ⟨16, none, some [⟨"b", some "minimum", some "Costmap3dLayerFootprint"⟩], none⟩ = none := by
  refine ⟨⟨by simp, .cons ⟨by simp, by simp⟩ .nil⟩, ⟨by simp, .cons ⟨by simp, by simp⟩ (.cons ⟨by simp, by simp⟩ .nil)⟩, by decide +kernel, by decide +kernel⟩

end Verif.Layers.Setup
