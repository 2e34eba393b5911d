import Verif.Layers.OneSensor
import Verif.Pipeline.Sync
/-! # With one sensor layer that does not inflate the planner's costmap is the costmap node's map -/
namespace Verif.Pipeline
open Verif.CSpace Verif.Layers Verif.Layers.Spec
open Verif.GridMetric (Cell)

section
variable {K : Type} [Field K] [LinearOrder K] [IsStrictOrderedRing K] [FloorRing K]

/-- Messages to the sensor layer. -/
theorem run_sensor {ang : Nat} (hang : 1 ≤ ang) {root : Kind K} {pre : List (Kind K)} (hpre : ∀ k ∈ pre, NotUpdate k)
    {R : Info K → Int} {t : Info K → Cells} {mode : Mode} {keep : Bool} {und : Cells} {b : Msg K} {P : List (Layer K)} :
    ∀ (vs : List (Msg K)), (∀ v ∈ vs, 0 ≤ v.grid.res ∧ Local (infoOf ang b) (.foot R t mode keep) v) → ∀ {s s' : Node K} {L uo : Layer K}
    {o : List Out}, After ang root pre (.foot R t mode keep) und b s P L uo → Quiet und s L →
    Layers.run s (vs.map (.overlay pre.length)) = some (s', o) →
    ∃ us : List Layers.Update, o = us.map .update ∧ (∀ u ∈ us, Boxed (infoOf ang b) u) ∧
      ∀ v, vs.getLast? = some v → ∃ u, us.getLast? = some u ∧ Content (infoOf ang b) (finalMap s') u ∧
        (∀ x y a, In (infoOf ang b) x y a → ¬ Reports u x y a → finalMap s' x y a = und x y a) ∧
        (∀ x y a, In (infoOf ang b) x y a → finalMap s' x y a = overlaid (infoOf ang b) (.foot R t mode keep) b.frame v und x y a) := by
  intro vs
  induction vs with
  | nil =>
    intro _ s s' L uo o _ _ hr
    simp only [List.map_nil, Layers.run, Option.some.injEq, Prod.mk.injEq] at hr
    exact ⟨[], by rw [← hr.2]; rfl, by simp, by simp⟩
  | cons v vs ih =>
    intro hv s s' L uo o hA hq hr
    simp only [List.map_cons, Layers.run] at hr
    cases h1 : Layers.step s (.overlay pre.length v) with
    | none => rw [h1] at hr; cases hr
    | some q =>
      obtain ⟨s1, o1⟩ := q
      rw [h1] at hr
      simp only [Option.map_eq_some_iff] at hr
      obtain ⟨⟨s2, o2⟩, h2, h3⟩ := hr
      simp only [Prod.mk.injEq] at h3
      obtain ⟨rfl, rfl⟩ := h3
      obtain ⟨L', uo', u, hA', hq', hfin, ho, hcont, hbox, hout⟩ := quiet_step hang hpre hA hq (hv v (by simp)).1 (hv v (by simp)).2 h1
      obtain ⟨us, hus, hc, hl⟩ := ih (fun w hw => hv w (by simp [hw])) hA' hq' h2
      refine ⟨u :: us, by rw [ho, hus]; rfl, ?_, ?_⟩
      · intro w hw
        rcases List.mem_cons.mp hw with rfl | hw
        · exact hbox
        · exact hc w hw
      · intro w hw
        cases vs with
        | nil =>
          simp only [List.getLast?_singleton, Option.some.injEq] at hw
          subst hw
          simp only [List.map_nil, Layers.run, Option.some.injEq, Prod.mk.injEq] at h2
          obtain ⟨rfl, h2⟩ := h2
          rw [hus] at h2
          have : us = [] := by simpa using h2.symm
          subst this
          exact ⟨u, rfl, hcont, hout, hfin⟩
        | cons v2 vs =>
          rw [List.getLast?_cons_cons] at hw
          obtain ⟨w', h1, h2⟩ := hl w hw
          refine ⟨w', ?_, h2⟩
          cases us with
          | nil => simp at h1
          | cons u2 us => rw [List.getLast?_cons_cons]; exact h1

end

/-- Updates that fit are accepted one after the other. -/
theorem past_updates (ov : Bool) (msg : PlannerMap.BaseMap) : ∀ (us : List PlannerMap.Update), (∀ u ∈ us, PlannerMap.Fits msg u) →
    ∀ l, (us.map (PlannerMap.Event.update ov)).foldl PlannerMap.past1 ⟨some msg, l, none⟩ =
      ⟨some msg, (us.getLast?.map fun u => (ov, u)).or l, none⟩ := by
  intro us
  induction us with
  | nil => intro _ l; simp
  | cons u us ih =>
    intro hu l
    rw [List.map_cons, List.foldl_cons]
    have : PlannerMap.past1 ⟨some msg, l, none⟩ (.update ov u) = ⟨some msg, some (ov, u), none⟩ := by
      simp only [PlannerMap.past1]; rw [if_pos (hu u (by simp))]
    rw [this, ih (fun w hw => hu w (by simp [hw]))]
    cases us with
    | nil => simp
    | cons u2 us =>
      rw [List.getLast?_cons_cons]
      simp [List.getLast?_eq_some_getLast (List.cons_ne_nil u2 us)]

section
variable {K : Type} [Field K] [LinearOrder K] [IsStrictOrderedRing K] [FloorRing K]

theorem boxed_fits {m : Info K} (hw : 1 ≤ m.w) (hh : 1 ≤ m.h) {u : Layers.Update} (h : Boxed m u) (st : Nat) (c : Cells) :
    PlannerMap.Fits (message m st c) (received u) := by
  unfold Boxed at h
  unfold PlannerMap.Fits message received
  simp only
  omega

theorem boxed_small {m : Info K} (hw : m.w < 2 ^ 31) (hh : m.h < 2 ^ 31) (ha : m.ang < 2 ^ 31) (hn : m.w * m.h * m.ang < 2 ^ 32)
    {u : Layers.Update} (h : Boxed m u) : PlannerMap.Small (received u) := by
  unfold Boxed at h
  unfold PlannerMap.Small received
  simp only
  refine ⟨by omega, by omega, by omega, lt_of_le_of_lt ?_ hn⟩
  exact Nat.mul_le_mul (Nat.mul_le_mul (by omega) (by omega)) (by omega)

/-- What the planner reads of the published map. -/
theorem message_value (m : Info K) (st : Nat) (c : Cells) (unk : Int) (x y a : Int) (hin : In m x y a) :
    (message m st c).at unk ⟨x, y, a⟩ = if c x y a < 0 then unk else c x y a := by
  unfold In at hin
  obtain ⟨i, rfl⟩ := Int.eq_ofNat_of_zero_le hin.1
  obtain ⟨j, rfl⟩ := Int.eq_ofNat_of_zero_le hin.2.2.1
  obtain ⟨l, rfl⟩ := Int.eq_ofNat_of_zero_le hin.2.2.2.2.1
  have e : (((l : Int) * (m.h : Int) + j) * m.w + i).toNat = (l * m.h + j) * m.w + i := by
    have : ((l : Int) * (m.h : Int) + j) * m.w + i = (((l * m.h + j) * m.w + i : Nat) : Int) := by push_cast; ring
    rw [this, Int.toNat_natCast]
  have hg : (flat m c)[(l * m.h + j) * m.w + i]? = some (c i j l) := by
    rw [flat_eq_rows, rows_get c 0 0 0 m.w m.h m.ang i j l (by omega) (by omega) (by omega)]
    simp
  unfold PlannerMap.BaseMap.at message
  simp only
  rw [e, List.getD_eq_getElem?_getD, hg]
  simp only [Option.getD_some]

/-- **C137** for one sensor.  The costmap node (root layer, any layers, output of the whole map, a sensor layer that changes nothing outside the
rectangle of its messages, output of updates) receives a base map and then any number of messages for the sensor layer; the planner receives
everything the node publishes.  Then for every cell whose cost is known to the node the planner's costmap shows at least that cost, in overwriting
mode exactly that cost, and without overwriting exactly that cost where the whole map knows the cell and the sensor layer combines by maximum. -/
theorem one_sensor_partial {ang : Nat} (hang : 1 ≤ ang) (z : K) {R0 : Info K → Int} {t0 : Info K → Cells} {mode0 : Mode} {keep0 : Bool}
    {pre : List (Kind K)} (hpre : ∀ k ∈ pre, NotUpdate k ∧ ¬ IsStatic k) {R : Info K → Int} {t : Info K → Cells} {mode : Mode} {keep : Bool}
    {b : Msg K} (hb : GoodBase b) (hw : b.grid.w < 2 ^ 31) (hh : b.grid.h < 2 ^ 31) (ha : ang < 2 ^ 31) (hn : b.grid.w * b.grid.h * ang < 2 ^ 32)
    (vs : List (Msg K)) (v : Msg K) (hvs : ∀ w ∈ vs ++ [v], 0 ≤ w.grid.res ∧ Local (infoOf ang b) (.foot R t mode keep) w)
    {s : Node K} {o : List Out}
    (hrun : Layers.run (Node.init ang z (.foot R0 t0 mode0 keep0) (pre ++ [.staticOut] ++ [.foot R t mode keep] ++ [.updateOut]))
      (.base b :: (vs ++ [v]).map (.overlay (pre.length + 1))) = some (s, o))
    (unk : Int) (ov : Bool) {ps : PlannerMap.St} (hps : PlannerMap.run unk (o.map (delivered (infoOf ang b) ov)) = some ps)
    (x y a : Int) (hin : In (infoOf ang b) x y a) :
    (0 ≤ finalMap s x y a → finalMap s x y a ≤ ps.cm ⟨x, y, a⟩ ∧ (ov = true → ps.cm ⟨x, y, a⟩ = finalMap s x y a)) ∧
    (mode = .max → ∀ st c, .map st c ∈ o → 0 ≤ c x y a → ps.cm ⟨x, y, a⟩ = finalMap s x y a) := by
  have hpre' : ∀ k ∈ pre ++ [.staticOut], NotUpdate k := by
    intro k hk
    rcases List.mem_append.mp hk with h | h
    · exact (hpre k h).1
    · simp only [List.mem_singleton] at h; subst h; simp [NotUpdate]
  have hlen : (pre ++ [Kind.staticOut]).length = pre.length + 1 := by simp
  have h0 := pre_init ang z (.foot R0 t0 mode0 keep0) (pre ++ [.staticOut]) (.foot R t mode keep)
  simp only [Layers.run] at hrun
  cases e1 : Layers.step (Node.init ang z (.foot R0 t0 mode0 keep0) (pre ++ [.staticOut] ++ [.foot R t mode keep] ++ [.updateOut])) (.base b) with
  | none => rw [e1] at hrun; cases hrun
  | some q =>
    obtain ⟨s1, o1⟩ := q
    rw [e1] at hrun
    simp only [Option.map_eq_some_iff] at hrun
    obtain ⟨⟨s2, o2⟩, hrun, e2⟩ := hrun
    simp only [Prod.mk.injEq] at e2
    obtain ⟨rfl, rfl⟩ := e2
    obtain ⟨P, L, uo, hA, hfull⟩ := after_base hang hpre' (by simp [NotUpdate]) h0.inv rfl h0.only hb e1
    obtain ⟨c, ho1, hc⟩ := base_output hang hpre (by simp [NotUpdate, IsStatic]) h0.inv rfl
      (fun l hl => h0.only l (List.take_subset_take_left _ (by simp) hl)) hb e1
    have hq : Quiet (under R0 t0 mode0 keep0 (pre ++ [.staticOut]) ang b) s1 L := by
      intro x y a hin hn
      exfalso
      apply hn
      unfold In at hin
      unfold IsFull at hfull
      unfold Region.Spec.Covers
      simp only
      omega
    rw [← hlen] at hrun
    obtain ⟨us, hus, hbox, hl⟩ := run_sensor hang hpre' (vs ++ [v]) hvs hA hq hrun
    obtain ⟨u, hu, hcont, hout, hfin⟩ := hl v (by simp)
    subst ho1
    subst hus
    -- the planner
    have hev : (([Out.map b.stamp c] ++ us.map Out.update).map (delivered (infoOf ang b) ov)) =
        .map ov (message (infoOf ang b) b.stamp c) :: (us.map received).map (PlannerMap.Event.update ov) := by
      simp only [List.map_cons, List.singleton_append, List.map_map]
      rfl
    rw [hev] at hps
    have hpast : PlannerMap.past (.map ov (message (infoOf ang b) b.stamp c) :: (us.map received).map (PlannerMap.Event.update ov)) =
        ⟨some (message (infoOf ang b) b.stamp c), some (ov, received u), none⟩ := by
      unfold PlannerMap.past
      rw [List.foldl_cons]
      have : PlannerMap.past1 ⟨none, none, none⟩ (.map ov (message (infoOf ang b) b.stamp c)) = ⟨some (message (infoOf ang b) b.stamp c), none, none⟩ := rfl
      rw [this, past_updates]
      · rw [List.getLast?_map, hu]; rfl
      · intro w hw
        obtain ⟨w, hwu, rfl⟩ := List.mem_map.1 hw
        exact boxed_fits hb.1 hb.2.1 (hbox w hwu) _ _
    have hsmall : PlannerMap.AllSmall (.map ov (message (infoOf ang b) b.stamp c) :: (us.map received).map (PlannerMap.Event.update ov)) := by
      intro o w hwm
      rcases List.mem_cons.1 hwm with h | h
      · cases h
      · obtain ⟨w', hw', e⟩ := List.mem_map.1 h
        cases e
        obtain ⟨w, hwu, rfl⟩ := List.mem_map.1 hw'
        exact boxed_small (m := infoOf ang b) hw hh ha hn (hbox w hwu)
    have hcmp := PlannerMap.costmap_is_base_with_last_update unk _ hsmall ps hps _ (by rw [hpast]) ⟨x, y, a⟩ (by
      unfold In at hin
      unfold PlannerMap.InMap message
      simp only
      omega)
    rw [hpast] at hcmp
    simp only [PlannerMap.expected, PlannerMap.overlay] at hcmp
    rw [message_value _ _ _ _ _ _ _ hin, hc x y a hin] at hcmp
    set und := under R0 t0 mode0 keep0 (pre ++ [.staticOut]) ang b with hund
    set F := finalMap s2 with hF
    -- inside the rectangle the update carries the node's value, outside the node's value is the whole map's
    have hcase : (PlannerMap.Covers (received u) ⟨x, y, a⟩ ∧ (received u).at ⟨x, y, a⟩ = F x y a) ∨
        (¬ PlannerMap.Covers (received u) ⟨x, y, a⟩ ∧ F x y a = und x y a) := by
      by_cases hr : Reports u x y a
      · exact Or.inl (received_at hcont hr)
      · refine Or.inr ⟨?_, hout x y a hin hr⟩
        intro hcv
        apply hr
        have hb' := hbox u (List.mem_of_getLast? hu)
        unfold Boxed at hb'
        unfold PlannerMap.Covers received at hcv
        simp only at hcv
        unfold Reports
        omega
    have hge : mode = .max → 0 ≤ und x y a → und x y a ≤ F x y a := by
      intro hm hg0
      rw [hfin x y a hin]
      unfold overlaid
      split
      · subst hm
        exact generate_ge keep (R (infoOf ang b)) (t (infoOf ang b)) v.grid (infoOf ang b) und x y a hg0
      · exact le_rfl
    generalize F x y a = f at *
    generalize hu' : und x y a = g at *
    refine ⟨?_, ?_⟩
    · intro h0
      rcases hcase with ⟨c1, c2⟩ | ⟨c1, c2⟩
      · rw [if_pos c1, c2] at hcmp
        cases ov with
        | true => simp only [if_true] at hcmp; rw [if_pos h0] at hcmp; exact ⟨hcmp.ge, fun _ => hcmp⟩
        | false => simp only [Bool.false_eq_true, if_false] at hcmp; exact ⟨by rw [hcmp]; exact le_max_right _ _, by simp⟩
      · rw [if_neg c1, if_neg (by omega)] at hcmp
        exact ⟨by omega, fun _ => by omega⟩
    · intro hm st c' hc' h0
      have : c' = c := by
        simp only [List.singleton_append, List.mem_cons, List.mem_map] at hc'
        rcases hc' with h | ⟨w, -, h⟩
        · injection h
        · cases h
      subst this
      rw [hc x y a hin, hu'] at h0
      have h1 := hge hm h0
      rcases hcase with ⟨c1, c2⟩ | ⟨c1, c2⟩
      · rw [if_pos c1, c2, if_neg (show ¬ g < 0 by omega)] at hcmp
        cases ov with
        | true => simp only [if_true] at hcmp; rw [if_pos (by omega)] at hcmp; exact hcmp
        | false => simp only [Bool.false_eq_true, if_false] at hcmp; rw [hcmp]; exact max_eq_right h1
      · rw [if_neg c1, if_neg (by omega)] at hcmp
        omega

end

/-- The chain of a node with one sensor layer. -/
def oneSensor : Node ℚ := Node.init 1 0 plainK [.staticOut, plainK, .updateOut]

/-- Messages of the one sensor: an obstacle at cell 2, then one at cell 5. -/
def sensor1 : Msg ℚ := rowMsg 3 1 5 [0, 100, 0]
def sensor2 : Msg ℚ := rowMsg 3 4 6 [0, 100, 0]

/-- The hypotheses of `one_sensor_partial` hold for the row of eight cells (an obstacle of the map at cell 7) and two messages: the planner shows
the second obstacle and that of the map, and the first obstacle is gone. -/
example : ∃ s o ps, Layers.run oneSensor (.base (rowMsg 8 0 1 [0, 0, 0, 0, 0, 0, 0, 100]) :: ([sensor1] ++ [sensor2]).map (.overlay 1)) = some (s, o) ∧
    PlannerMap.run 0 (o.map (delivered (infoOf 1 (rowMsg 8 0 1 [0, 0, 0, 0, 0, 0, 0, 100])) false)) = some ps ∧
    (∀ w ∈ [sensor1] ++ [sensor2], 0 ≤ w.grid.res ∧ Local (infoOf 1 (rowMsg 8 0 1 [0, 0, 0, 0, 0, 0, 0, 100])) plainK w) ∧
    GoodBase (rowMsg 8 0 1 [0, 0, 0, 0, 0, 0, 0, 100]) ∧ ((List.range 8).map fun i => ps.cm ⟨i, 0, 0⟩) = [0, 0, 0, 0, 0, 100, 0, 100] := by
  have h : ∃ r, Layers.run oneSensor (.base (rowMsg 8 0 1 [0, 0, 0, 0, 0, 0, 0, 100]) :: ([sensor1] ++ [sensor2]).map (.overlay 1)) = some r ∧
      (PlannerMap.run 0 (r.2.map (delivered (infoOf 1 (rowMsg 8 0 1 [0, 0, 0, 0, 0, 0, 0, 100])) false))).map
        (fun ps => (List.range 8).map fun i => ps.cm ⟨i, 0, 0⟩) = some [0, 0, 0, 0, 0, 100, 0, 100] :=
    ⟨(Layers.run oneSensor (.base (rowMsg 8 0 1 [0, 0, 0, 0, 0, 0, 0, 100]) :: ([sensor1] ++ [sensor2]).map (.overlay 1))).get (by decide +kernel),
      (Option.some_get _).symm, by decide +kernel⟩
  obtain ⟨⟨s, o⟩, h1, h2⟩ := h
  obtain ⟨ps, h3, h4⟩ := Option.map_eq_some_iff.1 h2
  refine ⟨s, o, ps, h1, h3, ?_, by simp [GoodBase, rowMsg], h4⟩
  intro w hw
  simp only [List.singleton_append, List.mem_cons, List.not_mem_nil, or_false] at hw
  rcases hw with rfl | rfl
  · exact ⟨by simp [sensor1, rowMsg], local_plain (by simp [infoOf, rowMsg]) rfl _ _ _ rfl rfl⟩
  · exact ⟨by simp [sensor2, rowMsg], local_plain (by simp [infoOf, rowMsg]) rfl _ _ _ rfl rfl⟩

/-- A layer for a robot that covers two cells on either side of its centre. -/
def wideK : Kind ℚ := .foot (fun _ => 2) (fun _ x y _ => if -2 ≤ x ∧ x ≤ 2 ∧ y = 0 then 100 else 0) .max false

/-- C137 is false even for one sensor if its layer expands obstacles: from the second message on, a position next to the border of the message
where the robot would touch the sensed obstacle (cell 7) is blocked in the node's map and free in the planner's, in either mode. -/
theorem expansion_not_shown :
    (seen (run (Node.init 1 0 plainK [.staticOut, wideK, .updateOut]) [base8, .overlay 1 (rowMsg 3 1 5 [0, 0, 0]), .overlay 1 sensor2])).map (·.1) =
      some [0, 0, 0, 100, 100, 100, 100, 100] ∧
    plannerRow false (run (Node.init 1 0 plainK [.staticOut, wideK, .updateOut]) [base8, .overlay 1 (rowMsg 3 1 5 [0, 0, 0]), .overlay 1 sensor2]) =
      some [0, 0, 0, 100, 100, 100, 100, 0] ∧
    plannerRow true (run (Node.init 1 0 plainK [.staticOut, wideK, .updateOut]) [base8, .overlay 1 (rowMsg 3 1 5 [0, 0, 0]), .overlay 1 sensor2]) =
      some [0, 0, 0, 100, 100, 100, 100, 0] := by decide +kernel

end Verif.Pipeline
