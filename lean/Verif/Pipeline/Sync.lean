import Verif.Pipeline.Sensed
/-! # What the planner's costmap shows of the costmap node's map

The planner keeps the received map and the last update only: before it applies an update it undoes the previous one. -/
namespace Verif.Pipeline
open Verif.CSpace Verif.Layers Verif.Layers.Spec
open Verif.GridMetric (Cell)

/-- A published message as the planner receives it; `ov` is `overwrite_cost`. -/
def delivered {K : Type} (m : Info K) (ov : Bool) : Out → PlannerMap.Event
  | .map stamp c => .map ov (message m stamp c)
  | .update u => .update ov (received u)

section
variable {K : Type} [Field K] [LinearOrder K] [IsStrictOrderedRing K] [FloorRing K]

/-- **C137**: after the planner has accepted the update the node published for a message, its costmap has at every cell of the update's
rectangle at least the value of the node's map, in overwriting mode exactly that value where it is known, and outside the rectangle the value of
the received map. -/
theorem planner_map_partial {ang : Nat} (hang : 1 ≤ ang) (z : K) {root : Kind K} (hroot : NotUpdate root) {ks : List (Kind K)}
    (hks : ∀ k ∈ ks, NotUpdate k) {es : List (Event K)} (hes : ∀ e ∈ es, GoodEvent ks.length e) {i : Nat} {v : Msg K} (hi : i < ks.length)
    (hv : 0 ≤ v.grid.res) {s s' : Node K} {o o' : List Out} (hrun : Layers.run (Node.init ang z root (ks ++ [.updateOut])) es = some (s, o))
    (hstep : Layers.step s (.overlay i v) = some (s', o')) {u : Layers.Update} (hu : .update u ∈ o')
    (unk : Int) (h : List PlannerMap.Event) (hsmall : PlannerMap.AllSmall h) (ps : PlannerMap.St) (hps : PlannerMap.run unk h = some ps)
    (msg : PlannerMap.BaseMap) (hbase : (PlannerMap.past h).base = some msg) (ov : Bool) (hlast : (PlannerMap.past h).last = some (ov, received u))
    (x y a : Int) (hin : PlannerMap.InMap msg.width msg.height msg.angle ⟨x, y, a⟩) :
    (Reports u x y a → finalMap s' x y a ≤ ps.cm ⟨x, y, a⟩ ∨ finalMap s' x y a < 0) ∧
    (Reports u x y a → ov = true → 0 ≤ finalMap s' x y a → ps.cm ⟨x, y, a⟩ = finalMap s' x y a) ∧
    (¬ Reports u x y a → ps.cm ⟨x, y, a⟩ = msg.at unk ⟨x, y, a⟩) := by
  have hcont := update_content hang z hroot hks hes (e := .overlay i v) ⟨hi, hv⟩ hrun (Or.inr ⟨_, _, rfl⟩) hstep hu
  have hcmp := PlannerMap.costmap_is_base_with_last_update unk h hsmall ps hps _ hbase ⟨x, y, a⟩ hin
  unfold PlannerMap.expected at hcmp
  rw [hlast] at hcmp
  simp only [PlannerMap.overlay] at hcmp
  refine ⟨?_, ?_, ?_⟩
  · intro hr
    obtain ⟨r1, r2⟩ := received_at hcont hr
    rw [if_pos r1, r2] at hcmp
    rw [hcmp]
    cases ov with
    | true =>
      simp only [if_true]
      by_cases h0 : 0 ≤ finalMap s' x y a
      · rw [if_pos h0]; exact Or.inl le_rfl
      · exact Or.inr (by omega)
    | false => simp only [Bool.false_eq_true, if_false]; exact Or.inl (le_max_right _ _)
  · intro hr ho h0
    obtain ⟨r1, r2⟩ := received_at hcont hr
    rw [if_pos r1, r2, ho] at hcmp
    simp only [if_true] at hcmp
    rw [hcmp, if_pos h0]
  · intro hr
    rw [hcmp, if_neg]
    intro hc
    apply hr
    unfold PlannerMap.Covers received at hc
    simp only at hc
    unfold PlannerMap.InMap at hin
    simp only at hin
    unfold Reports
    rcases hcont with ⟨c1, c2, -⟩ | ⟨c1, c2, c3, c4, c5, c6, c7, c8, -, -⟩
    · rw [c1] at hc
      simp only [Int.toNat_zero] at hc
      omega
    · omega

end

/-- The first sensor sees an obstacle at cell 1, the second one an obstacle at cell 6 (twice). -/
def firstSensor : Event ℚ := .overlay 1 (rowMsg 2 0 5 [0, 100])
def secondSensor (st : Nat) : Event ℚ := .overlay 2 (rowMsg 2 5 st [0, 100])

/-- The chain of a node with two sensor layers. -/
def twoSensors : Node ℚ := Node.init 1 0 plainK [.staticOut, plainK, plainK, .updateOut]

/-- The row of the planner's costmap after everything published by then has been delivered. -/
def plannerRow (ov : Bool) (q : Option (Node ℚ × List Out)) : Option (List Int) :=
  q.bind fun (s, o) => (PlannerMap.run 0 (o.map (delivered s.info ov))).map fun ps => (List.range 8).map fun i => ps.cm ⟨i, 0, 0⟩

/-- C137 in its strong form (the planner shows every obstacle of the node's map) is false with two sensor layers: after two messages of the second
one the obstacle reported by the first one is still in the node's map, but no longer in the planner's, in either mode. -/
theorem second_sensor_hides_first : (seen (run twoSensors [base8, firstSensor, secondSensor 6, secondSensor 7])).map (·.1) =
      some [0, 100, 0, 0, 0, 0, 100, 0] ∧
    plannerRow false (run twoSensors [base8, firstSensor, secondSensor 6]) = some [0, 100, 0, 0, 0, 0, 100, 0] ∧
    plannerRow false (run twoSensors [base8, firstSensor, secondSensor 6, secondSensor 7]) = some [0, 0, 0, 0, 0, 0, 100, 0] ∧
    plannerRow true (run twoSensors [base8, firstSensor, secondSensor 6, secondSensor 7]) = some [0, 0, 0, 0, 0, 0, 100, 0] := by decide +kernel

/-- The hypotheses of `planner_map_partial` hold for the row of eight cells, two sensors and the three messages: the update covers the cell of
the second sensor's obstacle only. -/
example : ∃ s s' o o' u ps, Layers.run twoSensors [base8, firstSensor, secondSensor 6] = some (s, o) ∧
    Layers.step s (secondSensor 7) = some (s', o') ∧ Out.update u ∈ o' ∧ PlannerMap.run 0 ((o ++ o').map (delivered s'.info true)) = some ps ∧
    (PlannerMap.past ((o ++ o').map (delivered s'.info true))).last = some (true, received u) ∧ Reports u 6 0 0 ∧ ¬ Reports u 1 0 0 ∧
    ps.cm ⟨6, 0, 0⟩ = 100 := by
  have h : ∃ r r', Layers.run twoSensors [base8, firstSensor, secondSensor 6] = some r ∧ Layers.step r.1 (secondSensor 7) = some r' ∧
      (r'.2.filterMap fun o => match o with | .update u => some u | _ => none) = [⟨6, 5, 0, 0, 2, 1, 1, [0, 100]⟩] ∧
      (PlannerMap.run 0 ((r.2 ++ r'.2).map (delivered r'.1.info true))).map (·.cm ⟨6, 0, 0⟩) = some 100 ∧
      ((PlannerMap.past ((r.2 ++ r'.2).map (delivered r'.1.info true))).last.map fun q => (q.1, q.2.stamp, [q.2.x, q.2.y, q.2.yaw, q.2.width, q.2.height, q.2.angle], q.2.data)) =
        some (true, 6, [5, 0, 0, 2, 1, 1], [0, 100]) :=
    ⟨(Layers.run twoSensors [base8, firstSensor, secondSensor 6]).get (by decide +kernel),
      (Layers.step ((Layers.run twoSensors [base8, firstSensor, secondSensor 6]).get (by decide +kernel)).1 (secondSensor 7)).get (by decide +kernel),
      (Option.some_get _).symm, (Option.some_get _).symm, by decide +kernel, by decide +kernel, by decide +kernel⟩
  obtain ⟨⟨s, o⟩, ⟨s', o'⟩, h1, h2, h3, h4, h5⟩ := h
  simp only at h1 h2 h3 h4 h5
  have hm : Out.update ⟨6, 5, 0, 0, 2, 1, 1, [0, 100]⟩ ∈ o' := by
    have : (⟨6, 5, 0, 0, 2, 1, 1, [0, 100]⟩ : Layers.Update) ∈ o'.filterMap fun o => match o with | .update u => some u | _ => none := by
      rw [h3]; exact List.mem_singleton.2 rfl
    obtain ⟨q, hq, e⟩ := List.mem_filterMap.1 this
    cases q with
    | map _ _ => cases e
    | update u => cases e; exact hq
  cases hr : PlannerMap.run 0 ((o ++ o').map (delivered s'.info true)) with
  | none => rw [hr] at h4; cases h4
  | some ps =>
    rw [hr] at h4
    refine ⟨s, s', o, o', _, ps, h1, h2, hm, hr, ?_, by simp [Reports], by simp [Reports], by simpa using h4⟩
    cases hl : (PlannerMap.past ((o ++ o').map (delivered s'.info true))).last with
    | none => rw [hl] at h5; cases h5
    | some q =>
      rw [hl] at h5
      obtain ⟨b, ⟨⟩⟩ := q
      simp only [Option.map_some, Option.some.injEq, Prod.mk.injEq, List.cons.injEq, and_true] at h5
      obtain ⟨rfl, rfl, ⟨rfl, rfl, rfl, rfl, rfl, rfl⟩, rfl⟩ := h5
      rfl

end Verif.Pipeline
