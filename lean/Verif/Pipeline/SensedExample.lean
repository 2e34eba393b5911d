import Verif.Pipeline.Sensed
import Verif.Pipeline.Example
/-! # From the sensors to the path: a complete run

The base map knows nothing; a sensor reports a row of four cells, the last one occupied; the costmap node publishes an update, the planner
receives it, the search finds a path from the first cell to the second. -/
namespace Verif.Pipeline
open Verif.CSpace Verif.CSpace.Spec Verif.Layers Verif.Layers.Spec Verif.Polygon Verif.Polygon.Spec
open Verif.Model3D Verif.Model3D.Spec
open Verif.GridMetric (Cell Pose)
open Real

/-- Four unknown cells in a row. -/
def blank : Msg ℝ := ⟨⟨4, 1, 1, 0, 0, [-1, -1, -1, -1]⟩, 0, 6⟩

theorem blit_same (m : Info ℝ) (r : Region.Region) (c : Cells) : blit m r c c = c := by
  unfold blit
  simp

theorem row_window : window (infoOf 2 blank) row = ⟨0, 0, 0, 4, 1, 2, 7⟩ := by
  have h : ∀ n : Nat, lround ((n : ℝ) * row.grid.res / (infoOf 2 blank).res) = n := by
    intro n
    have : (n : ℝ) * row.grid.res / (infoOf 2 blank).res = n := by simp [row, blank, infoOf]
    rw [this]
    exact lround_nat n
  have hoff : offX row.grid (infoOf 2 blank) = 0 ∧ offY row.grid (infoOf 2 blank) = 0 := by
    have h0 := lround_nat (K := ℝ) 0
    unfold offX offY
    simp only [row, blank, infoOf, sub_self, zero_div]
    simpa using h0
  unfold window
  rw [h, h, hoff.1, hoff.2]
  rfl

/-- The root layer's map of the blank map. -/
noncomputable def blankCells : Cells := rootCells (fun m => sq.rangeMax m.res) (fun m x y a => sq.template 10 m.res (2 * Real.pi / (m.ang : ℝ)) x y a) .max false
  (infoOf 2 blank) blank

theorem blankCells_neg {x a : Int} (hx : 0 ≤ x ∧ x < 4) (ha : 0 ≤ a ∧ a < 2) : blankCells x 0 a = -1 := by
  unfold blankCells rootCells
  simp only
  rw [if_pos]
  simp only [infoOf, blank]
  refine ⟨by omega, by omega, by omega, by omega, by omega, by omega, ?_⟩
  obtain ⟨n, rfl⟩ := Int.eq_ofNat_of_zero_le hx.1
  have : n = 0 ∨ n = 1 ∨ n = 2 ∨ n = 3 := by omega
  rcases this with rfl | rfl | rfl | rfl <;> simp

/-- The cells after the sensor message. -/
noncomputable def sensedCells : Cells := generate .max false false (sq.rangeMax (infoOf 2 row).res)
      (fun x y a => sq.template 10 (infoOf 2 row).res (2 * Real.pi / ((infoOf 2 row).ang : ℝ)) x y a) row.grid (infoOf 2 row) blankCells

theorem blank_step : ∃ (s : Node ℝ) (o : List Out), Layers.step (Node.init 2 0 (rootKind 10 sq .max) ([sensorKind 10 sq .max] ++ [.updateOut])) (.base blank) =
    some (s, o) ∧ s.info = infoOf 2 blank ∧ s.frame = 0 ∧ s.root.overlay = blankCells ∧
    ∃ l1 l2, s.layers = [l1, l2] ∧ l1.kind = sensorKind 10 sq .max ∧ l1.overlay = blankCells ∧ l1.regionPrev = ⟨0, 0, 0, 4, 1, 2, 6⟩ ∧
      l2.kind = .updateOut ∧ l2.outPrev = ⟨0, 0, 0, 4, 1, 2, 6⟩ ∧ l2.region = .zero := by
  simp only [Layers.step, Layers.cbMap, setBaseMap, Node.init, rootKind, sensorKind, Layer.fresh, List.map_cons, List.map_nil, List.cons_append, List.nil_append,
    entry, layerStep, blit_same, Option.map_some, List.append_nil]
  rw [if_pos (by norm_num [blank])]
  simp only [updateMsg]
  rw [if_pos (by decide +kernel)]
  simp only [Option.map_some, if_true]
  exact ⟨_, _, rfl, rfl, rfl, rfl, _, _, rfl, rfl, rfl, by decide +kernel, rfl, by decide +kernel, rfl⟩

theorem sensed_step : ∃ (s s' : Node ℝ) (o o' : List Out) (u : Layers.Update),
    Layers.run (Node.init 2 0 (rootKind 10 sq .max) ([sensorKind 10 sq .max] ++ [.updateOut])) [.base blank] = some (s, o) ∧
    Layers.step s (.overlay 0 row) = some (s', o') ∧ Out.update u ∈ o' ∧ s'.info = infoOf 2 blank ∧ finalMap s' = sensedCells ∧ u.width = 4 ∧ u.height = 1 := by
  obtain ⟨s, o, hs, hi, hf, hr, l1, l2, hl, k1, e1, r1, k2, r2, g2⟩ := blank_step
  refine ⟨s, ?_⟩
  have hrun : Layers.run (Node.init 2 0 (rootKind 10 sq .max) ([sensorKind 10 sq .max] ++ [.updateOut])) [.base blank] = some (s, o) := by
    simp only [Layers.run, hs, Option.map_some, List.append_nil]
  have hov : ∃ s' u, Layers.step s (.overlay 0 row) = some (s', [Out.update u]) ∧ s'.info = infoOf 2 blank ∧ finalMap s' = sensedCells ∧ u.width = 4 ∧ u.height = 1 := by
    simp only [Layers.step, Layers.cbMapOverlay]
    rw [if_neg (by rw [hi]; simp [infoOf, blank]), hl, hi, hf, hr]
    simp only [overlayAt, row_window, entry, layerStep, k1, e1, k2, sensorKind, rootKind, blit_same, applyMsg, r1, r2, g2, updateMsg]
    rw [if_pos (show (0 : Nat) = row.frame from rfl), if_pos (by decide +kernel)]
    simp only [Option.map_some, if_true, List.nil_append, List.append_nil]
    exact ⟨_, _, rfl, rfl, rfl, rfl, rfl⟩
  obtain ⟨s', u, h1, h2, h3⟩ := hov
  exact ⟨s', o, _, u, hrun, h1, List.mem_singleton.2 rfl, h2, h3⟩

theorem row_good : ∀ e ∈ [Event.base blank], GoodEvent [sensorKind 10 sq .max].length e := by
  intro e he
  simp only [List.mem_singleton] at he
  subst he
  exact ⟨by norm_num [blank], by norm_num [blank], by norm_num [blank], by norm_num [blank]⟩

theorem sensed_senses : ∃ u, Senses 2 (rootKind 10 sq .max) [sensorKind 10 sq .max] 0 blank row u ∧ Content (infoOf 2 blank) sensedCells u ∧
    u.width = 4 ∧ u.height = 1 := by
  obtain ⟨s, s', o, o', u, h1, h2, h3, h4, h5, h6, h7⟩ := sensed_step
  refine ⟨u, ⟨0, [.base blank], s, s', o, o', row_good, h1, rfl, h2, h3⟩, ?_, h6, h7⟩
  have hk : ∀ k ∈ [sensorKind 10 sq .max], NotUpdate k := by
    intro k hk
    simp only [List.mem_singleton] at hk
    subst hk
    simp [sensorKind, rootKind, NotUpdate]
  have := update_content (ang := 2) (by norm_num) 0 (root := rootKind 10 sq .max) (by simp [rootKind, NotUpdate]) hk row_good (e := .overlay 0 row)
    ⟨by simp, by norm_num [row]⟩ h1 (Or.inr ⟨_, _, rfl⟩) h2 h3
  rw [h4, h5] at this
  exact this

/-- The planner receives the blank map and then the update. -/
theorem sensed_receives {u : Layers.Update} (hc : Content (infoOf 2 blank) sensedCells u) (hw : u.width = 4) (hh : u.height = 1) :
    ∃ cm0, HasUpdate 0 2 blank u cm0 ∧ ∀ x a B : Int, 0 ≤ x ∧ x < 4 → 0 ≤ a ∧ a < 2 → 0 ≤ B → (x < 2 ∨ 100 ≤ B) → cm0 ⟨x, 0, a⟩ ≤ B := by
  have hcc := hc
  rcases hc with ⟨h, -⟩ | ⟨h1, h2, h3, h4, h5, h6, h7, h8, h9, h10⟩
  · omega
  simp only [infoOf, blank] at h3 h6 h8
  have ha : u.angle = 2 := by omega
  have hx0 : u.x = 0 := by omega
  have hy0 : u.y = 0 := by omega
  have hr : received u = ⟨u.stamp, 0, 0, 0, 4, 1, 2, u.data⟩ := by
    unfold received
    rw [hw, hh, ha, hx0, hy0, h7]
    rfl
  have hd : u.data.length = 8 := by rw [hw, hh, ha] at h9; omega
  have hev : ∀ e ∈ [PlannerMap.Event.map false (message (infoOf 2 blank) 6 blankCells), .update false (received u)],
      PlannerMap.Complete e := by
    intro e he
    simp only [List.mem_cons, List.not_mem_nil, or_false] at he
    rcases he with rfl | rfl
    · simp [PlannerMap.Complete, message, flat, infoOf]
    · rw [hr]; simp [PlannerMap.Complete, hd]
  have hsm : PlannerMap.AllSmall [PlannerMap.Event.map false (message (infoOf 2 blank) 6 blankCells), .update false (received u)] := by
    intro o v he
    simp only [List.mem_cons, List.not_mem_nil, or_false, PlannerMap.Event.update.injEq, reduceCtorEq, false_or] at he
    rw [he.2, hr]
    unfold PlannerMap.Small
    simp
  obtain ⟨ps, hps⟩ := PlannerMap.complete_messages_defined 0 _ hsm hev
  have hbase : (PlannerMap.past [PlannerMap.Event.map false (message (infoOf 2 blank) 6 blankCells), .update false (received u)]).base =
      some (message (infoOf 2 blank) 6 blankCells) ∧
      (PlannerMap.past [PlannerMap.Event.map false (message (infoOf 2 blank) 6 blankCells), .update false (received u)]).last =
      some (false, received u) := by
    rw [hr]
    simp only [PlannerMap.past, PlannerMap.past1, List.foldl_cons, List.foldl_nil]
    rw [if_pos (by unfold PlannerMap.Fits; simp [message, infoOf, blank])]
    exact ⟨rfl, rfl⟩
  refine ⟨ps.cm, ⟨_, ps, _, false, hsm, hps, hbase.1, hbase.2, rfl, rfl, rfl, rfl⟩, ?_⟩
  intro x a B hx ha' hB hxB
  have hcmp := PlannerMap.costmap_is_base_with_last_update 0 _ hsm ps hps _ hbase.1 ⟨x, 0, a⟩ (by
    unfold PlannerMap.InMap message infoOf blank
    simp only
    omega)
  have hrep : Reports u x 0 a := by unfold Reports; omega
  obtain ⟨r1, r2⟩ := received_at hcc hrep
  rw [hcmp]
  unfold PlannerMap.expected
  rw [hbase.2]
  simp only [PlannerMap.overlay]
  rw [if_pos r1, r2]
  simp only [Bool.false_eq_true, if_false]
  have hs : sensedCells x 0 a ≤ B := by
    unfold sensedCells
    refine row_generate false _ x a B hB hxB ha' ?_
    rw [blankCells_neg hx ha']
    omega
  have hm : (message (infoOf 2 blank) 6 blankCells).at 0 ⟨x, 0, a⟩ ≤ B := by
    obtain ⟨n, rfl⟩ := Int.eq_ofNat_of_zero_le hx.1
    obtain ⟨k, rfl⟩ := Int.eq_ofNat_of_zero_le ha'.1
    have := message_get (infoOf 2 blank) 6 blankCells 0 n 0 k (by simp only [infoOf, blank]; omega) (by simp [infoOf, blank])
      (by simp only [infoOf]; omega)
    rw [Nat.cast_zero] at this
    rw [this, blankCells_neg hx ha']
    simpa using hB
  exact max_le hm hs

/-- Everything together: the sensor reports an obstacle that is not on the map, the costmap node publishes an update, the planner receives it, the
search finds a path, and on its last pose the robot does not touch the obstacle. -/
theorem sensed_run : ∃ (u : Layers.Update) (cm0 : Cell → Int) (q : Pose ℝ),
    Senses 2 (rootKind 10 sq .max) ([] ++ sensorKind 10 sq .max :: []) ([] : List (Kind ℝ)).length blank row u ∧ HasUpdate 0 2 blank u cm0 ∧
    Raised g4 cm0 cm4 ∧ Plans g4 cm4 q ∧ Within 0 row ((pose 2 blank q).x, (pose 2 blank q).y) ∧ Occupied row 3 0 ∧
    ∀ z, InCell row 3 0 z → Within 0 blank z → ¬ Touches sq (pose 2 blank q) z := by
  obtain ⟨u, hu, hc, hw, hh⟩ := sensed_senses
  obtain ⟨cm0, hcm, hval⟩ := sensed_receives hc hw hh
  obtain ⟨q, hqx, hqy, hq⟩ := wide_plans
  have hr : Raised g4 cm0 cm4 := by
    refine ⟨cm4_covers g4 (Or.inr rfl), ?_⟩
    rintro ⟨x, y, a⟩ v h
    unfold cm4 at h
    simp only at h
    split at h
    · rename_i hp
      cases h
      refine ⟨by unfold Verif.Model3D.Spec.InMap; simp only [g4, g1]; omega, ?_⟩
      obtain rfl : y = 0 := by omega
      split
      · exact hval x a 0 (by omega) (by omega) (by omega) (by omega)
      · exact hval x a 100 (by omega) (by omega) (by omega) (by omega)
    · cases h
  have hin : Within 0 row ((pose 2 blank q).x, (pose 2 blank q).y) := by
    unfold Within pose GridMetric.grid2MetricF metric
    simp only [hqx, hqy, infoOf, blank, row]
    norm_num
  have hocc : Occupied row 3 0 := ⟨by simp [row], by simp [row], by simp [row]⟩
  refine ⟨u, cm0, q, hu, hcm, hr, hq, hin, hocc, fun z hz hzw => ?_⟩
  refine sensed_clear 10 sq .max 2 (rootKind 10 sq .max) [] [] (1 / 5) 0 (by norm_num) (by simp [rootKind, NotUpdate]) (by simp) (by simp)
    (by norm_num [sq]) (by norm_num [sq]) (by norm_num) (by norm_num [sq]) (by norm_num [sq]) sq_core blank row (by norm_num [blank]) ?_ ?_ u hu 0 cm0 hcm
    g4 g4_sane ⟨1, by norm_num [g4, g1]⟩ ⟨by norm_num [g4, g1, blank], by norm_num [g4, g1, blank], by norm_num [g4, g1], by norm_num [g4, g1, blank]⟩
    (by norm_num [g4, g1]) cm4 hr q hq hin 3 0 hocc z hz hzw
  · have := sq_compact
    rw [add_zero]
    exact this
  · exact ⟨rfl, rfl, rfl, ⟨0, by norm_num [row, blank]⟩, ⟨0, by norm_num [row, blank]⟩⟩

end Verif.Pipeline
