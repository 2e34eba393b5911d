import Verif.Hyst.Lemmas
/-! # C105, C106: the planner stays close to its previous path -/
namespace Verif.Hyst
open Verif.GridMetric (Cell Pose)
open Verif.CSpace (lround trunc lround_near)
open Verif.Model3D (cycU upTo)
open Verif.Polygon (Pt)
open Verif.Polygon.Spec (OnSegment)

/-! ### The cost as a function of the distance -/

/-- The costs fit the map's cells: they are between 0 and 100. -/
theorem costAt_range (m : Map) (c : Cfg) (d : ℝ) : 0 ≤ costAt m c d ∧ costAt m c d ≤ 100 := by
  unfold costAt
  have h0 : (0 : ℝ) ≤ max 0 (min 1 ((d * m.res - c.expand) / c.maxDist)) := le_max_left _ _
  have h1 : max 0 (min 1 ((d * m.res - c.expand) / c.maxDist)) ≤ (1 : ℝ) := max_le (by norm_num) (min_le_left _ _)
  generalize max 0 (min 1 ((d * m.res - c.expand) / c.maxDist)) = t at *
  constructor
  · exact Int.floor_nonneg.mpr (by linarith)
  · have : ⌊100 * t + 1 / 2⌋ < 101 := Int.floor_lt.mpr (by push_cast; linarith)
    omega

/-- Staying closer never costs more. -/
theorem costAt_mono (m : Map) (c : Cfg) (d e : ℝ) (hr : 0 < m.res) (hM : 0 < c.maxDist) (h : d ≤ e) :
    costAt m c d ≤ costAt m c e := by
  unfold costAt
  apply Int.floor_le_floor
  have : (d * m.res - c.expand) / c.maxDist ≤ (e * m.res - c.expand) / c.maxDist := by
    rw [div_le_div_iff_of_pos_right hM]
    nlinarith
  have := max_le_max (le_refl (0 : ℝ)) (min_le_min (le_refl (1 : ℝ)) this)
  linarith

/-- Which distances (in metres) are free. -/
theorem costAt_zero_iff (m : Map) (c : Cfg) (d : ℝ) (hM : 0 < c.maxDist) :
    costAt m c d = 0 ↔ d * m.res < c.expand + c.maxDist / 200 := by
  unfold costAt
  rw [Int.floor_eq_iff]
  have e : d * m.res < c.expand + c.maxDist / 200 ↔ (d * m.res - c.expand) / c.maxDist < 1 / 200 := by
    rw [div_lt_iff₀ hM]
    constructor <;> intro h <;> linarith
  rw [e]
  generalize (d * m.res - c.expand) / c.maxDist = t
  rcases le_total t 0 with h | h
  · rw [min_eq_right (by linarith), max_eq_left h]
    constructor
    · intro _; linarith
    · intro _; norm_num
  · rcases le_total t 1 with h1 | h1
    · rw [min_eq_right h1, max_eq_right h]
      push_cast
      constructor
      · rintro ⟨_, h2⟩; linarith
      · intro h2; constructor <;> linarith
    · rw [min_eq_left h1, max_eq_right (by norm_num)]
      constructor
      · rintro ⟨_, h2⟩; norm_num at h2
      · intro h2; linarith

/-- Which distances have the full cost. -/
theorem costAt_full_iff (m : Map) (c : Cfg) (d : ℝ) (hM : 0 < c.maxDist) :
    costAt m c d = 100 ↔ c.expand + c.maxDist * (199 / 200) ≤ d * m.res := by
  unfold costAt
  rw [Int.floor_eq_iff]
  have e : c.expand + c.maxDist * (199 / 200) ≤ d * m.res ↔ 199 / 200 ≤ (d * m.res - c.expand) / c.maxDist := by
    rw [le_div_iff₀ hM]
    constructor <;> intro h <;> linarith
  rw [e]
  generalize (d * m.res - c.expand) / c.maxDist = t
  rcases le_total t 0 with h | h
  · rw [min_eq_right (by linarith), max_eq_left h]
    constructor
    · rintro ⟨h1, _⟩; norm_num at h1
    · intro h2; linarith
  · rcases le_total t 1 with h1 | h1
    · rw [min_eq_right h1, max_eq_right h]
      push_cast
      constructor
      · rintro ⟨h1, h2⟩; linarith
      · intro h2; constructor <;> linarith
    · rw [min_eq_left h1, max_eq_right (by norm_num)]
      constructor
      · intro _; linarith
      · intro _; norm_num

/-! ### The map after any history -/

/-- The invariant: the state of the planner and what it should remember. -/
def Rel (s : St) (x : Mem) : Prop :=
  s.map = x.map ∧ 0 < s.map.res ∧ 0 < s.map.angle ∧ (∀ p, p ∉ s.updated → s.hyst p = 100) ∧
  match x.path with
  | none => s.has = false ∧ ∀ p, s.hyst p = 100
  | some (c, path) => s.has = true ∧ ∀ p, InMap s.map p → IsCost s.map c path p (s.hyst p)

theorem rel_init (m : Map) (hr : 0 < m.res) (hA : 0 < m.angle) : Rel (onMap m) ⟨m, none⟩ :=
  ⟨rfl, hr, hA, fun _ _ => rfl, rfl, fun _ => rfl⟩

theorem rel_cleared {s : St} {x : Mem} (h : Rel s x) : Rel { clearHysteresis s with has := false } ⟨x.map, none⟩ :=
  ⟨h.1, h.2.1, h.2.2.1, fun p _ => clear_all s h.2.2.2.1 p, rfl, fun p => clear_all s h.2.2.2.1 p⟩

theorem rel_step {s t : St} {x : Mem} {e : Ev} (h : Rel s x) (hs : Step s e t) (he : e.Ok) (hb : BlocksInMap x e) :
    Rel t (recall x e) := by
  cases hs with
  | map m => exact rel_init m he.1 he.2
  | goal => exact rel_cleared h
  | plan c path keys hz hk =>
    obtain ⟨h1, h2, h3, h4, _⟩ := h
    have hcl := clear_all s h4
    unfold recall rebuild
    refine ⟨h1, h2, h3, ?_, rfl, ?_⟩
    · intro p hp
      dsimp only at hp ⊢
      have hpk : p ∉ keys := by
        intro hm; exact hp (by simp [clearHysteresis, hm])
      rw [(foldl_put (cellCost s.map c path) keys _ p).2 hpk, hcl p]
    · intro p hp
      dsimp only at hp ⊢
      by_cases hpk : p ∈ keys
      · rw [(foldl_put (cellCost s.map c path) keys _ p).1 hpk]
        exact cellCost_isCost s.map c path p h2 h3 he.1.1 ⟨hp.2.2.2.2.1, hp.2.2.2.2.2⟩
      · rw [(foldl_put (cellCost s.map c path) keys _ p).2 hpk, hcl p]
        exact isCost_of_not_mem s.map c path p h2 h3 he.1 he.2 hp (fun hm => hpk ((hk p).mpr hm))
  | update b =>
    have hR := h
    obtain ⟨h1, h2, h3, h4, h5⟩ := h
    unfold recall onUpdate
    obtain ⟨xm, xp⟩ := x
    cases xp with
    | none =>
      dsimp only at h5 ⊢
      rw [h5.1, Bool.and_false, if_neg (by simp)]
      exact ⟨h1, h2, h3, h4, h5⟩
    | some cp =>
      obtain ⟨c, path⟩ := cp
      dsimp only at h5 h1 ⊢
      rw [h5.1, Bool.and_true]
      have key : (b.any fun p => s.hyst p == 0) = true ↔ ∃ p ∈ b, IsCost xm c path p 0 := by
        rw [List.any_eq_true]
        constructor
        · rintro ⟨p, hp, h0⟩
          have h0 : s.hyst p = 0 := by simpa using h0
          refine ⟨p, hp, ?_⟩
          have := h5.2 p (by rw [h1]; exact hb p hp)
          rw [h0, h1] at this; exact this
        · rintro ⟨p, hp, hc⟩
          refine ⟨p, hp, ?_⟩
          have := h5.2 p (by rw [h1]; exact hb p hp)
          rw [h1] at this
          rw [isCost_unique this hc]; rfl
      by_cases hc : ∃ p ∈ b, IsCost xm c path p 0
      · rw [if_pos (key.mpr hc), if_pos hc]
        exact rel_cleared (x := ⟨xm, some (c, path)⟩) hR
      · rw [if_neg (fun hh => hc (key.mp hh)), if_neg hc]
        exact ⟨h1, h2, h3, h4, h5⟩

theorem rel_run {m : Map} {es : List Ev} {s : St} (h : Run m es s) (hok : Sensible m es) : Rel s (recallAll m es) := by
  induction h with
  | init => exact rel_init m hok.1 hok.2.1
  | @step es s t e hr hs ih =>
    have hok' : Sensible m es := ⟨hok.1, hok.2.1, fun l e' r he => hok.2.2 l e' (r ++ [e]) (by rw [he]; simp)⟩
    obtain ⟨h1, h2⟩ := hok.2.2 es e [] rfl
    have : recallAll m (es ++ [e]) = recall (recallAll m es) e := by unfold recallAll; rw [List.foldl_append]; rfl
    rw [this]
    exact rel_step (ih hok') hs h1 h2

/-- **C105**.  After every history of maps, goals, obstacle reports and plans, for every cell of the map and every heading:
if there is a path to stay close to (the last planned one, unless a new map, a new goal, or an obstacle on it came later)
then the planner uses the hysteresis costs, and the cost of the cell is 0 up to `hysteresis_expand` from the path, 100 from
`hysteresis_expand + hysteresis_max_dist` on, and linear in between; otherwise the costs are not used and all are 100.
Nothing remains from earlier paths, and no cell is cut off. -/
theorem hysteresis_costs {m : Map} {es : List Ev} {s : St} (h : Run m es s) (hok : Sensible m es) :
    s.map = (recallAll m es).map ∧
    (∀ c path, (recallAll m es).path = some (c, path) →
      used s = true ∧ ∀ p, InMap s.map p → IsCost s.map c path p (s.hyst p)) ∧
    ((recallAll m es).path = none → used s = false ∧ ∀ p, InMap s.map p → s.hyst p = 100) := by
  obtain ⟨h1, h2, h3, h4, h5⟩ := rel_run h hok
  refine ⟨h1, fun c path hx => ?_, fun hx => ?_⟩
  · rw [hx] at h5; exact h5
  · rw [hx] at h5; exact ⟨h5.1, fun p _ => h5.2 p⟩

/-- The values always fit the cells (`char`). -/
theorem hysteresis_range {m : Map} {es : List Ev} {s : St} (h : Run m es s) (hok : Sensible m es) (p : Cell)
    (hp : InMap s.map p) : 0 ≤ s.hyst p ∧ s.hyst p ≤ 100 := by
  obtain ⟨_, h1, h2⟩ := hysteresis_costs h hok
  cases hx : (recallAll m es).path with
  | none => rw [(h2 hx).2 p hp]; norm_num
  | some cp =>
    obtain ⟨c, path⟩ := cp
    rcases (h1 c path hx).2 p hp with ⟨_, hv⟩ | ⟨d, _, hv⟩
    · rw [hv]; norm_num
    · rw [hv]; exact costAt_range s.map c d

/-- Every history of the planner can go on with every sensible event (so that `Run` describes something for each of
them). -/
theorem run_goes_on {m : Map} {es : List Ev} {s : St} (h : Run m es s) (hok : Sensible m es) (e : Ev) (he : e.Ok) :
    ∃ t, Run m (es ++ [e]) t := by
  obtain ⟨_, h2, _⟩ := rel_run h hok
  cases e with
  | map m' => exact ⟨_, h.step (.map s m')⟩
  | goal => exact ⟨_, h.step (.goal s)⟩
  | update b => exact ⟨_, h.step (.update s b)⟩
  | plan c path =>
    exact ⟨_, h.step (.plan s c path (pathPoints s.map c path) (div_pos he.1.1 h2).ne' (fun _ => Iff.rfl))⟩

/-! ### The path's own cells -/

/-- The cell of a pose of the path. -/
noncomputable def cellOf (m : Map) (a : Pose ℝ) : Cell := ⟨lround a.x, lround a.y, heading m a⟩

theorem cellOf_dist (m : Map) (a : Pose ℝ) : planeDist (cellOf m a) (a.x, a.y) ≤ Real.sqrt (1 / 2) := by
  unfold planeDist cellOf
  apply Real.sqrt_le_sqrt
  have h1 := lround_near a.x
  have h2 := lround_near a.y
  dsimp only
  have s1 : ((lround a.x : ℝ) - a.x) ^ 2 ≤ (1 / 2) ^ 2 := sq_le_sq' (by rw [abs_le] at h1; exact h1.1) (abs_le.mp h1).2
  have s2 : ((lround a.y : ℝ) - a.y) ^ 2 ≤ (1 / 2) ^ 2 := sq_le_sq' (by rw [abs_le] at h2; exact h2.1) (abs_le.mp h2).2
  nlinarith

theorem has_neighbour {path : List (Pose ℝ)} (h2 : 2 ≤ path.length) {a : Pose ℝ} (ha : a ∈ path) :
    ∃ b, Consecutive path a b ∨ Consecutive path b a := by
  obtain ⟨l, r, rfl⟩ := List.append_of_mem ha
  cases r with
  | cons b r => exact ⟨b, Or.inl ⟨l, r, rfl⟩⟩
  | nil =>
    rcases List.eq_nil_or_concat l with rfl | ⟨l', b, rfl⟩
    · simp at h2
    · exact ⟨b, Or.inr ⟨l', [], by simp⟩⟩

/-- The cells the path goes through cost nothing, if `hysteresis_expand` is at least 0.71 cells. -/
theorem own_cells_free (m : Map) (c : Cfg) (path : List (Pose ℝ)) (hr : 0 < m.res) (hA : 0 < m.angle) (hc : Sane c)
    (hx : Real.sqrt (1 / 2) * m.res ≤ c.expand) (h2 : 2 ≤ path.length) (a : Pose ℝ) (ha : a ∈ path) :
    IsCost m c path (cellOf m a) 0 := by
  have hyaw : 0 ≤ (cellOf m a).yaw ∧ (cellOf m a).yaw < m.angle := (Model3D.cycU_spec (lround a.yaw) m.angle hA).2
  have hh : HasHeading m a (cellOf m a).yaw := (heading_iff m a _ hA hyaw).mp rfl
  have hpass : Passes m path (cellOf m a) (a.x, a.y) := by
    obtain ⟨b, hb | hb⟩ := has_neighbour h2 ha
    · exact ⟨a, b, hb, Or.inl hh, 0, le_refl _, by norm_num, by simp⟩
    · exact ⟨b, a, hb, Or.inr hh, 1, by norm_num, le_refl _, by simp⟩
  have hcost := cellCost_isCost m c path (cellOf m a) hr hA hc.1 hyaw
  rcases hcost with ⟨h, _⟩ | ⟨d, hd, _⟩
  · exact absurd hpass (h _)
  · refine Or.inr ⟨d, hd, ?_⟩
    symm
    rw [costAt_zero_iff m c d hc.1]
    have h1 : d ≤ Real.sqrt (1 / 2) := le_trans (hd.2 ⟨_, hpass, rfl⟩) (cellOf_dist m a)
    have : d * m.res ≤ Real.sqrt (1 / 2) * m.res := mul_le_mul_of_nonneg_right h1 hr.le
    have := hc.1
    linarith

/-- **C106**.  Whatever happened before a plan: if the next message reports an obstacle in a cell the planned path goes
through, the planner stops preferring this path.  (`hysteresis_expand` at least 0.71 cells, a path of two poses or more.) -/
theorem obstacle_on_path_releases {m : Map} {es : List Ev} {s : St} {c : Cfg} {path : List (Pose ℝ)} {blocked : List Cell}
    (h : Run m (es ++ [.plan c path] ++ [.update blocked]) s) (hok : Sensible m (es ++ [.plan c path] ++ [.update blocked]))
    (hx : Real.sqrt (1 / 2) * s.map.res ≤ c.expand) (h2 : 2 ≤ path.length) (a : Pose ℝ) (ha : a ∈ path)
    (hb : cellOf s.map a ∈ blocked) :
    used s = false ∧ ∀ p, InMap s.map p → s.hyst p = 100 := by
  obtain ⟨h1, h2', h3⟩ := hysteresis_costs h hok
  obtain ⟨r1, r2, r3, _⟩ := rel_run h hok
  have e : recallAll m (es ++ [.plan c path] ++ [.update blocked]) =
      recall ⟨(recallAll m es).map, some (c, path)⟩ (.update blocked) := by
    unfold recallAll; rw [List.foldl_append, List.foldl_append]; rfl
  have hmap : s.map = (recallAll m es).map := by
    rw [h1, e]; unfold recall; dsimp only; split <;> rfl
  apply h3
  rw [e]
  unfold recall
  dsimp only
  rw [if_pos]
  have hsane : Sane c := (hok.2.2 es (.plan c path) [.update blocked] (by simp)).1.1
  exact ⟨cellOf s.map a, hb, by rw [← hmap]; exact own_cells_free s.map c path r2 r3 hsane hx h2 a ha⟩

/-! ### Limits -/

/-- A map with 10 cm cells, 20 by 20, 4 headings. -/
noncomputable def exMap : Map := ⟨20, 20, 4, 1 / 10⟩
/-- 10 cm of tolerance, 10 cm of slope. -/
noncomputable def exCfg : Cfg := ⟨1 / 10, 1 / 10, 4⟩
/-- A straight path of four cells. -/
noncomputable def exPath : List (Pose ℝ) := [⟨2, 3, 0⟩, ⟨4, 3, 0⟩, ⟨6, 3, 0⟩]

theorem consecutive_short {a b x y : Pose ℝ} (h : Consecutive [a, b] x y) : x = a ∧ y = b := by
  rcases consecutive_cons.mp h with h | h
  · exact h
  · exact absurd h (not_consecutive_short (by simp) x y)

theorem exPath_dense : Dense exCfg exPath := by
  intro a b h
  unfold exPath at h
  have h4 : Real.sqrt ((2 : ℝ) ^ 2) = 2 := Real.sqrt_sq (by norm_num)
  have e : a.y - b.y = 0 ∧ (a.x - b.x) ^ 2 = 2 ^ 2 := by
    rcases consecutive_cons.mp h with ⟨rfl, rfl⟩ | h
    · norm_num
    · obtain ⟨rfl, rfl⟩ := consecutive_short h
      norm_num
  rw [e.1, e.2]
  have : ((2 : ℝ) ^ 2 + 0 ^ 2) = 2 ^ 2 := by norm_num
  rw [this, h4]
  unfold exCfg; norm_num

theorem exCfg_sane : Sane exCfg := by unfold Sane exCfg; norm_num

/-- A history that meets the hypotheses of C105 and C106: the robot plans, and then an obstacle appears at the second pose. -/
example : ∃ s, Run exMap ([] ++ [.plan exCfg exPath] ++ [.update [⟨4, 3, 0⟩]]) s ∧
    Sensible exMap ([] ++ [.plan exCfg exPath] ++ [.update [⟨4, 3, 0⟩]]) ∧ used s = false := by
  have hs1 : Sensible exMap [.plan exCfg exPath] := by
    refine ⟨by unfold exMap; norm_num, by unfold exMap; norm_num, fun l e r he => ?_⟩
    cases l with
    | nil => simp at he; obtain ⟨rfl, rfl⟩ := he; exact ⟨⟨exCfg_sane, exPath_dense⟩, trivial⟩
    | cons z l => simp at he
  have hs0 : Sensible exMap [] := ⟨hs1.1, hs1.2.1, fun l e r he => by simp at he⟩
  obtain ⟨s1, h1⟩ := run_goes_on Run.init hs0 (.plan exCfg exPath) ⟨exCfg_sane, exPath_dense⟩
  obtain ⟨s2, h2⟩ := run_goes_on h1 hs1 (.update [⟨4, 3, 0⟩]) trivial
  have hs2 : Sensible exMap ([] ++ [.plan exCfg exPath] ++ [.update [⟨4, 3, 0⟩]]) := by
    refine ⟨hs1.1, hs1.2.1, fun l e r he => ?_⟩
    rcases List.eq_nil_or_concat r with rfl | ⟨r', z, rfl⟩
    · have := List.append_inj' (s₁ := [] ++ [Ev.plan exCfg exPath]) (t₁ := [Ev.update [⟨4, 3, 0⟩]]) (s₂ := l) (t₂ := [e]) he rfl
      obtain ⟨rfl, h⟩ := this
      obtain rfl := (List.cons.inj h).1
      refine ⟨trivial, ?_⟩
      intro p hp
      obtain rfl := List.mem_singleton.mp hp
      have : (recallAll exMap ([] ++ [Ev.plan exCfg exPath])).map = exMap := rfl
      rw [this]
      unfold InMap exMap; norm_num
    · have he' : ([] ++ [Ev.plan exCfg exPath]) ++ [Ev.update [⟨4, 3, 0⟩]] = (l ++ e :: r') ++ [z] := by
        rw [he]; simp
      have := List.append_inj' he' rfl
      exact hs1.2.2 l e r' this.1
  refine ⟨s2, h2, hs2, ?_⟩
  have hm : s2.map = exMap := by
    rw [(hysteresis_costs h2 hs2).1]
    have e : recallAll exMap ([] ++ [.plan exCfg exPath] ++ [.update [⟨4, 3, 0⟩]]) =
      recall ⟨exMap, some (exCfg, exPath)⟩ (.update [⟨4, 3, 0⟩]) := rfl
    rw [e]; unfold recall; dsimp only; split <;> rfl
  have hl4 : lround (4 : ℝ) = 4 := by
    rw [lround_nonneg_eq _ (by norm_num), Int.floor_eq_iff]; norm_num
  have hl3 : lround (3 : ℝ) = 3 := by
    rw [lround_nonneg_eq _ (by norm_num), Int.floor_eq_iff]; norm_num
  have hl0 : lround (0 : ℝ) = 0 := by
    rw [lround_nonneg_eq _ (by norm_num), Int.floor_eq_iff]; norm_num
  refine (obstacle_on_path_releases h2 hs2 ?_ (by unfold exPath; simp) ⟨4, 3, 0⟩ (by unfold exPath; simp) ?_).1
  · rw [hm]
    have : Real.sqrt (1 / 2) ≤ 1 := by rw [Real.sqrt_le_iff]; norm_num
    unfold exMap exCfg; dsimp only; linarith
  · rw [hm]
    unfold cellOf heading
    dsimp only
    rw [hl4, hl3, hl0]
    have : cycU 0 exMap.angle = 0 := by unfold exMap; decide +kernel
    rw [this]; simp

/-- With `hysteresis_expand` smaller than the half diagonal of a cell, cells the path goes through have a cost, so an
obstacle there does not release the path: a path that runs along the border between two rows. -/
theorem small_expand_keeps :
    ∃ (m : Map) (c : Cfg) (path : List (Pose ℝ)) (a : Pose ℝ), 0 < m.res ∧ 0 < m.angle ∧ Sane c ∧ 2 ≤ path.length ∧
      a ∈ path ∧ ¬ IsCost m c path (cellOf m a) 0 := by
  refine ⟨⟨20, 20, 4, 1 / 10⟩, ⟨1 / 10, 0, 4⟩, [⟨2, 7 / 2, 0⟩, ⟨4, 7 / 2, 0⟩], ⟨2, 7 / 2, 0⟩, by norm_num, by norm_num,
    ⟨by norm_num, by norm_num, by norm_num⟩, by simp, by simp, ?_⟩
  have h2 : lround (2 : ℝ) = 2 := by rw [lround_nonneg_eq _ (by norm_num), Int.floor_eq_iff]; norm_num
  have h35 : lround (7 / 2 : ℝ) = 4 := by rw [lround_nonneg_eq _ (by norm_num), Int.floor_eq_iff]; norm_num
  intro h
  rcases h with ⟨_, h⟩ | ⟨d, hd, h⟩
  · norm_num at h
  · obtain ⟨q, ⟨a, b, hc, _, t, t0, t1, hq⟩, hdq⟩ := hd.1
    obtain ⟨rfl, rfl⟩ := consecutive_short hc
    have hq2 : q.2 = 7 / 2 := by rw [hq]; norm_num
    have : 1 / 2 ≤ d := by
      rw [hdq]
      refine le_trans ?_ (abs_le_hyp' _ _)
      rw [hq2]
      unfold cellOf
      dsimp only
      rw [h35]
      norm_num
    have h0 := (costAt_zero_iff _ _ d (by norm_num)).mp h.symm
    dsimp only at h0
    linarith

/-- After a plan of a single pose nothing is preferred, not even this pose. -/
theorem single_pose_costs (m : Map) (c : Cfg) (a : Pose ℝ) (p : Cell) : IsCost m c [a] p 100 :=
  Or.inl ⟨fun q ⟨x, y, hc, _⟩ => not_consecutive_short (by simp) x y hc, rfl⟩

end Verif.Hyst
