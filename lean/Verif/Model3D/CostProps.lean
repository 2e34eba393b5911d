import Verif.Model3D.Props
import Verif.Model3D.CostSpec
/-! # C133: what a move costs -/
set_option linter.unusedVariables false
namespace Verif.Model3D
open Spec
open Verif.GridMetric (Cell Pose)
open Verif.CSpace (lround)
open Real

/-- The `k`-th pose at which a motion is looked at, relative to its start. -/
noncomputable def sampled (g : Geo) (cur next : Cell) (k : Nat) : Pose ℝ :=
  sampleAt g cur.yaw (moved cur next) ((k : ℝ) / (count g cur next : ℝ))

/-- **C133**: the samples of a cached motion lie on the curve that fits start and end. -/
theorem sample_driven (g : Geo) (hs : Sane g) (cur next : Cell) (hc : 0 ≤ cur.yaw ∧ cur.yaw < g.angle) (hn : 0 ≤ next.yaw ∧ next.yaw < g.angle) (ρ : ℝ) :
    Driven g cur next ρ (sampleAt g cur.yaw (moved cur next) ρ) := by
  obtain ⟨mx, my, -⟩ := mcMotion_parts g cur.yaw (moved cur next)
  refine ⟨_, mcMotion_turn g hs cur.yaw (moved cur next) hc hn, ?_⟩
  unfold sampleAt
  by_cases h : IsStraight g cur.yaw (moved cur next)
  · left
    rw [if_pos h, straightAt_eq g hs]
    refine ⟨h, ?_, ?_, rfl⟩ <;> simp only [moved] <;> push_cast <;> ring
  · right
    have h' : 0.1 ≤ |sin (mcMotion g cur.yaw (moved cur next)).yaw| := not_lt.mp h
    have hsin : sin (mcMotion g cur.yaw (moved cur next)).yaw ≠ 0 := by
      intro h0; rw [h0] at h'; norm_num at h'
    rw [if_neg h, curveAt_eq g hs _ _ _ hsin]
    have ha := (ares_pos g hs).ne'
    have hr := hs.res_pos.ne'
    have hcv := radii_curve _ hsin
    rw [mx, my] at hcv
    refine ⟨h', by simp only; field_simp, _, _, hcv, ?_, ?_⟩
    · simp only
      unfold radii
      simp only
      rw [r2_eq _ _ hsin, div_mul_cancel₀ _ hr, div_mul_cancel₀ _ ha]
    · simp only
      unfold radii
      simp only
      rw [r2_eq _ _ hsin, div_mul_cancel₀ _ hr, div_mul_cancel₀ _ ha]

theorem scan_exact (cm hy : Cell → Option Int) (u : Bool) (thr : Int) : ∀ (l : List Cell) (s t h s' t' h' : Int),
    scan cm hy u thr l s t h = .sums s' t' h' →
    s' = s + (l.map (value cm)).sum ∧ t' = t + (l.map (valueFrom thr cm)).sum ∧ h' = h + if u then (l.map (value hy)).sum else 0 := by
  intro l
  induction l with
  | nil => intro s t h s' t' h' he; simp only [scan, Scan.sums.injEq] at he; obtain ⟨rfl, rfl, rfl⟩ := he; simp
  | cons q l ih =>
    intro s t h s' t' h' he
    simp only [scan] at he
    split at he
    · cases he
    · rename_i c hc
      split at he
      · cases he
      · have hv : value cm q = c := by simp [value, hc]
        have ht : (if c ≥ thr then t + c else t) = t + valueFrom thr cm q := by
          unfold valueFrom
          rw [hv]
          by_cases hth : thr ≤ c
          · rw [if_pos hth, if_pos hth]
          · rw [if_neg hth, if_neg hth, add_zero]
        rw [ht] at he
        split at he
        · rename_i hu
          split at he
          · cases he
          · rename_i v hhy
            have hv' : value hy q = v := by simp [value, hhy]
            obtain ⟨h1, h2, h3⟩ := ih _ _ _ _ _ _ he
            simp only [List.map_cons, List.sum_cons, hv, hv']
            rw [if_pos hu] at h3 ⊢
            exact ⟨by omega, by omega, by omega⟩
        · rename_i hu
          obtain ⟨h1, h2, h3⟩ := ih _ _ _ _ _ _ he
          simp only [List.map_cons, List.sum_cons, hv]
          rw [if_neg hu] at h3 ⊢
          exact ⟨by omega, by omega, by omega⟩

theorem lenF_eq (a b : Pose ℝ) : lenF ⟨b.x - a.x, b.y - a.y, 0⟩ = √((b.x - a.x) ^ 2 + (b.y - a.y) ^ 2) := by
  unfold lenF
  simp only [sq]

theorem fold_len (g : Geo) (d : Cell) : ∀ (pts : List (Nat × Pose ℝ)) (acc : ℝ) (prev last : Pose ℝ), (∀ kp ∈ pts, ratioOf g d kp.1 > 0) →
    (let r := pts.foldl (fun (acc : ℝ × Pose ℝ) kp =>
      (if ratioOf g d kp.1 > 0 then acc.1 + lenF ⟨kp.2.x - acc.2.x, kp.2.y - acc.2.y, 0⟩ else acc.1, kp.2)) (acc, prev)
    r.1 + lenF ⟨last.x - r.2.x, last.y - r.2.y, 0⟩) = acc + polyline (prev :: pts.map Prod.snd ++ [last]) := by
  intro pts
  induction pts with
  | nil =>
    intro acc prev last _
    simp [polyline, lenF_eq]
  | cons p ps ih =>
    intro acc prev last h
    simp only [List.foldl_cons]
    rw [if_pos (h p List.mem_cons_self)]
    have := ih (acc + lenF ⟨p.2.x - prev.x, p.2.y - prev.y, 0⟩) p.2 last (fun kp hk => h kp (List.mem_cons_of_mem _ hk))
    simp only at this
    rw [this]
    simp only [List.map_cons, List.cons_append, polyline, lenF_eq]
    ring

theorem straight_polyline (x y : ℝ) (s : ℝ) (w : ℝ) (N : Nat) (hN : 0 < N) : ∀ (n k : Nat), k + n + 1 = N →
    polyline ((List.range' k (n + 1)).map (fun k : Nat => (⟨x * ((k : ℝ) / N), y * ((k : ℝ) / N), s⟩ : Pose ℝ)) ++ [⟨x, y, w⟩]) =
      (1 - (k : ℝ) / N) * √(x ^ 2 + y ^ 2) := by
  have hN' : (0 : ℝ) < N := by exact_mod_cast hN
  have scale : ∀ c : ℝ, 0 ≤ c → √((c * x) ^ 2 + (c * y) ^ 2) = c * √(x ^ 2 + y ^ 2) := by
    intro c hc
    rw [show (c * x) ^ 2 + (c * y) ^ 2 = c ^ 2 * (x ^ 2 + y ^ 2) by ring, Real.sqrt_mul (sq_nonneg c), Real.sqrt_sq hc]
  intro n
  induction n with
  | zero =>
    intro k hk
    have hk1 : (k : ℝ) / N ≤ 1 := by
      rw [div_le_one hN']; exact_mod_cast (by omega : k ≤ N)
    simp only [List.range', List.map_cons, List.map_nil, List.cons_append, List.nil_append, polyline, add_zero]
    rw [← scale _ (by linarith)]
    congr 1; ring
  | succ n ih =>
    intro k hk
    have h1 := ih (k + 1) (by omega)
    rw [List.range'_succ, List.map_cons, List.cons_append]
    rw [List.range'_succ] at h1 ⊢
    rw [List.map_cons, List.cons_append] at h1 ⊢
    rw [polyline, h1]
    have : √((x * (((k + 1 : Nat) : ℝ) / N) - x * ((k : ℝ) / N)) ^ 2 + (y * (((k + 1 : Nat) : ℝ) / N) - y * ((k : ℝ) / N)) ^ 2) = 1 / N * √(x ^ 2 + y ^ 2) := by
      rw [← scale _ (by positivity)]
      congr 1
      push_cast
      ring
    rw [this]
    push_cast
    ring

theorem totalStep_count (g : Geo) (cur next : Cell) : totalStep g (moved cur next) = count g cur next := by
  unfold totalStep count len cellDist sqlen moved
  simp only [sq]

/-- The length recorded for a motion is that of the line through its sampled poses. -/
theorem distance_eq (g : Geo) (hs : Sane g) (cur next : Cell) (hne : ¬ (next.x = cur.x ∧ next.y = cur.y)) :
    (page g cur.yaw (moved cur next)).distance = motionLength g cur next (sampled g cur next) := by
  have hne' : ¬ ((moved cur next).x = 0 ∧ (moved cur next).y = 0) := by simp only [moved]; omega
  have ht := totalStep_pos g hs (moved cur next) hne'
  unfold motionLength
  rw [← totalStep_count]
  unfold sampled
  rw [← totalStep_count]
  have hr : ∀ k : Nat, (k : ℝ) / (totalStep g (moved cur next) : ℝ) = ratioOf g (moved cur next) k := fun _ => rfl
  simp only [hr]
  obtain ⟨N, hN⟩ : ∃ N, totalStep g (moved cur next) = N + 1 := ⟨_, (Nat.succ_pred_eq_of_pos (by omega)).symm⟩
  have hT : (0 : ℝ) < (totalStep g (moved cur next) : ℝ) := by exact_mod_cast (by omega : 0 < totalStep g (moved cur next))
  unfold page
  simp only
  split
  · rename_i hst
    have h1 : ∀ k : Nat, sampleAt g cur.yaw (moved cur next) (ratioOf g (moved cur next) k) =
        (⟨((moved cur next).x : ℝ) * ((k : ℝ) / (totalStep g (moved cur next) : Nat)), ((moved cur next).y : ℝ) * ((k : ℝ) / (totalStep g (moved cur next) : Nat)), cur.yaw⟩ : Pose ℝ) := by
      intro k
      unfold sampleAt
      rw [if_pos hst, straightAt_eq g hs]
      rfl
    simp only [h1]
    rw [List.range_eq_range']
    have h2 := straight_polyline (moved cur next).x (moved cur next).y cur.yaw next.yaw (totalStep g (moved cur next)) (by omega) N 0 (by omega)
    rw [← hN] at h2
    have e1 : ((moved cur next).x : ℝ) = (next.x : ℝ) - cur.x := by simp [moved]
    have e2 : ((moved cur next).y : ℝ) = (next.y : ℝ) - cur.y := by simp [moved]
    rw [e1, e2] at h2 ⊢
    rw [h2]
    unfold len sqlen moved
    push_cast
    simp only [zero_div, sub_zero, one_mul, sq]
  · unfold curveLength
    simp only
    rw [hN, List.range_succ_eq_map]
    simp only [List.map_cons, List.foldl_cons, List.map_map]
    have h0 : ratioOf g (moved cur next) 0 = 0 := by unfold ratioOf; simp
    rw [h0, if_neg (lt_irrefl _)]
    have := fold_len g (moved cur next) (List.map (fun k => (k + 1, sampleAt g cur.yaw (moved cur next) (ratioOf g (moved cur next) (k + 1)))) (List.range N)) 0
      (sampleAt g cur.yaw (moved cur next) 0) ⟨next.x - cur.x, next.y - cur.y, next.yaw⟩ (by
        intro kp hk
        obtain ⟨k, -, rfl⟩ := List.mem_map.mp hk
        unfold ratioOf
        simp only
        positivity)
    simp only [List.map_map] at this
    simp only [moved] at this ⊢
    push_cast
    rw [show ((fun k => (k, sampleAt g cur.yaw ⟨next.x - cur.x, next.y - cur.y, next.yaw⟩ (ratioOf g ⟨next.x - cur.x, next.y - cur.y, next.yaw⟩ k))) ∘ Nat.succ) =
      (fun k => (k + 1, sampleAt g cur.yaw ⟨next.x - cur.x, next.y - cur.y, next.yaw⟩ (ratioOf g ⟨next.x - cur.x, next.y - cur.y, next.yaw⟩ (k + 1)))) from rfl]
    rw [this, zero_add]
    rfl

theorem motion_nodup (d : Cell) (f : Nat → Cell) : ∀ (ks : List Nat) (m : List Cell), m.Nodup → (ks.foldl (fun m k => record d m (f k)) m).Nodup := by
  intro ks
  induction ks with
  | nil => intro m h; exact h
  | cons k ks ih =>
    intro m h
    rw [List.foldl_cons]
    apply ih
    unfold record
    split
    · rename_i hp
      rw [List.nodup_append]
      refine ⟨h, List.nodup_singleton _, ?_⟩
      intro a ha b hb
      rw [List.mem_singleton] at hb
      rintro rfl
      exact hp.2 (hb ▸ ha)
    · exact h

theorem cycU_emod (e A : Int) (hA : 0 < A) : cycU e A = e % A := by
  obtain ⟨⟨k, hk⟩, h1, h2⟩ := cycU_spec e A hA
  exact (emod_of e _ A k hA hk h1 h2).symm

/-- The cells of a cached motion, moved to its start, are those it goes through. -/
theorem shifted_swept (g : Geo) (hs : Sane g) (cur next : Cell) : Swept g cur next (sampled g cur next) (shifted cur (page g cur.yaw (moved cur next))) := by
  have inj : Function.Injective fun q : Cell => (⟨cur.x + q.x, cur.y + q.y, q.yaw⟩ : Cell) := by
    intro a b h
    simp only [Cell.mk.injEq] at h
    obtain ⟨h1, h2, h3⟩ := h
    cases a; cases b
    simp only [Cell.mk.injEq] at *
    exact ⟨by omega, by omega, h3⟩
  refine ⟨?_, ?_⟩
  · unfold shifted
    exact List.Nodup.map inj (motion_nodup _ _ _ [] List.nodup_nil)
  · intro q
    unfold shifted
    rw [List.mem_map]
    have key : ∀ k, cellOf g (sampleAt g cur.yaw (moved cur next) (ratioOf g (moved cur next) k)) =
        ⟨lround (sampled g cur next k).x, lround (sampled g cur next k).y, lround (sampled g cur next k).yaw % g.angle⟩ := by
      intro k
      unfold cellOf sampled ratioOf
      rw [totalStep_count, headings_eq g hs, cycU_emod _ _ hs.angle_pos]
    constructor
    · rintro ⟨p, hp, rfl⟩
      rw [mem_motion] at hp
      obtain ⟨k, hk, rfl, hne⟩ := hp
      rw [totalStep_count] at hk
      rw [key] at hne ⊢
      refine ⟨?_, k, hk, rfl, rfl, rfl⟩
      intro h
      apply hne
      have hx := congrArg Cell.x h
      have hy := congrArg Cell.y h
      have hz := congrArg Cell.yaw h
      simp only at hx hy hz
      unfold moved
      rw [Cell.mk.injEq]
      exact ⟨by omega, by omega, hz⟩
    · rintro ⟨hne, k, hk, h1, h2, h3⟩
      refine ⟨_, (mem_motion g cur.yaw (moved cur next) _).mpr ⟨k, by rw [totalStep_count]; exact hk, rfl, ?_⟩, ?_⟩
      · rw [key]
        intro h
        apply hne
        simp only [moved, Cell.mk.injEq] at h
        cases q; cases next
        simp only [Cell.mk.injEq] at *
        omega
      · rw [key]
        cases q
        simp only [Cell.mk.injEq] at *
        exact ⟨h1.symm, h2.symm, h3.symm⟩

theorem ahead_aside (g : Geo) (hs : Sane g) (cur next : Cell) :
    √(ahead g cur.yaw (moved cur next) * ahead g cur.yaw (moved cur next) + aside g cur.yaw (moved cur next) * aside g cur.yaw (moved cur next)) = g.res * cellDist cur next := by
  unfold ahead aside cellDist moved
  have h := Real.sin_sq_add_cos_sq ((cur.yaw : ℝ) * g.ares)
  rw [← Real.sqrt_sq hs.res_pos.le, ← Real.sqrt_mul (sq_nonneg g.res)]
  congr 1
  rw [Real.sqrt_sq hs.res_pos.le]
  push_cast
  linear_combination g.res ^ 2 * (((next.x : ℝ) - cur.x) ^ 2 + ((next.y : ℝ) - cur.y) ^ 2) * h

/-- **C133**: the cost of a move, exactly.  Length and turn with their weights, more for going backward; for a lane change a small addition, for a curve that has to be driven slowly another; the mean cost of the
cells it goes through and of the remembered path's costs, over its length; in a curve also the mean of the cells above the threshold, over its turn. -/
theorem move_cost (g : Geo) (hs : Sane g) (hev : Even g.angle) (c : Wt) (hw : 0 ≤ c.ec2) (u : Bool) (cm hy : Cell → Option Int) (cur next : Cell) (v : ℝ)
    (hc : 0 ≤ cur.yaw ∧ cur.yaw < g.angle) (hn : 0 ≤ next.yaw ∧ next.yaw < g.angle) (hne : ¬ (next.x = cur.x ∧ next.y = cur.y))
    (h : cost g c u cm hy cur next = .val v) :
    ∃ f cells, Samples g cur next f ∧ Swept g cur next f cells ∧ (∀ q ∈ cells, Free cm q) ∧ ∃ add : ℝ,
      v = basic g c cur next * (if ahead g cur.yaw (moved cur next) < 0 then 1 + c.backward else 1) + add +
        g.res * motionLength g cur next f * (c.costmap * mean cells (value cm) + (if u then c.hysteresis * mean cells (value hy) else 0)) / 100 ∧
      (turn g.angle next.yaw cur.yaw = 0 ∧ ahead g cur.yaw (moved cur next) ≠ 0 ∧
          add = c.ec2 * |aside g cur.yaw (moved cur next) / ahead g cur.yaw (moved cur next)| * g.ares / (2 * π) ∨
        turn g.angle next.yaw cur.yaw ≠ 0 ∧ ∃ x, Curved g c cur next x ∧
          add = x + g.ares * ((turn g.angle next.yaw cur.yaw : Int) : ℝ) * c.costmapTurn * mean cells (valueFrom c.turnThreshold cm) / 100) := by
  obtain ⟨-, -, ht | hm⟩ := cost_val g c u cm hy cur next v h
  · exfalso
    obtain ⟨h1, h2⟩ := ht.same
    exact hne ⟨by omega, by omega⟩
  obtain ⟨m, rad, pg, s, t, hh, hrc, hfind, hscan, add, rfl, hadd⟩ := hm.val
  have hkey : keyOf g cur next = moved cur next := by
    unfold keyOf moved; rw [cycU_id _ _ hs.angle_pos hn]
  rw [hkey] at hfind
  have hdisc : (next.x - cur.x) * (next.x - cur.x) + (next.y - cur.y) * (next.y - cur.y) ≤ g.range * g.range := by
    have := ((motion_found_iff g hs cur.yaw (moved cur next)).mp (by rw [hfind]; rfl))
    simp only [moved] at this
    first | exact this.1 | exact this.2.1
  have hpg : pg = page g cur.yaw (moved cur next) := by
    unfold find at hfind
    split at hfind
    · rw [headings_eq g hs, cycU_id _ _ hs.angle_pos hc] at hfind
      exact (Option.some.inj hfind).symm
    · cases hfind
  subst hpg
  have hr0 : 0 ≤ g.range := by have := hs.range_pos; omega
  obtain ⟨b1, b2, b3, b4⟩ := sq_box hr0 hdisc
  obtain ⟨m', rad', hrc', mx, my, mt, mn, mr⟩ := rotation_access g hs cur.yaw (next.x - cur.x) (next.y - cur.y) next.yaw hc hn ⟨b1, b2⟩ ⟨b3, b4⟩
  rw [hrc'] at hrc
  cases hrc
  obtain ⟨e1, e2, e3⟩ := scan_exact cm hy u _ _ _ _ _ _ _ _ hscan
  rw [zero_add] at e1 e2 e3
  have hd := distance_eq g hs cur next hne
  have hlen : ((page g cur.yaw (moved cur next)).motion.length : ℝ) = ((shifted cur (page g cur.yaw (moved cur next))).length : ℝ) := by
    unfold shifted; rw [List.length_map]
  have hturn : |((disp g cur next).yaw : ℝ)| = ((turn g.angle next.yaw cur.yaw : Int) : ℝ) := by
    obtain ⟨⟨k, hk⟩, l1, l2⟩ := cycS_spec (next.yaw - cur.yaw) g.angle hs.angle_pos
    obtain ⟨j, hj⟩ := hev
    rw [← Int.cast_abs, ← short_turn g.angle next.yaw cur.yaw (disp g cur next).yaw k hs.angle_pos hk (by unfold disp; simp only; omega) (by unfold disp; simp only; omega)]
  have hturn0 : (disp g cur next).yaw = 0 ↔ turn g.angle next.yaw cur.yaw = 0 := by
    constructor
    · intro h0
      rw [h0] at hturn
      simp only [Int.cast_zero, abs_zero] at hturn
      exact_mod_cast hturn.symm
    · intro h0
      rw [h0] at hturn
      simp only [Int.cast_zero, abs_eq_zero] at hturn
      exact_mod_cast hturn
  have hb := euclidCost_eq g hs c hw cur next
  have hmx : m.x = ahead g cur.yaw (moved cur next) := mx
  have hmy : m.y = aside g cur.yaw (moved cur next) := my
  refine ⟨sampled g cur next, _, fun k => sample_driven g hs cur next hc hn _, shifted_swept g hs cur next, scan_free cm hy u _ _ _ _ _ _ _ _ hscan, add, ?_, ?_⟩
  · unfold alongCost basic mean
    rw [hb, hd, hlen, e1, e3, hmx]
    have hu : (((if u = true then (List.map (value hy) (shifted cur (page g cur.yaw (moved cur next)))).sum else 0 : Int)) : ℝ) =
        if u = true then (((List.map (value hy) (shifted cur (page g cur.yaw (moved cur next)))).sum : Int) : ℝ) else 0 := by
      split <;> simp
    rw [hu]
    by_cases hb' : ahead g cur.yaw (moved cur next) < 0
    · simp only [if_pos hb']
      split <;> ring
    · simp only [if_neg hb']
      split <;> ring
  · rcases hadd with ⟨a1, a2, a3⟩ | ⟨a1, a2⟩
    · refine .inl ⟨hturn0.mp a1, by rw [← hmx]; exact a2, ?_⟩
      rw [a3, hmx, hmy, mul_comm π 2]
    · refine .inr ⟨fun h0 => a1 (hturn0.mpr h0), decelCost c m rad, ⟨m.yaw, mt, ?_⟩, ?_⟩
      · by_cases hsin : sin m.yaw = 0
        · left
          rw [mn hsin]
          exact ⟨hsin, rfl⟩
        · right
          obtain ⟨r₁, r₂, rfl, hcv⟩ := mr hsin
          rw [hmx, hmy] at hcv
          refine ⟨r₁, r₂, hsin, hcv, ?_⟩
          unfold decelCost
          simp only
          by_cases hv : |c.maxVel| > c.maxAngVel * |r₁|
          · right
            rw [if_pos hv]
            refine ⟨hv, ?_⟩
            unfold lenF
            rw [hmx, hmy, ahead_aside g hs]
          · left
            rw [if_neg hv]
            exact ⟨not_lt.mp hv, rfl⟩
      · rw [a2, hturn, e2, hlen]
        unfold mean
        ring

theorem turnScan_exact (cm : Cell → Option Int) (thr A dir : Int) (hA : 0 < A) (hdir : dir = 1 ∨ dir = -1) : ∀ (n : Nat) (pos : Cell) (s s' t' h' : Int),
    0 ≤ pos.yaw → pos.yaw < A → turnScan cm thr A dir n pos s = .sums s' t' h' →
    s' = s + ((List.range n).map fun j : Nat => valueFrom thr cm ⟨pos.x, pos.y, (pos.yaw + dir * (j : Int)) % A⟩).sum ∧
    ∀ j < n, Free cm ⟨pos.x, pos.y, (pos.yaw + dir * (j : Int)) % A⟩ := by
  intro n
  induction n with
  | zero =>
    intro pos s s' t' h' _ _ h
    simp only [turnScan, Scan.sums.injEq] at h
    exact ⟨by simp [h.1], fun j hj => absurd hj (Nat.not_lt_zero j)⟩
  | succ n ih =>
    intro pos s s' t' h' h1 h2 h
    rw [turnScan] at h
    cases hv : cm pos with
    | none => rw [hv] at h; cases h
    | some c =>
      rw [hv] at h
      simp only at h
      by_cases hc : c > 99
      · rw [if_pos hc] at h; cases h
      rw [if_neg hc] at h
      set w : Int := if pos.yaw + dir < 0 then pos.yaw + dir + A else if pos.yaw + dir ≥ A then pos.yaw + dir - A else pos.yaw + dir with hw
      have hw0 : 0 ≤ w ∧ w < A ∧ ∃ k, w = pos.yaw + dir + k * A := by
        rw [hw]
        by_cases a1 : pos.yaw + dir < 0
        · rw [if_pos a1]; exact ⟨by omega, by omega, 1, by ring⟩
        · rw [if_neg a1]
          by_cases a2 : pos.yaw + dir ≥ A
          · rw [if_pos a2]; exact ⟨by omega, by omega, -1, by ring⟩
          · rw [if_neg a2]; exact ⟨by omega, by omega, 0, by ring⟩
      obtain ⟨w1, w2, k, hk⟩ := hw0
      have hmod : ∀ j : Nat, (w + dir * (j : Int)) % A = (pos.yaw + dir * ((j + 1 : Nat) : Int)) % A := by
        intro j
        rw [hk, show pos.yaw + dir + k * A + dir * (j : Int) = pos.yaw + dir * ((j + 1 : Nat) : Int) + A * k by push_cast; ring, Int.add_mul_emod_self_left]
      have hzero : (pos.yaw + dir * ((0 : Nat) : Int)) % A = pos.yaw := by
        simp only [Nat.cast_zero, mul_zero, add_zero]
        exact Int.emod_eq_of_lt h1 h2
      have hpos : (⟨pos.x, pos.y, pos.yaw⟩ : Cell) = pos := rfl
      obtain ⟨e, hf⟩ := ih { pos with yaw := w } _ _ _ _ w1 w2 h
      simp only [hmod] at e hf
      constructor
      · rw [e, List.range_succ_eq_map, List.map_cons, List.sum_cons, List.map_map, hzero, hpos]
        have hvf : (if c ≥ thr then s + c else s) = s + valueFrom thr cm pos := by
          unfold valueFrom value
          rw [hv]
          by_cases hth : thr ≤ c
          · rw [if_pos hth]; simp only [Option.getD_some]; rw [if_pos hth]
          · rw [if_neg hth]; simp only [Option.getD_some]; rw [if_neg hth, add_zero]
        rw [hvf]
        simp only [Function.comp_def, Nat.succ_eq_add_one]
        ring
      · intro j hj
        cases j with
        | zero => rw [hzero, hpos]; exact ⟨c, hv, by omega⟩
        | succ j => exact hf j (by omega)

/-- **C133**: the cost of a turn in place, exactly: the turn with its weight, the fixed cost of such turns, and the costs above the threshold of the headings passed. -/
theorem turn_cost (g : Geo) (hs : Sane g) (hev : Even g.angle) (c : Wt) (hw : 0 ≤ c.ec2) (u : Bool) (cm hy : Cell → Option Int) (cur next : Cell) (v : ℝ)
    (hc : 0 ≤ cur.yaw ∧ cur.yaw < g.angle) (hn : 0 ≤ next.yaw ∧ next.yaw < g.angle) (hsame : next.x = cur.x ∧ next.y = cur.y)
    (h : cost g c u cm hy cur next = .val v) :
    ∃ dir : Int, (dir = 1 ∨ dir = -1) ∧ next.yaw = (cur.yaw + dir * turn g.angle next.yaw cur.yaw) % g.angle ∧
      (∀ j : Nat, (j : Int) ≤ turn g.angle next.yaw cur.yaw → Free cm ⟨cur.x, cur.y, (cur.yaw + dir * (j : Int)) % g.angle⟩) ∧
      v = c.ec2 * ((turn g.angle next.yaw cur.yaw : Int) : ℝ) + c.inPlaceTurn +
        g.ares * (c.costmapTurn + c.ec2 / c.ec0 * c.turnHeuristics) / 100 *
          (((List.range (turn g.angle next.yaw cur.yaw).toNat).map fun j : Nat => valueFrom c.turnThreshold cm ⟨cur.x, cur.y, (cur.yaw + dir * (j : Int)) % g.angle⟩).sum : Int) := by
  have hA := hs.angle_pos
  obtain ⟨hf1, hf2, ht | hm⟩ := cost_val g c u cm hy cur next v h
  swap
  · exfalso
    exact hm.moves ⟨by omega, by omega⟩
  obtain ⟨s, t, hh, hscan, rfl⟩ := ht.val
  obtain ⟨⟨k, hk⟩, l1, l2⟩ := cycS_spec (next.yaw - cur.yaw) g.angle hA
  have hturn : |(disp g cur next).yaw| = turn g.angle next.yaw cur.yaw := by
    obtain ⟨j, hj⟩ := hev
    rw [← short_turn g.angle next.yaw cur.yaw (disp g cur next).yaw k hs.angle_pos hk (by unfold disp; simp only; omega) (by unfold disp; simp only; omega)]
  have hnat : (disp g cur next).yaw.natAbs = (turn g.angle next.yaw cur.yaw).toNat := by rw [← hturn, Int.abs_eq_natAbs, Int.toNat_natCast]
  have hdy : (disp g cur next).yaw = next.yaw - cur.yaw + k * g.angle := hk
  have hdir : (if (disp g cur next).yaw < 0 then (-1 : Int) else 1) = 1 ∨ (if (disp g cur next).yaw < 0 then (-1 : Int) else 1) = -1 := by split <;> simp
  have hmul : (if (disp g cur next).yaw < 0 then (-1 : Int) else 1) * turn g.angle next.yaw cur.yaw = (disp g cur next).yaw := by
    rw [← hturn]
    split
    · rw [abs_of_neg (by assumption)]; ring
    · rw [abs_of_nonneg (by omega)]; ring
  obtain ⟨e, hf⟩ := turnScan_exact cm _ _ _ hA hdir _ _ _ _ _ _ hc.1 hc.2 hscan
  rw [zero_add, hnat] at e
  rw [hnat] at hf
  have hend : next.yaw = (cur.yaw + (if (disp g cur next).yaw < 0 then (-1 : Int) else 1) * turn g.angle next.yaw cur.yaw) % g.angle := by
    rw [hmul, hdy, show cur.yaw + (next.yaw - cur.yaw + k * g.angle) = next.yaw + g.angle * k by ring, Int.add_mul_emod_self_left]
    exact (Int.emod_eq_of_lt hn.1 hn.2).symm
  refine ⟨_, hdir, hend, ?_, ?_⟩
  · intro j hj
    by_cases hjt : j < (turn g.angle next.yaw cur.yaw).toNat
    · exact hf j hjt
    · have hje : (j : Int) = turn g.angle next.yaw cur.yaw := by omega
      rw [hje, ← hend, ← hsame.1, ← hsame.2]
      exact hf2
  · rw [euclidCost_eq g hs c hw cur next, ← e]
    have h0 : cellDist cur next = 0 := by
      unfold cellDist
      rw [hsame.1, hsame.2]
      simp
    rw [h0]
    ring

/-- The deceleration term of a curve, driven at the limit of the angular velocity. -/
theorem decel_less_when_tighter (c : Wt) (hv : 0 < c.maxVel) (ha : 0 < c.maxAngVel) (hd : 0 < c.decel) (m m' : Pose ℝ) (r r' : ℝ) (hl : lenF m = lenF m') (h0 : 0 < lenF m)
    (hr : 0 < r) (hlt : r < r') (hslow : c.maxAngVel * r' < c.maxVel) :
    0 < decelCost c m (some (r, r)) ∧ decelCost c m (some (r, r)) < decelCost c m' (some (r', r')) := by
  have hr' : 0 < r' := lt_trans hr hlt
  have key : ∀ (m : Pose ℝ) (x : ℝ), 0 < x → c.maxAngVel * x < c.maxVel → decelCost c m (some (x, x)) = lenF m * (x * c.maxAngVel / c.maxVel) * c.decel := by
    intro m x hx hs
    unfold decelCost
    simp only
    rw [if_pos (by rw [abs_of_pos hv, abs_of_pos hx]; exact hs), show (x + x) / 2 = x by ring, abs_of_pos hx, abs_of_pos (by positivity)]
  rw [key m r hr (by nlinarith), key m' r' hr' hslow, ← hl]
  constructor
  · positivity
  · have : r * c.maxAngVel / c.maxVel < r' * c.maxAngVel / c.maxVel := by
      apply div_lt_div_of_pos_right _ hv
      nlinarith
    have h2 : lenF m * (r * c.maxAngVel / c.maxVel) < lenF m * (r' * c.maxAngVel / c.maxVel) := mul_lt_mul_of_pos_left this h0
    exact mul_lt_mul_of_pos_right h2 hd

/-! ### Examples -/

/-- `g0` on a map of any size that is large enough to leave the motions room. -/
noncomputable def room : Int := |(maxRange g0).1| + |(maxRange g0).2| + 20
noncomputable def gRoom : Geo := { g0 with width := 2 * room, height := 2 * room }

theorem gRoom_sane : Sane gRoom := by
  have h := g0_sane
  exact ⟨h.angle_pos, h.ares, h.res_pos, h.range_pos, h.ger_pos, h.ger_le⟩

/-- A slope: the further along, the more expensive. -/
def slope0 : Cell → Option Int := fun p =>
  if 0 ≤ p.x ∧ p.x < 30 ∧ 0 ≤ p.y ∧ p.y < 30 ∧ 0 ≤ p.yaw ∧ p.yaw < 8 then some (3 * p.x) else none

theorem slope0_free : ∀ p, InMap g0 p → Free slope0 p := by
  intro p h
  unfold InMap g0 at h
  simp only at h
  refine ⟨3 * p.x, ?_, by omega⟩
  unfold slope0
  rw [if_pos h]

/-- Bumps all over. -/
def bumps : Cell → Option Int := fun p => some (p.x % 60)

theorem in_gRoom (p : Cell) (hx : room ≤ p.x ∧ p.x < room + 20) (hy : room ≤ p.y ∧ p.y < room + 20) (hw : 0 ≤ p.yaw ∧ p.yaw < 8) : InMap gRoom p := by
  have h : 20 ≤ room := by have := abs_nonneg (maxRange g0).1; have := abs_nonneg (maxRange g0).2; unfold room; omega
  have e : gRoom.width = 2 * room ∧ gRoom.height = 2 * room ∧ gRoom.angle = 8 := ⟨rfl, rfl, rfl⟩
  unfold InMap
  rw [e.1, e.2.1, e.2.2]
  omega

theorem border_gRoom : ¬ AtBorder gRoom ⟨room, room, 0⟩ := by
  have h1 := le_abs_self (maxRange g0).1
  have h2 := le_abs_self (maxRange g0).2
  have h3 := abs_nonneg (maxRange g0).1
  have h4 := abs_nonneg (maxRange g0).2
  have e : gRoom.width = 2 * room ∧ gRoom.height = 2 * room ∧ maxRange gRoom = maxRange g0 := ⟨rfl, rfl, rfl⟩
  unfold AtBorder
  rw [e.1, e.2.1, e.2.2]
  simp only
  have : room = |(maxRange g0).1| + |(maxRange g0).2| + 20 := rfl
  omega

/-- A curve on a slope, four ahead and two to the left, gets a cost. -/
theorem curve0 : ∃ v, cost gRoom w0 true bumps bumps ⟨room, room, 0⟩ ⟨room + 4, room + 2, 1⟩ = .val v := by
  refine free_move_accepted gRoom gRoom_sane ⟨4, by norm_num [gRoom, g0]⟩ w0 true bumps bumps (fun p _ => ⟨_, rfl, by omega⟩)
    (fun p _ => ⟨_, rfl⟩) ⟨room, room, 0⟩ ⟨4, 2, 1⟩ ⟨room + 4, room + 2, 1⟩
    (in_gRoom _ (by simp only; omega) (by simp only; omega) ⟨by norm_num, by norm_num⟩) (in_gRoom _ (by simp only; omega) (by simp only; omega) ⟨by norm_num, by norm_num⟩) ?_ ⟨rfl, rfl, ⟨0, by norm_num⟩, by norm_num, by norm_num [gRoom, g0]⟩
    (fun _ _ => border_gRoom)
  rw [primitive_iff gRoom gRoom_sane w0 0 _ ⟨by omega, by norm_num [gRoom, g0]⟩]
  have hs2 : √2 * √2 = 2 := Real.mul_self_sqrt (by norm_num)
  have h2 : (14 / 10 : ℝ) < √2 := by rw [Real.lt_sqrt (by norm_num)]; norm_num
  have h3 : √2 < (15 / 10 : ℝ) := by rw [Real.sqrt_lt' (by norm_num)]; norm_num
  have hp := Real.two_le_pi
  have hx : ahead gRoom 0 ⟨4, 2, 1⟩ = 4 := by simp [ahead, gRoom, g0]
  have hy : aside gRoom 0 ⟨4, 2, 1⟩ = 2 := by simp [aside, gRoom, g0]
  refine ⟨by norm_num [gRoom, g0], by norm_num, by norm_num [gRoom, g0], Or.inr ⟨by norm_num, Or.inr ⟨by norm_num, by norm_num, ?_, ?_, ?_⟩⟩⟩
  · rw [hy]; norm_num [gRoom, g0]
  · rw [hx]; norm_num [gRoom, g0]
  · rw [hx, hy]
    refine ⟨π / 4, 6, 4 * √2, ⟨by linarith, by linarith, 0, by simp [gRoom, g0]⟩, ?_, ⟨?_, ?_⟩, by linarith, ?_, ?_⟩
    · rw [abs_of_pos (by linarith)]; norm_num; linarith
    · rw [sin_pi_div_four]; linarith
    · rw [cos_pi_div_four]; linarith
    · rw [abs_lt]; simp only [gRoom, g0]; constructor <;> linarith
    · rw [abs_of_pos (by linarith)]; simp only [w0]; linarith

/-- `move_cost` applies to it. -/
example : ∃ v f cells, Samples gRoom ⟨room, room, 0⟩ ⟨room + 4, room + 2, 1⟩ f ∧ Swept gRoom ⟨room, room, 0⟩ ⟨room + 4, room + 2, 1⟩ f cells ∧
    cost gRoom w0 true bumps bumps ⟨room, room, 0⟩ ⟨room + 4, room + 2, 1⟩ = .val v := by
  obtain ⟨v, hv⟩ := curve0
  obtain ⟨f, cells, h1, h2, -⟩ := move_cost gRoom gRoom_sane ⟨4, by norm_num [gRoom, g0]⟩ w0 (by norm_num [w0]) true bumps bumps ⟨room, room, 0⟩ ⟨room + 4, room + 2, 1⟩ v
    ⟨by norm_num, by norm_num [gRoom, g0]⟩ ⟨by norm_num, by norm_num [gRoom, g0]⟩ (by simp only; omega) hv
  exact ⟨v, f, cells, h1, h2, hv⟩

/-- A turn by three headings on the slope, whose costs are below the threshold of turns: three times the weight and the fixed cost. -/
example : cost g0 w0 true slope0 empty0 ⟨10, 10, 7⟩ ⟨10, 10, 2⟩ = .val 4 := by
  have hv : ∃ v, cost g0 w0 true slope0 empty0 ⟨10, 10, 7⟩ ⟨10, 10, 2⟩ = .val v := by
    refine free_move_accepted g0 g0_sane ⟨4, by norm_num [g0]⟩ w0 true slope0 empty0 slope0_free
      (fun p hp => by obtain ⟨c, h, -⟩ := empty0_free p hp; exact ⟨c, h⟩) ⟨10, 10, 7⟩ ⟨0, 0, 3⟩ ⟨10, 10, 2⟩
      (by norm_num [InMap, g0]) (by norm_num [InMap, g0]) ?_ ⟨by norm_num, by norm_num, ⟨-1, by norm_num [g0]⟩, by norm_num, by norm_num [g0]⟩
      (fun h _ => absurd ⟨rfl, rfl⟩ h)
    rw [primitive_iff g0 g0_sane w0 7 _ ⟨by omega, by norm_num [g0]⟩]
    exact ⟨by norm_num [g0], by norm_num, by norm_num [g0], .inl ⟨rfl, rfl, by norm_num⟩⟩
  obtain ⟨v, hv⟩ := hv
  obtain ⟨dir, hdir, -, -, e⟩ := turn_cost g0 g0_sane ⟨4, by norm_num [g0]⟩ w0 (by norm_num [w0]) true slope0 empty0 ⟨10, 10, 7⟩ ⟨10, 10, 2⟩ v
    ⟨by norm_num, by norm_num [g0]⟩ ⟨by norm_num, by norm_num [g0]⟩ ⟨rfl, rfl⟩ hv
  have ht : turn g0.angle 2 7 = 3 := by norm_num [turn, g0]
  simp only [ht] at e
  have hz : ∀ w : Int, valueFrom w0.turnThreshold slope0 ⟨10, 10, w⟩ = 0 := by
    intro w
    unfold valueFrom value slope0 w0
    by_cases hw : 0 ≤ w ∧ w < 8
    · simp [hw.1, hw.2]
    · have : ¬ (0 ≤ (10 : Int) ∧ (10 : Int) < 30 ∧ 0 ≤ (10 : Int) ∧ (10 : Int) < 30 ∧ 0 ≤ w ∧ w < 8) := by omega
      simp only
      rw [if_neg this]
      norm_num
  simp only [hz] at e
  rw [hv, e]
  norm_num [w0]

end Verif.Model3D
