import Verif.TrajFile.Spec
import Verif.Filter.Props
/-! # Properties of recording, saving and serving paths

* **C102** recorded paths
* **C103** editing of served paths
* **C104** saved paths are served unchanged -/
namespace Verif.TrajFile
variable {Q : Type}

/-! ## C102: recorded paths -/

/-- Invariant of the recorder. -/
structure RecInv (c : RecConfig) (s : Rec Q) (w : Bool) (l : List (Pose Q)) : Prop where
  wait : w = decide (0 < s.waiting)
  sub : (s.poses.map (·.pose)).Sublist l
  head : (s.poses.map (·.pose)).head? = l.head?
  far : (s.poses.map (·.pose)).IsChain fun a b => c.interval < apart a b
  near : ∀ p ∈ l, ∃ r ∈ s.poses, apart r.pose p ≤ c.interval
  seq : ∀ (i : Nat) r, s.poses[i]? = some r → r.seq = i

theorem record_inv {c : RecConfig} (h0 : 0 ≤ c.interval) {s : Rec Q} {w : Bool} {l : List (Pose Q)} (h : RecInv c s w l) (r : Round Q) :
    RecInv c (record c s r).1 (foundStep (w, l) r).1 (foundStep (w, l) r).2 := by
  have hw : (w || decide (0 < r.clears)) = decide (0 < s.waiting + r.clears) := by
    rw [h.wait]
    by_cases h1 : 0 < s.waiting <;> by_cases h2 : 0 < r.clears <;> simp [h1, h2] <;> omega
  unfold record foundStep
  dsimp only
  rw [hw]
  cases ht : r.tf with
  | none => exact ⟨rfl, h.sub, h.head, h.far, h.near, h.seq⟩
  | some p =>
    by_cases hz : s.waiting + r.clears = 0
    · simp only [hz, if_true, Nat.lt_irrefl, decide_false, Bool.false_eq_true, if_false]
      generalize (if c.storeTime = true then r.now else 0) = now
      have self : apart p p ≤ c.interval := by unfold apart; simpa using h0
      cases hl : s.poses.getLast? with
      | none =>
        have he : s.poses = [] := List.getLast?_eq_none_iff.mp hl
        have hln : l = [] := by
          have := h.head
          rw [he] at this
          simpa using this.symm
        subst hln
        simp only [he, if_true, List.nil_append, List.length_nil]
        refine ⟨rfl, by simp, by simp, by simp, ?_, ?_⟩
        · intro q hq
          obtain rfl : q = p := by simpa using hq
          exact ⟨_, List.mem_singleton.mpr rfl, self⟩
        · intro i q hq
          cases i with
          | zero => simp at hq; subst hq; rfl
          | succ i => simp at hq
      | some b =>
        have hne : s.poses ≠ [] := by rintro e; rw [e] at hl; cases hl
        have hlne : l ≠ [] := by
          rintro rfl
          have := h.head
          cases hp : s.poses with
          | nil => exact hne hp
          | cons a as => rw [hp] at this; simp at this
        have hhead : ∀ q, (l ++ [q]).head? = l.head? := by
          intro q
          cases l with
          | nil => exact absurd rfl hlne
          | cons a as => rfl
        by_cases hg : dist2d b.pose p > c.interval
        · simp only [hg, decide_true, if_true]
          refine ⟨rfl, ?_, ?_, ?_, ?_, ?_⟩
          · rw [List.map_append]
            exact List.Sublist.append h.sub (List.Sublist.refl _)
          · rw [hhead, ← h.head, List.map_append]
            cases hp : s.poses with
            | nil => exact absurd hp hne
            | cons a as => rfl
          · rw [List.map_append]
            refine List.isChain_append.mpr ⟨h.far, by simp, ?_⟩
            intro x hx y hy
            rw [List.getLast?_map, hl] at hx
            obtain rfl : b.pose = x := by simpa using hx
            obtain rfl : p = y := by simpa using hy
            exact hg
          · intro q hq
            rcases List.mem_append.mp hq with hq | hq
            · obtain ⟨x, hx, hd⟩ := h.near q hq
              exact ⟨x, List.mem_append_left _ hx, hd⟩
            · obtain rfl : q = p := by simpa using hq
              exact ⟨_, List.mem_append_right _ (List.mem_singleton.mpr rfl), self⟩
          · intro i q hq
            rcases Nat.lt_trichotomy i s.poses.length with hi | hi | hi
            · rw [List.getElem?_append_left hi] at hq
              exact h.seq i q hq
            · subst hi
              simp at hq
              subst hq
              rfl
            · rw [List.getElem?_eq_none (by simp; omega)] at hq
              cases hq
        · simp only [hg, decide_false, Bool.false_eq_true, if_false]
          refine ⟨rfl, h.sub.trans (List.sublist_append_left ..), by rw [hhead]; exact h.head, h.far, ?_, h.seq⟩
          intro q hq
          rcases List.mem_append.mp hq with hq | hq
          · exact h.near q hq
          · obtain rfl : q = p := by simpa using hq
            exact ⟨b, List.mem_of_getLast? hl, not_lt.mp hg⟩
    · simp only [hz, if_false, Nat.pos_of_ne_zero hz, decide_true, if_true]
      exact ⟨rfl, by simp, by simp, by simp, by simp, by simp⟩

theorem record_all_inv {c : RecConfig} (h0 : 0 ≤ c.interval) (rs : List (Round Q)) :
    RecInv c (recordAll c rs) (found rs).1 (found rs).2 := by
  unfold recordAll found
  have main : ∀ (rs : List (Round Q)) (s : Rec Q) (w : Bool) (l : List (Pose Q)), RecInv c s w l →
      RecInv c (rs.foldl (fun s r => (record c s r).1) s) (rs.foldl foundStep (w, l)).1 (rs.foldl foundStep (w, l)).2 := by
    intro rs
    induction rs with
    | nil => intro s w l h; exact h
    | cons r rs ih =>
      intro s w l h
      rw [List.foldl_cons, List.foldl_cons]
      exact ih _ _ _ (record_inv h0 h r)
  exact main rs _ _ _ ⟨rfl, by simp [Rec.init], by simp [Rec.init], by simp [Rec.init], by simp, by simp [Rec.init]⟩

/-- **C102**: the recorded path consists, in their order, of some of the poses found since the path was cleared, beginning with the first
one.  Successive recorded poses are further apart than the interval, and every pose found is within the interval of a recorded one.  The
recorded poses are numbered from zero. -/
theorem recorded (c : RecConfig) (h0 : 0 ≤ c.interval) (rs : List (Round Q)) :
    ((recordAll c rs).poses.map (·.pose)).Sublist (found rs).2 ∧
    ((recordAll c rs).poses.map (·.pose)).head? = (found rs).2.head? ∧
    ((recordAll c rs).poses.map (·.pose)).IsChain (fun a b => c.interval < apart a b) ∧
    (∀ p ∈ (found rs).2, ∃ r ∈ (recordAll c rs).poses, apart r.pose p ≤ c.interval) ∧
    ∀ (i : Nat) r, (recordAll c rs).poses[i]? = some r → r.seq = i :=
  let h := record_all_inv h0 rs
  ⟨h.sub, h.head, h.far, h.near, h.seq⟩

/-- **C102**: a round publishes exactly when it records a pose, namely the path with that pose at its end. -/
theorem published_path (c : RecConfig) (s : Rec Q) (r : Round Q) (l : List (Stamped Q)) (h : (record c s r).2.published = some l) :
    ∃ p sp, r.tf = some p ∧ l = s.poses ++ [sp] ∧ sp.pose = p ∧ sp.seq = s.poses.length ∧
      (sp.stamp = if c.storeTime then r.now else 0) ∧ ∀ b, s.poses.getLast? = some b → c.interval < apart b.pose p := by
  unfold record at h
  cases ht : r.tf with
  | none => rw [ht] at h; cases h
  | some p =>
    rw [ht] at h
    dsimp only at h
    cases hl : s.poses.getLast? with
    | none =>
      rw [hl] at h
      simp only [if_true] at h
      exact ⟨p, _, rfl, (Option.some.inj h).symm, rfl, rfl, rfl, fun b hb => by cases hb⟩
    | some b =>
      rw [hl] at h
      dsimp only at h
      by_cases hg : dist2d b.pose p > c.interval
      · simp only [hg, decide_true, if_true] at h
        refine ⟨p, _, rfl, (Option.some.inj h).symm, rfl, rfl, rfl, fun b' hb => ?_⟩
        obtain rfl := Option.some.inj hb
        exact hg
      · simp only [hg, decide_false, Bool.false_eq_true, if_false] at h
        cases h

/-- **C102**: a request to clear the path is answered, and the path then empty, at the end of the next round with a successful lookup. -/
theorem cleared (c : RecConfig) (s : Rec Q) (r : Round Q) (p : Pose Q) (ht : r.tf = some p) :
    (record c s r).2.answered = s.waiting + r.clears ∧ (record c s r).1.waiting = 0 ∧
    (0 < s.waiting + r.clears → (record c s r).1.poses = []) := by
  unfold record
  rw [ht]
  refine ⟨rfl, rfl, fun h => ?_⟩
  dsimp only
  rw [if_neg (by omega)]

/-- **C102** (finding): as long as the lookup fails, requests are neither answered nor carried out. -/
theorem clear_waits (c : RecConfig) (s : Rec Q) (rs : List (Round Q)) (h : ∀ r ∈ rs, r.tf = none) :
    (rs.foldl (fun s r => (record c s r).1) s).poses = s.poses ∧
    (rs.foldl (fun s r => (record c s r).1) s).waiting = s.waiting + (rs.map (·.clears)).sum := by
  induction rs generalizing s with
  | nil => simp
  | cons r rs ih =>
    have e : (record c s r).1 = { s with waiting := s.waiting + r.clears } := by
      unfold record
      rw [h r (List.mem_cons_self ..)]
    rw [List.foldl_cons, e]
    obtain ⟨h1, h2⟩ := ih { s with waiting := s.waiting + r.clears } fun r hr => h r (List.mem_cons_of_mem _ hr)
    rw [h1, h2]
    simp [Nat.add_assoc]

/-- **C102** (finding): however much the robot turns on the spot, nothing is recorded; the parameter `ang_interval` has no effect. -/
theorem turning_not_recorded (c : RecConfig) (h0 : 0 ≤ c.interval) (s : Rec Q) (b : Stamped Q) (hb : s.poses.getLast? = some b) (q : Q)
    (now : ℝ) (hw : s.waiting = 0) : (record c s ⟨some { b.pose with q := q }, now, 0⟩).1.poses = s.poses ∧
    (record c s ⟨some { b.pose with q := q }, now, 0⟩).2.published = none := by
  have hd : ¬ dist2d b.pose { b.pose with q := q } > c.interval := by
    unfold dist2d
    simpa using h0
  unfold record
  simp only [hb, hd, decide_false, hw, Nat.add_zero, if_true, Bool.false_eq_true, if_false, and_self]

/-- Three positions at an interval of half a metre: the second is not recorded. -/
example : (recordAll ⟨1 / 2, false⟩ [⟨some ⟨0, 0, 0, ()⟩, 1, 0⟩, ⟨none, 2, 0⟩, ⟨some ⟨1 / 4, 0, 0, ()⟩, 3, 0⟩, ⟨some ⟨1, 0, 0, ()⟩, 4, 0⟩]).poses =
    [⟨0, 0, ⟨0, 0, 0, ()⟩⟩, ⟨1, 0, ⟨1, 0, 0, ()⟩⟩] := by
  have h1 : ¬ dist2d (Q := Unit) ⟨0, 0, 0, ()⟩ ⟨1 / 4, 0, 0, ()⟩ > 1 / 2 := by
    unfold dist2d
    rw [gt_iff_lt, not_lt, Real.sqrt_le_left (by norm_num)]
    norm_num
  have h2 : dist2d (Q := Unit) ⟨0, 0, 0, ()⟩ ⟨1, 0, 0, ()⟩ > 1 / 2 := by
    unfold dist2d
    rw [gt_iff_lt, Real.lt_sqrt (by norm_num)]
    norm_num
  simp only [recordAll, List.foldl_cons, List.foldl_nil, record, Rec.init, List.getLast?_nil, if_true, Nat.add_zero, List.nil_append,
    List.getLast?_singleton, h1, h2, decide_true, decide_false, Bool.false_eq_true, if_false, List.length_nil, List.length_cons, Nat.zero_add,
    List.cons_append]

/-! ## C103: editing of served paths -/

/-- **C103**: moving a marker replaces the pose it stands for and nothing else. -/
theorem moved (step : ℝ) (s : Server Q) (i : Nat) (hm : i < s.markers) (hi : i < s.path.poses.length) (p : Pose Q) (now : ℝ) :
    ∃ s', serve step s (.feedback i (.poseUpdate p) now) = some (s', ⟨none, none⟩) ∧ s'.path.poses.length = s.path.poses.length ∧
      ((s'.path.poses[i]?).map (·.pose) = some p) ∧ ∀ j, j ≠ i → s'.path.poses[j]? = s.path.poses[j]? := by
  unfold serve
  simp only [hm, if_true, List.getElem?_eq_getElem hi]
  refine ⟨_, rfl, by simp, ?_, ?_⟩
  · simp [hi]
  · intro j hj
    exact List.getElem?_set_ne (fun h => hj h.symm)

/-- **C103**: "Delete" removes the pose of the marker and nothing else; the result is published. -/
theorem deleted (step : ℝ) (s : Server Q) (i : Nat) (hm : i < s.markers) (hi : i < s.path.poses.length) (now : ℝ) :
    ∃ s', serve step s (.feedback i (.menu 1) now) = some (s', ⟨some s'.path, none⟩) ∧
      s'.path.poses = s.path.poses.take i ++ s.path.poses.drop (i + 1) ∧ s'.markers = s'.path.poses.length := by
  unfold serve
  simp only [hm, if_true, hi]
  exact ⟨_, rfl, List.eraseIdx_eq_take_drop_succ .., rfl⟩

theorem insert_eq {α : Type} (x : α) : ∀ (l : List α) {i : Nat}, i ≤ l.length → l.insertIdx i x = l.take i ++ x :: l.drop i := by
  intro l
  induction l with
  | nil =>
    intro i hi
    obtain rfl : i = 0 := by simpa using hi
    rfl
  | cons a l ih =>
    intro i hi
    cases i with
    | zero => rfl
    | succ i =>
      rw [List.insertIdx_succ_cons, ih (by simpa using hi)]
      rfl

/-- **C103**: "Add" doubles the pose of the marker; the result is published. -/
theorem added (step : ℝ) (s : Server Q) (i : Nat) (hm : i < s.markers) (hi : i < s.path.poses.length) (now : ℝ) :
    ∃ s' p, s.path.poses[i]? = some p ∧ serve step s (.feedback i (.menu 2) now) = some (s', ⟨some s'.path, none⟩) ∧
      s'.path.poses = s.path.poses.take i ++ p :: p :: s.path.poses.drop (i + 1) ∧ s'.markers = s'.path.poses.length := by
  have e : serve step s (.feedback i (.menu 2) now) =
      some ({ s with path := { s.path with poses := s.path.poses.insertIdx i s.path.poses[i] }, markers := (s.path.poses.insertIdx i s.path.poses[i]).length },
        ⟨some { s.path with poses := s.path.poses.insertIdx i s.path.poses[i] }, none⟩) := by
    unfold serve
    simp only [hm, if_true, List.getElem?_eq_getElem hi]
    norm_num
  refine ⟨_, s.path.poses[i], List.getElem?_eq_getElem hi, e, ?_, rfl⟩
  dsimp only
  rw [insert_eq _ _ hi.le, List.drop_eq_getElem_cons hi]

/-- **C103**: releasing a marker publishes the path as it is. -/
theorem released (step : ℝ) (s : Server Q) (i : Nat) (hm : i < s.markers) (now : ℝ) :
    ∃ s', serve step s (.feedback i .mouseUp now) = some (s', ⟨some s'.path, none⟩) ∧ s'.path = { s.path with stamp := now } := by
  unfold serve
  simp only [hm, if_true]
  exact ⟨_, rfl, rfl⟩

/-- Every marker stands for a pose. -/
theorem markers_inv (step : ℝ) : ∀ (cs : List (Cmd Q)) (s : Server Q), s.markers = s.path.poses.length →
    (∀ name id file now, .change name id file now ∈ cs → ∃ p : Path Q, file = some p ∧ (0 < step → p.poses ≠ [])) →
    ∃ s', serveAll step s cs = some s' ∧ s'.markers = s'.path.poses.length := by
  intro cs
  induction cs with
  | nil => intro s h _; exact ⟨s, rfl, h⟩
  | cons c cs ih =>
    intro s h hc
    have one : ∃ r, serve step s c = some r ∧ r.1.markers = r.1.path.poses.length := by
      cases c with
      | change name id file now =>
        obtain ⟨p, rfl, hp⟩ := hc name id file now (List.mem_cons_self ..)
        unfold serve
        dsimp only
        have : ∃ l, filterPoses step p.poses = some l := by
          unfold filterPoses
          by_cases h0 : step > 0
          · rw [if_pos h0]
            have hne := hp h0
            cases hq : p.poses with
            | nil => exact absurd hq hne
            | cons a as => exact ⟨_, rfl⟩
          · rw [if_neg h0]; exact ⟨_, rfl⟩
        obtain ⟨l, hl⟩ := this
        rw [hl]
        exact ⟨_, rfl, rfl⟩
      | feedback i e now =>
        unfold serve
        dsimp only
        by_cases hm : i < s.markers
        · rw [if_pos hm]
          have hi : i < s.path.poses.length := by omega
          cases e with
          | poseUpdate p =>
            dsimp only
            rw [List.getElem?_eq_getElem hi]
            exact ⟨_, rfl, by simp [h]⟩
          | mouseUp => exact ⟨_, rfl, h⟩
          | menu n =>
            dsimp only
            rw [if_pos hi, List.getElem?_eq_getElem hi]
            by_cases h1 : n = 1
            · rw [if_pos h1]; exact ⟨_, rfl, rfl⟩
            rw [if_neg h1]
            by_cases h2 : n = 2
            · rw [if_pos h2]; exact ⟨_, rfl, rfl⟩
            rw [if_neg h2]
            exact ⟨_, rfl, rfl⟩
          | other => exact ⟨_, rfl, h⟩
        · rw [if_neg hm]; exact ⟨_, rfl, h⟩
    obtain ⟨r, hr, h'⟩ := one
    unfold serveAll
    rw [hr]
    exact ih r.1 h' fun name id file now hm => hc name id file now (List.mem_cons_of_mem _ hm)

/-- **C103** (partial: all requested files can be opened and, with the filter, hold a pose; see `stale_marker`, `empty_filtered`): no
history of requests and marker events accesses a pose outside of the path, and there is always one marker for every pose. -/
theorem edits_defined_partial (step : ℝ) (file : String) (cs : List (Cmd Q))
    (hc : ∀ name id file now, .change name id file now ∈ cs → ∃ p : Path Q, file = some p ∧ (0 < step → p.poses ≠ [])) :
    ∃ s', serveAll step (Server.init file) cs = some s' ∧ s'.markers = s'.path.poses.length :=
  markers_inv step cs _ rfl hc

/-- **C103** (what is missing): after a request for a file that cannot be opened the path is empty, but its markers are still there;
moving one accesses a pose outside of the path. -/
theorem stale_marker (p : Path Unit) (hp : p.poses ≠ []) (q : Pose Unit) :
    serveAll 0 (Server.init "") [.change "a" 0 (some p) 0, .change "b" 1 none 1, .feedback 0 (.poseUpdate q) 2] = none := by
  have hl : 0 < p.poses.length := List.length_pos_of_ne_nil hp
  simp [serveAll, serve, filterPoses, hl]

/-- **C103** (what is missing): with the filter, an empty path in the file accesses its first pose. -/
theorem empty_filtered (step : ℝ) (h : 0 < step) (s : Server Q) (name : String) (id : Int) (frame : String) (stamp now : ℝ) :
    serve step s (.change name id (some ⟨frame, stamp, []⟩) now) = none := by
  simp [serve, filterPoses, h, Filter.smooth]

/-- **C103**: the status names the last requested file, and no file after a request that failed. -/
theorem status_last (step : ℝ) (file : String) (cs : List (Cmd Q)) (s : Server Q) (h : serveAll step (Server.init file) cs = some s) :
    match lastRequest cs with
    | none => s.filename = file ∧ s.id = 0
    | some (name, id, ok) => s.filename = (if ok then name else "") ∧ s.id = id := by
  unfold lastRequest
  have main : ∀ (cs : List (Cmd Q)) (s₀ : Server Q) (r : Option (String × Int × Bool)),
      (match r with
        | none => s₀.filename = file ∧ s₀.id = 0
        | some (name, id, ok) => s₀.filename = (if ok then name else "") ∧ s₀.id = id) →
      serveAll step s₀ cs = some s →
      match cs.foldl (fun r c => match c with
          | .change name id file _ => some (name, id, file.isSome)
          | .feedback .. => r) r with
        | none => s.filename = file ∧ s.id = 0
        | some (name, id, ok) => s.filename = (if ok then name else "") ∧ s.id = id := by
    intro cs
    induction cs with
    | nil =>
      intro s₀ r hr h
      obtain rfl := Option.some.inj h
      exact hr
    | cons c cs ih =>
      intro s₀ r hr h
      unfold serveAll at h
      cases hs : serve step s₀ c with
      | none => rw [hs] at h; cases h
      | some t =>
        rw [hs] at h
        rw [List.foldl_cons]
        refine ih t.1 _ ?_ h
        cases c with
        | change name id f now =>
          cases f with
          | none =>
            unfold serve at hs
            obtain rfl := Option.some.inj hs
            exact ⟨rfl, rfl⟩
          | some p =>
            unfold serve at hs
            dsimp only at hs
            cases hf : filterPoses step p.poses with
            | none => rw [hf] at hs; cases hs
            | some l =>
              rw [hf] at hs
              obtain rfl := Option.some.inj hs
              exact ⟨rfl, rfl⟩
        | feedback i e now =>
          have : t.1.filename = s₀.filename ∧ t.1.id = s₀.id := by
            unfold serve at hs
            dsimp only at hs
            split at hs
            · cases e with
              | poseUpdate p =>
                dsimp only at hs
                split at hs
                · cases hs
                · obtain rfl := Option.some.inj hs; exact ⟨rfl, rfl⟩
              | mouseUp => obtain rfl := Option.some.inj hs; exact ⟨rfl, rfl⟩
              | menu n =>
                dsimp only at hs
                split at hs
                · cases hs
                · obtain rfl := Option.some.inj hs; exact ⟨rfl, rfl⟩
              | other => obtain rfl := Option.some.inj hs; exact ⟨rfl, rfl⟩
            · obtain rfl := Option.some.inj hs; exact ⟨rfl, rfl⟩
          dsimp only
          rw [this.1, this.2]
          exact hr
  exact main cs _ none ⟨rfl, rfl⟩ h

/-- A path of two poses is loaded, its second pose doubled and its first one deleted. -/
example : (serveAll 0 (Server.init "") [.change "a" 5 (some ⟨"map", 0, [⟨0, 0, ⟨0, 0, 0, ()⟩⟩, ⟨1, 0, ⟨1, 0, 0, ()⟩⟩]⟩) 0,
    .feedback 1 (.menu 2) 1, .feedback 0 (.menu 1) 2]).map (fun s => (s.path.poses, s.markers, s.filename, s.id)) =
    some ([⟨1, 0, ⟨1, 0, 0, ()⟩⟩, ⟨1, 0, ⟨1, 0, 0, ()⟩⟩], 2, "a", 5) := by
  simp [serveAll, serve, filterPoses]

/-! ## C104: saved paths are served unchanged -/

/-- **C104**: the file holds the first path for which it could be opened, and nothing else is written to it. -/
theorem saved_first (k : Codec Q) (ms : List (Path Q × Bool)) :
    (ms.foldl (save k) ⟨false, none⟩).file = (ms.find? (·.2)).map (fun m => k.ser m.1) ∧
    (ms.foldl (save k) ⟨false, none⟩).saved = (ms.find? (·.2)).isSome := by
  have stay : ∀ (ms : List (Path Q × Bool)) f, ms.foldl (save k) ⟨true, f⟩ = ⟨true, f⟩ := by
    intro ms
    induction ms with
    | nil => intro f; rfl
    | cons m ms ih => intro f; rw [List.foldl_cons]; exact ih f
  induction ms with
  | nil => exact ⟨rfl, rfl⟩
  | cons m ms ih =>
    rw [List.foldl_cons]
    cases hm : m.2 with
    | false =>
      have : save k ⟨false, none⟩ m = ⟨false, none⟩ := by simp [save, hm]
      rw [this, List.find?_cons_of_neg (by simp [hm])]
      exact ih
    | true =>
      have : save k ⟨false, none⟩ m = ⟨true, some (k.ser m.1)⟩ := by simp [save, hm]
      rw [this, stay, List.find?_cons_of_pos hm]
      exact ⟨rfl, rfl⟩

/-- **C104**: a path saved by the saver and requested from the server without the filter is published with the same frame and the same
poses; only the time of the path is the time of the request. -/
theorem round_trip (k : Codec Q) (ms : List (Path Q × Bool)) (b : List UInt8) (hb : (ms.foldl (save k) ⟨false, none⟩).file = some b)
    (s : Server Q) (name : String) (id : Int) (now step : ℝ) (hstep : step ≤ 0) :
    ∃ p, ms.find? (·.2) = some (p, true) ∧ ∃ s', serve step s (.change name id (k.deser b) now) =
      some (s', ⟨some { p with stamp := now }, some true⟩) ∧ s'.path = { p with stamp := now } := by
  rw [(saved_first k ms).1] at hb
  cases hf : ms.find? (·.2) with
  | none => rw [hf] at hb; cases hb
  | some m =>
    rw [hf] at hb
    obtain rfl : k.ser m.1 = b := Option.some.inj hb
    have h2 : m.2 = true := List.find?_some hf
    obtain ⟨p, o⟩ := m
    obtain rfl : o = true := h2
    refine ⟨p, rfl, ?_⟩
    rw [k.round]
    unfold serve filterPoses
    simp only [not_lt.mpr hstep, if_false]
    exact ⟨_, rfl, rfl⟩

theorem smooth_length (tc : ℝ) (l : List ℝ) (r : List ℝ) (h : Filter.smooth tc l = some r) : r.length = l.length := by
  cases l with
  | nil => cases h
  | cons a as =>
    unfold Filter.smooth at h
    obtain rfl := Option.some.inj h
    rw [List.length_reverse]
    have : ∀ (l : List ℝ) (f : Filter.Obj ℝ) (acc : List ℝ), (l.foldl (fun s i => (Filter.feed s.1 i, (Filter.feed s.1 i).out :: s.2)) (f, acc)).2.length =
        l.length + acc.length := by
      intro l
      induction l with
      | nil => intro f acc; simp
      | cons x l ih => intro f acc; rw [List.foldl_cons, ih]; simp; omega
    rw [this]
    simp

theorem zip_coords : ∀ (l : List (Stamped Q)) (xs ys : List ℝ), xs.length = l.length → ys.length = l.length →
    (((l.zip (xs.zip ys)).map fun t => { t.1 with pose := { t.1.pose with x := t.2.1, y := t.2.2 } } : List (Stamped Q)).map
      fun p => p.pose.x) = xs ∧
    (((l.zip (xs.zip ys)).map fun t => { t.1 with pose := { t.1.pose with x := t.2.1, y := t.2.2 } } : List (Stamped Q)).map
      fun p => p.pose.y) = ys
  | [], xs, ys, h1, h2 => by
    rw [List.length_nil, List.length_eq_zero_iff] at h1 h2
    subst h1; subst h2; exact ⟨rfl, rfl⟩
  | a :: l, [], ys, h1, h2 => by simp at h1
  | a :: l, x :: xs, [], h1, h2 => by simp at h2
  | a :: l, x :: xs, y :: ys, h1, h2 => by
    obtain ⟨g1, g2⟩ := zip_coords l xs ys (by simpa using h1) (by simpa using h2)
    simp only [List.zip_cons_cons, List.map_cons] at g1 g2 ⊢
    exact ⟨by rw [g1], by rw [g2]⟩

/-- **C104**: the filter smooths both coordinates, each on its own (what `smooth` gives is C68); without filter nothing changes. -/
theorem filter_positions (step : ℝ) (l l' : List (Stamped Q)) (h : filterPoses step l = some l') :
    (0 < step → Filter.smooth step (l.map fun p => p.pose.x) = some (l'.map fun p => p.pose.x) ∧
      Filter.smooth step (l.map fun p => p.pose.y) = some (l'.map fun p => p.pose.y)) ∧
    (step ≤ 0 → l' = l) := by
  unfold filterPoses at h
  refine ⟨fun h0 => ?_, fun h0 => ?_⟩
  · rw [if_pos h0] at h
    cases hx : Filter.smooth step (l.map fun p => p.pose.x) with
    | none => rw [hx] at h; cases h
    | some xs =>
      cases hy : Filter.smooth step (l.map fun p => p.pose.y) with
      | none => rw [hx, hy] at h; cases h
      | some ys =>
        rw [hx, hy] at h
        obtain rfl := Option.some.inj h
        have lx := smooth_length _ _ _ hx
        have ly := smooth_length _ _ _ hy
        rw [List.length_map] at lx ly
        obtain ⟨g1, g2⟩ := zip_coords l xs ys lx ly
        exact ⟨by rw [g1], by rw [g2]⟩
  · rw [if_neg (not_lt.mpr h0)] at h
    exact (Option.some.inj h).symm

/-- **C104**: the filter keeps the number of poses, their orientations, heights, times and numbers. -/
theorem filter_keeps (step : ℝ) (l l' : List (Stamped Q)) (h : filterPoses step l = some l') :
    l'.length = l.length ∧ ∀ (i : Nat) a b, l[i]? = some a → l'[i]? = some b →
      b.pose.q = a.pose.q ∧ b.pose.z = a.pose.z ∧ b.stamp = a.stamp ∧ b.seq = a.seq := by
  unfold filterPoses at h
  by_cases h0 : step > 0
  · rw [if_pos h0] at h
    cases hx : Filter.smooth step (l.map fun p => p.pose.x) with
    | none => rw [hx] at h; cases h
    | some xs =>
      cases hy : Filter.smooth step (l.map fun p => p.pose.y) with
      | none => rw [hx, hy] at h; cases h
      | some ys =>
        rw [hx, hy] at h
        obtain rfl := Option.some.inj h
        have lx := smooth_length _ _ _ hx
        have ly := smooth_length _ _ _ hy
        rw [List.length_map] at lx ly
        refine ⟨by simp [lx, ly], ?_⟩
        intro i a b ha hb
        rw [List.getElem?_map] at hb
        cases hz : (l.zip (xs.zip ys))[i]? with
        | none => rw [hz] at hb; cases hb
        | some t =>
          rw [hz] at hb
          obtain rfl := Option.some.inj hb
          have := (List.getElem?_zip_eq_some.mp hz).1
          rw [ha] at this
          obtain rfl := Option.some.inj this
          exact ⟨rfl, rfl, rfl, rfl⟩
  · rw [if_neg h0] at h
    obtain rfl := Option.some.inj h
    refine ⟨rfl, ?_⟩
    intro i a b ha hb
    rw [ha] at hb
    obtain rfl := Option.some.inj hb
    exact ⟨rfl, rfl, rfl, rfl⟩

/-- The second of three paths is the first for which the file can be opened. -/
example (k : Codec Unit) (p q r : Path Unit) : ([(p, false), (q, true), (r, true)].foldl (save k) ⟨false, none⟩).file = some (k.ser q) := by
  rw [(saved_first k _).1]
  rfl

end Verif.TrajFile
