import Verif.Compat.Model
/-! # Properties of the compatibility mode (C56) -/
namespace Verif.Compat

/-- **C56** (which names).  While the parameter does not change, for every value of it: the node starts exactly when
it is unset, 0 or 1; then it uses all the new names when it is 1 and all the old names otherwise. -/
theorem startup_spec (p : Option Int) (es : List (Endpoint N)) :
    startup (fun _ => p) es =
      if p = some 1 then some (es.map (·.new))
      else if p = none ∨ p = some 0 then some (es.map (·.old))
      else none := by
  have key : ∀ (f : Endpoint N → N), es.mapIdx (fun _ e => f e) = es.map f := by
    intro f
    apply List.ext_getElem? ; intro i; simp
  cases p with
  | none =>
    simp only [startup, checkCompatMode, getCompat, Check.passes, connect, currentLevel, defaultLevel, supportedLevel]
    simp [key]
  | some l =>
    simp only [startup, checkCompatMode, getCompat, connect, currentLevel, supportedLevel]
    by_cases h0 : l < 0
    · have h1 : l ≠ 1 := by omega
      have h2 : l ≠ 0 := by omega
      simp [h0, h1, h2, Check.passes]
    · by_cases h1 : l > 1
      · have h2 : l ≠ 1 := by omega
        have h3 : l ≠ 0 := by omega
        simp [h0, h1, h2, h3, Check.passes]
      · have : l = 0 ∨ l = 1 := by omega
        rcases this with rfl | rfl <;> simp [Check.passes, key]

/-- **C56** (never both).  A started node uses one name per endpoint, and no two endpoints in different modes. -/
theorem never_mixed (p : Option Int) (es : List (Endpoint N)) {ns : List N} (h : startup (fun _ => p) es = some ns) :
    ns = es.map (·.new) ∨ ns = es.map (·.old) := by
  rw [startup_spec] at h
  split at h
  · cases h; exact .inl rfl
  · split at h
    · cases h; exact .inr rfl
    · cases h

/-- **C56** (out of range).  Every level below the oldest supported or above the current one stops the node. -/
theorem out_of_range_stops (l : Int) (h : l < 0 ∨ 1 < l) (es : List (Endpoint N)) :
    startup (fun _ => some l) es = none := by
  rw [startup_spec, if_neg (by simp; omega), if_neg (by simp; omega)]

/-- **C56** (the warning).  While the parameter does not change, a node warns that it is deprecated exactly when it starts with the old names:
the parameter is unset or 0. -/
theorem warned_iff (p : Option Int) : checkCompatMode p p p = .deprecated ↔ p = none ∨ p = some 0 := by
  cases p with
  | none => simp [checkCompatMode, getCompat, currentLevel, defaultLevel, supportedLevel]
  | some l =>
    simp only [checkCompatMode, getCompat, currentLevel, supportedLevel]
    by_cases h0 : l < 0
    · simp [h0]; omega
    · by_cases h1 : l > 1
      · simp [h0, h1]; omega
      · have : l = 0 ∨ l = 1 := by omega
        rcases this with rfl | rfl <;> simp

/-- **C56** (the assumption matters).  If the parameter is changed while a node starts, it can mix the modes, and even
run with an unsupported level. -/
theorem mixed_when_changed :
    startup (fun i => if i < 4 then some 0 else some 1) [⟨"new_a", "a"⟩, ⟨"new_b", "b"⟩] = some ["a", "new_b"] ∧
    startup (fun i => if i < 3 then some 1 else some 7) [⟨"new_a", "a"⟩] = some ["a"] := by decide

example : startup (fun _ => some 1) [⟨"cmd_vel", "~/cmd"⟩, ⟨"odom", "/odom"⟩] = some ["cmd_vel", "odom"] := by decide
example : startup (fun _ => none) [⟨"cmd_vel", "~/cmd"⟩, ⟨"odom", "/odom"⟩] = some ["~/cmd", "/odom"] := by decide

end Verif.Compat
