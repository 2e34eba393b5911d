import Verif.Joints2D.Model
/-! # Vocabulary for the two-joint planner's obligations -/
namespace Verif.Joints2D
variable {K : Type} [Field K] [LinearOrder K] [IsStrictOrderedRing K] [FloorRing K]

/-- Starting at position `a` at time `t`, the points come in time order and neither joint is asked for more than its speed. -/
def Respects (vmax : K × K) : K × K → K → List (Pt K) → Prop
  | _, _, [] => True
  | a, t, x :: l => ∃ t', x.time = some t' ∧ t ≤ t' ∧ |x.pos.1 - a.1| ≤ vmax.1 * (t' - t) ∧ |x.pos.2 - a.2| ≤ vmax.2 * (t' - t) ∧
      Respects vmax x.pos t' l

/-- The joints stand still at the end. -/
def AtRest (l : List (Pt K)) : Prop := ∃ x, l.getLast? = some x ∧ x.vel = some (0, 0)

/-- The chord along which the velocity at a way-point `b` between `a` and `c` points: from the point before (`prev`), to the point after (`next`), or from the point
before to the point after (`avg`), according to the parameter. -/
def chord (p : Par K) (a b c : K × K) : K × K :=
  match p.mode with
  | .prev => (b.1 - a.1, b.2 - a.2)
  | .next => (c.1 - b.1, c.2 - b.2)
  | .avg => (c.1 - a.1, c.2 - a.2)

/-- Starting at `a`, at each way-point but the last the velocity points along the chord and the faster joint moves at speed `v`; it is undefined only if `v` is zero or the chord has
no length. -/
def Directed (p : Par K) (v : K) : K × K → List (Pt K) → Prop
  | a, x :: y :: l => (∀ w, x.vel = some w → ∃ c : K, 0 < c ∧ w = (c * (chord p a x.pos y.pos).1, c * (chord p a x.pos y.pos).2) ∧ max |w.1| |w.2| = v) ∧
      (x.vel = none → v = 0 ∨ chord p a x.pos y.pos = (0, 0)) ∧ Directed p v x.pos (y :: l)
  | _, _ => True

/-- The last position. -/
def final (l : List (Pt K)) : Option (K × K) := l.getLast?.map Pt.pos

/-- The way through the points, starting at `a`: the sum of the longer joint's ways. -/
def way : K × K → List (Pt K) → K
  | _, [] => 0
  | a, x :: l => max |x.pos.1 - a.1| |x.pos.2 - a.2| + way x.pos l

/-- Angles differ by an even number of full turns. -/
def SameAngle (pi : K) (a b : K) : Prop := ∃ k : Int, a = b + (k : K) * (4 * pi)

/-- A negative angle exactly half way between two cells. -/
def NegativeTie (p : Par K) (a : K) : Prop := a < 0 ∧ ∃ k : Int, a * (p.res : K) / (2 * p.pi) = (k : K) + 1 / 2

/-- The number of cells looked at on the straight way with displacement `d`: the whole part of its length. -/
def samples (d : Int × Int) : Nat := Nat.sqrt (d.1 * d.1 + d.2 * d.2).toNat

/-- The straight move from cell `a` by `d` is clear: of `n = samples d` equidistant points on it, starting with `a`, all lie in cells
that are not lethal. -/
def Clear (p : Par K) (m : Int × Int → Int) (a d : Int × Int) : Prop :=
  ∀ i : Nat, i < samples d →
    m (Model3D.cycU (CSpace.lround ((a.1 : K) + (i : K) * ((d.1 : K) / (samples d : K)))) p.res,
       Model3D.cycU (CSpace.lround ((a.2 : K) + (i : K) * ((d.2 : K) / (samples d : K)))) p.res) ≤ 99

/-- The costs of the cells looked at on the straight move from cell `a` by `d`, added up. -/
def traffic (p : Par K) (m : Int × Int → Int) (a d : Int × Int) : Int :=
  ((List.range (samples d)).map fun i : Nat =>
    m (Model3D.cycU (CSpace.lround ((a.1 : K) + (i : K) * ((d.1 : K) / (samples d : K)))) p.res,
       Model3D.cycU (CSpace.lround ((a.2 : K) + (i : K) * ((d.2 : K) / (samples d : K)))) p.res)).sum

/-- Two cells are the same up to whole turns of the map. -/
def Same (p : Par K) (a b : Int × Int) : Prop := (∃ k : Int, a.1 = b.1 + k * (p.res * 2)) ∧ (∃ k : Int, a.2 = b.2 + k * (p.res * 2))

/-- Cell `b` is cell `a` displaced by `d`, up to whole turns of the map (`2 * res` cells). -/
def Displaced (p : Par K) (a d b : Int × Int) : Prop :=
  (∃ k : Int, b.1 = a.1 + d.1 + k * (p.res * 2)) ∧ (∃ k : Int, b.2 = a.2 + d.2 + k * (p.res * 2))

/-- A legal chain of cells: each is in the map, displaced from the one before by at most the search range along a clear way. -/
def Legal (p : Par K) (m : Int × Int → Int) (a b : Int × Int) : Prop :=
  inMap p b = true ∧ ∃ d : Int × Int, |d.1| ≤ p.range ∧ |d.2| ≤ p.range ∧ Displaced p a d b ∧ Clear p m a d

/-- The result of a successful search from `s` to `e`. -/
structure GoodSearch (p : Par K) (m : Int × Int → Int) (s e : Int × Int) (cs : List (Int × Int)) : Prop where
  first : cs.head? = some s
  last : cs.getLast? = some e
  chain : cs.IsChain (Legal p m)

/-- A search whose successes are good. -/
def Sound (p : Par K) (m : Int × Int → Int) (found : Int × Int → Int × Int → Option (List (Int × Int))) : Prop :=
  ∀ a b cs, inMap p a = true → inMap p b = true → found a b = some cs → GoodSearch p m a b cs

/-- The search made at an event. -/
def Event.found : Event K → Int × Int → Int × Int → Option (List (Int × Int))
  | .joint _ _ _ f => f
  | .command _ f => f

/-- The moves from cell to cell along `qs` are clear: each is a displacement found clear from the same cell, up to whole turns. -/
def ClearWay (p : Par K) (m : Int × Int → Int) (qs : List (Int × Int)) : Prop :=
  qs.IsChain fun a b => ∃ a', Same p a a' ∧ Clear p m a' (b.1 - a.1, b.2 - a.2)

/-- An angle pair lies in a cell: at most half a cell (`pi / res`) from its centre, for both joints. -/
def Near (p : Par K) (x : K × K) (q : Int × Int) : Prop :=
  |x.1 - (toMetric p q).1| ≤ p.pi / (p.res : K) ∧ |x.2 - (toMetric p q).2| ≤ p.pi / (p.res : K)

/-- Neither joint moves by more than half a turn (`res / 2` cells). -/
def HalfTurn (p : Par K) (a b : Int × Int) : Prop :=
  p.res / 2 - p.res ≤ b.1 - a.1 ∧ b.1 - a.1 < p.res / 2 ∧ p.res / 2 - p.res ≤ b.2 - a.2 ∧ b.2 - a.2 < p.res / 2

/-- A collision predicate that depends on the joints' angles only up to full turns. -/
def Periodic (pi : K) (collide : K → K → Bool) : Prop :=
  ∀ x y (k l : Int), collide (x + (k : K) * (2 * pi)) (y + (l : K) * (2 * pi)) = collide x y

/-- The cost of a chain of cells. -/
def chainCost (c : Int × Int → Int × Int → K) : List (Int × Int) → K
  | a :: b :: l => c a b + chainCost c (b :: l)
  | _ => 0

/-- A legal move that does not go through the end of the angle range. -/
def Inner (p : Par K) (m : Int × Int → Int) (a b : Int × Int) : Prop :=
  inMap p b = true ∧ |b.1 - a.1| ≤ p.range ∧ |b.2 - a.2| ≤ p.range ∧ Clear p m a (b.1 - a.1, b.2 - a.2)

/-- No legal move goes through the end of the angle range. -/
def NoSeam (p : Par K) (m : Int × Int → Int) : Prop := ∀ a b, inMap p a = true → Legal p m a b → |b.1 - a.1| ≤ p.range ∧ |b.2 - a.2| ≤ p.range

/-- The distance of two cells: the larger of the two coordinate differences. -/
def far (a b : Int × Int) : Int := max |a.1 - b.1| |a.2 - b.2|

/-- The cost given to a cell at distance `k` from a collision, for radius `r`. -/
def fade (r k : Int) : Int := ⌊(100 * (r - k : Int) : ℚ) / (r : ℚ)⌋

/-- The costmap for links that collide at the angles `collide`: 100 exactly at the colliding cells; elsewhere the largest of the costs
given by the colliding cells within the radius, 0 if there are none. -/
structure Costmap (p : Par K) (collide : K → K → Bool) (m : Int × Int → Int) : Prop where
  lethal : ∀ x, inMap p x = true → (m x = 100 ↔ collide (toMetric p x).1 (toMetric p x).2 = true)
  range : ∀ x, inMap p x = true → 0 ≤ m x ∧ m x ≤ 100
  near : ∀ x, inMap p x = true → ∀ c, inMap p c = true → collide (toMetric p c).1 (toMetric p c).2 = true → far x c ≤ reach p →
    fade (reach p) (far x c) ≤ m x
  max : ∀ x, inMap p x = true → collide (toMetric p x).1 (toMetric p x).2 = true ∨ m x = 0 ∨ ∃ c, inMap p c = true ∧
    collide (toMetric p c).1 (toMetric p c).2 = true ∧ far x c ≤ reach p ∧ m x = fade (reach p) (far x c)

/-- Parameters that make sense. -/
structure Sane (p : Par K) : Prop where
  res : 0 < p.res
  range : 0 ≤ p.range ∧ p.range < p.res / 2
  pi : 0 < p.pi
  vmax : 0 < p.vmax.1 ∧ 0 < p.vmax.2
  coef : 0 ≤ p.coef.1 ∧ 0 ≤ p.coef.2
  weight : 0 ≤ p.weight

/-- The indices of the two joints in a list of names: the last occurrence of each. -/
def indices (p : Par K) (names : List Nat) : Option Nat × Option Nat := lookup p 0 names (none, none)

/-- A command that names both joints and has a point with positions for them: its duration and target. -/
def target (p : Par K) (c : Cmd K) : Option (K × (K × K)) :=
  match indices p c.names, c.points with
  | (some i, some j), (t, l) :: _ => (pick (i, j) l).map fun g => (t, g)
  | _, _ => none

/-- The last target commanded in a history. -/
def lastTarget (p : Par K) (h : List (Event K)) : Option (K × (K × K)) :=
  h.foldl (fun r e => match e with
    | .command c _ => (target p c).or r
    | _ => r) none

/-- Every command of the history has the joints at the indices `ij`. -/
def SameOrder (p : Par K) (ij : Nat × Nat) (h : List (Event K)) : Prop :=
  ∀ e ∈ h, match e with
    | .command c _ => indices p c.names = (some ij.1, some ij.2)
    | _ => True

/-- Every message of the history is complete: commands have a point with positions for both joints, joint states that name both
joints have positions for them. -/
def Complete (p : Par K) (h : List (Event K)) : Prop :=
  ∀ e ∈ h, match e with
    | .command c _ => (target p c).isSome = true
    | .joint names pos _ _ => ∀ i j, indices p names = (some i, some j) → (pick (i, j) pos).isSome = true

/-- No command asks for duration 0 and position (0, 0), the values the node starts with. -/
def NotDefault (p : Par K) (h : List (Event K)) : Prop :=
  ∀ e ∈ h, match e with
    | .command c _ => target p c ≠ some (0, (0, 0))
    | _ => True

/-- All angles that occur lie in the map. -/
def InReach (p : Par K) (h : List (Event K)) : Prop :=
  ∀ e ∈ h, match e with
    | .command c _ => ∀ t g, target p c = some (t, g) → inMap p (toGrid p g) = true
    | .joint names pos _ _ => ∀ i j g, indices p names = (some i, some j) → pick (i, j) pos = some g → inMap p (toGrid p g) = true

end Verif.Joints2D
