import Verif.Astar.Model
/-!
# Model of the distance map (`planner_cspace/src/distance_map.cpp`)

`V` are cells of the rough (heading-less) map, `C` is the abstract cost type of `Verif.Astar.Model`
(`float` without NaN; only order laws are assumed).

* The priority queue is a bag from which an entry of minimal priority is taken (`Verif.Heap`, C04).
* OpenMP: the expansion loop reads `g_` only; updates are applied in the critical sections in an
  arbitrary order; the model allows every permutation.  In the code the expansion reads `g_[p]` and `g_[next]` while no
  thread writes (barrier), so a snapshot is exact.
-/
namespace Verif.DistMap
open Verif.Astar (CostType setF)

/-- One step offered from a cell: destination, `ds.euclid_cost`, and the total cost, `none` when a checked
cell is lethal (distance_map.cpp:104-156). -/
structure Edge (V C : Type) where
  next : V
  euclid : C
  cost : Option C
deriving DecidableEq

/-- What the expansion depends on. -/
structure Env (V C : Type) where
  /-- steps from a cell that stay in the map, distance_map.cpp:104-113 -/
  nexts : V → List (Edge V C)
  /-- `-p_.euclid_cost[0] * 0.5`, distance_map.cpp:372 -/
  base : C
  /-- `center.p_raw_ - range_overshoot > start_cost`, distance_map.cpp:84 -/
  cut : C → C → Bool
  /-- `num_cost_estim_task_` -/
  tasks : Nat
  /-- `!v.isExceeded(cm_rough_.size())` -/
  inMap : V → Bool
  /-- the four direct neighbours inside the map, distance_map.cpp:311-320 -/
  neigh4 : V → List V

/-- State during `fillCostmap`: `g_`, the queue (`p_ = p_raw_` for every entry, so one value) and
`edges_buf_`. -/
structure FSt (V C : Type) where
  g : V → C
  open_ : List (C × V)
  edges : V → Bool

variable {V C : Type} [DecidableEq V] [CostType C]

/-- Fetching the centers, distance_map.cpp:74-91: stale entries are skipped, entries beyond the range
are remembered as edges, others are taken, until `n` are taken or the queue is empty. -/
inductive Fetch (E : Env V C) (g : V → C) (sc : C) :
    Nat → List (C × V) → (V → Bool) → List (C × V) → List (C × V) → (V → Bool) → Prop
  | full (o ed) : Fetch E g sc 0 o ed [] o ed
  | empty (n ed) : Fetch E g sc (n + 1) [] ed [] [] ed
  | stale {n o ed e rest cs o' ed'} (hp : List.Perm o (e :: rest)) (hmin : ∀ x ∈ o, e.1 ≤ x.1)
      (h : e.1 > g e.2) (hc : Fetch E g sc (n + 1) rest ed cs o' ed') :
      Fetch E g sc (n + 1) o ed cs o' ed'
  | cut {n o ed e rest cs o' ed'} (hp : List.Perm o (e :: rest)) (hmin : ∀ x ∈ o, e.1 ≤ x.1)
      (h : ¬ e.1 > g e.2) (hcut : E.cut e.1 sc = true)
      (hc : Fetch E g sc (n + 1) rest (setF ed e.2 true) cs o' ed') :
      Fetch E g sc (n + 1) o ed cs o' ed'
  | take {n o ed e rest cs o' ed'} (hp : List.Perm o (e :: rest)) (hmin : ∀ x ∈ o, e.1 ≤ x.1)
      (h : ¬ e.1 > g e.2) (hcut : E.cut e.1 sc = false)
      (hc : Fetch E g sc n rest ed cs o' ed') :
      Fetch E g sc (n + 1) o ed (e :: cs) o' ed'

/-- Update or edge mark produced by one step of one center, distance_map.cpp:102-161. -/
inductive Act (V C : Type) where
  | upd (x : V) (cost : C)
  | edge (p : V)

def expandOne (g : V → C) (e : C × V) (d : Edge V C) : Option (Act V C) :=
  if g d.next ≤ g e.2 + d.euclid then none
  else match d.cost with
    | none => some (.edge e.2)
    | some w => if g d.next > e.1 + w then some (.upd d.next (e.1 + w)) else none

def expand (E : Env V C) (g : V → C) (e : C × V) : List (Act V C) :=
  (E.nexts e.2).filterMap (expandOne g e)

/-- Application in the critical section, distance_map.cpp:164-178. -/
def applyAct (s : FSt V C) : Act V C → FSt V C
  | .upd x c => if s.g x > c then { s with g := setF s.g x c, open_ := (c, x) :: s.open_ } else s
  | .edge p => { s with edges := setF s.edges p true }

/-- One round of the `while (true)` loop, distance_map.cpp:69-179. -/
inductive Round (E : Env V C) (start : V) : FSt V C → FSt V C → Prop
  | mk {s cs o' ed' acts} (hf : Fetch E s.g (s.g start) E.tasks s.open_ s.edges cs o' ed')
      (hne : cs ≠ []) (hp : List.Perm acts (cs.flatMap (expand E s.g))) :
      Round E start s (acts.foldl applyAct { s with open_ := o', edges := ed' })

/-- `fillCostmap`, distance_map.cpp:46-181, as a relation between the state at entry (after
`std::fill(edges_buf_, false)`) and at exit. -/
inductive Fill (E : Env V C) (start : V) : FSt V C → FSt V C → Prop
  | done {s o' ed'} (hf : Fetch E s.g (s.g start) E.tasks s.open_ s.edges [] o' ed') :
      Fill E start s { s with open_ := o', edges := ed' }
  | more {s s1 s'} : Round E start s s1 → Fill E start s1 s' → Fill E start s s'

/-- The object: `g_`, `edges_buf_`, `goal_` (`none` is the initial `(-1,-1,-1)`), distance_map.h. -/
structure DM (V C : Type) where
  g : V → C
  edges : V → Bool
  goal : Option V

/-- `DistanceMap::init` as far as the stored values go, distance_map.cpp:198-210 and 247 (`resize` keeps old edge flags
when the size does not change; a fresh object is modelled). -/
def initDM : DM V C := ⟨fun _ => 0, fun _ => false, none⟩

/-- `DistanceMap::create`, distance_map.cpp:356-376. -/
inductive Create (E : Env V C) (s e : V) : DM V C → DM V C → Prop
  | out {m} (h : E.inMap s = false ∨ E.inMap e = false) : Create E s e m { m with goal := some e }
  | fill {m f} (hs : E.inMap s = true) (he : E.inMap e = true)
      (hf : Fill E s ⟨setF (fun _ => CostType.top) e E.base, [(E.base, e)], fun _ => false⟩ f) :
      Create E s e m ⟨setF f.g e 0, f.edges, some e⟩

/-- Minimum over the updated rectangle with its first position, distance_map.cpp:261-273. -/
def rectMin (g : V → C) : List V → V × C → V × C
  | [], r => r
  | p :: ps, r => if r.2 > g p then rectMin g ps (p, g p) else rectMin g ps r

/-- One step of the erasing flood, distance_map.cpp:299-334; the queue is a bag (all priorities are 0,
so any entry may be taken). State: `g_`, erase queue, open queue, edges. -/
inductive Erase (E : Env V C) (cmin : C) :
    (V → C) × List V × List (C × V) × (V → Bool) → (V → C) × List V × List (C × V) × (V → Bool) → Prop
  | nil {g o ed} : Erase E cmin (g, [], o, ed) (g, [], o, ed)
  | skip {g q p rest o ed r} (hp : List.Perm q (p :: rest)) (h : g p = CostType.top)
      (hr : Erase E cmin (g, rest, o, ed) r) : Erase E cmin (g, q, o, ed) r
  | erase {g q p rest o ed r} (hp : List.Perm q (p :: rest)) (h : g p ≠ CostType.top)
      (hr : Erase E cmin
        (let g' := setF g p CostType.top
         let ns := (E.neigh4 p).filter (fun x => decide (g' x ≠ CostType.top))
         (g', (ns.filter (fun x => decide (¬ g' x < cmin))) ++ rest,
          (ns.filter (fun x => decide (g' x < cmin))).map (fun x => (g' x, x)) ++ o,
          fun x => if x ∈ ns ∧ ¬ g' x < cmin then false else ed x)) r) :
      Erase E cmin (g, q, o, ed) r

/-- `DistanceMap::update`, distance_map.cpp:250-354.  `cells` enumerates the cells of the map (for the
edge loop 336-346); `rect` enumerates the rectangle. -/
inductive Update (E : Env V C) (cells : List V) (s e : V) (rect : List V) : DM V C → DM V C → Prop
  | newGoal {m m'} (h : m.goal ≠ some e) (hc : Create E s e m m') : Update E cells s e rect m m'
  | goalInRect {m m'} (h : m.goal = some e) (h0 : (rectMin m.g rect (e, CostType.top)).2 = 0)
      (hc : Create E s e m m') : Update E cells s e rect m m'
  | out {m} (h : m.goal = some e) (h0 : (rectMin m.g rect (e, CostType.top)).2 ≠ 0)
      (ho : E.inMap s = false ∨ E.inMap e = false) : Update E cells s e rect m m
  | run {m g q o ed f} (h : m.goal = some e) (h0 : (rectMin m.g rect (e, CostType.top)).2 ≠ 0)
      (hs : E.inMap s = true) (he : E.inMap e = true)
      (her : Erase E (rectMin m.g rect (e, CostType.top)).2
        (m.g,
         (if m.g s > (rectMin m.g rect (e, CostType.top)).2 then [s] else []) ++
         (if (rectMin m.g rect (e, CostType.top)).2 ≠ CostType.top
          then [(rectMin m.g rect (e, CostType.top)).1] else []), [], m.edges) (g, q, o, ed))
      (hf : Fill E s ⟨g,
        (let o1 := (cells.filter (fun v => ed v)).map (fun v => (g v, v)) ++ o
         if o1 = [] then [(E.base, e)] else o1), fun _ => false⟩ f) :
      Update E cells s e rect m ⟨f.g, f.edges, m.goal⟩

end Verif.DistMap
