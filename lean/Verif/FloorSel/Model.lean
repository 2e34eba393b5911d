/-!
# Model of the floor selection node (`map_organizer/src/select_map.cpp`)

A map is its content (arbitrary type `M`, everything but the altitude) with the altitude `info.origin.position.z` (type `Z`).
-/
namespace Verif.FloorSel

inductive Event (M Z : Type) where
  | maps (ms : List (M × Z))
  | floor (f : Int)
  /-- one turn of the main loop after `spinOnce` -/
  | tick

/-- Globals and locals, select_map.cpp:41-43, 79-85.  `maps` keeps original altitudes (`orig_mapinfos`); the stored
messages have altitude 0. -/
structure St (M Z : Type) where
  maps : List (M × Z)
  floorCur : Int
  floorPrev : Int
  transZ : Z

/-- Effects of a turn: the map message published on the latched topic, and the altitude broadcast. -/
structure Out (M Z : Type) where
  map : Option (M × Z)
  trans : Option Z
deriving DecidableEq

variable [Zero Z]

/-- select_map.cpp:41-43, 79-85. -/
def init : St M Z := ⟨[], 0, -1, 0⟩

/-- One turn of the loop, select_map.cpp:91-108. -/
def tick (s : St M Z) : St M Z × Out M Z :=
  if s.maps.length = 0 then (s, ⟨none, none⟩)
  else if s.floorCur ≠ s.floorPrev then
    if s.floorCur ≥ 0 ∧ s.floorCur < (s.maps.length : Int) then
      match s.maps[s.floorCur.toNat]? with
      | some m => ({ s with floorPrev := s.floorCur, transZ := m.2 }, ⟨some (m.1, 0), some m.2⟩)
      | none => (s, ⟨none, none⟩) -- not reached: the index was checked
    else ({ s with floorPrev := s.floorCur }, ⟨none, some s.transZ⟩)
  else (s, ⟨none, some s.transZ⟩)

/-- `cbMaps` (select_map.cpp:45-55), `cbFloor` (56-59) and the loop. -/
def step (s : St M Z) : Event M Z → St M Z × Out M Z
  | .maps ms => ({ s with maps := ms }, ⟨none, none⟩)
  | .floor f => ({ s with floorCur := f }, ⟨none, none⟩)
  | .tick => tick s

/-- After a history, newest event first. -/
def run : List (Event M Z) → St M Z
  | [] => init
  | e :: h => (step (run h) e).1

def output (h : List (Event M Z)) (e : Event M Z) : Out M Z := (step (run h) e).2

end Verif.FloorSel
