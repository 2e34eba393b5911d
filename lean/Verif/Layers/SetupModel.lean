/-! # Model of how the costmap node builds its chain of layers

`costmap_cspace/src/costmap_3d.cpp` 206–381, `costmap_cspace/include/costmap_cspace/costmap_3d.h`, `costmap_3d_layer/class_loader.h`,
`costmap_3d_layers.cpp` and `setChild` of `costmap_3d_layer/base.h`.  Layers are heap objects: a pointer is an index into `nodes`.
`none` means that the node does not start (an exception, or a failing assertion).  Simplified: exceptions of `loadConfig` and of the
footprint parser are not modelled, every entry has a name, and the layers' own parameters are left out. -/
namespace Verif.Layers.Setup

/-- base.h: `MapOverlayMode`. -/
inductive Overlay where
  | overwrite
  | max
deriving DecidableEq

/-- The classes of costmap_3d_layers.cpp 38–57, and the two output layers. -/
inductive Kind where
  | footprint
  | plain
  | stopPropagation
  | unknownHandle
  | staticOutput
  | updateOutput
deriving DecidableEq

/-- A layer object: class, `overlay_mode_`, `root_`, `child_` and the identities of the map objects `map_` and `map_overlay_` (base.h 259–265). -/
structure Node where
  kind : Kind
  mode : Overlay
  root : Bool
  child : Option Nat
  input : Nat
  output : Nat
deriving DecidableEq

/-- The heap, `costmaps_` (costmap_3d.h 51) and the subscriptions with the layer they feed (`sub_map_overlay_`). -/
structure Chain where
  nodes : List Node
  costmaps : List Nat
  subs : List (String × Nat)
deriving DecidableEq

/-- One entry of `static_layers` or `layers`; `none` where the entry has no string of that name. -/
structure LayerXml where
  name : String
  overlayMode : Option String
  type : Option String
deriving DecidableEq

/-- Parameters, costmap_3d.cpp 193–360. -/
structure Config where
  angResolution : Int
  staticLayers : Option (List LayerXml)
  layers : Option (List LayerXml)
  overlayMode : Option String

/-- `Costmap3dLayerClassLoader::loadClass`, class_loader.h 71–78, with the classes registered in costmap_3d_layers.cpp 40–57. -/
def loadClass (name : String) : Option Kind :=
  if name = "Costmap3dLayerFootprint" then some .footprint
  else if name = "Costmap3dLayerPlain" then some .plain
  else if name = "Costmap3dLayerStopPropagation" then some .stopPropagation
  else if name = "Costmap3dLayerUnknownHandle" then some .unknownHandle
  else none

/-- `getMapOverlayModeFromString`, costmap_3d.cpp 164–177. -/
def overlayOf (s : String) : Option Overlay :=
  if s = "overwrite" then some .overwrite else if s = "max" then some .max else none

/-- Constructor, base.h 271–278: the `i`th object makes two new maps, which get the numbers `2 i` and `2 i + 1`. -/
def newLayer (k : Kind) (m : Overlay) (i : Nat) : Node := ⟨k, m, true, none, 2 * i, 2 * i + 1⟩

/-- `addRootLayer`, costmap_3d.h 63–77. -/
def addRootLayer (s : Chain) (k : Kind) : Chain :=
  { s with nodes := s.nodes ++ [newLayer k .max s.nodes.length], costmaps := [s.nodes.length] }

/-- `setChild`, base.h 293–298, with `setMap` and `getMapOverlay`, 382–389. -/
def setChild (ns : List Node) (parent child : Nat) : List Node :=
  match ns[parent]? with
  | none => ns
  | some p => (ns.modify parent fun n => { n with child := some child }).modify child fun n => { n with root := false, input := p.output }

/-- `addLayer`, costmap_3d.h 78–102; `none` is `back()` of an empty vector. -/
def addLayer (s : Chain) (k : Kind) (m : Overlay) : Option Chain :=
  match s.costmaps.getLast? with
  | none => none
  | some l =>
    some { s with nodes := setChild (s.nodes ++ [newLayer k m s.nodes.length]) l s.nodes.length, costmaps := s.costmaps ++ [s.nodes.length] }

/-- The overlay mode of an entry, costmap_3d.cpp 254–259 and 320–325. -/
def modeOf (o : Option String) : Option Overlay :=
  match o with
  | some m => overlayOf m
  | none => some .max

/-- Loop body, costmap_3d.cpp 250–283 and 316–350. -/
def addListed (s : Chain) (x : LayerXml) : Option Chain :=
  (modeOf x.overlayMode).bind fun mode => (x.type.bind loadClass).bind fun kind =>
    (addLayer s kind mode).bind fun s' => some { s' with subs := s'.subs ++ [(x.name, s.nodes.length)] }

/-- The loops, costmap_3d.cpp 232–284 and 298–350: at least one entry. -/
def addAll (s : Chain) (xs : List LayerXml) : Option Chain :=
  if xs.length < 1 then none else xs.foldlM addListed s

/-- The static layers, costmap_3d.cpp 227–285. -/
def staticPart (c : Config) (s : Chain) : Option Chain :=
  match c.staticLayers with
  | some xs => addAll s xs
  | none => some s

/-- The other layers, costmap_3d.cpp 294–378. -/
def dynamicPart (c : Config) (s : Chain) : Option Chain :=
  match c.layers with
  | some xs => addAll s xs
  | none => (overlayOf (c.overlayMode.getD "max")).bind fun mode =>
      (addLayer s .footprint mode).bind fun s' => some { s' with subs := s'.subs ++ [("map_overlay", s.nodes.length)] }

/-- The constructor, costmap_3d.cpp 215–381; the assertion on the angular resolution is costmap_3d.h 61. -/
def build (c : Config) : Option Chain :=
  if c.angResolution > 0 then
    (staticPart c (addRootLayer ⟨[], [], []⟩ .footprint)).bind fun s =>
      (addLayer s .staticOutput .max).bind fun s => (dynamicPart c s).bind fun s => addLayer s .updateOutput .max
  else none

end Verif.Layers.Setup
