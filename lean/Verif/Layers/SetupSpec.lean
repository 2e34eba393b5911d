import Verif.Layers.SetupModel
import Mathlib.Data.List.Forall2
/-! # Specification: the chain of layers a configuration asks for -/
namespace Verif.Layers.Setup.Spec
open Verif.Layers.Setup

/-- The layer reached from the root by following the child pointer `k` times. -/
def follow (s : Chain) : Nat → Option Nat
  | 0 => s.costmaps.head?
  | k + 1 => (follow s k).bind fun i => (s.nodes[i]?).bind (·.child)

/-- Its object. -/
def layerAt (s : Chain) (k : Nat) : Option Node := (follow s k).bind fun i => s.nodes[i]?

/-- Each layer reads the map object that the previous one writes, and no two layers write the same map; the root's input is no layer's output. -/
def MapsPassedOn (s : Chain) : Prop :=
  (∀ k a b, layerAt s k = some a → layerAt s (k + 1) = some b → b.input = a.output) ∧
  (∀ j k a b, layerAt s j = some a → layerAt s k = some b → a.output = b.output → j = k) ∧
  (∀ k a b, layerAt s 0 = some a → layerAt s k = some b → a.input ≠ b.output)

/-- The entry names a class and, if it names an overlay mode, a known one. -/
def Valid (x : LayerXml) (k : Kind) (m : Overlay) : Prop :=
  (x.type, k) ∈ [(some "Costmap3dLayerFootprint", Kind.footprint), (some "Costmap3dLayerPlain", .plain),
    (some "Costmap3dLayerStopPropagation", .stopPropagation), (some "Costmap3dLayerUnknownHandle", .unknownHandle)] ∧
  (x.overlayMode, m) ∈ [(none, Overlay.max), (some "max", .max), (some "overwrite", .overwrite)]

/-- The entries ask for these layers, in this order. -/
def Asks (xs : List LayerXml) (ls : List (Kind × Overlay)) : Prop := List.Forall₂ (fun x l => Valid x l.1 l.2) xs ls

/-- The layers asked for by a list parameter that, if given, has at least one entry. -/
def AsksParam (p : Option (List LayerXml)) (ls : List (Kind × Overlay)) : Prop :=
  match p with
  | some xs => xs ≠ [] ∧ Asks xs ls
  | none => ls = []

/-- The layers after the static output; without the parameter `layers` there is one footprint layer. -/
def AsksDynamic (c : Config) (ls : List (Kind × Overlay)) : Prop :=
  match c.layers with
  | some xs => xs ≠ [] ∧ Asks xs ls
  | none => ∃ m, (c.overlayMode, m) ∈ [(none, Overlay.max), (some "max", .max), (some "overwrite", .overwrite)] ∧ ls = [(.footprint, m)]

/-- The names of the overlay topics after the static output. -/
def dynamicNames (c : Config) : List String :=
  match c.layers with
  | some xs => xs.map LayerXml.name
  | none => ["map_overlay"]

/-- The topics of the overlays, with the place in the chain of the layer each should feed. -/
def topics (c : Config) : List (String × Nat) :=
  let st := (c.staticLayers.getD []).map (·.name)
  st.zipIdx 1 ++ (dynamicNames c).zipIdx (st.length + 2)

end Verif.Layers.Setup.Spec
