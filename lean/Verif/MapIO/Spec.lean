import Verif.MapIO.Model
/-! # Specification vocabulary for map files -/
namespace Verif.MapIO.Spec
open Verif.MapIO

/-- Free and occupied stay, everything else is unknown. -/
def trinary (v : Int) : Int := if v = 0 ∨ v = 100 then v else -1

/-- A well-formed grid message. -/
def Valid (g : Grid) : Prop := g.data.length = g.info.width * g.info.height

/-- Equal up to the six printed decimals. -/
def Near (a b : ℚ) : Prop := |a - b| ≤ 1 / 2000000

/-- The loaded grid is the saved one with trinary content and metadata to six decimals. -/
def SameMap (g g' : Grid) : Prop :=
  g'.data = g.data.map trinary ∧ g'.info.width = g.info.width ∧ g'.info.height = g.info.height ∧
  Near g'.info.resolution g.info.resolution ∧ Near g'.info.x g.info.x ∧ Near g'.info.y g.info.y ∧
  Near g'.info.z g.info.z ∧ Near g'.info.yaw g.info.yaw

end Verif.MapIO.Spec
