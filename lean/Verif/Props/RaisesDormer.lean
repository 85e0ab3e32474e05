import Verif.Props.RaisesWitness
/-
C77, a polygon with a bay for which TypeError is raised.
-/
namespace Polyskel
open Scalar

/-- a house with a narrow bay whose sides have the lengths 5 and 7 -/
def unevenBay : List (Int × Int) := [(0, 5), (6, 5), (6, 0), (7, 0), (7, 7), (14, 7), (14, 15), (0, 15)]

/-- C77: the bay is taken for a dormer, but the bisectors of its two reflex corners do not meet, because the
sides of the bay differ by more than its width; None becomes a node of the skeleton, and the call raises
TypeError. -/
theorem C77_type_witness : simpleZ unevenBay = true ∧ 0 < areaZ unevenBay ∧
    ((polygonize rt0 60 (simpleCall unevenBay 1 1)).map fun r =>
      decide (r.result = .error .typeError)) = some true :=
  ⟨by decide +kernel, by decide +kernel, by decide +kernel⟩

end Polyskel
