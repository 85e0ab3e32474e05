import Verif.Props.RaisesWitness
/-
C77, a polygon for which AttributeError is raised.
-/
namespace Polyskel
open Scalar

/-- a closed line with nine corners that crosses itself -/
def tangle : List (Int × Int) :=
  [(67, 52), (93, 85), (61, 61), (67, 35), (10, 67), (87, 45), (97, 3), (29, 80), (78, 21)]

/-- C77: a vertex that is still valid has no LAV (its `lav` is None), and the code reads an attribute of it; in the
model these are the only places of `polygonize` that raise AttributeError.  The closed line is no simple polygon;
no simple one is known for which this happens. -/
theorem C77_attribute_witness : simpleZ tangle = false ∧
    ((polygonize rt0 60 (simpleCall tangle 1 1)).map fun r =>
      decide (r.result = .error .attribute)) = some true :=
  ⟨by decide +kernel, by decide +kernel⟩

end Polyskel
