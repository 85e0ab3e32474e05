import Verif.Props.RaisesWitness
/-
C77, a valid polygon with a hole for which the main loop raises.
-/
namespace Polyskel
open Scalar

/-- C77: a hexagon with a hole inside makes `_LAV.__iter__` raise RuntimeError. -/
theorem C77_runtime_witness : holedZ hexagonHole.1 hexagonHole.2 = true ∧
    ((polygonize rt0 60
      { verts := ground (hexagonHole.1 ++ hexagonHole.2), first := 0, num := 6, holes := some [(6, 4)],
        height := sq 0, tan := sq 1 1 }).map fun r =>
      decide (r.result = .error .runtime)) = some true :=
  ⟨by decide +kernel, by decide +kernel⟩

end Polyskel
