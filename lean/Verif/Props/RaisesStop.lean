import Verif.Props.RaisesWitness
/-
C77, contours that overlap.
-/
namespace Polyskel
open Scalar

/-- C77: StopIteration leaves the removal of spikes when the hole is a triangle around the polygon. -/
theorem C77_stopIteration_witness :
    ((polygonize rt0 60
      { verts := ground [(1, 4), (3, 3), (2, 1), (4, 0), (0, 5), (6, 6)], first := 0, num := 3, holes := some [(3, 3)],
        height := sq 0, tan := sq 1 1 }).map fun r =>
      decide (r.result = .error .stopIteration)) = some true := by
  decide +kernel

end Polyskel
