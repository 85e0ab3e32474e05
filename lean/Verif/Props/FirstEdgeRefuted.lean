import Verif.Spec.Samples
import Verif.Props.FirstEdge
/-
C41: a polygon for which the documented property of the returned faces does not hold.  (In a file of
its own because checking the run takes a few minutes.)
-/
namespace Polyskel

/-- C41 is false as documented: for this polygon with seven corners spike removal merges two faces
and turns the result so that it starts 6, 7, where 7 is a node (the polygon has the vertices 0 to 6). -/
theorem C41_refuted : (polygonize rt0 60
      (simpleCall [(0, 1), (4, 5), (4, 4), (3, 0), (8, 3), (4, 8), (4, 6)] 1 2)).map (·.result) =
    some (.ok [[6, 0, 7], [6, 7, 1, 2, 8, 9, 4, 5], [0, 1, 7], [2, 3, 9, 8], [3, 4, 9]]) := by
  decide +kernel

end Polyskel
