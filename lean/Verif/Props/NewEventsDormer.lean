import Verif.Props.NewEvents
/-
C72, where it fails: the event of a dormer.
-/
namespace Polyskel
open Scalar

/-- the first event of the run of `C72_dormer_refuted` is that of a dormer (as in `C72_dormer`) -/
example : (match startLoop [ringEdges [(0, 0), (3, 0), (3, -1), (5, -1), (5, 0), (8, 0), (28, 20), (28, 60),
        (-20, 60), (-20, 20)]] with
      | .ok lp => match moments 1 lp with
        | (st, .dormer d p e0 e1 e2) :: _ => (match handleEvent st (.dormer d p e0 e1 e2) with
          | .ok (some r) => decide (r.2.1.length = 2)
          | _ => false)
        | _ => false
      | _ => false) = true := by
  decide +kernel

/-- C72 does not hold after a dormer event.  A polygon of ten edges with a dormer in the side between the
vertices 0 and 5: the first event removes the dormer and makes the two neighbours, and nobody asks about
them, so that the side goes on when it should have vanished.  Only seven faces come out, of which two cross
themselves; without the dormer the six edges get six faces. -/
theorem C72_dormer_refuted :
    missed [ringEdges [(0, 0), (3, 0), (3, -1), (5, -1), (5, 0), (8, 0), (28, 20), (28, 60), (-20, 60),
      (-20, 20)]] 1 = some [(0, 0, 5)] ∧
    ((polygonize rt0 60 (simpleCall [(0, 0), (3, 0), (3, -1), (5, -1), (5, 0), (8, 0), (28, 20), (28, 60),
      (-20, 60), (-20, 20)] 1 1)).map (fun r =>
      decide (r.result = .ok [[9, 0, 15, 14, 5, 6, 13, 14, 15], [8, 9, 15, 0, 1, 11, 4, 5, 14, 13, 12],
        [1, 2, 10, 11], [2, 3, 10], [3, 4, 11, 10], [6, 7, 12, 13], [7, 8, 12]]))) = some true ∧
    ((polygonize rt0 60 (simpleCall [(0, 0), (8, 0), (28, 20), (28, 60), (-20, 60), (-20, 20)] 1 1)).map
      (fun r => decide (r.result = .ok [[5, 0, 6, 7], [4, 5, 7, 8], [0, 1, 6], [1, 2, 7, 6], [2, 3, 8, 7],
        [3, 4, 8]]))) = some true := by
  decide +kernel

end Polyskel
