import Verif.Props.NewEvents
/-
C72, where it fails: a hole that is joined to the outer contour.
-/
namespace Polyskel
open Scalar

/-- the first event of the run of `C72_hole_refuted` joins two loops (as in `C72_join`) -/
example : (match startLoop [ringEdges [(15, 27), (3, 4), (6, 0), (19, 5)],
        holeEdges 4 [(14, 9), (16, 7), (10, 3)]] with
      | .ok lp => match moments 1 lp with
        | (st, .split e) :: _ => (match splitSearch st e st.slav with
          | .ok (some (x, _)) => decide ((st.vs[x]?).map Vtx.lav = some (some 0) ∧
              (st.vs[e.vertex]?).map Vtx.lav = some (some 1) ∧
              (st.vs[e.vertex]?).map Vtx.valid = some true)
          | _ => false)
        | _ => false
      | _ => false) = true := by
  decide +kernel

/-- C72 does not hold when a hole is joined to the outer contour.  A quadrangle with a triangular hole: the
first event joins them, and the vertex 8 which it makes has the neighbours 2 and 4, about which nobody
asks.  Only five faces come out, though the polygon and its hole have seven edges. -/
theorem C72_hole_refuted :
    missed [ringEdges [(15, 27), (3, 4), (6, 0), (19, 5)], holeEdges 4 [(14, 9), (16, 7), (10, 3)]] 1 =
      some [(0, 2, 8), (0, 8, 4)] ∧
    ((polygonize rt0 60
      { verts := ground [(15, 27), (3, 4), (6, 0), (19, 5), (14, 9), (16, 7), (10, 3)], first := 0,
        num := 4, holes := some [(4, 3)], height := sq 0, tan := sq 1 1 }).map (fun r =>
      decide (r.result = .ok [[3, 0, 12, 11, 8, 9], [2, 3, 9, 7, 13, 12, 0, 1, 10],
        [1, 2, 10, 13, 7, 6, 4, 11, 12, 13, 10], [5, 6, 7, 9, 8], [4, 5, 8, 11]]))) = some true := by
  decide +kernel

end Polyskel
