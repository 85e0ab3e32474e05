import Verif.Spec.Exact
import Verif.Spec.Geometry
import Verif.Model.Skel
import Mathlib.Data.Real.Basic
/-
What it means for the roof over any polygon, with or without holes, to consist of planes (exact
arithmetic).
-/
namespace Polyskel
open Scalar

/-- the signed distance of a point from the line of an edge with a unit vector, positive on its left:
the height of the plane that rises from the edge at 45° over the point -/
def planeHeight (e : Edge2 ℝ) (q : V2 ℝ) : ℝ :=
  e.norm.x * (q.y - e.p1.y) - e.norm.y * (q.x - e.p1.x)

/-- the turn from the direction of the one edge to that of the other: the sine of the angle -/
def edgeTurn (e f : Edge2 ℝ) : ℝ := e.norm.x * f.norm.y - e.norm.y * f.norm.x

/-- `e` and `f` are consecutive edges of one of the contours. -/
def Corner (cs : List (List (Edge2 ℝ))) (e f : Edge2 ℝ) : Prop :=
  ∃ c ∈ cs, ∃ i, i < c.length ∧ c[i]? = some e ∧ c[(i + 1) % c.length]? = some f

/-- Closed contours of edges with positive length and the unit vectors of their directions. -/
structure Contours (cs : List (List (Edge2 ℝ))) : Prop where
  closed : ∀ e f, Corner cs e f → e.p2 = f.p1
  unit : ∀ e ∈ cs.flatten, e.norm.x ^ 2 + e.norm.y ^ 2 = 1
  along : ∀ e ∈ cs.flatten, ∃ r > 0, e.p2.x - e.p1.x = r * e.norm.x ∧
    e.p2.y - e.p1.y = r * e.norm.y

/-- Reflex corners are not right-angled (up to the tolerance 0.00001 of the code), and the line of
another edge passes through the corner or meets the lines of its two edges not nearer than mathutils
can normalise. -/
def NoRightAngles (cs : List (List (Edge2 ℝ))) : Prop :=
  ∀ e f, Corner cs e f → edgeTurn e f < 0 → 1 / 100000 ≤ |edgeTurn e f + 1| ∧
    ∀ o ∈ cs.flatten, ∀ q, planeHeight o q = 0 → (planeHeight e q = 0 ∨ planeHeight f q = 0) →
      q ≠ f.p1 → 1 / 10 ^ 35 < (q.x - f.p1.x) ^ 2 + (q.y - f.p1.y) ^ 2

/-- The connection from the node `a` to its sink `s` lies in the planes of two edges that are not
parallel and equally directed: both planes have the recorded height at the node, and meet at the
sink, where there is a corner between the two edges, or a node whose recorded height they have. -/
def Ridge (cs : List (List (Edge2 ℝ))) (out : List (Subtree ℝ)) (a : Subtree ℝ) (s : V2 ℝ) : Prop :=
  ∃ e ∈ cs.flatten, ∃ f ∈ cs.flatten, e.norm ≠ f.norm ∧
    planeHeight e a.source = a.height ∧ planeHeight f a.source = a.height ∧
    planeHeight e s = planeHeight f s ∧
    ((e.p2 = s ∧ f.p1 = s) ∨ ∃ b ∈ out, b.source = s ∧ b.height = planeHeight e s)

end Polyskel
