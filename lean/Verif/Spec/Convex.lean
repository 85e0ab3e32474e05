import Mathlib.Analysis.SpecialFunctions.Trigonometric.Basic
import Verif.Model.Euclid
import Verif.Spec.Exact
/-
The vocabulary of C27: convex contours.
-/
namespace Polyskel
open Real

/-- the unit vector with the angle `t` -/
noncomputable def unitDir (t : ℝ) : V2 ℝ := ⟨cos t, sin t⟩

/-- A convex contour: the directions of the edges have angles that grow from edge to edge, by at
most a half turn each time, and one full turn altogether. -/
def ConvexContour (c : List (Edge2 ℝ)) : Prop :=
  ∃ t : Nat → ℝ, (∀ (i : Nat) (hi : i < c.length), c[i].norm = unitDir (t i)) ∧
    (∀ i, i + 1 < c.length → t i ≤ t (i + 1) ∧ t (i + 1) ≤ t i + π) ∧
    t (c.length - 1) ≤ t 0 + 2 * π ∧ t 0 + 2 * π ≤ t (c.length - 1) + π

/-- A strictly convex polygon, in terms of its points: the edges form a closed ring, each has the unit
vector of its direction, and each vertex that is not on an edge lies to the left of it. -/
structure ConvexPolygon (c : List (Edge2 ℝ)) : Prop where
  ring : ∀ (i : Nat) (h : i + 1 < c.length), c[i].p2 = c[i + 1].p1
  last : ∀ h : 0 < c.length, (c[c.length - 1]).p2 = c[0].p1
  unit : ∀ e ∈ c, e.norm.x ^ 2 + e.norm.y ^ 2 = 1
  along : ∀ e ∈ c, ∃ r > 0, e.p2.x - e.p1.x = r * e.norm.x ∧ e.p2.y - e.p1.y = r * e.norm.y
  left : ∀ e ∈ c, ∀ f ∈ c, f.p1 ≠ e.p1 → f.p1 ≠ e.p2 →
    0 < e.norm.x * (f.p1.y - e.p1.y) - e.norm.y * (f.p1.x - e.p1.x)
  distinct : (c.map (·.p1)).Nodup

end Polyskel
