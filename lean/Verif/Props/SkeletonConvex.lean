import Verif.Props.ConvexDistance
import Verif.Props.HipRoof
/-
C45 for the result of `skeletonize`.
-/
namespace Polyskel
open Scalar Geo

/-- C45 for what `skeletonize` returns, over a strictly convex polygon with the hypotheses of C62: the height
of each node is its distance from the boundary of the polygon: no point of an edge is nearer, and there is
one that is just as near.  (What is missing: other polygons.  For polygons with a dormer the property is
false, `C45_refuted`.) -/
theorem C45_skeleton_partial (c : List (Edge2 ℝ)) (hc : ConvexPolygon c) (h3 : 3 ≤ c.length) (hsep : Separated c)
    (hbl : Blunt c) (hap : NodesApart c) (fuel : Nat) (hf : 4 * c.length + 1 ≤ fuel) :
    ∃ sk, skeletonize fuel [c] = some (.ok sk) ∧ 1 ≤ sk.length ∧ ∀ a ∈ sk,
      (∀ e ∈ c, ∀ u, 0 ≤ u → u ≤ 1 → a.height ≤ eucl a.source (between e.p1 e.p2 u)) ∧
      ∃ e ∈ c, ∃ u, 0 ≤ u ∧ u ≤ 1 ∧ eucl a.source (between e.p1 e.p2 u) = a.height := by
  obtain ⟨sk, h1, h2, -, h4, -⟩ := C62_skeleton c hc h3 hsep hbl hap fuel hf
  exact ⟨sk, h1, h2, fun a ha => (h4 a ha).node.distance hc h3⟩

/-- a case: a rectangle of 8 by 5 -/
example : ∃ sk, skeletonize 17 [rectSides ⟨1, 2⟩ ⟨3 / 5, 4 / 5⟩ 8 5 0] = some (.ok sk) ∧ 1 ≤ sk.length ∧ ∀ a ∈ sk,
    a.height = 5 / 2 := by
  have hu : (⟨3 / 5, 4 / 5⟩ : V2 ℝ).x ^ 2 + (⟨3 / 5, 4 / 5⟩ : V2 ℝ).y ^ 2 = 1 := by norm_num
  have hs : sides 0 4 (rectCorner ⟨1, 2⟩ ⟨3 / 5, 4 / 5⟩ 8 5) = rectSides ⟨1, 2⟩ ⟨3 / 5, 4 / 5⟩ 8 5 0 :=
    sides_rectangle hu (by norm_num) (by norm_num) 0
  have hc : ConvexPolygon (rectSides ⟨1, 2⟩ ⟨3 / 5, 4 / 5⟩ 8 5 0) := by
    rw [← hs]
    refine sides_convex (by omega) fun i j hi hj h1 h2 => ?_
    have hi' : i = 0 ∨ i = 1 ∨ i = 2 ∨ i = 3 := by omega
    have hj' : j = 0 ∨ j = 1 ∨ j = 2 ∨ j = 3 := by omega
    rcases hi' with rfl | rfl | rfl | rfl <;> rcases hj' with rfl | rfl | rfl | rfl <;>
      simp at h1 h2 <;> simp only [rectCorner, Nat.reduceAdd, Nat.reduceMod, locPoint_area hu] <;> norm_num
  have hb := rect_blunt (O := ⟨1, 2⟩) (w := 8) (d := 5) hu (by norm_num) (by norm_num) 0
  have hsep := rect_separated (O := ⟨1, 2⟩) (w := 8) (d := 5) hu (by norm_num [abs_of_pos]) 0
  have hap := rect_apart (O := ⟨1, 2⟩) (w := 8) (d := 5) hu (by norm_num [abs_of_pos]) 0
  obtain ⟨sk, h1, h2, h3⟩ := C45_skeleton_partial _ hc (by simp [rectSides]) hsep hb hap 17 (by simp [rectSides])
  obtain ⟨sk', k1, -, -, k4, -⟩ := C62_skeleton _ hc (by simp [rectSides]) hsep hb hap 17 (by simp [rectSides])
  rw [h1] at k1
  cases k1
  refine ⟨sk, h1, h2, fun a ha => ?_⟩
  have := (rect_node_at hu (k4 a ha).node).1
  rw [this]
  norm_num

end Polyskel
