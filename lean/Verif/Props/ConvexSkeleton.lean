import Verif.Proofs.SweepStart
import Verif.Props.Convex
/-
C60: on a strictly convex polygon the main loop finds the roof.  C59, the positive part.
-/
namespace Polyskel
open Scalar Real Geo

/-- C60, for runs in order: on a strictly convex polygon with `n` edges, if no event is handled before
a nearer one, then the loop ends with no wavefront left and with exactly `n - 2` arcs; the source of
each arc is a node of the roof, at its height, and the lines to its sinks are on ridges of the roof. -/
theorem C60_inorder (c : List (Edge2 ℝ)) (h : ConvexPolygon c) (h3 : 3 ≤ c.length) (lp0 lp : Loop ℝ)
    (k : Nat) (hs : startLoop [c] = .ok lp0) (hm : mainLoop k lp0 = some (.ok lp))
    (ho : InOrder k lp0) :
    lp.st.slav = [] ∧ lp.out.length + 2 = c.length ∧ ∀ a ∈ lp.out, RoofArc c a := by
  have h0 := startLoop_sweep h h3 hs
  rcases mainLoop_sweep h.proper k lp0 h0 ho with hn | ⟨lp', hm', hr, he⟩
  · rw [hn] at hm; cases hm
  · rw [hm] at hm'
    simp only [Option.some.injEq, Except.ok.injEq] at hm'
    subst hm'
    exact ⟨(hr.finish he).1, (hr.finish he).2.1, hr.arcs⟩

/-- C60: if the distances at which three edges of the polygon can meet are a thousandth apart (or
equal), then the run is in order, so the loop finds the roof. -/
theorem C60_convex (c : List (Edge2 ℝ)) (h : ConvexPolygon c) (h3 : 3 ≤ c.length)
    (hsep : Separated c) :
    ∃ lp0 lp, startLoop [c] = .ok lp0 ∧ mainLoop (4 * c.length + 1) lp0 = some (.ok lp) ∧
      lp.st.slav = [] ∧ lp.out.length + 2 = c.length ∧ ∀ a ∈ lp.out, RoofArc c a := by
  obtain ⟨lp0, lp, hs, hm, -⟩ := C27_loop c (convexContour_of_polygon h3 h) h3
  exact ⟨lp0, lp, hs, hm, C60_inorder c h h3 lp0 lp _ hs hm
    (inOrder_separated h.proper hsep _ _ (startLoop_sweep h h3 hs))⟩

/-- C59, the positive part: on a strictly convex polygon whose possible meetings are a thousandth
apart, no part of the wavefront is left over.  (Missing: polygons with reflex vertices; for those, and
for convex ones without the hypothesis on the meetings, the property is false: `C59_tee_refuted`,
`C59_convex_refuted`.) -/
theorem C59_convex_partial (c : List (Edge2 ℝ)) (h : ConvexPolygon c) (h3 : 3 ≤ c.length)
    (hsep : Separated c) (lp0 lp : Loop ℝ) (k : Nat) (hs : startLoop [c] = .ok lp0)
    (hm : mainLoop k lp0 = some (.ok lp)) : lp.st.slav = [] :=
  (C60_inorder c h h3 lp0 lp k hs hm
    (inOrder_separated h.proper hsep _ _ (startLoop_sweep h h3 hs))).1

/-- three different elements of a list of three are all -/
theorem all_of_three {α : Type} {a b d e1 e2 e3 : α} {Q : α → Prop} (m1 : e1 ∈ [a, b, d])
    (m2 : e2 ∈ [a, b, d]) (m3 : e3 ∈ [a, b, d]) (n12 : e1 ≠ e2) (n23 : e2 ≠ e3) (n13 : e1 ≠ e3)
    (p1 : Q e1) (p2 : Q e2) (p3 : Q e3) : Q a ∧ Q b ∧ Q d := by
  simp only [List.mem_cons, List.not_mem_nil, or_false] at m1 m2 m3
  rcases m1 with rfl | rfl | rfl <;> rcases m2 with rfl | rfl | rfl <;>
    rcases m3 with rfl | rfl | rfl <;> simp_all

theorem triangle_separated (c : List (Edge2 ℝ)) (h : ConvexPolygon c) (h3 : c.length = 3) :
    Separated c := by
  obtain ⟨a, b, d, rfl⟩ := List.length_eq_three.1 h3
  rintro h1 h2 ⟨p, e1, m1, e2, m2, e3, m3, n12, n23, n13, p1, p2, p3⟩
    ⟨p', f1, k1, f2, k2, f3, k3, o12, o23, o13, q1, q2, q3⟩ - hlt
  exfalso
  have hall := all_of_three (Q := fun e => height e.p1 e.norm p = h1) m1 m2 m3 n12 n23 n13 p1 p2 p3
  have hall' := all_of_three (Q := fun e => height e.p1 e.norm p' = h2) k1 k2 k3 o12 o23 o13 q1 q2 q3
  obtain ⟨r, hr, x1, y1⟩ := h.along a (by simp)
  obtain ⟨s, hs, x2, y2⟩ := h.along b (by simp)
  obtain ⟨t, ht, x3, y3⟩ := h.along d (by simp)
  have g1 : a.p2 = b.p1 := h.ring 0 (by simp)
  have g2 : b.p2 = d.p1 := h.ring 1 (by simp)
  have g3 : d.p2 = a.p1 := h.last (by simp)
  rw [g1] at x1 y1
  rw [g2] at x2 y2
  rw [g3] at x3 y3
  obtain ⟨a1, a2, a3⟩ := hall
  obtain ⟨b1, b2, b3⟩ := hall'
  simp only [height] at a1 a2 a3 b1 b2 b3
  have c1 : a.norm.x * (p'.y - p.y) - a.norm.y * (p'.x - p.x) = h2 - h1 := by linarith
  have c2 : b.norm.x * (p'.y - p.y) - b.norm.y * (p'.x - p.x) = h2 - h1 := by linarith
  have c3 : d.norm.x * (p'.y - p.y) - d.norm.y * (p'.x - p.x) = h2 - h1 := by linarith
  have key : (r + s + t) * (h2 - h1) = 0 := by
    have e1 : r * a.norm.x + s * b.norm.x + t * d.norm.x = 0 := by linarith
    have e2 : r * a.norm.y + s * b.norm.y + t * d.norm.y = 0 := by linarith
    linear_combination -r * c1 - s * c2 - t * c3 + (p'.y - p.y) * e1 - (p'.x - p.x) * e2
  have : 0 < (r + s + t) * (h2 - h1) := mul_pos (by linarith) (by linarith)
  linarith

/-- C60 for triangles, without a further hypothesis: one arc, and its source is equidistant from the
three edges. -/
theorem C60_triangle (c : List (Edge2 ℝ)) (h : ConvexPolygon c) (h3 : c.length = 3) :
    ∃ lp0 lp a, startLoop [c] = .ok lp0 ∧ mainLoop 13 lp0 = some (.ok lp) ∧ lp.out = [a] ∧
      RoofArc c a ∧ ∀ e ∈ c, height e.p1 e.norm a.source = a.height := by
  obtain ⟨lp0, lp, hs, hm, -, hl, ha⟩ := C60_convex c h (by omega) (triangle_separated c h h3)
  rw [h3] at hm hl
  obtain ⟨a, hout⟩ := List.length_eq_one_iff.1 (show lp.out.length = 1 by omega)
  have hra := ha a (by rw [hout]; simp)
  refine ⟨lp0, lp, a, hs, hm, hout, hra, ?_⟩
  obtain ⟨x, y, z, rfl⟩ := List.length_eq_three.1 h3
  obtain ⟨e1, m1, e2, m2, e3, m3, n12, n23, n13, p1, p2, p3⟩ := hra.node.three
  have hall := all_of_three (Q := fun e => height e.p1 e.norm a.source = a.height) m1 m2 m3 n12 n23
    n13 p1 p2 p3
  intro e he
  simp only [List.mem_cons, List.not_mem_nil, or_false] at he
  rcases he with rfl | rfl | rfl
  · exact hall.1
  · exact hall.2.1
  · exact hall.2.2

/-- an edge with a given direction -/
private def edge (i : Nat) (a b d : V2 ℝ) : Edge2 ℝ :=
  { oid := i, i1 := i, i2 := (i + 1) % 4, p1 := a, p2 := b, norm := d }

private def rect : List (Edge2 ℝ) := [edge 0 ⟨0, 0⟩ ⟨8, 0⟩ ⟨1, 0⟩, edge 1 ⟨8, 0⟩ ⟨8, 4⟩ ⟨0, 1⟩,
    edge 2 ⟨8, 4⟩ ⟨0, 4⟩ ⟨-1, 0⟩, edge 3 ⟨0, 4⟩ ⟨0, 0⟩ ⟨0, -1⟩]

private theorem rect_convex : ConvexPolygon rect := by
  constructor
  · intro i hi
    have : i = 0 ∨ i = 1 ∨ i = 2 := by simp [rect] at hi; omega
    rcases this with rfl | rfl | rfl <;> simp [rect, edge]
  · intro _; simp [rect, edge]
  · simp [rect, edge]
  · intro e he
    simp only [rect, List.mem_cons, List.not_mem_nil, or_false] at he
    rcases he with rfl | rfl | rfl | rfl
    · exact ⟨8, by norm_num, by simp [edge], by simp [edge]⟩
    · exact ⟨4, by norm_num, by simp [edge], by simp [edge]⟩
    · exact ⟨8, by norm_num, by simp [edge], by simp [edge]⟩
    · exact ⟨4, by norm_num, by simp [edge], by simp [edge]⟩
  · intro e he f hf
    simp only [rect, List.mem_cons, List.not_mem_nil, or_false] at he hf
    rcases he with rfl | rfl | rfl | rfl <;> rcases hf with rfl | rfl | rfl | rfl <;>
      simp [edge]
  · simp [rect, edge]

private theorem rect_triple {h : ℝ} (ht : Triple rect h) : h = 2 ∨ h = 4 := by
  obtain ⟨p, e1, m1, e2, m2, e3, m3, n12, n23, n13, p1, p2, p3⟩ := ht
  simp only [rect, List.mem_cons, List.not_mem_nil, or_false] at m1 m2 m3
  rcases m1 with rfl | rfl | rfl | rfl <;> rcases m2 with rfl | rfl | rfl | rfl <;>
    rcases m3 with rfl | rfl | rfl | rfl <;>
    first
    | exact absurd rfl n12
    | exact absurd rfl n23
    | exact absurd rfl n13
    | (simp only [edge, height] at p1 p2 p3; left; linarith)
    | (simp only [edge, height] at p1 p2 p3; right; linarith)

/-- a rectangle of 8 by 4 meets the hypotheses of C60; its roof has the nodes at height 2 -/
example : ∃ lp0 lp, startLoop [rect] = .ok lp0 ∧ mainLoop 17 lp0 = some (.ok lp) ∧
    lp.out.length = 2 ∧ ∀ a ∈ lp.out, a.height = 2 := by
  have hsep : Separated rect := by
    intro h h' t t' _ hlt
    rcases rect_triple t with rfl | rfl <;> rcases rect_triple t' with rfl | rfl <;> linarith
  obtain ⟨lp0, lp, hs, hm, -, hl, ha⟩ := C60_convex rect rect_convex (by simp [rect]) hsep
  refine ⟨lp0, lp, hs, hm, by simpa [rect] using hl, fun a hm => ?_⟩
  have hn := (ha a hm).node
  rcases rect_triple ⟨_, hn.three⟩ with h | h
  · exact h
  · exfalso
    have h1 := hn.least (edge 0 ⟨0, 0⟩ ⟨8, 0⟩ ⟨1, 0⟩) (by simp [rect])
    have h2 := hn.least (edge 2 ⟨8, 4⟩ ⟨0, 4⟩ ⟨-1, 0⟩) (by simp [rect])
    simp only [edge, height] at h1 h2
    linarith

end Polyskel
