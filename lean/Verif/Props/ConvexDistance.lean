import Mathlib.Tactic.LinearCombination
import Mathlib.Tactic.FieldSimp
import Verif.Props.ConvexSkeleton
import Verif.Proofs.RoofHigh
/-
C45 for strictly convex polygons: the height of a node is its distance from the boundary.
-/
namespace Polyskel
open Scalar Geo

/-- no point of an edge is nearer than the line through it -/
theorem height_le_eucl {e : Edge2 ℝ} (hu : e.norm.x ^ 2 + e.norm.y ^ 2 = 1) {r : ℝ}
    (h1 : e.p2.x - e.p1.x = r * e.norm.x) (h2 : e.p2.y - e.p1.y = r * e.norm.y) (X : V2 ℝ) (u : ℝ) :
    height e.p1 e.norm X ≤ eucl X (between e.p1 e.p2 u) := by
  apply Real.le_sqrt_of_sq_le
  have k : (X.x - (between e.p1 e.p2 u).x) ^ 2 + (X.y - (between e.p1 e.p2 u).y) ^ 2 =
      height e.p1 e.norm X ^ 2 +
        (e.norm.x * (X.x - (between e.p1 e.p2 u).x) + e.norm.y * (X.y - (between e.p1 e.p2 u).y)) ^ 2 := by
    simp only [between, height, h1, h2]
    linear_combination (-(X.x - (e.p1.x + u * (r * e.norm.x))) ^ 2 -
      (X.y - (e.p1.y + u * (r * e.norm.y))) ^ 2) * hu
  rw [k]
  nlinarith [sq_nonneg (e.norm.x * (X.x - (between e.p1 e.p2 u).x) +
    e.norm.y * (X.y - (between e.p1 e.p2 u).y))]

/-- the foot of the perpendicular on the nearest edge belongs to the edge -/
theorem ConvexPolygon.foot {c : List (Edge2 ℝ)} (h : ConvexPolygon c) (h3 : 3 ≤ c.length) {k : Nat}
    (hk : k < c.length) {X : V2 ℝ} {t : ℝ} (ht : 0 ≤ t) (hX : height c[k].p1 c[k].norm X = t)
    (hl : ∀ g ∈ c, t ≤ height g.p1 g.norm X) :
    ∃ u, 0 ≤ u ∧ u ≤ 1 ∧ eucl X (between c[k].p1 c[k].p2 u) = t := by
  have he : c[k] ∈ c := List.getElem_mem hk
  obtain ⟨r, hr, h1, h2⟩ := h.along _ he
  have hu := h.unit _ he
  have hn := nextIdx_lt hk
  have hp := prevIdx_lt hk
  have hnp : nextIdx c.length k ≠ prevIdx c.length k := by
    unfold nextIdx prevIdx; split <;> split <;> omega
  have hnk : nextIdx c.length k ≠ k := by unfold nextIdx; split <;> omega
  have hpk : prevIdx c.length k ≠ k := by unfold prevIdx; split <;> omega
  have hgm : c[nextIdx c.length k] ∈ c := List.getElem_mem hn
  have hfm : c[prevIdx c.length k] ∈ c := List.getElem_mem hp
  have hg1 : c[nextIdx c.length k].p1 = c[k].p2 := (h.p2 hk).symm
  have hf2 : c[prevIdx c.length k].p2 = c[k].p1 := h.prev_p2 hk
  -- the neighbours are not parallel to the edge
  have hgl : 0 < height c[nextIdx c.length k].p1 c[nextIdx c.length k].norm c[k].p1 := by
    refine h.left _ hgm _ he (h.ne hk hn hnk.symm) ?_
    rw [h.p2 hn]
    refine h.ne hk (nextIdx_lt hn) ?_
    unfold nextIdx; split <;> split <;> omega
  have hfl : 0 < height c[prevIdx c.length k].p1 c[prevIdx c.length k].norm c[k].p2 := by
    rw [h.p2 hk]
    refine h.left _ hfm _ hgm (h.ne hn hp hnp) ?_
    rw [hf2]
    exact h.ne hn hk hnk
  have hfp := hgt_p2_self (h.proper _ hfm)
  rw [hf2] at hfp
  simp only [hgt] at hfp
  have hg := hl _ hgm
  have hf := hl _ hfm
  have hgu := h.unit _ hgm
  have hfu := h.unit _ hfm
  have hgp := hgt_p1_self c[nextIdx c.length k]
  rw [hg1] at hgp
  simp only [hgt] at hgp
  generalize c[k] = e at *
  generalize c[nextIdx c.length k] = g at *
  generalize c[prevIdx c.length k] = f at *
  -- how far along the edge
  obtain ⟨s, hs⟩ : ∃ s, s = e.norm.x * (X.x - e.p1.x) + e.norm.y * (X.y - e.p1.y) := ⟨_, rfl⟩
  have ex : X.x = e.p1.x + s * e.norm.x - t * e.norm.y := by
    rw [hs, ← hX]; simp only [height]
    linear_combination (-(X.x - e.p1.x)) * hu
  have ey : X.y = e.p1.y + s * e.norm.y + t * e.norm.x := by
    rw [hs, ← hX]; simp only [height]
    linear_combination (-(X.y - e.p1.y)) * hu
  have cos_le : ∀ a b : V2 ℝ, a.x ^ 2 + a.y ^ 2 = 1 → b.x ^ 2 + b.y ^ 2 = 1 → a.x * b.x + a.y * b.y ≤ 1 := by
    intro a b ha hb
    nlinarith [sq_nonneg (a.x - b.x), sq_nonneg (a.y - b.y)]
  have cg := cos_le _ _ hgu hu
  have cf := cos_le _ _ hfu hu
  have hs0 : 0 ≤ s := by
    by_contra hneg
    have : height f.p1 f.norm X = height f.p1 f.norm e.p1 + s * (f.norm.x * e.norm.y - f.norm.y * e.norm.x) +
        t * (f.norm.x * e.norm.x + f.norm.y * e.norm.y) := by
      simp only [height, ex, ey]; ring
    rw [hfp] at this
    have k2 : height f.p1 f.norm e.p2 = height f.p1 f.norm e.p1 +
        r * (f.norm.x * e.norm.y - f.norm.y * e.norm.x) := by
      simp only [height]; linear_combination f.norm.x * h2 - f.norm.y * h1
    rw [hfp] at k2
    have k3 : 0 < f.norm.x * e.norm.y - f.norm.y * e.norm.x := by
      rw [k2, zero_add] at hfl
      exact (mul_pos_iff_of_pos_left hr).1 hfl
    have k4 := mul_neg_of_neg_of_pos (not_le.1 hneg) k3
    have k5 := mul_le_mul_of_nonneg_left cf ht
    linarith
  have hsr : s ≤ r := by
    by_contra hgt
    have : height g.p1 g.norm X = height g.p1 g.norm e.p2 +
        (s - r) * (g.norm.x * e.norm.y - g.norm.y * e.norm.x) +
        t * (g.norm.x * e.norm.x + g.norm.y * e.norm.y) := by
      simp only [height, ex, ey]; linear_combination g.norm.y * h1 - g.norm.x * h2
    rw [hgp] at this
    have k2 : height e.p2 g.norm e.p1 = -(r * (g.norm.x * e.norm.y - g.norm.y * e.norm.x)) := by
      simp only [height]; linear_combination g.norm.y * h1 - g.norm.x * h2
    rw [hg1, k2] at hgl
    have k3 : g.norm.x * e.norm.y - g.norm.y * e.norm.x < 0 := by
      by_contra h'
      have := mul_nonneg hr.le (not_lt.1 h')
      linarith
    have k4 := mul_neg_of_pos_of_neg (sub_pos.2 (not_le.1 hgt)) k3
    have k5 := mul_le_mul_of_nonneg_left cg ht
    linarith
  refine ⟨s / r, div_nonneg hs0 hr.le, (div_le_one hr).2 hsr, ?_⟩
  have b1 : (between e.p1 e.p2 (s / r)).x = e.p1.x + s * e.norm.x := by
    simp only [between, h1]; field_simp
  have b2 : (between e.p1 e.p2 (s / r)).y = e.p1.y + s * e.norm.y := by
    simp only [between, h2]; field_simp
  unfold eucl
  rw [b1, b2, ex, ey]
  rw [show (e.p1.x + s * e.norm.x - t * e.norm.y - (e.p1.x + s * e.norm.x)) ^ 2 +
    (e.p1.y + s * e.norm.y + t * e.norm.x - (e.p1.y + s * e.norm.y)) ^ 2 = t ^ 2 by
      linear_combination t ^ 2 * hu]
  exact Real.sqrt_sq ht

/-- the height of a node is its distance from the boundary -/
theorem RoofNode.distance {c : List (Edge2 ℝ)} (h : ConvexPolygon c) (h3 : 3 ≤ c.length) {p : V2 ℝ} {t : ℝ}
    (hn : RoofNode c p t) : (∀ e ∈ c, ∀ u, 0 ≤ u → u ≤ 1 → t ≤ eucl p (between e.p1 e.p2 u)) ∧
      ∃ e ∈ c, ∃ u, 0 ≤ u ∧ u ≤ 1 ∧ eucl p (between e.p1 e.p2 u) = t := by
  constructor
  · intro e he u _ _
    obtain ⟨r, -, h1, h2⟩ := h.along e he
    exact (hn.least e he).trans (height_le_eucl (h.unit e he) h1 h2 _ u)
  · obtain ⟨e, he, -, -, -, -, -, -, -, he1, -⟩ := hn.three
    obtain ⟨k, hk, rfl⟩ := List.getElem_of_mem he
    exact ⟨_, he, h.foot h3 hk (h.node_pos hn).le he1 hn.least⟩

/-- C45 for a strictly convex polygon whose possible meetings are a thousandth apart: every node that the
event loop finds has as its height the distance from the boundary of the polygon: no point of an edge is
nearer, and there is one that is just as near.  (What is missing: other polygons.  For polygons with a
dormer the property is false, `C45_refuted`.) -/
theorem C45_convex_partial (c : List (Edge2 ℝ)) (h : ConvexPolygon c) (h3 : 3 ≤ c.length)
    (hsep : Separated c) (lp0 lp : Loop ℝ) (k : Nat) (hs : startLoop [c] = .ok lp0)
    (hm : mainLoop k lp0 = some (.ok lp)) : ∀ a ∈ lp.out,
      (∀ e ∈ c, ∀ u, 0 ≤ u → u ≤ 1 → a.height ≤ eucl a.source (between e.p1 e.p2 u)) ∧
      ∃ e ∈ c, ∃ u, 0 ≤ u ∧ u ≤ 1 ∧ eucl a.source (between e.p1 e.p2 u) = a.height := by
  intro a ha
  have hn := ((C60_inorder c h h3 lp0 lp k hs hm
    (inOrder_separated h.proper hsep _ _ (startLoop_sweep h h3 hs))).2.2 a ha).node
  exact hn.distance h h3

/-- the hypotheses are met by every triangle -/
example (c : List (Edge2 ℝ)) (h : ConvexPolygon c) (h3 : c.length = 3) : ∃ lp0 lp,
    startLoop [c] = .ok lp0 ∧ mainLoop 13 lp0 = some (.ok lp) ∧ lp.out.length = 1 ∧ ∀ a ∈ lp.out,
      ∃ e ∈ c, ∃ u, 0 ≤ u ∧ u ≤ 1 ∧ eucl a.source (between e.p1 e.p2 u) = a.height := by
  have hsep := triangle_separated c h h3
  obtain ⟨lp0, lp, h1, h2, -, h4, -⟩ := C60_convex c h (by omega) hsep
  rw [h3] at h2
  exact ⟨lp0, lp, h1, h2, by omega, fun a ha =>
    (C45_convex_partial c h (by omega) hsep lp0 lp _ h1 h2 a ha).2⟩

end Polyskel
