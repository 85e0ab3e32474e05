import Verif.Spec.Planes
import Verif.Proofs.RoofContract
import Verif.Proofs.RoofNodes
import Verif.Props.ConvexSkeleton
import Verif.Props.HipRoof
/-
C71 for strictly convex polygons, without conditions on the run.
-/
namespace Polyskel
open Scalar Real Geo

/-- C71, for strictly convex polygons and runs in order: if no event is handled before a nearer one, then
every connection that the main loop puts out lies in the planes of two edges. -/
theorem C71_inorder (c : List (Edge2 ℝ)) (hc : ConvexPolygon c) (h3 : 3 ≤ c.length) (lp0 lp : Loop ℝ) (k : Nat)
    (hs : startLoop [c] = .ok lp0) (hm : mainLoop k lp0 = some (.ok lp)) (ho : InOrder k lp0) :
    ∀ a ∈ lp.out, ∀ s ∈ a.sinks, Ridge [c] lp.out a s := by
  have h0 := startLoop_sweep hc h3 hs
  rcases mainLoop_sweep hc.proper k lp0 h0 ho with hn | ⟨lp', hm', hr, he⟩
  · rw [hn] at hm; cases hm
  rw [hm] at hm'
  simp only [Option.some.injEq, Except.ok.injEq] at hm'
  subst hm'
  obtain ⟨-, hl, ch, hg⟩ := hr.finish he
  intro a ha s hsa
  obtain ⟨j, hj, rfl⟩ := List.getElem_of_mem ha
  have hj' := List.getElem?_eq_getElem hj
  rw [hg.sinks hl h3 hj', List.mem_map] at hsa
  obtain ⟨i, hi, rfl⟩ := hsa
  have ht := hg.tree hl h3 (c[0]'(by omega))
  obtain ⟨hlt1, hlt⟩ := ht.child_lt hj hi
  obtain ⟨θ, hθ, hu⟩ := ht.up hj hi
  obtain ⟨mL, mR⟩ := ht.edges_mem i hlt
  obtain ⟨eL, eR⟩ := ht.height hc hlt
  have uL := hu.hl
  have uR := hu.hr
  rw [posOf_node hj', hhOf_node hj'] at uL uR
  obtain ⟨p, d1, d2⟩ := hu.dir
  refine ⟨_, by simpa using mL, _, by simpa using mR, ?_, uL, uR, eL.trans eR.symm, ?_⟩
  · rw [d1, d2]; exact unitDir_ne hu.gt hθ
  · by_cases hn : i < c.length
    · left
      obtain ⟨h1, h2, h3', -⟩ := ht.corner i hn
      rw [h1, h2, h3']
      refine ⟨?_, rfl⟩
      by_cases h0 : i = 0
      · subst h0
        have := hc.last (by omega)
        simpa [prevIdx] using this
      · have := hc.ring (i - 1) (by omega)
        simp only [show i - 1 + 1 = i by omega] at this
        simpa [prevIdx, h0] using this
    · right
      obtain ⟨b, rfl⟩ : ∃ b, i = c.length + b := ⟨i - c.length, by omega⟩
      have hb : b < lp.out.length := by omega
      have hb' := List.getElem?_eq_getElem hb
      refine ⟨_, List.getElem_mem hb, (posOf_node hb').symm, ?_⟩
      rw [← hhOf_node (c := c) hb']
      exact eL.symm

/-- C71, for strictly convex polygons: if the distances at which three edges can meet are equal or a
thousandth apart, then the main loop ends, and every connection that it puts out lies in the planes of two
edges. -/
theorem C71_convex (c : List (Edge2 ℝ)) (hc : ConvexPolygon c) (h3 : 3 ≤ c.length) (hsep : Separated c) :
    ∃ lp0 lp, startLoop [c] = .ok lp0 ∧ mainLoop (4 * c.length + 1) lp0 = some (.ok lp) ∧
      lp.out.length + 2 = c.length ∧ ∀ a ∈ lp.out, ∀ s ∈ a.sinks, Ridge [c] lp.out a s := by
  obtain ⟨lp0, lp, hs, hm, -, hl, -⟩ := C60_convex c hc h3 hsep
  exact ⟨lp0, lp, hs, hm, hl, C71_inorder c hc h3 lp0 lp _ hs hm
    (inOrder_separated hc.proper hsep _ _ (startLoop_sweep hc h3 hs))⟩

/-- A case: a rectangle of 8 by 5, turned by the angle with the cosine 3/5. -/
example : ∃ lp0 lp, startLoop [rectSides ⟨1, 2⟩ ⟨3 / 5, 4 / 5⟩ 8 5 0] = .ok lp0 ∧
    mainLoop 17 lp0 = some (.ok lp) ∧ lp.out.length = 2 ∧
    ∀ a ∈ lp.out, ∀ s ∈ a.sinks, Ridge [rectSides ⟨1, 2⟩ ⟨3 / 5, 4 / 5⟩ 8 5 0] lp.out a s := by
  have hu : (⟨3 / 5, 4 / 5⟩ : V2 ℝ).x ^ 2 + (⟨3 / 5, 4 / 5⟩ : V2 ℝ).y ^ 2 = 1 := by norm_num
  have hc : ConvexPolygon (rectSides ⟨1, 2⟩ ⟨3 / 5, 4 / 5⟩ 8 5 0) := by
    rw [← sides_rectangle hu (by norm_num) (by norm_num)]
    refine sides_convex (by omega) ?_
    intro i j hi hj h1 h2
    have hi' : i = 0 ∨ i = 1 ∨ i = 2 ∨ i = 3 := by omega
    have hj' : j = 0 ∨ j = 1 ∨ j = 2 ∨ j = 3 := by omega
    rcases hi' with rfl | rfl | rfl | rfl <;> rcases hj' with rfl | rfl | rfl | rfl <;>
      simp at h1 h2 <;> simp only [rectCorner, Nat.reduceAdd, Nat.reduceMod, locPoint_area hu] <;> norm_num
  obtain ⟨lp0, lp, h1, h2, h3, h4⟩ := C71_convex _ hc (by simp [rectSides])
    (rect_separated hu (by norm_num [abs_of_pos]) 0)
  exact ⟨lp0, lp, h1, h2, by simpa [rectSides] using h3, h4⟩

end Polyskel
