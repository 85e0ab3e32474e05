import Verif.Props.Euler
import Verif.Props.RoofCells
import Verif.Props.Crossing
import Verif.Proofs.Uncrossed
/-
C94: the connections of the skeleton of a convex polygon do not cross (checkEdgeCrossing, bpypolyskel.py:470-493,
applied to the skeleton that polygonize leaves in debugOutputs, as the project's own tests do).
-/
namespace Polyskel
open Scalar Geo Real

/-- the tree behind the skeleton of a convex polygon -/
private theorem convex_tree (c : List (Edge2 ℝ)) (hc : ConvexPolygon c) (h3 : 3 ≤ c.length) (hsep : Separated c)
    (hfin : ∀ st out ch, Grown c st out ch [] → out.length + 2 = c.length → (∀ s ∈ out, RoofArc c s) →
      finish [c] out = .ok ((mergeSame [] out).map noLoop)) (fuel : Nat) (hf : 4 * c.length + 1 ≤ fuel) :
    ∃ sk L R ch, skeletonize fuel [c] = some (.ok sk) ∧ (∀ a ∈ sk, RoofArc c a) ∧
      RoofTree c sk.length (posOf c sk) (hhOf c sk) L R ch ∧
      (∀ i j, i < c.length + sk.length → j < c.length + sk.length → posOf c sk i = posOf c sk j → i = j) ∧
      ∀ j arc, sk[j]? = some arc → arc.sinks = (ch j).map (posOf c sk) := by
  obtain ⟨lp0, lp, hs, hm, -⟩ := C27_loop c (convexContour_of_polygon h3 hc) h3
  have h0 := startLoop_sweep hc h3 hs
  rcases mainLoop_sweep hc.proper _ lp0 h0 (inOrder_separated hc.proper hsep _ _ h0) with hn | ⟨lp', hm', hr, he⟩
  · rw [hn] at hm; cases hm
  rw [hm] at hm'
  simp only [Option.some.injEq, Except.ok.injEq] at hm'
  subst hm'
  obtain ⟨-, hl, ch, hg⟩ := hr.finish he
  obtain ⟨sk, L, R, ch', hskd, -, -, hnode, ht, hinj, hsink⟩ := hg.roof hl h3 hc hr.arcs
  refine ⟨sk, L, R, ch', ?_, hnode, ht, hinj, hsink⟩
  apply C61_skeletonize _ _ _ _ _ hf
  unfold skeletonize
  rw [hs]
  simp only [hm]
  rw [hfin _ _ _ hg hl hr.arcs, hskd]

/-- what `polygonize` leaves in `debugOutputs` is the skeleton -/
private theorem debug_skeleton {rt : Rt} {a : PolyArgs ℝ} {z : ℝ} {ctr : V3 ℝ} {c : List (Edge2 ℝ)}
    (hb : buildContours a = .ok (z, ctr, [c])) {fuel : Nat} {out : PolyOut ℝ}
    (h : polygonize rt fuel a = some out) {sk sk' : List (Subtree ℝ)} (hd : out.debug = some sk)
    (hs : skeletonize fuel [c] = some (.ok sk')) : sk = sk' := by
  have key : ∀ {z' : ℝ} {c' : V3 ℝ} {cs : List (List (Edge2 ℝ))} {sk'' : List (Subtree ℝ)},
      buildContours a = .ok (z', c', cs) → skeletonize fuel cs = some (.ok sk'') → sk'' = sk' := by
    intro z' c' cs sk'' hb' hs'
    rw [hb] at hb'
    simp only [Except.ok.injEq, Prod.mk.injEq] at hb'
    rw [← hb'.2.2, hs] at hs'
    simp only [Option.some.injEq, Except.ok.injEq] at hs'
    exact hs'.symm
  cases polygonize_ends h with
  | early e => cases hd
  | noTan z c cs sk' e hb hs ht => cases hd; exact key hb hs
  | late z c cs sk' ta e hb hs ht hf => cases hd; exact key hb hs
  | done z c cs sk' ta fs hb hs ht hf => cases hd; exact key hb hs

/-- two connections of the skeleton with a point strictly within the first in common are the same; all points of a
connection, except for a corner of the polygon at its end, are within the polygon -/
private theorem convex_uncrossed {rt : Rt} {a : PolyArgs ℝ} {z : ℝ} {ctr : V3 ℝ} {c : List (Edge2 ℝ)}
    (hb : buildContours a = .ok (z, ctr, [c])) (hc : ConvexPolygon c) (h3 : 3 ≤ c.length) (hsep : Separated c)
    (hfin : ∀ st out ch, Grown c st out ch [] → out.length + 2 = c.length → (∀ s ∈ out, RoofArc c s) →
      finish [c] out = .ok ((mergeSame [] out).map noLoop)) {fuel : Nat} (hf : 4 * c.length + 1 ≤ fuel)
    {out : PolyOut ℝ} (h : polygonize rt fuel a = some out) {sk : List (Subtree ℝ)} (hd : out.debug = some sk) :
    (∀ p ∈ sk, ∀ A ∈ p.sinks, ∀ q ∈ sk, ∀ B ∈ q.sinks, ∀ r s : ℝ, 0 < r → r < 1 → 0 ≤ s → s ≤ 1 →
      between p.source A r = between q.source B s → p = q ∧ A = B) ∧
    ∀ p ∈ sk, ∀ A ∈ p.sinks, ∀ r : ℝ, 0 ≤ r → r < 1 → ∀ e ∈ c, 0 < height e.p1 e.norm (between p.source A r) := by
  obtain ⟨sk', L, R, ch, hs, ha, ht, hinj, hsink⟩ := convex_tree c hc h3 hsep hfin fuel hf
  obtain rfl := debug_skeleton hb h hd hs
  constructor
  · intro p hp A hA q hq B hB r s r0 r1 s0 s1 he
    obtain ⟨j, hj, rfl⟩ := List.mem_iff_getElem.1 hp
    obtain ⟨j', hj', rfl⟩ := List.mem_iff_getElem.1 hq
    rw [hsink j _ (List.getElem?_eq_getElem hj)] at hA
    rw [hsink j' _ (List.getElem?_eq_getElem hj')] at hB
    obtain ⟨k, hk, rfl⟩ := List.mem_map.1 hA
    obtain ⟨k', hk', rfl⟩ := List.mem_map.1 hB
    rw [← posOf_node (c := c) (List.getElem?_eq_getElem hj), ← posOf_node (c := c) (List.getElem?_eq_getElem hj')] at he
    obtain ⟨rfl, rfl⟩ := ht.uncrossed hc ha hinj hj hk hj' hk' r0 r1 s0 s1 he
    exact ⟨rfl, rfl⟩
  · intro p hp A hA r r0 r1 e he
    obtain ⟨j, hj, rfl⟩ := List.mem_iff_getElem.1 hp
    rw [hsink j _ (List.getElem?_eq_getElem hj)] at hA
    obtain ⟨k, hk, rfl⟩ := List.mem_map.1 hA
    have hk' : 0 ≤ height e.p1 e.norm (posOf c sk k) := by
      have lk := (ht.child_lt hj hk).1
      have h1 := heights_least hc ha k lk e he
      by_cases hkc : k < c.length
      · rw [hhOf_corner hkc] at h1
        exact h1
      · obtain ⟨i, rfl⟩ : ∃ i, k = c.length + i := ⟨k - c.length, by omega⟩
        have hi : i < sk.length := by omega
        rw [hhOf_node (List.getElem?_eq_getElem hi)] at h1
        exact (hc.node_pos (ha _ (List.getElem_mem hi)).node).le.trans h1
    have hA' : 0 < height e.p1 e.norm sk[j].source :=
      lt_of_lt_of_le (hc.node_pos (ha _ hp).node) ((ha _ hp).node.least e he)
    rw [hgt_between]
    have m1 := mul_pos (show 0 < 1 - r by linarith) hA'
    have m2 := mul_nonneg r0 hk'
    simp only [hgt]
    linarith

/-- connections that meet in their ends only do not cross -/
private theorem no_crossing {sk : List (Subtree ℝ)}
    (h : ∀ p ∈ sk, ∀ A ∈ p.sinks, ∀ q ∈ sk, ∀ B ∈ q.sinks, ∀ r s : ℝ, 0 < r → r < 1 → 0 ≤ s → s ≤ 1 →
      between p.source A r = between q.source B s → p = q ∧ A = B) : checkEdgeCrossing sk = 0 := by
  rw [C43_checkEdgeCrossing_count]
  unfold pairCount
  refine Finset.sum_eq_zero fun i _ => Finset.sum_eq_zero fun j _ => ?_
  rw [if_neg]
  rintro ⟨-, hpar, r, s, r0, r1, s0, s1, he⟩
  have hi := List.getElem_mem i.2
  have hj := List.getElem_mem j.2
  obtain ⟨p, hp, h1⟩ := List.mem_flatMap.1 hi
  obtain ⟨A, hA, e1⟩ := List.mem_map.1 h1
  obtain ⟨q, hq, h2⟩ := List.mem_flatMap.1 hj
  obtain ⟨B, hB, e2⟩ := List.mem_map.1 h2
  simp only [Fin.getElem_fin, ← e1, ← e2] at hpar he
  obtain ⟨rfl, rfl⟩ := h p hp A hA q hq B hB r s (by linarith) (by linarith) (by linarith) (by linarith) he
  exact hpar (by simp only [Parallel]; ring)

/-- C94: under the hypotheses of `C62_points` no two connections of the skeleton that `polygonize` leaves in
`debugOutputs` have a point in common that is strictly within one of them; so `checkEdgeCrossing`, called with this
skeleton, returns 0.  Each point of a connection, except for a corner of the polygon at its end, has a positive
distance from all sides on the inner side (the skeleton is given relative to the mean of the
vertices of the polygon). -/
theorem C94_uncrossed (rt : Rt) (a : PolyArgs ℝ) (P : Nat → V2 ℝ) (hh : a.holes.getD [] = [])
    (hu : a.units = none) (h3 : 3 ≤ a.num)
    (hv : ∀ k, k < a.num → ∃ A, a.verts[a.first + k]? = some A ∧ A.xy = P k)
    (hleft : ∀ i j, i < a.num → j < a.num → j ≠ i → j ≠ (i + 1) % a.num →
      0 < area2 (P i) (P ((i + 1) % a.num)) (P j))
    (hlong : ∀ k, k < a.num → 1 / 10 ^ 35 < eucl (P k) (P ((k + 1) % a.num)) ^ 2)
    (hsep : Separated (sides a.first a.num P)) (hbl : Blunt (sides a.first a.num P))
    (hap : NodesApart (sides a.first a.num P)) (fuel : Nat) (hf : 4 * a.num + 1 ≤ fuel) :
    ∃ out sk, polygonize rt fuel a = some out ∧ out.debug = some sk ∧
      out.verts.length = a.verts.length + sk.length ∧
      (sk.flatMap (·.sinks)).length + 1 = a.num + sk.length ∧ checkEdgeCrossing sk = 0 ∧
      (∀ p ∈ sk, ∀ A ∈ p.sinks, ∀ q ∈ sk, ∀ B ∈ q.sinks, ∀ r s : ℝ, 0 < r → r < 1 → 0 ≤ s → s ≤ 1 →
        between p.source A r = between q.source B s → p = q ∧ A = B) ∧
      ∀ p ∈ sk, ∀ A ∈ p.sinks, ∀ r : ℝ, 0 ≤ r → r < 1 → ∀ k, k < a.num →
        0 < sideDist a.num P k ⟨(between p.source A r).x + meanOf (·.x) a.verts a.first a.num,
          (between p.source A r).y + meanOf (·.y) a.verts a.first a.num⟩ := by
  obtain ⟨out, new, fs, sk, hp, hvs, -, hd, hl, -, -, -, -, -, hcount, -⟩ :=
    C84_points rt a P hh hu h3 hv hleft hlong hsep hbl hap fuel hf
  obtain ⟨A, ctr, hA, hb⟩ := contours_of_points a hh hu (by omega) hv hlong
  have hlen : ((sides a.first a.num P).map (moveEdge ⟨-ctr.x, -ctr.y⟩)).length = a.num := by
    rw [List.length_map, sides_length]
  have hc : ConvexPolygon ((sides a.first a.num P).map (moveEdge ⟨-ctr.x, -ctr.y⟩)) :=
    (sides_convex h3 hleft).move _
  have hcr := convex_uncrossed hb hc (by rw [hlen]; exact h3) (hsep.move _)
    (fun _ _ _ hg hl' ha => convex_finish hc (by rw [hlen]; exact h3) hg hl' ha (hbl.move _) (hap.move _))
    (by rw [hlen]; exact hf) hp hd
  refine ⟨out, sk, hp, hd, by rw [hvs, List.length_append, hl], hcount, no_crossing hcr.1, hcr.1, ?_⟩
  obtain ⟨v0, outer, holes, -, -, hce, -⟩ := buildContours_ok hb
  obtain ⟨-, -, hcx, hcy, -⟩ := centerOf_exact hce
  intro p hps B hB r r0 r1 k hk
  obtain ⟨e, he, -, -⟩ := sides_get (first := a.first) (P := P) hk
  have := hcr.2 p hps B hB r r0 r1 _ (List.mem_map_of_mem (List.mem_of_getElem? he))
  rw [← sides_height he, ← hcx, ← hcy]
  refine lt_of_lt_of_eq this ?_
  simp only [height, moveEdge]
  ring

/-- C94 for a triangle, without a further hypothesis -/
theorem C94_triangle (rt : Rt) (a : PolyArgs ℝ) (P : Nat → V2 ℝ) (hh : a.holes.getD [] = [])
    (hu : a.units = none) (h3 : a.num = 3)
    (hv : ∀ k, k < 3 → ∃ A, a.verts[a.first + k]? = some A ∧ A.xy = P k)
    (hleft : 0 < area2 (P 0) (P 1) (P 2))
    (hlong : ∀ k, k < 3 → 1 / 10 ^ 35 < eucl (P k) (P ((k + 1) % 3)) ^ 2) (fuel : Nat)
    (hf : 13 ≤ fuel) :
    ∃ out s, polygonize rt fuel a = some out ∧ out.debug = some [s] ∧ s.sinks.length = 3 ∧
      checkEdgeCrossing [s] = 0 ∧ ∀ A ∈ s.sinks, ∀ B ∈ s.sinks, ∀ r t : ℝ, 0 < r → r < 1 → 0 ≤ t → t ≤ 1 →
        between s.source A r = between s.source B t → A = B := by
  obtain ⟨out, N, fs, s, hp, -, -, hd, -, -, -, -, -, hs, -⟩ := C84_triangle rt a P hh hu h3 hv hleft hlong fuel hf
  obtain ⟨A, ctr, hA, hb⟩ := contours_of_points a hh hu (by omega) (by rw [h3]; exact hv) (by rw [h3]; exact hlong)
  have hl : ((sides a.first a.num P).map (moveEdge ⟨-ctr.x, -ctr.y⟩)).length = 3 := by
    rw [List.length_map, sides_length, h3]
  have hc : ConvexPolygon ((sides a.first a.num P).map (moveEdge ⟨-ctr.x, -ctr.y⟩)) := by
    refine (sides_convex (by omega) ?_).move _
    rw [h3]
    exact triangle_left hleft
  have hcr := convex_uncrossed hb hc (by omega) (triangle_separated _ hc hl)
    (fun _ _ _ hg hl' ha => one_finish hc (by omega) (triangle_one hc hl) hg hl' ha) (by rw [hl]; exact hf) hp hd
  exact ⟨out, s, hp, hd, hs, no_crossing hcr.1, fun A hA B hB r t r0 r1 t0 t1 he =>
    (hcr.1 s (by simp) A hA s (by simp) B hB r t r0 r1 t0 t1 he).2⟩

/-- case: the rectangle of 8 by 4 has five connections, and they do not cross -/
example (rt : Rt) : ∃ out sk, polygonize rt 17 rectArgs = some out ∧ out.debug = some sk ∧
    (sk.flatMap (·.sinks)).length + 1 = 4 + sk.length ∧ checkEdgeCrossing sk = 0 := by
  obtain ⟨h1, h2, h3, h4, h5, h6, h7⟩ := rect_meets
  obtain ⟨out, sk, hp, hd, -, hn, hz, -, -⟩ :=
    C94_uncrossed rt rectArgs rectPoint rfl rfl (by decide) h1 h2 h3 h4 h5 h7 17 (by decide)
  exact ⟨out, sk, hp, hd, hn, hz⟩

end Polyskel
