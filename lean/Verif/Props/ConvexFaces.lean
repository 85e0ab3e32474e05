import Verif.Proofs.RoofOne
/-
C62: the faces that `polygonize` returns for a strictly convex polygon.
-/
namespace Polyskel
open Scalar Real Geo Graph

/-- C62, the skeleton: under these hypotheses the phases after the main loop only merge the nodes that
are at the same place, and `skeletonize` returns the nodes of the roof, each once. -/
theorem C62_skeleton (c : List (Edge2 ℝ)) (hc : ConvexPolygon c) (h3 : 3 ≤ c.length) (hsep : Separated c)
    (hbl : Blunt c) (hap : NodesApart c) (fuel : Nat) (hf : 4 * c.length + 1 ≤ fuel) :
    ∃ sk, skeletonize fuel [c] = some (.ok sk) ∧ 1 ≤ sk.length ∧ sk.length + 2 ≤ c.length ∧
      (∀ s ∈ sk, RoofArc c s) ∧ (sk.map (·.source)).Nodup ∧ ∀ s ∈ sk, 0 < s.height := by
  obtain ⟨lp0, lp, hs, hm, -⟩ := C27_loop c (convexContour_of_polygon h3 hc) h3
  have h0 := startLoop_sweep hc h3 hs
  rcases mainLoop_sweep hc.proper _ lp0 h0 (inOrder_separated hc.proper hsep _ _ h0) with hn | ⟨lp', hm', hr, he⟩
  · rw [hn] at hm; cases hm
  · rw [hm] at hm'
    simp only [Option.some.injEq, Except.ok.injEq] at hm'
    subst hm'
    obtain ⟨-, hl, ch, hg⟩ := hr.finish he
    obtain ⟨sk, L, R, ch', hsk, h1, h2, harc, -, hinj, -⟩ := hg.roof hl h3 hc hr.arcs
    refine ⟨sk, ?_, h1, h2, harc, ?_, fun s hs => hc.node_pos (harc s hs).node⟩
    · apply C61_skeletonize _ _ _ _ _ hf
      unfold skeletonize
      rw [hs]
      simp only [hm]
      rw [convex_finish hc h3 hg hl hr.arcs hbl hap, hsk]
    · rw [List.nodup_iff_injective_getElem]
      intro i j hij
      simp only [List.getElem_map] at hij
      have hi : i.1 < sk.length := by simpa using i.2
      have hj : j.1 < sk.length := by simpa using j.2
      rw [← posOf_node (c := c) (List.getElem?_eq_getElem hi),
        ← posOf_node (c := c) (List.getElem?_eq_getElem hj)] at hij
      have := hinj _ _ (by omega) (by omega) hij
      exact Fin.ext (by omega)

/-- C62: for a strictly convex polygon that is blunt (no corner sharper than about 16°, no three edges
within about 16° of direction), and the edges of which meet at distances a thousandth apart and in points
a tenth apart, `polygonize` returns exactly one face for each edge, and each of them is the part of the
roof over its edge.  Any number of edges may meet in a node; if it is always three, there are two nodes
less than edges. -/
theorem C62_convex (rt : Rt) (a : PolyArgs ℝ) (z : ℝ) (ctr : V3 ℝ) (c : List (Edge2 ℝ))
    (hb : buildContours a = .ok (z, ctr, [c])) (hc : ConvexPolygon c) (h3 : 3 ≤ c.length)
    (hsep : Separated c) (hbl : Blunt c) (hap : NodesApart c) (fuel : Nat)
    (hf : 4 * c.length + 1 ≤ fuel) :
    ∃ out new slope fs σ, polygonize rt fuel a = some out ∧ out.verts = a.verts ++ new ∧
      (1 ≤ new.length ∧ new.length + 2 ≤ c.length ∧ (OnlyThree c → new.length + 2 = c.length)) ∧
      out.result = .ok (a.faces.getD [] ++ fs) ∧
      (a.height = 0 → slope = a.tan) ∧ (0 < a.height → 0 < slope) ∧ σ.Perm (List.range c.length) ∧
      List.Forall₂ (fun k f => ∃ e, c[k]? = some e ∧
        RoofFace a (c.map (moveEdge ⟨ctr.x, ctr.y⟩)) (moveEdge ⟨ctr.x, ctr.y⟩ e) z slope out.verts k f)
        σ fs :=
  convex_core rt a z ctr c hb hc h3 hsep (.inl hbl)
    (fun _ _ _ hg hl ha => convex_finish hc h3 hg hl ha hbl hap) fuel hf

/-- moving there and back -/
private theorem map_back (t : V2 ℝ) (E : List (Edge2 ℝ)) :
    (E.map (moveEdge ⟨-t.x, -t.y⟩)).map (moveEdge ⟨t.x, t.y⟩) = E := by
  rw [List.map_map]
  conv_rhs => rw [← List.map_id E]
  apply List.map_congr_left
  intro e _
  exact moveEdge_back t e

/-- C62 from the points: the polygon has the vertices `P`, anticlockwise, each to the left of all sides
but its own two, with no side so short that mathutils does not normalise it; its sides have the
properties of `C62_convex`. -/
theorem C62_points (rt : Rt) (a : PolyArgs ℝ) (P : Nat → V2 ℝ) (hh : a.holes.getD [] = [])
    (hu : a.units = none) (h3 : 3 ≤ a.num)
    (hv : ∀ k, k < a.num → ∃ A, a.verts[a.first + k]? = some A ∧ A.xy = P k)
    (hleft : ∀ i j, i < a.num → j < a.num → j ≠ i → j ≠ (i + 1) % a.num →
      0 < area2 (P i) (P ((i + 1) % a.num)) (P j))
    (hlong : ∀ k, k < a.num → 1 / 10 ^ 35 < eucl (P k) (P ((k + 1) % a.num)) ^ 2)
    (hsep : Separated (sides a.first a.num P)) (hbl : Blunt (sides a.first a.num P))
    (hap : NodesApart (sides a.first a.num P)) (fuel : Nat)
    (hf : 4 * a.num + 1 ≤ fuel) :
    ∃ A out new slope fs σ, a.verts[a.first]? = some A ∧ polygonize rt fuel a = some out ∧
      out.verts = a.verts ++ new ∧
      (1 ≤ new.length ∧ new.length + 2 ≤ a.num ∧
        (OnlyThree (sides a.first a.num P) → new.length + 2 = a.num)) ∧
      out.result = .ok (a.faces.getD [] ++ fs) ∧
      (a.height = 0 → slope = a.tan) ∧ (0 < a.height → 0 < slope) ∧ σ.Perm (List.range a.num) ∧
      List.Forall₂ (fun k f => ∃ e, (sides a.first a.num P)[k]? = some e ∧
        RoofFace a (sides a.first a.num P) e A.z slope out.verts k f) σ fs := by
  obtain ⟨A, ctr, hA, hb⟩ := contours_of_points a hh hu (by omega) hv hlong
  have hl : ((sides a.first a.num P).map (moveEdge ⟨-ctr.x, -ctr.y⟩)).length = a.num := by
    rw [List.length_map, sides_length]
  obtain ⟨out, new, slope, fs, σ, h1, h2, h4, h5, h6, h7, h8, h9⟩ :=
    C62_convex rt a A.z ctr _ hb ((sides_convex h3 hleft).move _) (by rw [hl]; exact h3) (hsep.move _)
      (hbl.move _) (hap.move _) fuel (by rw [hl]; exact hf)
  rw [hl] at h4 h8
  refine ⟨A, out, new, slope, fs, σ, hA, h1, h2, ⟨h4.1, h4.2.1, fun ho => h4.2.2 (ho.move _)⟩, h5, h6, h7, h8, h9.imp ?_⟩
  rintro k f ⟨e, he, hr⟩
  rw [List.getElem?_map, Option.map_eq_some_iff] at he
  obtain ⟨e0, he0, rfl⟩ := he
  have hm := map_back ⟨ctr.x, ctr.y⟩ (sides a.first a.num P)
  have hb := moveEdge_back ⟨ctr.x, ctr.y⟩ e0
  simp only at hm hb
  rw [hm, hb] at hr
  exact ⟨e0, he0, hr⟩

/-- each vertex of a triangle is to the left of the opposite side -/
theorem triangle_left {P : Nat → V2 ℝ} (hleft : 0 < area2 (P 0) (P 1) (P 2)) : ∀ i j, i < 3 → j < 3 →
    j ≠ i → j ≠ (i + 1) % 3 → 0 < area2 (P i) (P ((i + 1) % 3)) (P j) := by
  intro i j hi hj h1 h2
  have e1 : area2 (P 1) (P 2) (P 0) = area2 (P 0) (P 1) (P 2) := by unfold area2; ring
  have e2 : area2 (P 2) (P 0) (P 1) = area2 (P 0) (P 1) (P 2) := by unfold area2; ring
  have hi' : i = 0 ∨ i = 1 ∨ i = 2 := by omega
  have hj' : j = 0 ∨ j = 1 ∨ j = 2 := by omega
  rcases hi' with rfl | rfl | rfl <;> rcases hj' with rfl | rfl | rfl <;> simp at h1 h2 ⊢ <;>
    first
    | exact hleft
    | (rw [e1]; exact hleft)
    | (rw [e2]; exact hleft)

/-- C62 for triangles: no further hypothesis.  Whatever triangle is given, anticlockwise and with no
side of less than about 3e-18, `polygonize` returns three triangles, which meet over the centre of the
inscribed circle. -/
theorem C62_triangle (rt : Rt) (a : PolyArgs ℝ) (P : Nat → V2 ℝ) (hh : a.holes.getD [] = [])
    (hu : a.units = none) (h3 : a.num = 3)
    (hv : ∀ k, k < 3 → ∃ A, a.verts[a.first + k]? = some A ∧ A.xy = P k)
    (hleft : 0 < area2 (P 0) (P 1) (P 2))
    (hlong : ∀ k, k < 3 → 1 / 10 ^ 35 < eucl (P k) (P ((k + 1) % 3)) ^ 2) (fuel : Nat)
    (hf : 13 ≤ fuel) :
    ∃ A out N slope fs σ, a.verts[a.first]? = some A ∧ polygonize rt fuel a = some out ∧
      out.verts = a.verts ++ [N] ∧ out.result = .ok (a.faces.getD [] ++ fs) ∧
      (a.height = 0 → slope = a.tan) ∧ (0 < a.height → 0 < slope) ∧ σ.Perm [0, 1, 2] ∧
      List.Forall₂ (fun k f => ∃ e, (sides a.first 3 P)[k]? = some e ∧
        RoofFace a (sides a.first 3 P) e A.z slope out.verts k f) σ fs := by
  have hleft' : ∀ i j, i < a.num → j < a.num → j ≠ i → j ≠ (i + 1) % a.num →
      0 < area2 (P i) (P ((i + 1) % a.num)) (P j) := by
    rw [h3]
    exact triangle_left hleft
  obtain ⟨A, ctr, hA, hb⟩ := contours_of_points a hh hu (by omega) (by rw [h3]; exact hv) (by rw [h3]; exact hlong)
  have hl : ((sides a.first a.num P).map (moveEdge ⟨-ctr.x, -ctr.y⟩)).length = 3 := by
    rw [List.length_map, sides_length, h3]
  have hc : ConvexPolygon ((sides a.first a.num P).map (moveEdge ⟨-ctr.x, -ctr.y⟩)) :=
    (sides_convex (by omega) hleft').move _
  obtain ⟨out, new, slope, fs, σ, h1, h2, h4, h5, h6, h7, h8, h9⟩ :=
    convex_core rt a A.z ctr _ hb hc (by omega) (triangle_separated _ hc hl)
      (.inr (triangle_one hc hl))
      (fun _ _ _ hg hl' ha => one_finish hc (by omega) (triangle_one hc hl) hg hl' ha) fuel (by rw [hl]; exact hf)
  rw [hl] at h4 h8
  obtain ⟨N, rfl⟩ := List.length_eq_one_iff.1 (show new.length = 1 by omega)
  refine ⟨A, out, N, slope, fs, σ, hA, h1, h2, h5, h6, h7, h8, h9.imp ?_⟩
  rintro k f ⟨e, he, hr⟩
  rw [List.getElem?_map, Option.map_eq_some_iff] at he
  obtain ⟨e0, he0, rfl⟩ := he
  have hm := map_back ⟨ctr.x, ctr.y⟩ (sides a.first a.num P)
  have hb := moveEdge_back ⟨ctr.x, ctr.y⟩ e0
  simp only at hm hb
  rw [hm, hb, h3] at hr
  rw [h3] at he0
  exact ⟨e0, he0, hr⟩

/-! ### A rectangle of 8 by 4 -/

def rectPoint : Nat → V2 ℝ
  | 0 => ⟨0, 0⟩
  | 1 => ⟨8, 0⟩
  | 2 => ⟨8, 4⟩
  | _ => ⟨0, 4⟩

def rectEdge (i : Nat) (a b d : V2 ℝ) : Edge2 ℝ :=
  { oid := i, i1 := i, i2 := (i + 1) % 4, p1 := a, p2 := b, norm := d }

def rect : List (Edge2 ℝ) := [rectEdge 0 ⟨0, 0⟩ ⟨8, 0⟩ ⟨1, 0⟩, rectEdge 1 ⟨8, 0⟩ ⟨8, 4⟩ ⟨0, 1⟩,
    rectEdge 2 ⟨8, 4⟩ ⟨0, 4⟩ ⟨-1, 0⟩, rectEdge 3 ⟨0, 4⟩ ⟨0, 0⟩ ⟨0, -1⟩]

theorem sides_rect : sides 0 4 rectPoint = rect := by
  have r4 : List.range 4 = [0, 1, 2, 3] := rfl
  have e1 : eucl (rectPoint 0) (rectPoint 1) = 8 := by
    rw [eucl, show ((rectPoint 0).x - (rectPoint 1).x) ^ 2 + ((rectPoint 0).y - (rectPoint 1).y) ^ 2 = 8 ^ 2 by
      norm_num [rectPoint]]; exact Real.sqrt_sq (by norm_num)
  have e2 : eucl (rectPoint 1) (rectPoint 2) = 4 := by
    rw [eucl, show ((rectPoint 1).x - (rectPoint 2).x) ^ 2 + ((rectPoint 1).y - (rectPoint 2).y) ^ 2 = 4 ^ 2 by
      norm_num [rectPoint]]; exact Real.sqrt_sq (by norm_num)
  have e3 : eucl (rectPoint 2) (rectPoint 3) = 8 := by
    rw [eucl, show ((rectPoint 2).x - (rectPoint 3).x) ^ 2 + ((rectPoint 2).y - (rectPoint 3).y) ^ 2 = 8 ^ 2 by
      norm_num [rectPoint]]; exact Real.sqrt_sq (by norm_num)
  have e4 : eucl (rectPoint 3) (rectPoint 0) = 4 := by
    rw [eucl, show ((rectPoint 3).x - (rectPoint 0).x) ^ 2 + ((rectPoint 3).y - (rectPoint 0).y) ^ 2 = 4 ^ 2 by
      norm_num [rectPoint]]; exact Real.sqrt_sq (by norm_num)
  simp only [sides, r4, List.map_cons, List.map_nil, rect, rectEdge]
  norm_num [e1, e2, e3, e4]
  simp only [rectPoint]
  norm_num

theorem rect_node {p : V2 ℝ} {h : ℝ} (hn : RoofNode rect p h) :
    h = 2 ∧ p.y = 2 ∧ (p.x = 2 ∨ p.x = 6) := by
  obtain ⟨hl, e1, m1, e2, m2, e3, m3, n12, n23, n13, p1, p2, p3⟩ := hn
  have l0 := hl (rectEdge 0 ⟨0, 0⟩ ⟨8, 0⟩ ⟨1, 0⟩) (by simp [rect])
  have l1 := hl (rectEdge 1 ⟨8, 0⟩ ⟨8, 4⟩ ⟨0, 1⟩) (by simp [rect])
  have l2 := hl (rectEdge 2 ⟨8, 4⟩ ⟨0, 4⟩ ⟨-1, 0⟩) (by simp [rect])
  have l3 := hl (rectEdge 3 ⟨0, 4⟩ ⟨0, 0⟩ ⟨0, -1⟩) (by simp [rect])
  simp only [rect, List.mem_cons, List.not_mem_nil, or_false] at m1 m2 m3
  simp only [rectEdge, height] at l0 l1 l2 l3
  rcases m1 with rfl | rfl | rfl | rfl <;> rcases m2 with rfl | rfl | rfl | rfl <;>
    rcases m3 with rfl | rfl | rfl | rfl <;>
    first
    | exact absurd rfl n12
    | exact absurd rfl n23
    | exact absurd rfl n13
    | (simp only [rectEdge, height] at p1 p2 p3; exact ⟨by linarith, by linarith, by left; linarith⟩)
    | (simp only [rectEdge, height] at p1 p2 p3; exact ⟨by linarith, by linarith, by right; linarith⟩)
    | (simp only [rectEdge, height] at p1 p2 p3; exfalso; linarith)

theorem rect_triple {h : ℝ} (ht : Triple rect h) : h = 2 ∨ h = 4 := by
  obtain ⟨p, e1, m1, e2, m2, e3, m3, n12, n23, n13, p1, p2, p3⟩ := ht
  simp only [rect, List.mem_cons, List.not_mem_nil, or_false] at m1 m2 m3
  rcases m1 with rfl | rfl | rfl | rfl <;> rcases m2 with rfl | rfl | rfl | rfl <;>
    rcases m3 with rfl | rfl | rfl | rfl <;>
    first
    | exact absurd rfl n12
    | exact absurd rfl n23
    | exact absurd rfl n13
    | (simp only [rectEdge, height] at p1 p2 p3; left; linarith)
    | (simp only [rectEdge, height] at p1 p2 p3; right; linarith)

/-- the rectangle at the height 1, with a pitch of 1/2 -/
noncomputable def rectArgs : PolyArgs ℝ :=
  { verts := [⟨0, 0, 1⟩, ⟨8, 0, 1⟩, ⟨8, 4, 1⟩, ⟨0, 4, 1⟩], first := 0, num := 4, holes := none, height := 0,
    tan := 1 / 2, faces := none, units := none }

/-- it meets the hypotheses -/
theorem rect_meets : (∀ k, k < 4 → ∃ A, rectArgs.verts[0 + k]? = some A ∧ A.xy = rectPoint k) ∧
    (∀ i j, i < 4 → j < 4 → j ≠ i → j ≠ (i + 1) % 4 →
      0 < area2 (rectPoint i) (rectPoint ((i + 1) % 4)) (rectPoint j)) ∧
    (∀ k, k < 4 → 1 / 10 ^ 35 < eucl (rectPoint k) (rectPoint ((k + 1) % 4)) ^ 2) ∧
    Separated (sides 0 4 rectPoint) ∧ Blunt (sides 0 4 rectPoint) ∧ OnlyThree (sides 0 4 rectPoint) ∧
    NodesApart (sides 0 4 rectPoint) := by
  refine ⟨?_, ?_, ?_, ?_, ?_, ?_, ?_⟩
  · intro k hk
    have : k = 0 ∨ k = 1 ∨ k = 2 ∨ k = 3 := by omega
    rcases this with rfl | rfl | rfl | rfl <;> simp [rectArgs, rectPoint, V3.xy]
  · intro i j hi hj h1 h2
    have hi' : i = 0 ∨ i = 1 ∨ i = 2 ∨ i = 3 := by omega
    have hj' : j = 0 ∨ j = 1 ∨ j = 2 ∨ j = 3 := by omega
    rcases hi' with rfl | rfl | rfl | rfl <;> rcases hj' with rfl | rfl | rfl | rfl <;>
      simp at h1 h2 ⊢ <;> norm_num [rectPoint, area2]
  · intro k hk
    have : k = 0 ∨ k = 1 ∨ k = 2 ∨ k = 3 := by omega
    have hsq : ∀ p q : V2 ℝ, eucl p q ^ 2 = (p.x - q.x) ^ 2 + (p.y - q.y) ^ 2 :=
      fun p q => Real.sq_sqrt (by positivity)
    rw [hsq]
    rcases this with rfl | rfl | rfl | rfl <;> norm_num [rectArgs, rectPoint]
  · show Separated (sides 0 4 rectPoint)
    rw [sides_rect]
    intro h h' t t' _ hlt
    rcases rect_triple t with rfl | rfl <;> rcases rect_triple t' with rfl | rfl <;> linarith
  · show Blunt (sides 0 4 rectPoint)
    rw [sides_rect]
    refine ⟨?_, ?_⟩
    · intro e he f hf g hg n1 n2 n3
      simp only [rect, List.mem_cons, List.not_mem_nil, or_false] at he hf hg
      rcases he with rfl | rfl | rfl | rfl <;> rcases hf with rfl | rfl | rfl | rfl <;>
        first
        | exact absurd rfl n1
        | (left; norm_num [rectEdge])
    · intro e he f hf hef
      simp only [rect, List.mem_cons, List.not_mem_nil, or_false] at he hf
      rcases he with rfl | rfl | rfl | rfl <;> rcases hf with rfl | rfl | rfl | rfl <;>
        first
        | (norm_num [rectEdge] at hef; done)
        | norm_num [rectEdge]
  · show OnlyThree (sides 0 4 rectPoint)
    rw [sides_rect]
    intro p h hn
    obtain ⟨rfl, h2, h4⟩ := rect_node hn
    rcases h4 with h4 | h4
    · refine ⟨rectEdge 0 ⟨0, 0⟩ ⟨8, 0⟩ ⟨1, 0⟩, rectEdge 2 ⟨8, 4⟩ ⟨0, 4⟩ ⟨-1, 0⟩, rectEdge 3 ⟨0, 4⟩ ⟨0, 0⟩ ⟨0, -1⟩, ?_⟩
      intro e he hh
      simp only [rect, List.mem_cons, List.not_mem_nil, or_false] at he
      rcases he with rfl | rfl | rfl | rfl
      · exact .inl rfl
      · norm_num [rectEdge, height, h4] at hh
      · exact .inr (.inl rfl)
      · exact .inr (.inr rfl)
    · refine ⟨rectEdge 0 ⟨0, 0⟩ ⟨8, 0⟩ ⟨1, 0⟩, rectEdge 2 ⟨8, 4⟩ ⟨0, 4⟩ ⟨-1, 0⟩, rectEdge 1 ⟨8, 0⟩ ⟨8, 4⟩ ⟨0, 1⟩, ?_⟩
      intro e he hh
      simp only [rect, List.mem_cons, List.not_mem_nil, or_false] at he
      rcases he with rfl | rfl | rfl | rfl
      · exact .inl rfl
      · exact .inr (.inr rfl)
      · exact .inr (.inl rfl)
      · norm_num [rectEdge, height, h4] at hh
  · show NodesApart (sides 0 4 rectPoint)
    rw [sides_rect]
    intro p h p' h' hn hn' hne
    obtain ⟨-, h2, h4⟩ := rect_node hn
    obtain ⟨-, h2', h4'⟩ := rect_node hn'
    cases p with
    | mk x y =>
      cases p' with
      | mk x' y' =>
        simp only at h2 h4 h2' h4'
        subst h2 h2'
        rcases h4 with rfl | rfl <;> rcases h4' with rfl | rfl <;>
          first
          | exact absurd rfl hne
          | norm_num

/-- four faces, two new vertices -/
example (rt : Rt) : ∃ A out new slope fs σ, rectArgs.verts[0]? = some A ∧
    polygonize rt 17 rectArgs = some out ∧ out.verts = rectArgs.verts ++ new ∧ new.length = 2 ∧
    out.result = .ok ([] ++ fs) ∧ ((0 : ℝ) = 0 → slope = 1 / 2) ∧ ((0 : ℝ) < 0 → 0 < slope) ∧
    σ.Perm (List.range 4) ∧
    List.Forall₂ (fun k f => ∃ e, rect[k]? = some e ∧
      RoofFace rectArgs rect e A.z slope out.verts k f) σ fs := by
  rw [← sides_rect]
  obtain ⟨h1, h2, h3, h4, h5, h6, h7⟩ := rect_meets
  obtain ⟨A, out, new, slope, fs, σ, a1, a2, a3, ⟨-, -, a4⟩, a5⟩ := C62_points rt rectArgs rectPoint rfl rfl
    (by simp [rectArgs]) h1 h2 h3 h4 h5 h7 17 (by simp [rectArgs])
  have := a4 h6
  exact ⟨A, out, new, slope, fs, σ, a1, a2, a3, by simpa [rectArgs] using this, a5⟩

/-! ### A square of 4 by 4: all four sides meet in one node -/

def squarePoint : Nat → V2 ℝ
  | 0 => ⟨0, 0⟩
  | 1 => ⟨4, 0⟩
  | 2 => ⟨4, 4⟩
  | _ => ⟨0, 4⟩

def square : List (Edge2 ℝ) := [rectEdge 0 ⟨0, 0⟩ ⟨4, 0⟩ ⟨1, 0⟩, rectEdge 1 ⟨4, 0⟩ ⟨4, 4⟩ ⟨0, 1⟩,
    rectEdge 2 ⟨4, 4⟩ ⟨0, 4⟩ ⟨-1, 0⟩, rectEdge 3 ⟨0, 4⟩ ⟨0, 0⟩ ⟨0, -1⟩]

theorem sides_square : sides 0 4 squarePoint = square := by
  have r4 : List.range 4 = [0, 1, 2, 3] := rfl
  have hs : ∀ p q : V2 ℝ, (p.x - q.x) ^ 2 + (p.y - q.y) ^ 2 = 4 ^ 2 → eucl p q = 4 := by
    intro p q h
    rw [eucl, h]; exact Real.sqrt_sq (by norm_num)
  have e1 := hs (squarePoint 0) (squarePoint 1) (by norm_num [squarePoint])
  have e2 := hs (squarePoint 1) (squarePoint 2) (by norm_num [squarePoint])
  have e3 := hs (squarePoint 2) (squarePoint 3) (by norm_num [squarePoint])
  have e4 := hs (squarePoint 3) (squarePoint 0) (by norm_num [squarePoint])
  simp only [sides, r4, List.map_cons, List.map_nil, square, rectEdge]
  norm_num [e1, e2, e3, e4]
  simp only [squarePoint]
  norm_num

theorem square_node {p : V2 ℝ} {h : ℝ} (hn : RoofNode square p h) : h = 2 ∧ p.x = 2 ∧ p.y = 2 := by
  obtain ⟨hl, e1, m1, e2, m2, e3, m3, n12, n23, n13, p1, p2, p3⟩ := hn
  have l0 := hl (rectEdge 0 ⟨0, 0⟩ ⟨4, 0⟩ ⟨1, 0⟩) (by simp [square])
  have l1 := hl (rectEdge 1 ⟨4, 0⟩ ⟨4, 4⟩ ⟨0, 1⟩) (by simp [square])
  have l2 := hl (rectEdge 2 ⟨4, 4⟩ ⟨0, 4⟩ ⟨-1, 0⟩) (by simp [square])
  have l3 := hl (rectEdge 3 ⟨0, 4⟩ ⟨0, 0⟩ ⟨0, -1⟩) (by simp [square])
  simp only [square, List.mem_cons, List.not_mem_nil, or_false] at m1 m2 m3
  simp only [rectEdge, height] at l0 l1 l2 l3
  rcases m1 with rfl | rfl | rfl | rfl <;> rcases m2 with rfl | rfl | rfl | rfl <;>
    rcases m3 with rfl | rfl | rfl | rfl <;>
    first
    | exact absurd rfl n12
    | exact absurd rfl n23
    | exact absurd rfl n13
    | (simp only [rectEdge, height] at p1 p2 p3; exact ⟨by linarith, by linarith, by linarith⟩)

/-- the centre is a node -/
theorem square_centre : RoofNode square ⟨2, 2⟩ 2 := by
  refine ⟨?_, rectEdge 0 ⟨0, 0⟩ ⟨4, 0⟩ ⟨1, 0⟩, by simp [square], rectEdge 1 ⟨4, 0⟩ ⟨4, 4⟩ ⟨0, 1⟩,
    by simp [square], rectEdge 2 ⟨4, 4⟩ ⟨0, 4⟩ ⟨-1, 0⟩, by simp [square], by simp [rectEdge],
    by simp [rectEdge], by simp [rectEdge], ?_, ?_, ?_⟩
  · intro e he
    simp only [square, List.mem_cons, List.not_mem_nil, or_false] at he
    rcases he with rfl | rfl | rfl | rfl <;> norm_num [rectEdge, height]
  all_goals norm_num [rectEdge, height]

theorem square_triple {h : ℝ} (ht : Triple square h) : h = 2 := by
  obtain ⟨p, e1, m1, e2, m2, e3, m3, n12, n23, n13, p1, p2, p3⟩ := ht
  simp only [square, List.mem_cons, List.not_mem_nil, or_false] at m1 m2 m3
  rcases m1 with rfl | rfl | rfl | rfl <;> rcases m2 with rfl | rfl | rfl | rfl <;>
    rcases m3 with rfl | rfl | rfl | rfl <;>
    first
    | exact absurd rfl n12
    | exact absurd rfl n23
    | exact absurd rfl n13
    | (simp only [rectEdge, height] at p1 p2 p3; linarith)

/-- the square at the height 1, with a roof that is to be 3 high -/
noncomputable def squareArgs : PolyArgs ℝ :=
  { verts := [⟨0, 0, 1⟩, ⟨4, 0, 1⟩, ⟨4, 4, 1⟩, ⟨0, 4, 1⟩], first := 0, num := 4, holes := none, height := 3,
    tan := 0, faces := none, units := none }

/-- it meets the hypotheses, and four edges meet in its node -/
theorem square_meets : (∀ k, k < 4 → ∃ A, squareArgs.verts[0 + k]? = some A ∧ A.xy = squarePoint k) ∧
    (∀ i j, i < 4 → j < 4 → j ≠ i → j ≠ (i + 1) % 4 →
      0 < area2 (squarePoint i) (squarePoint ((i + 1) % 4)) (squarePoint j)) ∧
    (∀ k, k < 4 → 1 / 10 ^ 35 < eucl (squarePoint k) (squarePoint ((k + 1) % 4)) ^ 2) ∧
    Separated (sides 0 4 squarePoint) ∧ Blunt (sides 0 4 squarePoint) ∧
    NodesApart (sides 0 4 squarePoint) ∧ ¬ OnlyThree (sides 0 4 squarePoint) := by
  refine ⟨?_, ?_, ?_, ?_, ?_, ?_, ?_⟩
  · intro k hk
    have : k = 0 ∨ k = 1 ∨ k = 2 ∨ k = 3 := by omega
    rcases this with rfl | rfl | rfl | rfl <;> simp [squareArgs, squarePoint, V3.xy]
  · intro i j hi hj h1 h2
    have hi' : i = 0 ∨ i = 1 ∨ i = 2 ∨ i = 3 := by omega
    have hj' : j = 0 ∨ j = 1 ∨ j = 2 ∨ j = 3 := by omega
    rcases hi' with rfl | rfl | rfl | rfl <;> rcases hj' with rfl | rfl | rfl | rfl <;>
      simp at h1 h2 ⊢ <;> norm_num [squarePoint, area2]
  · intro k hk
    have : k = 0 ∨ k = 1 ∨ k = 2 ∨ k = 3 := by omega
    have hsq : ∀ p q : V2 ℝ, eucl p q ^ 2 = (p.x - q.x) ^ 2 + (p.y - q.y) ^ 2 :=
      fun p q => Real.sq_sqrt (by positivity)
    rw [hsq]
    rcases this with rfl | rfl | rfl | rfl <;> norm_num [squarePoint]
  · show Separated (sides 0 4 squarePoint)
    rw [sides_square]
    intro h h' t t' _ hlt
    rw [square_triple t, square_triple t'] at hlt
    linarith
  · show Blunt (sides 0 4 squarePoint)
    rw [sides_square]
    refine ⟨?_, ?_⟩
    · intro e he f hf g hg n1 n2 n3
      simp only [square, List.mem_cons, List.not_mem_nil, or_false] at he hf hg
      rcases he with rfl | rfl | rfl | rfl <;> rcases hf with rfl | rfl | rfl | rfl <;>
        first
        | exact absurd rfl n1
        | (left; norm_num [rectEdge])
    · intro e he f hf hef
      simp only [square, List.mem_cons, List.not_mem_nil, or_false] at he hf
      rcases he with rfl | rfl | rfl | rfl <;> rcases hf with rfl | rfl | rfl | rfl <;>
        first
        | (norm_num [rectEdge] at hef; done)
        | norm_num [rectEdge]
  · show NodesApart (sides 0 4 squarePoint)
    rw [sides_square]
    intro p h p' h' hn hn' hne
    obtain ⟨-, h2, h4⟩ := square_node hn
    obtain ⟨-, h2', h4'⟩ := square_node hn'
    cases p
    cases p'
    simp only at h2 h4 h2' h4'
    subst h2 h2' h4 h4'
    exact absurd rfl hne
  · rw [sides_square]
    intro ho
    obtain ⟨a, b, d, h⟩ := ho _ _ square_centre
    have h0 := h (rectEdge 0 ⟨0, 0⟩ ⟨4, 0⟩ ⟨1, 0⟩) (by simp [square]) (by norm_num [rectEdge, height])
    have h1 := h (rectEdge 1 ⟨4, 0⟩ ⟨4, 4⟩ ⟨0, 1⟩) (by simp [square]) (by norm_num [rectEdge, height])
    have h2 := h (rectEdge 2 ⟨4, 4⟩ ⟨0, 4⟩ ⟨-1, 0⟩) (by simp [square]) (by norm_num [rectEdge, height])
    have h3 := h (rectEdge 3 ⟨0, 4⟩ ⟨0, 0⟩ ⟨0, -1⟩) (by simp [square]) (by norm_num [rectEdge, height])
    have hoid : ∀ (i : Nat) x y z, (rectEdge i x y z).oid = i := fun _ _ _ _ => rfl
    rcases h0 with rfl | rfl | rfl <;> rcases h1 with e1 | e1 | e1 <;> rcases h2 with e2 | e2 | e2 <;>
      rcases h3 with e3 | e3 | e3 <;>
      (have f1 := congrArg Edge2.oid e1
       have f2 := congrArg Edge2.oid e2
       have f3 := congrArg Edge2.oid e3
       simp only [hoid] at f1 f2 f3
       omega)

/-- four faces -/
example (rt : Rt) : ∃ A out new slope fs σ, squareArgs.verts[0]? = some A ∧
    polygonize rt 17 squareArgs = some out ∧ out.verts = squareArgs.verts ++ new ∧
    (1 ≤ new.length ∧ new.length + 2 ≤ 4 ∧ (OnlyThree (sides 0 4 squarePoint) → new.length + 2 = 4)) ∧
    out.result = .ok ([] ++ fs) ∧ ((3 : ℝ) = 0 → slope = 0) ∧ ((0 : ℝ) < 3 → 0 < slope) ∧
    σ.Perm (List.range 4) ∧
    List.Forall₂ (fun k f => ∃ e, (sides 0 4 squarePoint)[k]? = some e ∧
      RoofFace squareArgs (sides 0 4 squarePoint) e A.z slope out.verts k f) σ fs := by
  obtain ⟨h1, h2, h3, h4, h5, h6, -⟩ := square_meets
  exact C62_points rt squareArgs squarePoint rfl rfl (by simp [squareArgs]) h1 h2 h3 h4 h5 h6 17
    (by simp [squareArgs])

/-- a right-angled triangle, with the pitch given by the height of the roof -/
noncomputable def triArgs : PolyArgs ℝ :=
  { verts := [⟨0, 0, 5⟩, ⟨4, 0, 5⟩, ⟨0, 3, 5⟩], first := 0, num := 3, holes := none, height := 2,
    tan := 0, faces := none, units := none }

noncomputable def triPoint (k : Nat) : V2 ℝ :=
  if k = 0 then ⟨0, 0⟩ else if k = 1 then ⟨4, 0⟩ else ⟨0, 3⟩

/-- it meets the hypotheses -/
theorem tri_meets : (∀ k, k < 3 → ∃ A, triArgs.verts[0 + k]? = some A ∧ A.xy = triPoint k) ∧
    0 < area2 (triPoint 0) (triPoint 1) (triPoint 2) ∧
    ∀ k, k < 3 → 1 / 10 ^ 35 < eucl (triPoint k) (triPoint ((k + 1) % 3)) ^ 2 := by
  refine ⟨?_, ?_, ?_⟩
  · intro k hk
    have : k = 0 ∨ k = 1 ∨ k = 2 := by omega
    rcases this with rfl | rfl | rfl <;> simp [triArgs, triPoint, V3.xy]
  · norm_num [area2, triPoint]
  · intro k hk
    have hsq : ∀ p q : V2 ℝ, eucl p q ^ 2 = (p.x - q.x) ^ 2 + (p.y - q.y) ^ 2 :=
      fun p q => Real.sq_sqrt (by positivity)
    rw [hsq]
    have : k = 0 ∨ k = 1 ∨ k = 2 := by omega
    rcases this with rfl | rfl | rfl <;> norm_num [triPoint]

example (rt : Rt) : ∃ A out N slope fs σ, triArgs.verts[0]? = some A ∧
    polygonize rt 13 triArgs = some out ∧ out.verts = triArgs.verts ++ [N] ∧
    out.result = .ok ([] ++ fs) ∧ ((2 : ℝ) = 0 → slope = 0) ∧ ((0 : ℝ) < 2 → 0 < slope) ∧
    σ.Perm [0, 1, 2] ∧
    List.Forall₂ (fun k f => ∃ e, (sides 0 3 triPoint)[k]? = some e ∧
      RoofFace triArgs (sides 0 3 triPoint) e A.z slope out.verts k f) σ fs := by
  obtain ⟨h1, h2, h3⟩ := tri_meets
  exact C62_triangle rt triArgs triPoint rfl rfl rfl h1 h2 h3 13 (le_refl _)

end Polyskel
