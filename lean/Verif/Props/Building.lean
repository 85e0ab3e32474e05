import Verif.Proofs.Building
import Verif.Props.ConvexFaces
/-
C74: the building of the Blender add-on is a surface that is open at the ground only.
-/
namespace Polyskel
open Scalar Geo Real

/-- C74, the walls: for any number of vertices from 3 on, and any roof that is a surface bounded by the
eaves (the polygon of the vertices `n .. 2n-1`) and that uses no vertex of the ground, the walls of
__init__.py and the roof together are a surface that is bounded by the ground (the polygon of the vertices
`0 .. n-1`): each edge of a wall at the eaves is passed in the other direction by the roof. -/
theorem C74_walls (n : Nat) (hn : 3 ≤ n) : ∃ W, wallFaces n n = .ok W ∧ W.length = n ∧
    ∀ roof, Bounded roof (polygonDarts n n) → (∀ f ∈ roof, ∀ v ∈ f, (n : Int) ≤ v) →
      Bounded (W ++ roof) (polygonDarts 0 n) := by
  obtain ⟨W, hW⟩ := wallFaces_some n n (by omega)
  refine ⟨W, hW, by rw [wallFaces_eq hW]; simp, fun roof hr hl => walls_bounded hn hW hr ?_⟩
  intro d hd
  obtain ⟨f, hf, i, h1, h2⟩ := mem_meshDarts.1 hd
  exact ⟨hl f hf _ (List.mem_of_getElem? h1), hl f hf _ (List.mem_of_getElem? h2)⟩

/-- the vertices of the polygon are in the list -/
private theorem fits {a : PolyArgs ℝ} {P : Nat → V2 ℝ} (h : 0 < a.num)
    (hv : ∀ k, k < a.num → ∃ A, a.verts[a.first + k]? = some A ∧ A.xy = P k) :
    a.first + a.num ≤ a.verts.length := by
  obtain ⟨A, hA, -⟩ := hv (a.num - 1) (by omega)
  have := (List.getElem?_eq_some_iff.1 hA).1
  omega

/-- C74, the roof: under the hypotheses of `C62_points` the faces that `polygonize` adds are a surface that
is bounded by the polygon; all other edges are between two faces, which pass them in opposite directions. -/
theorem C74_roof (rt : Rt) (a : PolyArgs ℝ) (P : Nat → V2 ℝ) (hh : a.holes.getD [] = [])
    (hu : a.units = none) (h3 : 3 ≤ a.num)
    (hv : ∀ k, k < a.num → ∃ A, a.verts[a.first + k]? = some A ∧ A.xy = P k)
    (hleft : ∀ i j, i < a.num → j < a.num → j ≠ i → j ≠ (i + 1) % a.num →
      0 < area2 (P i) (P ((i + 1) % a.num)) (P j))
    (hlong : ∀ k, k < a.num → 1 / 10 ^ 35 < eucl (P k) (P ((k + 1) % a.num)) ^ 2)
    (hsep : Separated (sides a.first a.num P)) (hbl : Blunt (sides a.first a.num P))
    (hap : NodesApart (sides a.first a.num P)) (fuel : Nat) (hf : 4 * a.num + 1 ≤ fuel) :
    ∃ out new fs, polygonize rt fuel a = some out ∧ out.verts = a.verts ++ new ∧
      out.result = .ok (a.faces.getD [] ++ fs) ∧ fs.length = a.num ∧
      Bounded fs (polygonDarts a.first a.num) ∧
      ∀ d ∈ meshDarts fs, (a.first : Int) ≤ d.1 ∧ (a.first : Int) ≤ d.2 := by
  obtain ⟨A, ctr, hA, hb⟩ := contours_of_points a hh hu (by omega) hv hlong
  have hl : ((sides a.first a.num P).map (moveEdge ⟨-ctr.x, -ctr.y⟩)).length = a.num := by
    rw [List.length_map, sides_length]
  have hc : ConvexPolygon ((sides a.first a.num P).map (moveEdge ⟨-ctr.x, -ctr.y⟩)) :=
    (sides_convex h3 hleft).move _
  obtain ⟨out, sk, slope, fs, σ, h1, h2, h4, -, -, -, ⟨⟨hnd, hpair⟩, -⟩, h5, h6, h7, h8, h9⟩ :=
    convex_core_nodes rt a A.z ctr _ hb hc (by rw [hl]; exact h3) (hsep.move _) (.inl (hbl.move _))
      (fun _ _ _ hg hl' ha => convex_finish hc (by rw [hl]; exact h3) hg hl' ha (hbl.move _) (hap.move _))
      fuel (by rw [hl]; exact hf)
  rw [hl] at h8
  refine ⟨out, _, fs, h1, h2, h5, ?_, roof_bounded h3 (fits (by omega) hv) hnd hpair h8
    (h9.imp fun _ _ ⟨_, _, h⟩ => ⟨_, h⟩)⟩
  rw [← h9.length_eq, h8.length_eq, List.length_range]

/-- C74, the roof over a triangle: no further hypothesis. -/
theorem C74_roof_triangle (rt : Rt) (a : PolyArgs ℝ) (P : Nat → V2 ℝ) (hh : a.holes.getD [] = [])
    (hu : a.units = none) (h3 : a.num = 3)
    (hv : ∀ k, k < 3 → ∃ A, a.verts[a.first + k]? = some A ∧ A.xy = P k)
    (hleft : 0 < area2 (P 0) (P 1) (P 2))
    (hlong : ∀ k, k < 3 → 1 / 10 ^ 35 < eucl (P k) (P ((k + 1) % 3)) ^ 2) (fuel : Nat)
    (hf : 13 ≤ fuel) :
    ∃ out N fs, polygonize rt fuel a = some out ∧ out.verts = a.verts ++ [N] ∧
      out.result = .ok (a.faces.getD [] ++ fs) ∧ fs.length = 3 ∧
      Bounded fs (polygonDarts a.first a.num) ∧
      ∀ d ∈ meshDarts fs, (a.first : Int) ≤ d.1 ∧ (a.first : Int) ≤ d.2 := by
  have hleft' : ∀ i j, i < a.num → j < a.num → j ≠ i → j ≠ (i + 1) % a.num →
      0 < area2 (P i) (P ((i + 1) % a.num)) (P j) := by
    rw [h3]
    exact triangle_left hleft
  obtain ⟨A, ctr, hA, hb⟩ := contours_of_points a hh hu (by omega) (by rw [h3]; exact hv) (by rw [h3]; exact hlong)
  have hl : ((sides a.first a.num P).map (moveEdge ⟨-ctr.x, -ctr.y⟩)).length = 3 := by
    rw [List.length_map, sides_length, h3]
  have hc : ConvexPolygon ((sides a.first a.num P).map (moveEdge ⟨-ctr.x, -ctr.y⟩)) :=
    (sides_convex (by omega) hleft').move _
  obtain ⟨out, sk, slope, fs, σ, h1, h2, h4, -, -, -, ⟨⟨hnd, hpair⟩, -⟩, h5, h6, h7, h8, h9⟩ :=
    convex_core_nodes rt a A.z ctr _ hb hc (by omega) (triangle_separated _ hc hl)
      (.inr (triangle_one hc hl))
      (fun _ _ _ hg hl' ha => one_finish hc (by omega) (triangle_one hc hl) hg hl' ha) fuel (by rw [hl]; exact hf)
  rw [hl] at h8 h4
  obtain ⟨s, rfl⟩ := List.length_eq_one_iff.1 (show sk.length = 1 by omega)
  refine ⟨out, _, fs, h1, h2, h5, ?_, roof_bounded (by omega) (fits (by omega) (by rw [h3]; exact hv)) hnd hpair
    (by rw [h3]; exact h8) (h9.imp fun _ _ ⟨_, _, h⟩ => ⟨_, h⟩)⟩
  rw [← h9.length_eq, h8.length_eq, List.length_range]

/-- what `add_object` passes to `polygonize` -/
private theorem args_ok {foot : List (V3 ℝ)} {sz : ℝ} (h3 : 3 ≤ foot.length) : ∃ W a,
    wallFaces foot.length foot.length = .ok W ∧ buildingArgs foot sz = .ok a ∧ a.holes = none ∧ a.units = none ∧
    a.first = foot.length ∧ a.num = foot.length ∧ a.faces = some W ∧ a.height = 0 ∧ a.tan = 6 / 10 ∧
    a.verts = foot ++ foot.map fun v => ⟨v.x, v.y, v.z + 5 * sz⟩ := by
  obtain ⟨W, hW⟩ := wallFaces_some foot.length foot.length (by omega)
  refine ⟨W, _, hW, by rw [buildingArgs, hW, ok_bind]; rfl, rfl, rfl, rfl, rfl, rfl, ?_, ?_, ?_⟩
  · simp [fzero]
  · simp
  · simp [V3.add, mkV3, fzero]

private theorem args_point {foot : List (V3 ℝ)} {P : Nat → V2 ℝ} {k : Nat} {z : ℝ}
    (hv : ∃ A, foot[k]? = some A ∧ A.xy = P k) :
    ∃ A, (foot ++ foot.map fun v => (⟨v.x, v.y, v.z + z⟩ : V3 ℝ))[foot.length + k]? = some A ∧ A.xy = P k := by
  obtain ⟨A, hA, hx⟩ := hv
  refine ⟨⟨A.x, A.y, A.z + z⟩, ?_, by simpa [V3.xy] using hx⟩
  rw [List.getElem?_append_right (by omega)]
  simp [hA]

/-- C74: if the footprint is a strictly convex polygon of the kind of `C62_points`, `add_object` of
__init__.py makes a mesh of a wall and a roof face for each side; the vertices of the eaves are straight
above those of the ground; and the mesh is a surface with a consistent orientation, the only border of which
is the footprint on the ground. -/
theorem C74_building (rt : Rt) (foot : List (V3 ℝ)) (sz : ℝ) (P : Nat → V2 ℝ) (h3 : 3 ≤ foot.length)
    (hv : ∀ k, k < foot.length → ∃ A, foot[k]? = some A ∧ A.xy = P k)
    (hleft : ∀ i j, i < foot.length → j < foot.length → j ≠ i → j ≠ (i + 1) % foot.length →
      0 < area2 (P i) (P ((i + 1) % foot.length)) (P j))
    (hlong : ∀ k, k < foot.length → 1 / 10 ^ 35 < eucl (P k) (P ((k + 1) % foot.length)) ^ 2)
    (hsep : Separated (sides 0 foot.length P)) (hbl : Blunt (sides 0 foot.length P))
    (hap : NodesApart (sides 0 foot.length P)) (fuel : Nat) (hf : 4 * foot.length + 1 ≤ fuel) :
    ∃ out new faces, building rt fuel foot sz = some (.ok out) ∧
      out.verts = foot ++ (foot.map fun v => ⟨v.x, v.y, v.z + 5 * sz⟩) ++ new ∧ out.result = .ok faces ∧
      faces.length = 2 * foot.length ∧ Bounded faces (polygonDarts 0 foot.length) := by
  obtain ⟨W, a, hW, ha, hh, hu, hfi, hnu, hfa, -, -, hve⟩ := args_ok (sz := sz) h3
  obtain ⟨out, new, fs, h1, h2, h4, h5, h6, h7⟩ := C74_roof rt a P (by rw [hh]; rfl) hu (by omega)
    (by rw [hnu, hve, hfi]; exact fun k hk => args_point (hv k hk)) (by rw [hnu]; exact hleft)
    (by rw [hnu]; exact hlong) (by rw [hnu, sides_renumber]; exact hsep.renumber _)
    (by rw [hnu, sides_renumber]; exact hbl.renumber _) (by rw [hnu, sides_renumber]; exact hap.renumber _) fuel (by omega)
  rw [hfi, hnu] at h6
  rw [hfi] at h7
  refine ⟨out, new, W ++ fs, by rw [building, ha]; simp [h1], by rw [h2, hve], by rw [h4, hfa]; rfl, ?_,
    walls_bounded h3 hW h6 h7⟩
  rw [List.length_append, wallFaces_eq hW, h5, hnu]
  simp
  omega

/-- C74 for a building on a triangle: no further hypothesis. -/
theorem C74_building_triangle (rt : Rt) (A B C : V3 ℝ) (sz : ℝ) (hleft : 0 < area2 A.xy B.xy C.xy)
    (hAB : 1 / 10 ^ 35 < eucl A.xy B.xy ^ 2) (hBC : 1 / 10 ^ 35 < eucl B.xy C.xy ^ 2)
    (hCA : 1 / 10 ^ 35 < eucl C.xy A.xy ^ 2) (fuel : Nat) (hf : 13 ≤ fuel) :
    ∃ out N faces, building rt fuel [A, B, C] sz = some (.ok out) ∧
      out.verts = [A, B, C, ⟨A.x, A.y, A.z + 5 * sz⟩, ⟨B.x, B.y, B.z + 5 * sz⟩, ⟨C.x, C.y, C.z + 5 * sz⟩, N] ∧
      out.result = .ok faces ∧ faces.length = 6 ∧ Bounded faces [(0, 1), (1, 2), (2, 0)] := by
  obtain ⟨W, a, hW, ha, hh, hu, hfi, hnu, hfa, -, -, hve⟩ := args_ok (foot := [A, B, C]) (sz := sz) (by simp)
  let P : Nat → V2 ℝ := fun k => if k = 0 then A.xy else if k = 1 then B.xy else C.xy
  have hv : ∀ k, k < 3 → ∃ V, [A, B, C][k]? = some V ∧ V.xy = P k := by
    intro k hk
    rcases (show k = 0 ∨ k = 1 ∨ k = 2 by omega) with rfl | rfl | rfl <;> simp [P]
  have hlong : ∀ k, k < 3 → 1 / 10 ^ 35 < eucl (P k) (P ((k + 1) % 3)) ^ 2 := by
    intro k hk
    rcases (show k = 0 ∨ k = 1 ∨ k = 2 by omega) with rfl | rfl | rfl
    · simpa [P] using hAB
    · simpa [P] using hBC
    · simpa [P] using hCA
  obtain ⟨out, N, fs, h1, h2, h4, h5, h6, h7⟩ := C74_roof_triangle rt a P (by rw [hh]; rfl) hu hnu
    (by rw [hve, hfi]; exact fun k hk => args_point (hv k hk)) (by simpa [P] using hleft) hlong fuel hf
  rw [hfi, hnu] at h6
  rw [hfi] at h7
  refine ⟨out, N, W ++ fs, by rw [building, ha]; simp [h1], by rw [h2, hve]; rfl, by rw [h4, hfa]; rfl, ?_, ?_⟩
  swap
  · have h8 := walls_bounded (by simp) hW h6 h7
    simpa [polygonDarts, List.range_succ] using h8
  rw [List.length_append, wallFaces_eq hW, h5]
  simp

/-- a building on a rectangle of 8 by 4: 4 walls and 4 roof faces -/
example (rt : Rt) : ∃ out new faces,
    building rt 17 [(⟨0, 0, 0⟩ : V3 ℝ), ⟨8, 0, 0⟩, ⟨8, 4, 0⟩, ⟨0, 4, 0⟩] 1 = some (.ok out) ∧
    out.verts = [⟨0, 0, 0⟩, ⟨8, 0, 0⟩, ⟨8, 4, 0⟩, ⟨0, 4, 0⟩] ++ [⟨0, 0, 5⟩, ⟨8, 0, 5⟩, ⟨8, 4, 5⟩, ⟨0, 4, 5⟩] ++ new ∧
    out.result = .ok faces ∧ faces.length = 8 ∧ Bounded faces [(0, 1), (1, 2), (2, 3), (3, 0)] := by
  obtain ⟨-, h2, h3, h4, h5, -, h6⟩ := rect_meets
  obtain ⟨out, new, faces, h⟩ := C74_building rt [⟨0, 0, 0⟩, ⟨8, 0, 0⟩, ⟨8, 4, 0⟩, ⟨0, 4, 0⟩] 1 rectPoint (by simp)
    (by
      intro k hk
      have : k = 0 ∨ k = 1 ∨ k = 2 ∨ k = 3 := by simp at hk; omega
      rcases this with rfl | rfl | rfl | rfl <;> simp [rectPoint, V3.xy])
    h2 h3 h4 h5 h6 17 (by simp)
  refine ⟨out, new, faces, ?_⟩
  simpa [polygonDarts, List.range_succ] using h

/-- a building on a triangle: 3 walls and 3 roof faces -/
example (rt : Rt) : ∃ out N faces,
    building rt 13 [(⟨0, 0, 0⟩ : V3 ℝ), ⟨4, 0, 0⟩, ⟨0, 3, 0⟩] 2 = some (.ok out) ∧
    out.verts = [⟨0, 0, 0⟩, ⟨4, 0, 0⟩, ⟨0, 3, 0⟩, ⟨0, 0, 10⟩, ⟨4, 0, 10⟩, ⟨0, 3, 10⟩, N] ∧
    out.result = .ok faces ∧ faces.length = 6 ∧ Bounded faces [(0, 1), (1, 2), (2, 0)] := by
  have hsq : ∀ p q : V2 ℝ, eucl p q ^ 2 = (p.x - q.x) ^ 2 + (p.y - q.y) ^ 2 :=
    fun p q => Real.sq_sqrt (by positivity)
  obtain ⟨out, N, faces, h⟩ := C74_building_triangle rt ⟨0, 0, 0⟩ ⟨4, 0, 0⟩ ⟨0, 3, 0⟩ 2
    (by norm_num [area2, V3.xy]) (by rw [hsq]; norm_num [V3.xy]) (by rw [hsq]; norm_num [V3.xy])
    (by rw [hsq]; norm_num [V3.xy]) 13 le_rfl
  refine ⟨out, N, faces, ?_⟩
  norm_num at h
  exact h

/-- the constants of the add-on fit: the footprint has 26 vertices, and its 26 walls are closed by any roof
over the vertices 26 to 51 -/
theorem C74_demo : demoCoords.length = 26 ∧ ∃ W, wallFaces 26 26 = .ok W ∧ W.length = 26 ∧
    ∀ roof, Bounded roof (polygonDarts 26 26) → (∀ f ∈ roof, ∀ v ∈ f, (26 : Int) ≤ v) →
      Bounded (W ++ roof) (polygonDarts 0 26) := by
  refine ⟨by decide, ?_⟩
  simpa using C74_walls 26 (by omega)

end Polyskel
