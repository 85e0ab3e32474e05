import Verif.Props.Building
import Verif.Spec.Euler
/-
C84: the roof over a convex polygon satisfies Euler's formula, and its skeleton is a tree.
-/
namespace Polyskel
open Scalar Geo Real

/-- C84: under the hypotheses of `C62_points` the faces that `polygonize` adds satisfy Euler's formula for a
disc: vertices - edges + faces = 1.  Each corner of the polygon and each new vertex is in a face; there is a
face for each side; all faces together have `3 n + 2 m - 2` corners, if the polygon has `n` sides and there
are `m` new vertices.  The skeleton is a tree: no point is the sink of two nodes or twice of one, the number
of arcs is one less than that of the corners and nodes, and all nodes but one are sinks. -/
theorem C84_points (rt : Rt) (a : PolyArgs ℝ) (P : Nat → V2 ℝ) (hh : a.holes.getD [] = [])
    (hu : a.units = none) (h3 : 3 ≤ a.num)
    (hv : ∀ k, k < a.num → ∃ A, a.verts[a.first + k]? = some A ∧ A.xy = P k)
    (hleft : ∀ i j, i < a.num → j < a.num → j ≠ i → j ≠ (i + 1) % a.num →
      0 < area2 (P i) (P ((i + 1) % a.num)) (P j))
    (hlong : ∀ k, k < a.num → 1 / 10 ^ 35 < eucl (P k) (P ((k + 1) % a.num)) ^ 2)
    (hsep : Separated (sides a.first a.num P)) (hbl : Blunt (sides a.first a.num P))
    (hap : NodesApart (sides a.first a.num P)) (fuel : Nat) (hf : 4 * a.num + 1 ≤ fuel) :
    ∃ out new fs sk, polygonize rt fuel a = some out ∧ out.verts = a.verts ++ new ∧
      out.result = .ok (a.faces.getD [] ++ fs) ∧ out.debug = some sk ∧ sk.length = new.length ∧
      meshVertices fs + fs.length = meshEdges fs + 1 ∧ fs.length = a.num ∧
      meshVertices fs = a.num + new.length ∧
      (fs.map List.length).sum + 2 = 3 * a.num + 2 * new.length ∧
      (sk.flatMap (·.sinks)).Nodup ∧ (sk.flatMap (·.sinks)).length + 1 = a.num + sk.length ∧
      ∃ t ∈ sk, ∀ s ∈ sk, s.source ∈ sk.flatMap (·.sinks) ↔ s ≠ t := by
  obtain ⟨A, ctr, hA, hb⟩ := contours_of_points a hh hu (by omega) hv hlong
  have hl : ((sides a.first a.num P).map (moveEdge ⟨-ctr.x, -ctr.y⟩)).length = a.num := by
    rw [List.length_map, sides_length]
  have hc : ConvexPolygon ((sides a.first a.num P).map (moveEdge ⟨-ctr.x, -ctr.y⟩)) :=
    (sides_convex h3 hleft).move _
  obtain ⟨out, sk, slope, fs, σ, h1, h2, h4, -, -, -, ⟨-, ⟨t0, t1, t2, t3⟩, e1, e2, e3⟩, h5, h6, h7, h8, h9⟩ :=
    convex_core_nodes rt a A.z ctr _ hb hc (by rw [hl]; exact h3) (hsep.move _) (.inl (hbl.move _))
      (fun _ _ _ hg hl' ha => convex_finish hc (by rw [hl]; exact h3) hg hl' ha (hbl.move _) (hap.move _))
      fuel (by rw [hl]; exact hf)
  rw [hl] at h8 t2 e1 e2 e3
  have hfl : fs.length = a.num := by rw [← h9.length_eq, h8.length_eq, List.length_range]
  refine ⟨out, _, fs, sk, h1, h2, h5, t0, by simp, ?_, hfl, by simpa [meshVertices] using e3, ?_, t1, t2, t3⟩
  · simp only [meshVertices, meshEdges, meshDarts]
    omega
  · rw [List.length_flatMap] at e2
    simpa using e2

/-- C84 for a triangle: four vertices, six edges and three faces; no further hypothesis. -/
theorem C84_triangle (rt : Rt) (a : PolyArgs ℝ) (P : Nat → V2 ℝ) (hh : a.holes.getD [] = [])
    (hu : a.units = none) (h3 : a.num = 3)
    (hv : ∀ k, k < 3 → ∃ A, a.verts[a.first + k]? = some A ∧ A.xy = P k)
    (hleft : 0 < area2 (P 0) (P 1) (P 2))
    (hlong : ∀ k, k < 3 → 1 / 10 ^ 35 < eucl (P k) (P ((k + 1) % 3)) ^ 2) (fuel : Nat)
    (hf : 13 ≤ fuel) :
    ∃ out N fs s, polygonize rt fuel a = some out ∧ out.verts = a.verts ++ [N] ∧
      out.result = .ok (a.faces.getD [] ++ fs) ∧ out.debug = some [s] ∧
      meshVertices fs = 4 ∧ meshEdges fs = 6 ∧ fs.length = 3 ∧ (∀ f ∈ fs, f.length = 3) ∧
      s.sinks.Nodup ∧ s.sinks.length = 3 ∧ s.source ∉ s.sinks := by
  have hleft' : ∀ i j, i < a.num → j < a.num → j ≠ i → j ≠ (i + 1) % a.num →
      0 < area2 (P i) (P ((i + 1) % a.num)) (P j) := by
    rw [h3]
    exact triangle_left hleft
  obtain ⟨A, ctr, hA, hb⟩ := contours_of_points a hh hu (by omega) (by rw [h3]; exact hv) (by rw [h3]; exact hlong)
  have hl : ((sides a.first a.num P).map (moveEdge ⟨-ctr.x, -ctr.y⟩)).length = 3 := by
    rw [List.length_map, sides_length, h3]
  have hc : ConvexPolygon ((sides a.first a.num P).map (moveEdge ⟨-ctr.x, -ctr.y⟩)) :=
    (sides_convex (by omega) hleft').move _
  obtain ⟨out, sk, slope, fs, σ, h1, h2, h4, -, -, -, ⟨-, ⟨t0, t1, t2, t, tm, t3⟩, e1, e2, e3⟩, h5, h6, h7, h8, h9⟩ :=
    convex_core_nodes rt a A.z ctr _ hb hc (by omega) (triangle_separated _ hc hl)
      (.inr (triangle_one hc hl))
      (fun _ _ _ hg hl' ha => one_finish hc (by omega) (triangle_one hc hl) hg hl' ha) fuel (by rw [hl]; exact hf)
  rw [hl] at h4 h8 t2 e1 e2 e3
  obtain ⟨s, rfl⟩ := List.length_eq_one_iff.1 (show sk.length = 1 by omega)
  have hfl : fs.length = 3 := by rw [← h9.length_eq, h8.length_eq, List.length_range]
  simp only [List.flatMap_cons, List.flatMap_nil, List.append_nil, List.length_singleton] at t1 t2 t3 e1 e2 e3
  obtain rfl : t = s := by simpa using tm
  refine ⟨out, _, fs, t, h1, h2, h5, t0, e3, by simp only [meshEdges, meshDarts]; omega, hfl, ?_, t1, by omega,
    fun hm => (t3 t (by simp)).1 hm rfl⟩
  have hge : ∀ f ∈ fs, 3 ≤ f.length := by
    intro f hf'
    obtain ⟨k, -, e, -, hr⟩ := forall₂_mem_right h9 hf'
    exact hr.size
  rw [List.length_flatMap] at e2
  match fs, hfl, e2, hge with
  | [f, g, h], _, e2, hge =>
    have h1 := hge f (by simp)
    have h2 := hge g (by simp)
    have h3 := hge h (by simp)
    simp at e2
    intro x hx
    simp only [List.mem_cons, List.not_mem_nil, or_false] at hx
    rcases hx with rfl | rfl | rfl <;> omega

/-- the roof over a rectangle: six vertices, nine edges and four faces with 14 corners; five arcs -/
example (rt : Rt) : ∃ out new fs sk, polygonize rt 17 rectArgs = some out ∧
    out.verts = rectArgs.verts ++ new ∧ new.length = 2 ∧ out.result = .ok fs ∧ out.debug = some sk ∧
    meshVertices fs = 6 ∧ meshEdges fs = 9 ∧ fs.length = 4 ∧ (fs.map List.length).sum = 14 ∧
    (sk.flatMap (·.sinks)).length = 5 := by
  obtain ⟨h1, h2, h3, h4, h5, h6, h7⟩ := rect_meets
  obtain ⟨out, new, fs, sk, hp, hvs, hres, hd, hsl, he, hfl, hmv, hsum, -, hsk, -⟩ :=
    C84_points rt rectArgs rectPoint rfl rfl (by decide) h1 h2 h3 h4 h5 h7 17 (by decide)
  obtain ⟨A, out', new', slope, fs', σ, -, hp', hvs', ⟨-, -, hn⟩, -⟩ := C62_points rt rectArgs rectPoint rfl rfl
    (by simp [rectArgs]) h1 h2 h3 h4 h5 h7 17 (by simp [rectArgs])
  rw [hp] at hp'
  cases hp'
  obtain rfl : new = new' := List.append_cancel_left (hvs.symm.trans hvs')
  have hnew : new.length = 2 := by simpa [rectArgs] using hn h6
  have hnum : rectArgs.num = 4 := rfl
  rw [hnum] at hfl hmv hsum hsk
  exact ⟨out, new, fs, sk, hp, hvs, hnew, hres, hd, by omega, by omega, hfl, by omega, by omega⟩

end Polyskel
