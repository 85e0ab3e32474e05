import Verif.Proofs.RunOff
import Verif.Props.Pitch
/-
C78: water runs off the roof over a convex polygon.
-/
namespace Polyskel
open Scalar Geo Real

/-- C78: under the hypotheses of `C62_points`, and if the polygon is horizontal and the pitch positive, water
runs off the roof: the straight line down from a point of a face stays in the face and ends on its side of the
polygon, and from every new vertex a way along sides of the faces, always down, leads to a vertex of the
polygon. -/
theorem C78_points (rt : Rt) (a : PolyArgs ℝ) (P : Nat → V2 ℝ) (z : ℝ) (hh : a.holes.getD [] = [])
    (hu : a.units = none) (h3 : 3 ≤ a.num)
    (hv : ∀ k, k < a.num → ∃ A, a.verts[a.first + k]? = some A ∧ A.xy = P k ∧ A.z = z)
    (hleft : ∀ i j, i < a.num → j < a.num → j ≠ i → j ≠ (i + 1) % a.num →
      0 < area2 (P i) (P ((i + 1) % a.num)) (P j))
    (hlong : ∀ k, k < a.num → 1 / 10 ^ 35 < eucl (P k) (P ((k + 1) % a.num)) ^ 2)
    (hsep : Separated (sides a.first a.num P)) (hbl : Blunt (sides a.first a.num P))
    (hap : NodesApart (sides a.first a.num P)) (hup : 0 < a.height ∨ (a.height = 0 ∧ 0 < a.tan))
    (fuel : Nat) (hf : 4 * a.num + 1 ≤ fuel) :
    ∃ out fs σ, polygonize rt fuel a = some out ∧ out.result = .ok (a.faces.getD [] ++ fs) ∧
      σ.Perm (List.range a.num) ∧
      List.Forall₂ (fun k f => f[0]? = some ((a.first + k : Nat) : Int) ∧
        f[1]? = some ((a.first + (k + 1) % a.num : Nat) : Int) ∧ Drained a.num P out.verts k f) σ fs ∧
      ∀ v : Nat, a.verts.length ≤ v → v < out.verts.length → ∃ k, k < a.num ∧
        Relation.TransGen (Below out.verts fs) v (a.first + k) := by
  have hv' : ∀ k, k < a.num → ∃ A, a.verts[a.first + k]? = some A ∧ A.xy = P k := fun k hk => by
    obtain ⟨A, h1, h2, -⟩ := hv k hk
    exact ⟨A, h1, h2⟩
  obtain ⟨A, out, new, slope, fs, σ, hA, h1, h2, -, h4, h5, h6, h7, h8⟩ :=
    C62_points rt a P hh hu h3 hv' hleft hlong hsep hbl hap fuel hf
  obtain ⟨_, out', new', t, -, k1, k2, k3, k4, -⟩ :=
    C67_nodes rt a P hh hu h3 hv' hleft hlong hsep hbl hap fuel hf
  rw [h1] at k1
  cases k1
  obtain rfl : new = new' := List.append_cancel_left (h2.symm.trans k2)
  have hVz : ∀ k, k < a.num → ∃ A, out.verts[a.first + k]? = some A ∧ A.xy = P k ∧ A.z = z := by
    intro k hk
    obtain ⟨B, hB, hBP⟩ := hv k hk
    exact ⟨B, by rw [h2, List.getElem?_append_left (List.getElem?_eq_some_iff.1 hB).1, hB], hBP⟩
  have hV : ∀ k, k < a.num → ∃ A, out.verts[a.first + k]? = some A ∧ A.xy = P k := fun k hk => by
    obtain ⟨A, h1, h2, -⟩ := hVz k hk
    exact ⟨A, h1, h2⟩
  obtain ⟨B, hB, -, hBz⟩ := hv 0 (by omega)
  obtain rfl : A = B := by simpa [hA] using hB
  rw [hBz] at h8
  have hs : 0 < slope := by
    rcases hup with h | ⟨h, h'⟩
    · exact h6 h
    · rw [h5 h]; exact h'
  have hc := sides_convex (first := a.first) h3 hleft
  refine ⟨out, fs, σ, h1, h4, h7, runoff_core h3 hVz (fun k hk => ?_) hleft h7 h8 hs ?_⟩
  · obtain ⟨B, hB, -⟩ := hv k hk
    exact (List.getElem?_eq_some_iff.1 hB).1
  -- each new vertex is in a face
  intro v hv1 hv2
  obtain ⟨N, hN⟩ : ∃ N, new[v - a.verts.length]? = some N :=
    ⟨_, List.getElem?_eq_getElem (by rw [h2, List.length_append] at hv2; omega)⟩
  obtain ⟨h, hn⟩ := (k4 _).1 (List.mem_map_of_mem (List.mem_of_getElem? hN))
  obtain ⟨f, hff, p, hpf, hge, X, hX, hXN⟩ := node_in_face h3 hV hleft h7 h8 hn
  rw [h2, List.getElem?_append_right (by omega)] at hX
  have g1 : (new.map V3.xy)[v - a.verts.length]? = some N.xy := by rw [List.getElem?_map, hN]; rfl
  have g2 : (new.map V3.xy)[p.toNat - a.verts.length]? = some N.xy := by
    rw [List.getElem?_map, hX, ← hXN]; rfl
  have := (List.getElem?_inj (List.getElem?_eq_some_iff.1 g1).1 k3).1 (g1.trans g2.symm)
  have hpv : p = (v : Int) := by omega
  rw [← hpv]
  exact ⟨f, hff, hpf⟩

/-- C78 for triangles: no further hypothesis. -/
theorem C78_triangle (rt : Rt) (a : PolyArgs ℝ) (P : Nat → V2 ℝ) (z : ℝ) (hh : a.holes.getD [] = [])
    (hu : a.units = none) (h3 : a.num = 3)
    (hv : ∀ k, k < 3 → ∃ A, a.verts[a.first + k]? = some A ∧ A.xy = P k ∧ A.z = z)
    (hleft : 0 < area2 (P 0) (P 1) (P 2))
    (hlong : ∀ k, k < 3 → 1 / 10 ^ 35 < eucl (P k) (P ((k + 1) % 3)) ^ 2)
    (hup : 0 < a.height ∨ (a.height = 0 ∧ 0 < a.tan)) (fuel : Nat) (hf : 13 ≤ fuel) :
    ∃ out fs σ, polygonize rt fuel a = some out ∧ out.result = .ok (a.faces.getD [] ++ fs) ∧
      σ.Perm (List.range 3) ∧
      List.Forall₂ (fun k f => f[0]? = some ((a.first + k : Nat) : Int) ∧
        f[1]? = some ((a.first + (k + 1) % 3 : Nat) : Int) ∧ Drained 3 P out.verts k f) σ fs ∧
      ∀ v : Nat, a.verts.length ≤ v → v < out.verts.length → ∃ k, k < 3 ∧
        Relation.TransGen (Below out.verts fs) v (a.first + k) := by
  have hv' : ∀ k, k < 3 → ∃ A, a.verts[a.first + k]? = some A ∧ A.xy = P k := fun k hk => by
    obtain ⟨A, h1, h2, -⟩ := hv k hk
    exact ⟨A, h1, h2⟩
  obtain ⟨A, out, N, slope, fs, σ, hA, h1, h2, h4, h5, h6, h7, h8⟩ :=
    C62_triangle rt a P hh hu h3 hv' hleft hlong fuel hf
  have hVz : ∀ k, k < a.num → ∃ A, out.verts[a.first + k]? = some A ∧ A.xy = P k ∧ A.z = z := by
    intro k hk
    obtain ⟨B, hB, hBP⟩ := hv k (by omega)
    exact ⟨B, by rw [h2, List.getElem?_append_left (List.getElem?_eq_some_iff.1 hB).1, hB], hBP⟩
  obtain ⟨B, hB, -, hBz⟩ := hv 0 (by omega)
  obtain rfl : A = B := by simpa [hA] using hB
  rw [hBz] at h8
  have hs : 0 < slope := by
    rcases hup with h | ⟨h, h'⟩
    · exact h6 h
    · rw [h5 h]; exact h'
  have h7' : σ.Perm (List.range a.num) := by rw [h3]; exact h7
  have h8' : List.Forall₂ (fun k f => ∃ e, (sides a.first a.num P)[k]? = some e ∧
      RoofFace a (sides a.first a.num P) e z slope out.verts k f) σ fs := by rw [h3]; exact h8
  have key := runoff_core (by omega) hVz (fun k hk => by
      obtain ⟨B, hB, -⟩ := hv k (by omega)
      exact (List.getElem?_eq_some_iff.1 hB).1) (by rw [h3]; exact triangle_left hleft) h7' h8' hs (by
    intro v hv1 hv2
    have hfl : 0 < fs.length := by rw [← h8.length_eq, h7.length_eq]; simp
    obtain ⟨e, he, hr⟩ := (List.forall₂_iff_get.1 h8).2 0 (by rw [h8.length_eq]; exact hfl) hfl
    simp only [List.get_eq_getElem] at he hr
    have hsz := hr.size
    have h2s : fs[0][2]? = some fs[0][2] := List.getElem?_eq_getElem _
    have hge := (hr.plane 2 _ (le_refl _) h2s).1
    have hix := (hr.index _ (List.mem_of_getElem? h2s)).2
    rw [h2, List.length_append, List.length_singleton] at hix hv2
    have : fs[0][2] = (v : Int) := by omega
    rw [← this]
    exact ⟨_, List.getElem_mem hfl, List.getElem_mem _⟩)
  rw [h3] at key
  exact ⟨out, fs, σ, h1, h4, h7, key⟩

/-- the rectangle of 8 by 4, with a pitch of 1/2 -/
example (rt : Rt) : ∃ out fs σ, polygonize rt 17 rectArgs = some out ∧ out.result = .ok ([] ++ fs) ∧
    σ.Perm (List.range 4) ∧
    List.Forall₂ (fun k f => f[0]? = some ((0 + k : Nat) : Int) ∧
      f[1]? = some ((0 + (k + 1) % 4 : Nat) : Int) ∧ Drained 4 rectPoint out.verts k f) σ fs ∧
    ∀ v : Nat, 4 ≤ v → v < out.verts.length → ∃ k, k < 4 ∧
      Relation.TransGen (Below out.verts fs) v (0 + k) := by
  obtain ⟨h1, h2, h3, h4, h5, h6, h7⟩ := rect_meets
  exact C78_points rt rectArgs rectPoint 1 rfl rfl
    (by simp [rectArgs]) (by
      intro k hk
      have : k = 0 ∨ k = 1 ∨ k = 2 ∨ k = 3 := by simp only [rectArgs] at hk; omega
      rcases this with rfl | rfl | rfl | rfl <;> simp [rectArgs, rectPoint, V3.xy]) h2 h3 h4 h5 h7
    (Or.inr (by norm_num [rectArgs])) 17 (by simp [rectArgs])

/-- a right-angled triangle -/
example (rt : Rt) : ∃ out fs σ, polygonize rt 13 triArgs = some out ∧ out.result = .ok ([] ++ fs) ∧
    σ.Perm (List.range 3) ∧
    List.Forall₂ (fun k f => f[0]? = some ((0 + k : Nat) : Int) ∧
      f[1]? = some ((0 + (k + 1) % 3 : Nat) : Int) ∧ Drained 3 triPoint out.verts k f) σ fs ∧
    ∀ v : Nat, 3 ≤ v → v < out.verts.length → ∃ k, k < 3 ∧
      Relation.TransGen (Below out.verts fs) v (0 + k) := by
  obtain ⟨h1, h2, h3⟩ := tri_meets
  exact C78_triangle rt triArgs triPoint 5 rfl rfl rfl (by
      intro k hk
      have : k = 0 ∨ k = 1 ∨ k = 2 := by omega
      rcases this with rfl | rfl | rfl <;> simp [triArgs, triPoint, V3.xy]) h2 h3
    (Or.inl (by norm_num [triArgs])) 13 (le_refl _)

end Polyskel
