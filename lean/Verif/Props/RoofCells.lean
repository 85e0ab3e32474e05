import Verif.Proofs.RoofCell
import Verif.Props.ConvexFaces
/-
C64: the faces for a convex polygon cover it without overlapping; each covers the points that are
nearest to its edge.
-/
namespace Polyskel
open Scalar Geo

theorem sides_height {first n k : Nat} {P : Nat → V2 ℝ} {e : Edge2 ℝ} (he : (sides first n P)[k]? = some e)
    (X : V2 ℝ) : height e.p1 e.norm X = sideDist n P k X := by
  have hk : k < n := by simpa [sides] using (List.getElem?_eq_some_iff.1 he).1
  simp only [sides, List.getElem?_map, List.getElem?_range hk, Option.map_some, Option.some.injEq] at he
  subst he
  unfold sideDist height area2
  ring

theorem sides_get {first n k : Nat} {P : Nat → V2 ℝ} (hk : k < n) : ∃ e, (sides first n P)[k]? = some e ∧
    e.p1 = P k ∧ e.p2 = P ((k + 1) % n) := by
  refine ⟨_, List.getElem?_eq_getElem (by rw [sides_length]; exact hk), ?_⟩
  simp [sides]

/-- faces with the properties of C62 are a tiling -/
theorem tiles_of_faces {a : PolyArgs ℝ} {P : Nat → V2 ℝ} {z slope : ℝ} {verts : List (V3 ℝ)}
    {fs : List (List Int)} {σ : List Nat} (h3 : 3 ≤ a.num)
    (hv : ∀ k, k < a.num → ∃ A, verts[a.first + k]? = some A ∧ A.xy = P k)
    (hleft : ∀ i j, i < a.num → j < a.num → j ≠ i → j ≠ (i + 1) % a.num →
      0 < area2 (P i) (P ((i + 1) % a.num)) (P j))
    (hσ : σ.Perm (List.range a.num))
    (h : List.Forall₂ (fun k f => ∃ e, (sides a.first a.num P)[k]? = some e ∧
        RoofFace a (sides a.first a.num P) e z slope verts k f) σ fs) :
    Tiles a.num P verts fs σ := by
  have hc := sides_convex (first := a.first) h3 hleft
  have hk : ∀ k ∈ σ, k < a.num := fun k hk => List.mem_range.1 ((hσ.mem_iff).1 hk)
  have hmem : ∀ k < a.num, ∃ e ∈ sides a.first a.num P, (sides a.first a.num P)[k]? = some e := by
    intro k hk
    obtain ⟨e, he, -⟩ := sides_get (first := a.first) (P := P) hk
    exact ⟨e, List.mem_of_getElem? he, he⟩
  -- the distances as a condition on the sides
  have hall : ∀ (k : Nat) (e : Edge2 ℝ) X, (sides a.first a.num P)[k]? = some e →
      ((∀ g ∈ sides a.first a.num P, height e.p1 e.norm X ≤ height g.p1 g.norm X) ↔
        ∀ j, j < a.num → sideDist a.num P k X ≤ sideDist a.num P j X) := by
    intro k e X he
    constructor
    · intro hg j hj
      obtain ⟨g, hgm, hgj⟩ := hmem j hj
      rw [← sides_height he, ← sides_height hgj]
      exact hg g hgm
    · intro hg g hgm
      obtain ⟨j, hj⟩ := List.mem_iff_getElem?.1 hgm
      rw [sides_height he, sides_height hj]
      exact hg j (by simpa [sides] using (List.getElem?_eq_some_iff.1 hj).1)
  have hall' : ∀ (k : Nat) (e : Edge2 ℝ) X, (sides a.first a.num P)[k]? = some e →
      ((∀ g ∈ sides a.first a.num P, g.norm ≠ e.norm → height e.p1 e.norm X < height g.p1 g.norm X) ↔
        ∀ j, j < a.num → j ≠ k → sideDist a.num P k X < sideDist a.num P j X) := by
    intro k e X he
    have hem := List.mem_of_getElem? he
    constructor
    · intro hg j hj hjk
      obtain ⟨g, hgm, hgj⟩ := hmem j hj
      rw [← sides_height he, ← sides_height hgj]
      refine hg g hgm (fun hn => hjk ?_)
      have heq := hc.norm_inj hgm hem hn
      subst heq
      have o1 := (mem_sides hgm)
      obtain ⟨a1, a2⟩ := List.getElem?_eq_some_iff.1 he
      obtain ⟨b1, b2⟩ := List.getElem?_eq_some_iff.1 hgj
      have := congrArg Edge2.oid (a2.trans b2.symm)
      simpa [sides] using this.symm
    · intro hg g hgm hne
      obtain ⟨j, hj⟩ := List.mem_iff_getElem?.1 hgm
      rw [sides_height he, sides_height hj]
      refine hg j (by simpa [sides] using (List.getElem?_eq_some_iff.1 hj).1) ?_
      rintro rfl
      rw [he] at hj
      cases hj
      exact hne rfl
  -- each face
  have hone : ∀ k f, k < a.num → (∃ e, (sides a.first a.num P)[k]? = some e ∧
      RoofFace a (sides a.first a.num P) e z slope verts k f) →
      (∀ X, (OverFace verts f X ↔ 0 ≤ sideDist a.num P k X ∧
        ∀ j, j < a.num → sideDist a.num P k X ≤ sideDist a.num P j X) ∧
      (WithinFace verts f X ↔ 0 < sideDist a.num P k X ∧
        ∀ j, j < a.num → j ≠ k → sideDist a.num P k X < sideDist a.num P j X)) ∧
      ∃ X, WithinFace verts f X := by
    rintro k f hk ⟨e, he, hr⟩
    obtain ⟨e', he', p1, p2⟩ := sides_get (first := a.first) (P := P) hk
    rw [he] at he'
    cases he'
    obtain ⟨V, hV, hVP⟩ := hv k hk
    obtain ⟨W, hW, hWP⟩ := hv ((k + 1) % a.num) (Nat.mod_lt _ (by omega))
    have hal := hc.along e (List.mem_of_getElem? he)
    refine ⟨fun X => ?_, hr.some_within hV hW (hVP.trans p1.symm) (hWP.trans p2.symm) hal⟩
    obtain ⟨c1, c2⟩ := hr.cell hV hW (hVP.trans p1.symm) (hWP.trans p2.symm) hal X
    rw [hall k e X he, sides_height he] at c1
    rw [hall' k e X he, sides_height he] at c2
    exact ⟨c1, c2⟩
  have hidx : ∀ (i : Nat) f, fs[i]? = some f → ∃ k, σ[i]? = some k ∧ k < a.num ∧
      ∃ e, (sides a.first a.num P)[k]? = some e ∧
      RoofFace a (sides a.first a.num P) e z slope verts k f := by
    intro i f hf
    obtain ⟨hi, rfl⟩ := List.getElem?_eq_some_iff.1 hf
    have hl := h.length_eq
    exact ⟨σ[i]'(by omega), List.getElem?_eq_getElem _, hk _ (List.getElem_mem _),
      (List.forall₂_iff_get.1 h).2 i (by omega) hi⟩
  refine ⟨?_, ?_, ?_, ?_, ?_⟩
  · intro X
    constructor
    · intro hX
      obtain ⟨k, hk', hmin⟩ := Finset.exists_min_image (Finset.range a.num) (fun k => sideDist a.num P k X)
        ⟨0, by simp; omega⟩
      simp only [Finset.mem_range] at hk' hmin
      obtain ⟨i, hi⟩ := List.mem_iff_getElem?.1 ((hσ.mem_iff).2 (List.mem_range.2 hk'))
      obtain ⟨hi1, hi2⟩ := List.getElem?_eq_some_iff.1 hi
      have hl := h.length_eq
      have hr := (List.forall₂_iff_get.1 h).2 i hi1 (by omega)
      simp only [List.get_eq_getElem, hi2] at hr
      exact ⟨_, List.getElem_mem _, ((hone k _ hk' hr).1 X).1.2 ⟨hX k hk', hmin⟩⟩
    · rintro ⟨f, hf, ho⟩ j hj
      obtain ⟨i, hi⟩ := List.mem_iff_getElem?.1 hf
      obtain ⟨k, -, hkn, hr⟩ := hidx i f hi
      obtain ⟨h0, h1⟩ := ((hone k f hkn hr).1 X).1.1 ho
      exact h0.trans (h1 j hj)
  · intro i j f g X hij hf hg hw ho
    obtain ⟨k, hki, hkn, hr⟩ := hidx i f hf
    obtain ⟨l, hlj, hln, hr'⟩ := hidx j g hg
    have hkl : l ≠ k := by
      rintro rfl
      obtain ⟨b1, b2⟩ := List.getElem?_eq_some_iff.1 hki
      obtain ⟨d1, d2⟩ := List.getElem?_eq_some_iff.1 hlj
      exact hij (((hσ.nodup_iff.2 List.nodup_range).getElem_inj_iff).1 (b2.trans d2.symm))
    have w := (((hone k f hkn hr).1 X).2.1 hw).2 l hln hkl
    have o := (((hone l g hln hr').1 X).1.1 ho).2 k hkn
    linarith
  · intro f hf
    obtain ⟨i, hi⟩ := List.mem_iff_getElem?.1 hf
    obtain ⟨k, -, hkn, hr⟩ := hidx i f hi
    exact (hone k f hkn hr).2
  · rw [List.forall₂_iff_get] at h ⊢
    exact ⟨h.1, fun i h1 h2 X => ((hone _ _ (hk _ (List.getElem_mem h1)) (h.2 i h1 h2)).1 X).1⟩
  · rw [List.forall₂_iff_get] at h ⊢
    exact ⟨h.1, fun i h1 h2 X => ((hone _ _ (hk _ (List.getElem_mem h1)) (h.2 i h1 h2)).1 X).2⟩

/-- C64: under the hypotheses of C62 the new faces cover the polygon without overlapping, and each of
them covers the points that are nearest to its side. -/
theorem C64_points (rt : Rt) (a : PolyArgs ℝ) (P : Nat → V2 ℝ) (hh : a.holes.getD [] = [])
    (hu : a.units = none) (h3 : 3 ≤ a.num)
    (hv : ∀ k, k < a.num → ∃ A, a.verts[a.first + k]? = some A ∧ A.xy = P k)
    (hleft : ∀ i j, i < a.num → j < a.num → j ≠ i → j ≠ (i + 1) % a.num →
      0 < area2 (P i) (P ((i + 1) % a.num)) (P j))
    (hlong : ∀ k, k < a.num → 1 / 10 ^ 35 < eucl (P k) (P ((k + 1) % a.num)) ^ 2)
    (hsep : Separated (sides a.first a.num P)) (hbl : Blunt (sides a.first a.num P))
    (hap : NodesApart (sides a.first a.num P)) (fuel : Nat)
    (hf : 4 * a.num + 1 ≤ fuel) :
    ∃ out fs σ, polygonize rt fuel a = some out ∧ out.result = .ok (a.faces.getD [] ++ fs) ∧
      σ.Perm (List.range a.num) ∧
      List.Forall₂ (fun (k : Nat) f => f[0]? = some ((a.first + k : Nat) : Int) ∧
        f[1]? = some ((a.first + (k + 1) % a.num : Nat) : Int)) σ fs ∧
      Tiles a.num P out.verts fs σ := by
  obtain ⟨A, out, new, slope, fs, σ, -, h1, h2, -, h4, -, -, h7, h8⟩ :=
    C62_points rt a P hh hu h3 hv hleft hlong hsep hbl hap fuel hf
  refine ⟨out, fs, σ, h1, h4, h7, h8.imp (fun k f ⟨e, _, hr⟩ => ⟨hr.first, hr.second⟩),
    tiles_of_faces h3 ?_ hleft h7 h8⟩
  intro k hk
  obtain ⟨B, hB, hBP⟩ := hv k hk
  exact ⟨B, by rw [h2, List.getElem?_append_left (List.getElem?_eq_some_iff.1 hB).1, hB], hBP⟩

/-- C64 for triangles. -/
theorem C64_triangle (rt : Rt) (a : PolyArgs ℝ) (P : Nat → V2 ℝ) (hh : a.holes.getD [] = [])
    (hu : a.units = none) (h3 : a.num = 3)
    (hv : ∀ k, k < 3 → ∃ A, a.verts[a.first + k]? = some A ∧ A.xy = P k)
    (hleft : 0 < area2 (P 0) (P 1) (P 2))
    (hlong : ∀ k, k < 3 → 1 / 10 ^ 35 < eucl (P k) (P ((k + 1) % 3)) ^ 2) (fuel : Nat)
    (hf : 13 ≤ fuel) :
    ∃ out fs σ, polygonize rt fuel a = some out ∧ out.result = .ok (a.faces.getD [] ++ fs) ∧
      σ.Perm [0, 1, 2] ∧
      List.Forall₂ (fun (k : Nat) f => f[0]? = some ((a.first + k : Nat) : Int) ∧
        f[1]? = some ((a.first + (k + 1) % 3 : Nat) : Int)) σ fs ∧
      Tiles 3 P out.verts fs σ := by
  obtain ⟨A, out, N, slope, fs, σ, -, h1, h2, h4, -, -, h7, h8⟩ :=
    C62_triangle rt a P hh hu h3 hv hleft hlong fuel hf
  have ht : Tiles a.num P out.verts fs σ := by
    refine tiles_of_faces (by omega) ?_ ?_ (by rw [h3]; exact h7) (by rw [h3]; exact h8)
    · intro k hk
      obtain ⟨B, hB, hBP⟩ := hv k (by omega)
      exact ⟨B, by rw [h2, List.getElem?_append_left (List.getElem?_eq_some_iff.1 hB).1, hB], hBP⟩
    · rw [h3]
      exact triangle_left hleft
  rw [h3] at ht
  refine ⟨out, fs, σ, h1, h4, h7, h8.imp (fun k f ⟨e, _, hr⟩ => ⟨hr.first, ?_⟩), ht⟩
  rw [← h3]
  exact hr.second

/-- the rectangle of 8 by 4 -/
example (rt : Rt) : ∃ out fs σ, polygonize rt 17 rectArgs = some out ∧ out.result = .ok ([] ++ fs) ∧
    σ.Perm (List.range 4) ∧
    List.Forall₂ (fun (k : Nat) f => f[0]? = some ((0 + k : Nat) : Int) ∧
      f[1]? = some ((0 + (k + 1) % 4 : Nat) : Int)) σ fs ∧ Tiles 4 rectPoint out.verts fs σ := by
  obtain ⟨h1, h2, h3, h4, h5, h6, h7⟩ := rect_meets
  exact C64_points rt rectArgs rectPoint rfl rfl (by simp [rectArgs]) h1 h2 h3 h4 h5 h7 17 (by simp [rectArgs])

/-- the square of 4 by 4 -/
example (rt : Rt) : ∃ out fs σ, polygonize rt 17 squareArgs = some out ∧ out.result = .ok ([] ++ fs) ∧
    σ.Perm (List.range 4) ∧
    List.Forall₂ (fun (k : Nat) f => f[0]? = some ((0 + k : Nat) : Int) ∧
      f[1]? = some ((0 + (k + 1) % 4 : Nat) : Int)) σ fs ∧ Tiles 4 squarePoint out.verts fs σ := by
  obtain ⟨h1, h2, h3, h4, h5, h6, -⟩ := square_meets
  exact C64_points rt squareArgs squarePoint rfl rfl (by simp [squareArgs]) h1 h2 h3 h4 h5 h6 17
    (by simp [squareArgs])

/-- a right-angled triangle -/
example (rt : Rt) : ∃ out fs σ, polygonize rt 13 triArgs = some out ∧ out.result = .ok ([] ++ fs) ∧
    σ.Perm [0, 1, 2] ∧
    List.Forall₂ (fun (k : Nat) f => f[0]? = some ((0 + k : Nat) : Int) ∧
      f[1]? = some ((0 + (k + 1) % 3 : Nat) : Int)) σ fs ∧ Tiles 3 triPoint out.verts fs σ := by
  obtain ⟨h1, h2, h3⟩ := tri_meets
  exact C64_triangle rt triArgs triPoint rfl rfl rfl h1 h2 h3 13 (le_refl _)

end Polyskel
