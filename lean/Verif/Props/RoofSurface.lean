import Verif.Proofs.RoofSurface
import Verif.Props.Pitch
/-
C79: the roof over a convex polygon is the graph of a concave function.
C80: a smaller polygon gets a lower roof.
-/
namespace Polyskel
open Scalar Geo Real

/-- C79: under the hypotheses of `C62_points`, for a horizontal polygon and a pitch or a height that is not
negative, the roof is the graph of a concave function over the polygon, at the height of the polygon over its
sides, and nowhere steeper than the pitch, which is the one asked for if no height is given. -/
theorem C79_points (rt : Rt) (a : PolyArgs ℝ) (P : Nat → V2 ℝ) (z : ℝ) (hh : a.holes.getD [] = [])
    (hu : a.units = none) (h3 : 3 ≤ a.num)
    (hv : ∀ k, k < a.num → ∃ A, a.verts[a.first + k]? = some A ∧ A.xy = P k ∧ A.z = z)
    (hleft : ∀ i j, i < a.num → j < a.num → j ≠ i → j ≠ (i + 1) % a.num →
      0 < area2 (P i) (P ((i + 1) % a.num)) (P j))
    (hlong : ∀ k, k < a.num → 1 / 10 ^ 35 < eucl (P k) (P ((k + 1) % a.num)) ^ 2)
    (hsep : Separated (sides a.first a.num P)) (hbl : Blunt (sides a.first a.num P))
    (hap : NodesApart (sides a.first a.num P)) (hup : 0 < a.height ∨ (a.height = 0 ∧ 0 ≤ a.tan))
    (fuel : Nat) (hf : 4 * a.num + 1 ≤ fuel) :
    ∃ out slope fs, polygonize rt fuel a = some out ∧ out.result = .ok (a.faces.getD [] ++ fs) ∧
      (a.height = 0 → slope = a.tan) ∧ (0 < a.height → 0 < slope) ∧
      RoofGraph a.num P z slope out.verts fs := by
  obtain ⟨out, slope, fs, h1, h2, h4, h5, h6⟩ :=
    roofHeight_points rt a P z hh hu h3 hv hleft hlong hsep hbl hap fuel hf
  refine ⟨out, slope, fs, h1, h2, h4, h5, roofGraph_of (by omega) (fun k hk => long_len (hlong k hk)) ?_ h6⟩
  rcases hup with h | ⟨h, h'⟩
  · exact (h5 h).le
  · rw [h4 h]; exact h'

/-- C79 for triangles: no further hypothesis. -/
theorem C79_triangle (rt : Rt) (a : PolyArgs ℝ) (P : Nat → V2 ℝ) (z : ℝ) (hh : a.holes.getD [] = [])
    (hu : a.units = none) (h3 : a.num = 3)
    (hv : ∀ k, k < 3 → ∃ A, a.verts[a.first + k]? = some A ∧ A.xy = P k ∧ A.z = z)
    (hleft : 0 < area2 (P 0) (P 1) (P 2))
    (hlong : ∀ k, k < 3 → 1 / 10 ^ 35 < eucl (P k) (P ((k + 1) % 3)) ^ 2)
    (hup : 0 < a.height ∨ (a.height = 0 ∧ 0 ≤ a.tan)) (fuel : Nat) (hf : 13 ≤ fuel) :
    ∃ out slope fs, polygonize rt fuel a = some out ∧ out.result = .ok (a.faces.getD [] ++ fs) ∧
      (a.height = 0 → slope = a.tan) ∧ (0 < a.height → 0 < slope) ∧ RoofGraph 3 P z slope out.verts fs := by
  obtain ⟨out, slope, fs, h1, h2, h4, h5, h6⟩ := roofHeight_triangle rt a P z hh hu h3 hv hleft hlong fuel hf
  refine ⟨out, slope, fs, h1, h2, h4, h5, roofGraph_of (by omega) (fun k hk => long_len (hlong k hk)) ?_ h6⟩
  rcases hup with h | ⟨h, h'⟩
  · exact (h5 h).le
  · rw [h4 h]; exact h'

/-- C80: if one of two horizontal convex polygons at the same height lies within the other and both are given
the same pitch, the roof over the first is nowhere above the roof over the second. -/
theorem C80_points (rt rt' : Rt) (a a' : PolyArgs ℝ) (P P' : Nat → V2 ℝ) (z : ℝ)
    (hh : a.holes.getD [] = []) (hu : a.units = none) (h3 : 3 ≤ a.num)
    (hv : ∀ k, k < a.num → ∃ A, a.verts[a.first + k]? = some A ∧ A.xy = P k ∧ A.z = z)
    (hleft : ∀ i j, i < a.num → j < a.num → j ≠ i → j ≠ (i + 1) % a.num →
      0 < area2 (P i) (P ((i + 1) % a.num)) (P j))
    (hlong : ∀ k, k < a.num → 1 / 10 ^ 35 < eucl (P k) (P ((k + 1) % a.num)) ^ 2)
    (hsep : Separated (sides a.first a.num P)) (hbl : Blunt (sides a.first a.num P))
    (hap : NodesApart (sides a.first a.num P))
    (hh' : a'.holes.getD [] = []) (hu' : a'.units = none) (h3' : 3 ≤ a'.num)
    (hv' : ∀ k, k < a'.num → ∃ A, a'.verts[a'.first + k]? = some A ∧ A.xy = P' k ∧ A.z = z)
    (hleft' : ∀ i j, i < a'.num → j < a'.num → j ≠ i → j ≠ (i + 1) % a'.num →
      0 < area2 (P' i) (P' ((i + 1) % a'.num)) (P' j))
    (hlong' : ∀ k, k < a'.num → 1 / 10 ^ 35 < eucl (P' k) (P' ((k + 1) % a'.num)) ^ 2)
    (hsep' : Separated (sides a'.first a'.num P')) (hbl' : Blunt (sides a'.first a'.num P'))
    (hap' : NodesApart (sides a'.first a'.num P'))
    (h0 : a.height = 0) (h0' : a'.height = 0) (htan : a'.tan = a.tan) (ht0 : 0 ≤ a.tan)
    (hin : ∀ X, (∀ k, k < a.num → 0 ≤ area2 (P k) (P ((k + 1) % a.num)) X) →
      ∀ k, k < a'.num → 0 ≤ area2 (P' k) (P' ((k + 1) % a'.num)) X)
    (fuel fuel' : Nat) (hf : 4 * a.num + 1 ≤ fuel) (hf' : 4 * a'.num + 1 ≤ fuel') :
    ∃ out fs out' fs', polygonize rt fuel a = some out ∧ out.result = .ok (a.faces.getD [] ++ fs) ∧
      polygonize rt' fuel' a' = some out' ∧ out'.result = .ok (a'.faces.getD [] ++ fs') ∧
      ∀ X h, OnRoof out.verts fs X h → ∃ h', OnRoof out'.verts fs' X h' ∧ h ≤ h' := by
  obtain ⟨out, slope, fs, r1, r2, r4, -, r6⟩ :=
    roofHeight_points rt a P z hh hu h3 hv hleft hlong hsep hbl hap fuel hf
  obtain ⟨out', slope', fs', s1, s2, s4, -, s6⟩ :=
    roofHeight_points rt' a' P' z hh' hu' h3' hv' hleft' hlong' hsep' hbl' hap' fuel' hf'
  refine ⟨out, fs, out', fs', r1, r2, s1, s2, fun X h hX => ?_⟩
  obtain rfl : slope = a.tan := r4 h0
  obtain rfl : slope' = a'.tan := s4 h0'
  have hlen := fun k hk => long_len (hlong k hk)
  have hlen' := fun k hk => long_len (hlong' k hk)
  have hsgn : ∀ {n : Nat} {P : Nat → V2 ℝ} (hl : ∀ k, k < n → 0 < eucl (P k) (P ((k + 1) % n))) (X : V2 ℝ),
      (∀ k, k < n → 0 ≤ sideDist n P k X) ↔ ∀ k, k < n → 0 ≤ area2 (P k) (P ((k + 1) % n)) X := by
    intro n P hl X
    refine forall₂_congr fun k hk => ?_
    rw [sideDist, le_div_iff₀ (hl k hk), zero_mul]
  have hin' : ∀ X, (∀ k, k < a.num → 0 ≤ sideDist a.num P k X) →
      ∀ k, k < a'.num → 0 ≤ sideDist a'.num P' k X :=
    fun X hX => (hsgn hlen' X).2 (hin X ((hsgn hlen X).1 hX))
  obtain ⟨k, hk, g0, g1, rfl⟩ := (r6 X h).1 hX
  obtain ⟨k', hk', hmin⟩ := nearest_side (show 0 < a'.num by omega) P' X
  have hle := nearer_within (show 0 < a.num by omega) hlen hlen' hin' hk g0 g1 hk'
  refine ⟨_, (s6 X _).2 ⟨k', hk', g0.trans hle, hmin, rfl⟩, ?_⟩
  rw [htan]
  have := mul_le_mul_of_nonneg_left hle ht0
  linarith

/-- the rectangle of 8 by 4, with a pitch of 1/2 -/
example (rt : Rt) : ∃ out fs, polygonize rt 17 rectArgs = some out ∧ out.result = .ok ([] ++ fs) ∧
    RoofGraph 4 rectPoint 1 (1 / 2) out.verts fs := by
  obtain ⟨h1, h2, h3, h4, h5, h6, h7⟩ := rect_meets
  obtain ⟨out, slope, fs, k1, k2, k4, -, k6⟩ := C79_points rt rectArgs rectPoint 1 rfl rfl
    (by simp [rectArgs]) (by
      intro k hk
      have : k = 0 ∨ k = 1 ∨ k = 2 ∨ k = 3 := by simp only [rectArgs] at hk; omega
      rcases this with rfl | rfl | rfl | rfl <;> simp [rectArgs, rectPoint, V3.xy]) h2 h3 h4 h5 h7
    (Or.inr (by norm_num [rectArgs])) 17 (by simp [rectArgs])
  obtain rfl : slope = 1 / 2 := k4 rfl
  exact ⟨out, fs, k1, k2, k6⟩

/-- the square of 4 by 4 and the rectangle of 8 by 4, both with a pitch of 1/2 -/
example (rt : Rt) : ∃ out fs out' fs',
    polygonize rt 17 { squareArgs with height := 0, tan := 1 / 2 } = some out ∧ out.result = .ok ([] ++ fs) ∧
    polygonize rt 17 rectArgs = some out' ∧ out'.result = .ok ([] ++ fs') ∧
    ∀ X h, OnRoof out.verts fs X h → ∃ h', OnRoof out'.verts fs' X h' ∧ h ≤ h' := by
  obtain ⟨h1, h2, h3, h4, h5, h6, h7⟩ := rect_meets
  obtain ⟨g1, g2, g3, g4, g5, g6, -⟩ := square_meets
  refine C80_points rt rt { squareArgs with height := 0, tan := 1 / 2 } rectArgs squarePoint rectPoint 1 rfl rfl
    (by simp [squareArgs]) (by
      intro k hk
      have : k = 0 ∨ k = 1 ∨ k = 2 ∨ k = 3 := by simp only [squareArgs] at hk; omega
      rcases this with rfl | rfl | rfl | rfl <;> simp [squareArgs, squarePoint, V3.xy]) g2 g3 g4 g5 g6 rfl rfl
    (by simp [rectArgs]) (by
      intro k hk
      have : k = 0 ∨ k = 1 ∨ k = 2 ∨ k = 3 := by simp only [rectArgs] at hk; omega
      rcases this with rfl | rfl | rfl | rfl <;> simp [rectArgs, rectPoint, V3.xy]) h2 h3 h4 h5 h7
    rfl rfl rfl (by norm_num) ?_ 17 17 (by simp [squareArgs]) (by simp [rectArgs])
  intro X hX k hk
  have hX0 := hX 0 (by simp [squareArgs])
  have hX1 := hX 1 (by simp [squareArgs])
  have hX2 := hX 2 (by simp [squareArgs])
  have hX3 := hX 3 (by simp [squareArgs])
  simp [squareArgs, squarePoint, area2] at hX0 hX1 hX2 hX3
  have : k = 0 ∨ k = 1 ∨ k = 2 ∨ k = 3 := by simp only [rectArgs] at hk; omega
  rcases this with rfl | rfl | rfl | rfl <;> simp [rectArgs, rectPoint, area2] <;> linarith

/-- a right-angled triangle -/
example (rt : Rt) : ∃ out slope fs, polygonize rt 13 triArgs = some out ∧ out.result = .ok ([] ++ fs) ∧
    0 < slope ∧ RoofGraph 3 triPoint 5 slope out.verts fs := by
  obtain ⟨h1, h2, h3⟩ := tri_meets
  obtain ⟨out, slope, fs, k1, k2, -, k4, k6⟩ := C79_triangle rt triArgs triPoint 5 rfl rfl rfl (by
      intro k hk
      have : k = 0 ∨ k = 1 ∨ k = 2 := by omega
      rcases this with rfl | rfl | rfl <;> simp [triArgs, triPoint, V3.xy]) h2 h3
    (Or.inl (by norm_num [triArgs])) 13 (le_refl _)
  exact ⟨out, slope, fs, k1, k2, k4 (by simp [triArgs]), k6⟩

end Polyskel
