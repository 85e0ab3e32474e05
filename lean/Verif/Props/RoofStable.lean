import Verif.Proofs.RoofStable
import Verif.Props.RoofSurface
/-
C82: a small change of a convex polygon changes its roof little.
-/
namespace Polyskel
open Scalar Geo Real

/-- C82: two horizontal convex polygons at the same height under the hypotheses of `C62_points`, with the same
pitch.  If no vertex of either is farther than `ε` from the other polygon, the heights of the two roofs at a common
point differ by at most the pitch times `ε`.  The polygons need not have the same number of vertices. -/
theorem C82_points (rt rt' : Rt) (a a' : PolyArgs ℝ) (P P' : Nat → V2 ℝ) (z : ℝ)
    (hh : a.holes.getD [] = []) (hu : a.units = none) (h3 : 3 ≤ a.num)
    (hv : ∀ k, k < a.num → ∃ A, a.verts[a.first + k]? = some A ∧ A.xy = P k ∧ A.z = z)
    (hleft : ∀ i j, i < a.num → j < a.num → j ≠ i → j ≠ (i + 1) % a.num →
      0 < area2 (P i) (P ((i + 1) % a.num)) (P j))
    (hlong : ∀ k, k < a.num → 1 / 10 ^ 35 < eucl (P k) (P ((k + 1) % a.num)) ^ 2)
    (hsep : Separated (sides a.first a.num P)) (hbl : Blunt (sides a.first a.num P))
    (hap : NodesApart (sides a.first a.num P))
    (hh' : a'.holes.getD [] = []) (hu' : a'.units = none) (h3' : 3 ≤ a'.num)
    (hv' : ∀ k, k < a'.num → ∃ A, a'.verts[a'.first + k]? = some A ∧ A.xy = P' k ∧ A.z = z)
    (hleft' : ∀ i j, i < a'.num → j < a'.num → j ≠ i → j ≠ (i + 1) % a'.num →
      0 < area2 (P' i) (P' ((i + 1) % a'.num)) (P' j))
    (hlong' : ∀ k, k < a'.num → 1 / 10 ^ 35 < eucl (P' k) (P' ((k + 1) % a'.num)) ^ 2)
    (hsep' : Separated (sides a'.first a'.num P')) (hbl' : Blunt (sides a'.first a'.num P'))
    (hap' : NodesApart (sides a'.first a'.num P'))
    (h0 : a.height = 0) (h0' : a'.height = 0) (htan : a'.tan = a.tan) (ht0 : 0 ≤ a.tan)
    (ε : ℝ)
    (hnear : ∀ k, k < a.num → ∃ Z, (∀ j, j < a'.num → 0 ≤ area2 (P' j) (P' ((j + 1) % a'.num)) Z) ∧
      eucl (P k) Z ≤ ε)
    (hnear' : ∀ k, k < a'.num → ∃ Z, (∀ j, j < a.num → 0 ≤ area2 (P j) (P ((j + 1) % a.num)) Z) ∧
      eucl (P' k) Z ≤ ε)
    (fuel fuel' : Nat) (hf : 4 * a.num + 1 ≤ fuel) (hf' : 4 * a'.num + 1 ≤ fuel') :
    ∃ out fs out' fs', polygonize rt fuel a = some out ∧ out.result = .ok (a.faces.getD [] ++ fs) ∧
      polygonize rt' fuel' a' = some out' ∧ out'.result = .ok (a'.faces.getD [] ++ fs') ∧
      ∀ X h h', OnRoof out.verts fs X h → OnRoof out'.verts fs' X h' → |h - h'| ≤ a.tan * ε := by
  obtain ⟨out, slope, fs, r1, r2, r4, -, r6⟩ :=
    roofHeight_points rt a P z hh hu h3 hv hleft hlong hsep hbl hap fuel hf
  obtain ⟨out', slope', fs', s1, s2, s4, -, s6⟩ :=
    roofHeight_points rt' a' P' z hh' hu' h3' hv' hleft' hlong' hsep' hbl' hap' fuel' hf'
  refine ⟨out, fs, out', fs', r1, r2, s1, s2, fun X h h' hX hX' => ?_⟩
  obtain rfl : slope = a.tan := r4 h0
  obtain rfl : slope' = a'.tan := s4 h0'
  have hlen := fun k hk => long_len (hlong k hk)
  have hlen' := fun k hk => long_len (hlong' k hk)
  obtain ⟨k, hk, g0, g1, rfl⟩ := (r6 X h).1 hX
  obtain ⟨k', hk', e0, e1, rfl⟩ := (s6 X h').1 hX'
  have d1 := near_sideDist h3 hleft hlen hlen' hnear hk' g0 g1
  have d2 := near_sideDist h3' hleft' hlen' hlen hnear' hk e0 e1
  rw [htan, abs_le]
  have m1 := mul_le_mul_of_nonneg_left d1 ht0
  have m2 := mul_le_mul_of_nonneg_left d2 ht0
  constructor <;> linarith

/-- C82 for two triangles: without hypotheses about the skeletons -/
theorem C82_triangle (rt rt' : Rt) (a a' : PolyArgs ℝ) (P P' : Nat → V2 ℝ) (z : ℝ)
    (hh : a.holes.getD [] = []) (hu : a.units = none) (h3 : a.num = 3)
    (hv : ∀ k, k < 3 → ∃ A, a.verts[a.first + k]? = some A ∧ A.xy = P k ∧ A.z = z)
    (hleft : 0 < area2 (P 0) (P 1) (P 2))
    (hlong : ∀ k, k < 3 → 1 / 10 ^ 35 < eucl (P k) (P ((k + 1) % 3)) ^ 2)
    (hh' : a'.holes.getD [] = []) (hu' : a'.units = none) (h3' : a'.num = 3)
    (hv' : ∀ k, k < 3 → ∃ A, a'.verts[a'.first + k]? = some A ∧ A.xy = P' k ∧ A.z = z)
    (hleft' : 0 < area2 (P' 0) (P' 1) (P' 2))
    (hlong' : ∀ k, k < 3 → 1 / 10 ^ 35 < eucl (P' k) (P' ((k + 1) % 3)) ^ 2)
    (h0 : a.height = 0) (h0' : a'.height = 0) (htan : a'.tan = a.tan) (ht0 : 0 ≤ a.tan)
    (ε : ℝ)
    (hnear : ∀ k, k < 3 → ∃ Z, (∀ j, j < 3 → 0 ≤ area2 (P' j) (P' ((j + 1) % 3)) Z) ∧
      eucl (P k) Z ≤ ε)
    (hnear' : ∀ k, k < 3 → ∃ Z, (∀ j, j < 3 → 0 ≤ area2 (P j) (P ((j + 1) % 3)) Z) ∧
      eucl (P' k) Z ≤ ε)
    (fuel fuel' : Nat) (hf : 13 ≤ fuel) (hf' : 13 ≤ fuel') :
    ∃ out fs out' fs', polygonize rt fuel a = some out ∧ out.result = .ok (a.faces.getD [] ++ fs) ∧
      polygonize rt' fuel' a' = some out' ∧ out'.result = .ok (a'.faces.getD [] ++ fs') ∧
      ∀ X h h', OnRoof out.verts fs X h → OnRoof out'.verts fs' X h' → |h - h'| ≤ a.tan * ε := by
  obtain ⟨out, slope, fs, r1, r2, r4, -, r6⟩ :=
    roofHeight_triangle rt a P z hh hu h3 hv hleft hlong fuel hf
  obtain ⟨out', slope', fs', s1, s2, s4, -, s6⟩ :=
    roofHeight_triangle rt' a' P' z hh' hu' h3' hv' hleft' hlong' fuel' hf'
  refine ⟨out, fs, out', fs', r1, r2, s1, s2, fun X h h' hX hX' => ?_⟩
  obtain rfl : slope = a.tan := r4 h0
  obtain rfl : slope' = a'.tan := s4 h0'
  have hlen := fun k hk => long_len (hlong k hk)
  have hlen' := fun k hk => long_len (hlong' k hk)
  obtain ⟨k, hk, g0, g1, rfl⟩ := (r6 X h).1 hX
  obtain ⟨k', hk', e0, e1, rfl⟩ := (s6 X h').1 hX'
  have d1 := near_sideDist le_rfl (triangle_left hleft) hlen hlen' hnear hk' g0 g1
  have d2 := near_sideDist le_rfl (triangle_left hleft') hlen' hlen hnear' hk e0 e1
  rw [htan, abs_le]
  have m1 := mul_le_mul_of_nonneg_left d1 ht0
  have m2 := mul_le_mul_of_nonneg_left d2 ht0
  constructor <;> linarith

/-- the square of 4 by 4 and the rectangle of 8 by 4, both with a pitch of 1/2: no corner is farther than 4 from
the other polygon, and the roofs differ by at most 2 -/
example (rt : Rt) : ∃ out fs out' fs',
    polygonize rt 17 { squareArgs with height := 0, tan := 1 / 2 } = some out ∧ out.result = .ok ([] ++ fs) ∧
    polygonize rt 17 rectArgs = some out' ∧ out'.result = .ok ([] ++ fs') ∧
    ∀ X h h', OnRoof out.verts fs X h → OnRoof out'.verts fs' X h' → |h - h'| ≤ 1 / 2 * 4 := by
  obtain ⟨h1, h2, h3, h4, h5, h6, h7⟩ := rect_meets
  obtain ⟨g1, g2, g3, g4, g5, g6, -⟩ := square_meets
  have he : ∀ p q : V2 ℝ, (p.x - q.x) ^ 2 + (p.y - q.y) ^ 2 ≤ 4 ^ 2 → eucl p q ≤ 4 :=
    fun p q h => Real.sqrt_le_iff.2 ⟨by norm_num, h⟩
  refine C82_points rt rt { squareArgs with height := 0, tan := 1 / 2 } rectArgs squarePoint rectPoint 1 rfl rfl
    (by simp [squareArgs]) (by
      intro k hk
      have : k = 0 ∨ k = 1 ∨ k = 2 ∨ k = 3 := by simp only [squareArgs] at hk; omega
      rcases this with rfl | rfl | rfl | rfl <;> simp [squareArgs, squarePoint, V3.xy]) g2 g3 g4 g5 g6 rfl rfl
    (by simp [rectArgs]) (by
      intro k hk
      have : k = 0 ∨ k = 1 ∨ k = 2 ∨ k = 3 := by simp only [rectArgs] at hk; omega
      rcases this with rfl | rfl | rfl | rfl <;> simp [rectArgs, rectPoint, V3.xy]) h2 h3 h4 h5 h7
    rfl rfl rfl (by norm_num) 4 ?_ ?_ 17 17 (by simp [squareArgs]) (by simp [rectArgs])
  · show ∀ k, k < 4 → ∃ Z, (∀ j, j < 4 → 0 ≤ area2 (rectPoint j) (rectPoint ((j + 1) % 4)) Z) ∧ _
    intro k hk
    have : k = 0 ∨ k = 1 ∨ k = 2 ∨ k = 3 := by omega
    refine ⟨squarePoint k, fun j hj => ?_, he _ _ (by norm_num)⟩
    have hj' : j = 0 ∨ j = 1 ∨ j = 2 ∨ j = 3 := by omega
    rcases this with rfl | rfl | rfl | rfl <;> rcases hj' with rfl | rfl | rfl | rfl <;>
      norm_num [rectPoint, squarePoint, area2]
  · show ∀ k, k < 4 → ∃ Z, (∀ j, j < 4 → 0 ≤ area2 (squarePoint j) (squarePoint ((j + 1) % 4)) Z) ∧ _
    intro k hk
    have : k = 0 ∨ k = 1 ∨ k = 2 ∨ k = 3 := by omega
    refine ⟨squarePoint k, fun j hj => ?_, he _ _ ?_⟩
    · have hj' : j = 0 ∨ j = 1 ∨ j = 2 ∨ j = 3 := by omega
      rcases this with rfl | rfl | rfl | rfl <;> rcases hj' with rfl | rfl | rfl | rfl <;>
        norm_num [squarePoint, area2]
    · rcases this with rfl | rfl | rfl | rfl <;> norm_num [rectPoint, squarePoint]

noncomputable def nudgedPoint (k : Nat) : V2 ℝ :=
  if k = 0 then ⟨0, 0⟩ else if k = 1 then ⟨4, 0⟩ else ⟨1 / 10, 3⟩

/-- `triArgs` with one corner moved by 1/10 -/
noncomputable def nudgedArgs : PolyArgs ℝ :=
  { verts := [⟨0, 0, 5⟩, ⟨4, 0, 5⟩, ⟨1 / 10, 3, 5⟩], first := 0, num := 3, holes := none, height := 0,
    tan := 1 / 2, faces := none, units := none }

example (rt : Rt) : ∃ out fs out' fs',
    polygonize rt 13 { triArgs with height := 0, tan := 1 / 2 } = some out ∧ out.result = .ok ([] ++ fs) ∧
    polygonize rt 13 nudgedArgs = some out' ∧ out'.result = .ok ([] ++ fs') ∧
    ∀ X h h', OnRoof out.verts fs X h → OnRoof out'.verts fs' X h' → |h - h'| ≤ 1 / 2 * (1 / 10) := by
  obtain ⟨h1, h2, h3⟩ := tri_meets
  have he : ∀ p q : V2 ℝ, (p.x - q.x) ^ 2 + (p.y - q.y) ^ 2 ≤ (1 / 10) ^ 2 → eucl p q ≤ 1 / 10 :=
    fun p q h => Real.sqrt_le_iff.2 ⟨by norm_num, h⟩
  refine C82_triangle rt rt { triArgs with height := 0, tan := 1 / 2 } nudgedArgs triPoint nudgedPoint 5 rfl rfl
    rfl (by
      intro k hk
      have : k = 0 ∨ k = 1 ∨ k = 2 := by omega
      rcases this with rfl | rfl | rfl <;> simp [triArgs, triPoint, V3.xy]) h2 h3 rfl rfl rfl (by
      intro k hk
      have : k = 0 ∨ k = 1 ∨ k = 2 := by omega
      rcases this with rfl | rfl | rfl <;> simp [nudgedArgs, nudgedPoint, V3.xy])
    (by norm_num [area2, nudgedPoint]) (by
      intro k hk
      have hsq : ∀ p q : V2 ℝ, eucl p q ^ 2 = (p.x - q.x) ^ 2 + (p.y - q.y) ^ 2 :=
        fun p q => Real.sq_sqrt (by positivity)
      rw [hsq]
      have : k = 0 ∨ k = 1 ∨ k = 2 := by omega
      rcases this with rfl | rfl | rfl <;> norm_num [nudgedPoint]) rfl rfl rfl (by norm_num) (1 / 10) ?_ ?_
    13 13 le_rfl le_rfl
  · intro k hk
    have : k = 0 ∨ k = 1 ∨ k = 2 := by omega
    refine ⟨nudgedPoint k, fun j hj => ?_, he _ _ ?_⟩
    · have hj' : j = 0 ∨ j = 1 ∨ j = 2 := by omega
      rcases this with rfl | rfl | rfl <;> rcases hj' with rfl | rfl | rfl <;>
        norm_num [nudgedPoint, area2]
    · rcases this with rfl | rfl | rfl <;> norm_num [triPoint, nudgedPoint]
  · intro k hk
    have : k = 0 ∨ k = 1 ∨ k = 2 := by omega
    refine ⟨triPoint k, fun j hj => ?_, he _ _ ?_⟩
    · have hj' : j = 0 ∨ j = 1 ∨ j = 2 := by omega
      rcases this with rfl | rfl | rfl <;> rcases hj' with rfl | rfl | rfl <;>
        norm_num [triPoint, area2]
    · rcases this with rfl | rfl | rfl <;> norm_num [triPoint, nudgedPoint]

end Polyskel
