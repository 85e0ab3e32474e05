import Verif.Props.RoofSurface
import Verif.Props.Inscribed
/-
C81: the roof over a convex polygon depends on its shape only.
-/
namespace Polyskel
open Scalar Geo Real

/-- C81: two horizontal convex polygons under the hypotheses of `C62_points`, with the same pitch.  If a map of
the plane that multiplies all distances by `l` takes the first polygon, as a set of points, to the second one,
then it takes the roof over the first, with its heights multiplied by `l`, to the roof over the second.  The map
may be a reflection; nothing is said about the order, the number or the place of the vertices. -/
theorem C81_points (rt rt' : Rt) (a a' : PolyArgs ℝ) (P P' : Nat → V2 ℝ) (z z' : ℝ)
    (hh : a.holes.getD [] = []) (hu : a.units = none) (h3 : 3 ≤ a.num)
    (hv : ∀ k, k < a.num → ∃ A, a.verts[a.first + k]? = some A ∧ A.xy = P k ∧ A.z = z)
    (hleft : ∀ i j, i < a.num → j < a.num → j ≠ i → j ≠ (i + 1) % a.num →
      0 < area2 (P i) (P ((i + 1) % a.num)) (P j))
    (hlong : ∀ k, k < a.num → 1 / 10 ^ 35 < eucl (P k) (P ((k + 1) % a.num)) ^ 2)
    (hsep : Separated (sides a.first a.num P)) (hbl : Blunt (sides a.first a.num P))
    (hap : NodesApart (sides a.first a.num P))
    (hh' : a'.holes.getD [] = []) (hu' : a'.units = none) (h3' : 3 ≤ a'.num)
    (hv' : ∀ k, k < a'.num → ∃ A, a'.verts[a'.first + k]? = some A ∧ A.xy = P' k ∧ A.z = z')
    (hleft' : ∀ i j, i < a'.num → j < a'.num → j ≠ i → j ≠ (i + 1) % a'.num →
      0 < area2 (P' i) (P' ((i + 1) % a'.num)) (P' j))
    (hlong' : ∀ k, k < a'.num → 1 / 10 ^ 35 < eucl (P' k) (P' ((k + 1) % a'.num)) ^ 2)
    (hsep' : Separated (sides a'.first a'.num P')) (hbl' : Blunt (sides a'.first a'.num P'))
    (hap' : NodesApart (sides a'.first a'.num P'))
    (h0 : a.height = 0) (h0' : a'.height = 0) (htan : a'.tan = a.tan)
    (T : V2 ℝ → V2 ℝ) (l : ℝ) (hl : 0 < l) (hT : ∀ X Y, eucl (T X) (T Y) = l * eucl X Y)
    (hsur : Function.Surjective T)
    (hin : ∀ X, (∀ k, k < a'.num → 0 ≤ area2 (P' k) (P' ((k + 1) % a'.num)) (T X)) ↔
      ∀ k, k < a.num → 0 ≤ area2 (P k) (P ((k + 1) % a.num)) X)
    (fuel fuel' : Nat) (hf : 4 * a.num + 1 ≤ fuel) (hf' : 4 * a'.num + 1 ≤ fuel') :
    ∃ out fs out' fs', polygonize rt fuel a = some out ∧ out.result = .ok (a.faces.getD [] ++ fs) ∧
      polygonize rt' fuel' a' = some out' ∧ out'.result = .ok (a'.faces.getD [] ++ fs') ∧
      ∀ X h, OnRoof out'.verts fs' (T X) (z' + l * h) ↔ OnRoof out.verts fs X (z + h) := by
  obtain ⟨out, slope, fs, r1, r2, r4, -, r6⟩ :=
    roofHeight_points rt a P z hh hu h3 hv hleft hlong hsep hbl hap fuel hf
  obtain ⟨out', slope', fs', s1, s2, s4, -, s6⟩ :=
    roofHeight_points rt' a' P' z' hh' hu' h3' hv' hleft' hlong' hsep' hbl' hap' fuel' hf'
  refine ⟨out, fs, out', fs', r1, r2, s1, s2, fun X h => ?_⟩
  obtain rfl : slope = a.tan := r4 h0
  obtain rfl : slope' = a'.tan := s4 h0'
  rw [s6, r6, htan]
  exact roof_similar (by omega) (by omega) (fun k hk => long_len (hlong k hk))
    (fun k hk => long_len (hlong' k hk)) hl hT hsur hin X h

/-- C81 for two triangles: without hypotheses about the skeletons -/
theorem C81_triangle (rt rt' : Rt) (a a' : PolyArgs ℝ) (P P' : Nat → V2 ℝ) (z z' : ℝ)
    (hh : a.holes.getD [] = []) (hu : a.units = none) (h3 : a.num = 3)
    (hv : ∀ k, k < 3 → ∃ A, a.verts[a.first + k]? = some A ∧ A.xy = P k ∧ A.z = z)
    (hleft : 0 < area2 (P 0) (P 1) (P 2))
    (hlong : ∀ k, k < 3 → 1 / 10 ^ 35 < eucl (P k) (P ((k + 1) % 3)) ^ 2)
    (hh' : a'.holes.getD [] = []) (hu' : a'.units = none) (h3' : a'.num = 3)
    (hv' : ∀ k, k < 3 → ∃ A, a'.verts[a'.first + k]? = some A ∧ A.xy = P' k ∧ A.z = z')
    (hleft' : 0 < area2 (P' 0) (P' 1) (P' 2))
    (hlong' : ∀ k, k < 3 → 1 / 10 ^ 35 < eucl (P' k) (P' ((k + 1) % 3)) ^ 2)
    (h0 : a.height = 0) (h0' : a'.height = 0) (htan : a'.tan = a.tan)
    (T : V2 ℝ → V2 ℝ) (l : ℝ) (hl : 0 < l) (hT : ∀ X Y, eucl (T X) (T Y) = l * eucl X Y)
    (hsur : Function.Surjective T)
    (hin : ∀ X, (∀ k, k < 3 → 0 ≤ area2 (P' k) (P' ((k + 1) % 3)) (T X)) ↔
      ∀ k, k < 3 → 0 ≤ area2 (P k) (P ((k + 1) % 3)) X)
    (fuel fuel' : Nat) (hf : 13 ≤ fuel) (hf' : 13 ≤ fuel') :
    ∃ out fs out' fs', polygonize rt fuel a = some out ∧ out.result = .ok (a.faces.getD [] ++ fs) ∧
      polygonize rt' fuel' a' = some out' ∧ out'.result = .ok (a'.faces.getD [] ++ fs') ∧
      ∀ X h, OnRoof out'.verts fs' (T X) (z' + l * h) ↔ OnRoof out.verts fs X (z + h) := by
  obtain ⟨out, slope, fs, r1, r2, r4, -, r6⟩ := roofHeight_triangle rt a P z hh hu h3 hv hleft hlong fuel hf
  obtain ⟨out', slope', fs', s1, s2, s4, -, s6⟩ :=
    roofHeight_triangle rt' a' P' z' hh' hu' h3' hv' hleft' hlong' fuel' hf'
  refine ⟨out, fs, out', fs', r1, r2, s1, s2, fun X h => ?_⟩
  obtain rfl : slope = a.tan := r4 h0
  obtain rfl : slope' = a'.tan := s4 h0'
  rw [s6, r6, htan]
  exact roof_similar (by omega) (by omega) (fun k hk => long_len (hlong k hk))
    (fun k hk => long_len (hlong' k hk)) hl hT hsur hin X h

/-- the height over the centre of a largest disc -/
private theorem slope_of_top {n : Nat} {P : Nat → V2 ℝ} {z slope sl r : ℝ} {C : V2 ℝ} {V : List (V3 ℝ)}
    {fs : List (List Int)} (hn : 0 < n) (hlen : ∀ k, k < n → 0 < eucl (P k) (P ((k + 1) % n)))
    (h : ∀ X h, OnRoof V fs X h ↔ ∃ k, k < n ∧ 0 ≤ sideDist n P k X ∧
      (∀ j, j < n → sideDist n P k X ≤ sideDist n P j X) ∧ h = z + slope * sideDist n P k X)
    (h1 : DiscWithin n P C r) (h2 : ∀ Y s, DiscWithin n P Y s → s ≤ r) (h3 : OnRoof V fs C (z + sl * r)) :
    sl * r = slope * r := by
  obtain ⟨k, hk, g0, g1, g2⟩ := (h _ _).1 h3
  have e1 := ((discWithin_iff hlen).1 h1).2 k hk
  have e2 := h2 C _ ((discWithin_iff hlen).2 ⟨g0, g1⟩)
  rw [le_antisymm e2 e1] at g2
  linarith

/-- the largest discs of similar polygons -/
private theorem largest_similar {n n' : Nat} {P P' : Nat → V2 ℝ} {T : V2 ℝ → V2 ℝ} {l : ℝ} (hl : 0 < l)
    (hT : ∀ X Y, eucl (T X) (T Y) = l * eucl X Y) (hsur : Function.Surjective T)
    (hin : ∀ X, (∀ k, k < n' → 0 ≤ area2 (P' k) (P' ((k + 1) % n')) (T X)) ↔
      ∀ k, k < n → 0 ≤ area2 (P k) (P ((k + 1) % n)) X) {C C' : V2 ℝ} {r r' : ℝ}
    (h1 : DiscWithin n P C r) (h2 : ∀ Y s, DiscWithin n P Y s → s ≤ r)
    (h1' : DiscWithin n' P' C' r') (h2' : ∀ Y s, DiscWithin n' P' Y s → s ≤ r') : r' = l * r := by
  have hd : ∀ X s, DiscWithin n' P' (T X) (l * s) ↔ DiscWithin n P X s := by
    intro X s
    unfold DiscWithin
    rw [mul_nonneg_iff_of_pos_left hl]
    refine and_congr_right fun _ => ⟨fun h Y hY => ?_, fun h Y hY => ?_⟩
    · rw [← hin]
      exact h (T Y) (by rw [hT]; exact mul_le_mul_of_nonneg_left hY hl.le)
    · obtain ⟨Z, rfl⟩ := hsur Y
      rw [hT] at hY
      exact (hin Z).2 (h Z (le_of_mul_le_mul_left hY hl))
  apply le_antisymm
  · obtain ⟨D, rfl⟩ := hsur C'
    rw [show r' = l * (r' / l) by field_simp, hd] at h1'
    have := h2 _ _ h1'
    rwa [div_le_iff₀ hl, mul_comm] at this
  · exact h2' _ _ ((hd _ _).2 h1)

/-- C81, with the heights of the roofs given instead of the pitch -/
theorem C81_height_points (rt rt' : Rt) (a a' : PolyArgs ℝ) (P P' : Nat → V2 ℝ) (z z' : ℝ)
    (hh : a.holes.getD [] = []) (hu : a.units = none) (h3 : 3 ≤ a.num)
    (hv : ∀ k, k < a.num → ∃ A, a.verts[a.first + k]? = some A ∧ A.xy = P k ∧ A.z = z)
    (hleft : ∀ i j, i < a.num → j < a.num → j ≠ i → j ≠ (i + 1) % a.num →
      0 < area2 (P i) (P ((i + 1) % a.num)) (P j))
    (hlong : ∀ k, k < a.num → 1 / 10 ^ 35 < eucl (P k) (P ((k + 1) % a.num)) ^ 2)
    (hsep : Separated (sides a.first a.num P)) (hbl : Blunt (sides a.first a.num P))
    (hap : NodesApart (sides a.first a.num P))
    (hh' : a'.holes.getD [] = []) (hu' : a'.units = none) (h3' : 3 ≤ a'.num)
    (hv' : ∀ k, k < a'.num → ∃ A, a'.verts[a'.first + k]? = some A ∧ A.xy = P' k ∧ A.z = z')
    (hleft' : ∀ i j, i < a'.num → j < a'.num → j ≠ i → j ≠ (i + 1) % a'.num →
      0 < area2 (P' i) (P' ((i + 1) % a'.num)) (P' j))
    (hlong' : ∀ k, k < a'.num → 1 / 10 ^ 35 < eucl (P' k) (P' ((k + 1) % a'.num)) ^ 2)
    (hsep' : Separated (sides a'.first a'.num P')) (hbl' : Blunt (sides a'.first a'.num P'))
    (hap' : NodesApart (sides a'.first a'.num P'))
    (h0 : a.height ≠ 0)
    (T : V2 ℝ → V2 ℝ) (l : ℝ) (hl : 0 < l) (hht : a'.height = l * a.height) (hT : ∀ X Y, eucl (T X) (T Y) = l * eucl X Y)
    (hsur : Function.Surjective T)
    (hin : ∀ X, (∀ k, k < a'.num → 0 ≤ area2 (P' k) (P' ((k + 1) % a'.num)) (T X)) ↔
      ∀ k, k < a.num → 0 ≤ area2 (P k) (P ((k + 1) % a.num)) X)
    (fuel fuel' : Nat) (hf : 4 * a.num + 1 ≤ fuel) (hf' : 4 * a'.num + 1 ≤ fuel') :
    ∃ out fs out' fs', polygonize rt fuel a = some out ∧ out.result = .ok (a.faces.getD [] ++ fs) ∧
      polygonize rt' fuel' a' = some out' ∧ out'.result = .ok (a'.faces.getD [] ++ fs') ∧
      ∀ X h, OnRoof out'.verts fs' (T X) (z' + l * h) ↔ OnRoof out.verts fs X (z + h) := by
  obtain ⟨out, slope, fs, r1, r2, -, -, r6⟩ :=
    roofHeight_points rt a P z hh hu h3 hv hleft hlong hsep hbl hap fuel hf
  obtain ⟨out', slope', fs', s1, s2, -, -, s6⟩ :=
    roofHeight_points rt' a' P' z' hh' hu' h3' hv' hleft' hlong' hsep' hbl' hap' fuel' hf'
  refine ⟨out, fs, out', fs', r1, r2, s1, s2, fun X h => ?_⟩
  have hlen := fun k hk => long_len (hlong k hk)
  have hlen' := fun k hk => long_len (hlong' k hk)
  obtain ⟨ot, ft, sl, C, r, t1, t2, t3, t4, t5, -, t7, t8, -⟩ :=
    C83_points rt a P z hh hu h3 hv hleft hlong hsep hbl hap fuel hf
  obtain ⟨ot', ft', sl', C', r', u1, u2, u3, u4, u5, -, u7, u8, -⟩ :=
    C83_points rt' a' P' z' hh' hu' h3' hv' hleft' hlong' hsep' hbl' hap' fuel' hf'
  rw [r1] at t1
  cases t1
  rw [s1] at u1
  cases u1
  obtain rfl : fs = ft := by rw [r2] at t2; simpa using t2
  obtain rfl : fs' = ft' := by rw [s2] at u2; simpa using u2
  have hsl : slope' = slope := by
    have e1 := slope_of_top (n := a.num) (by omega) hlen r6 t3 t5 t8
    have e2 := slope_of_top (n := a'.num) (by omega) hlen' s6 u3 u5 u8
    rw [t7 h0] at e1
    rw [u7 (by rw [hht]; exact mul_ne_zero hl.ne' h0), hht] at e2
    have e3 := largest_similar hl hT hsur hin t3 t5 u3 u5
    rw [e3] at e2
    have : slope' * (l * r) = slope * (l * r) := by linear_combination -e2 + l * e1
    exact mul_right_cancel₀ (by positivity) this
  rw [s6, r6, hsl]
  exact roof_similar (by omega) (by omega) (fun k hk => long_len (hlong k hk))
    (fun k hk => long_len (hlong' k hk)) hl hT hsur hin X h

/-- the same for two triangles -/
theorem C81_height_triangle (rt rt' : Rt) (a a' : PolyArgs ℝ) (P P' : Nat → V2 ℝ) (z z' : ℝ)
    (hh : a.holes.getD [] = []) (hu : a.units = none) (h3 : a.num = 3)
    (hv : ∀ k, k < 3 → ∃ A, a.verts[a.first + k]? = some A ∧ A.xy = P k ∧ A.z = z)
    (hleft : 0 < area2 (P 0) (P 1) (P 2))
    (hlong : ∀ k, k < 3 → 1 / 10 ^ 35 < eucl (P k) (P ((k + 1) % 3)) ^ 2)
    (hh' : a'.holes.getD [] = []) (hu' : a'.units = none) (h3' : a'.num = 3)
    (hv' : ∀ k, k < 3 → ∃ A, a'.verts[a'.first + k]? = some A ∧ A.xy = P' k ∧ A.z = z')
    (hleft' : 0 < area2 (P' 0) (P' 1) (P' 2))
    (hlong' : ∀ k, k < 3 → 1 / 10 ^ 35 < eucl (P' k) (P' ((k + 1) % 3)) ^ 2)
    (h0 : a.height ≠ 0)
    (T : V2 ℝ → V2 ℝ) (l : ℝ) (hl : 0 < l) (hht : a'.height = l * a.height) (hT : ∀ X Y, eucl (T X) (T Y) = l * eucl X Y)
    (hsur : Function.Surjective T)
    (hin : ∀ X, (∀ k, k < 3 → 0 ≤ area2 (P' k) (P' ((k + 1) % 3)) (T X)) ↔
      ∀ k, k < 3 → 0 ≤ area2 (P k) (P ((k + 1) % 3)) X)
    (fuel fuel' : Nat) (hf : 13 ≤ fuel) (hf' : 13 ≤ fuel') :
    ∃ out fs out' fs', polygonize rt fuel a = some out ∧ out.result = .ok (a.faces.getD [] ++ fs) ∧
      polygonize rt' fuel' a' = some out' ∧ out'.result = .ok (a'.faces.getD [] ++ fs') ∧
      ∀ X h, OnRoof out'.verts fs' (T X) (z' + l * h) ↔ OnRoof out.verts fs X (z + h) := by
  obtain ⟨out, slope, fs, r1, r2, -, -, r6⟩ := roofHeight_triangle rt a P z hh hu h3 hv hleft hlong fuel hf
  obtain ⟨out', slope', fs', s1, s2, -, -, s6⟩ :=
    roofHeight_triangle rt' a' P' z' hh' hu' h3' hv' hleft' hlong' fuel' hf'
  refine ⟨out, fs, out', fs', r1, r2, s1, s2, fun X h => ?_⟩
  have hlen := fun k hk => long_len (hlong k hk)
  have hlen' := fun k hk => long_len (hlong' k hk)
  obtain ⟨ot, ft, sl, C, r, t1, t2, t3, t4, t5, -, t7, t8, -⟩ :=
    C83_triangle rt a P z hh hu h3 hv hleft hlong fuel hf
  obtain ⟨ot', ft', sl', C', r', u1, u2, u3, u4, u5, -, u7, u8, -⟩ :=
    C83_triangle rt' a' P' z' hh' hu' h3' hv' hleft' hlong' fuel' hf'
  rw [r1] at t1
  cases t1
  rw [s1] at u1
  cases u1
  obtain rfl : fs = ft := by rw [r2] at t2; simpa using t2
  obtain rfl : fs' = ft' := by rw [s2] at u2; simpa using u2
  have hsl : slope' = slope := by
    have e1 := slope_of_top (n := 3) (by omega) hlen r6 t3 t5 t8
    have e2 := slope_of_top (n := 3) (by omega) hlen' s6 u3 u5 u8
    rw [t7 h0] at e1
    rw [u7 (by rw [hht]; exact mul_ne_zero hl.ne' h0), hht] at e2
    have e3 := largest_similar hl hT hsur hin t3 t5 u3 u5
    rw [e3] at e2
    have : slope' * (l * r) = slope * (l * r) := by linear_combination -e2 + l * e1
    exact mul_right_cancel₀ (by positivity) this
  rw [s6, r6, hsl]
  exact roof_similar (by omega) (by omega) (fun k hk => long_len (hlong k hk))
    (fun k hk => long_len (hlong' k hk)) hl hT hsur hin X h

/-- the rectangle of 8 by 4 is its own mirror image, and so is its roof -/
example (rt : Rt) : ∃ out fs, polygonize rt 17 rectArgs = some out ∧ out.result = .ok ([] ++ fs) ∧
    ∀ X h, OnRoof out.verts fs ⟨8 - X.x, X.y⟩ h ↔ OnRoof out.verts fs X h := by
  obtain ⟨h1, h2, h3, h4, h5, h6, h7⟩ := rect_meets
  have hv : ∀ k, k < rectArgs.num → ∃ A, rectArgs.verts[rectArgs.first + k]? = some A ∧ A.xy = rectPoint k ∧
      A.z = 1 := by
    intro k hk
    have : k = 0 ∨ k = 1 ∨ k = 2 ∨ k = 3 := by simp only [rectArgs] at hk; omega
    rcases this with rfl | rfl | rfl | rfl <;> simp [rectArgs, rectPoint, V3.xy]
  obtain ⟨out, fs, out', fs', k1, k2, k3, k4, k5⟩ := C81_points rt rt rectArgs rectArgs rectPoint rectPoint 1 1
    rfl rfl (by simp [rectArgs]) hv h2 h3 h4 h5 h7 rfl rfl (by simp [rectArgs]) hv h2 h3 h4 h5 h7 rfl rfl rfl
    (fun X => ⟨8 - X.x, X.y⟩) 1 one_pos (by
      intro X Y
      simp only [eucl, one_mul]
      congr 1; ring) (fun Y => ⟨⟨8 - Y.x, Y.y⟩, by simp⟩) (by
      intro X
      show (∀ k, k < 4 → _) ↔ ∀ k, k < 4 → _
      constructor <;> intro hX k hk
      all_goals
        have hX0 := hX 0 (by omega)
        have hX1 := hX 1 (by omega)
        have hX2 := hX 2 (by omega)
        have hX3 := hX 3 (by omega)
        simp [rectArgs, rectPoint, area2] at hX0 hX1 hX2 hX3
        have : k = 0 ∨ k = 1 ∨ k = 2 ∨ k = 3 := by omega
        rcases this with rfl | rfl | rfl | rfl <;> simp [rectArgs, rectPoint, area2] <;> linarith)
    17 17 (by simp [rectArgs]) (by simp [rectArgs])
  rw [k1] at k3
  obtain rfl : out = out' := by simpa using k3
  rw [k2] at k4
  obtain rfl : fs = fs' := by simpa using k4
  refine ⟨out, fs, k1, k2, fun X h => ?_⟩
  have := k5 X (h - 1)
  simpa using this

noncomputable def mirrorPoint (k : Nat) : V2 ℝ :=
  if k = 0 then ⟨-8, 0⟩ else if k = 1 then ⟨0, 0⟩ else ⟨0, 6⟩

/-- a mirror image of `triArgs` at twice the size, on the ground and listed from another corner -/
noncomputable def mirrorArgs : PolyArgs ℝ :=
  { verts := [⟨-8, 0, 0⟩, ⟨0, 0, 0⟩, ⟨0, 6, 0⟩], first := 0, num := 3, holes := none, height := 0,
    tan := 1 / 2, faces := none, units := none }

example (rt : Rt) : ∃ out fs out' fs',
    polygonize rt 13 { triArgs with height := 0, tan := 1 / 2 } = some out ∧ out.result = .ok ([] ++ fs) ∧
    polygonize rt 13 mirrorArgs = some out' ∧ out'.result = .ok ([] ++ fs') ∧
    ∀ X h, OnRoof out'.verts fs' ⟨-2 * X.x, 2 * X.y⟩ (0 + 2 * h) ↔ OnRoof out.verts fs X (5 + h) := by
  obtain ⟨h1, h2, h3⟩ := tri_meets
  refine C81_triangle rt rt { triArgs with height := 0, tan := 1 / 2 } mirrorArgs triPoint mirrorPoint 5 0 rfl rfl
    rfl (by
      intro k hk
      have : k = 0 ∨ k = 1 ∨ k = 2 := by omega
      rcases this with rfl | rfl | rfl <;> simp [triArgs, triPoint, V3.xy]) h2 h3 rfl rfl rfl (by
      intro k hk
      have : k = 0 ∨ k = 1 ∨ k = 2 := by omega
      rcases this with rfl | rfl | rfl <;> simp [mirrorArgs, mirrorPoint, V3.xy])
    (by norm_num [area2, mirrorPoint]) (by
      intro k hk
      have hsq : ∀ p q : V2 ℝ, eucl p q ^ 2 = (p.x - q.x) ^ 2 + (p.y - q.y) ^ 2 :=
        fun p q => Real.sq_sqrt (by positivity)
      rw [hsq]
      have : k = 0 ∨ k = 1 ∨ k = 2 := by omega
      rcases this with rfl | rfl | rfl <;> norm_num [mirrorPoint]) rfl rfl rfl
    (fun X => ⟨-2 * X.x, 2 * X.y⟩) 2 two_pos ?_ (fun Y => ⟨⟨-Y.x / 2, Y.y / 2⟩, ?_⟩) ?_ 13 13 le_rfl le_rfl
  · intro X Y
    show Real.sqrt ((-2 * X.x - -2 * Y.x) ^ 2 + (2 * X.y - 2 * Y.y) ^ 2) =
      2 * Real.sqrt ((X.x - Y.x) ^ 2 + (X.y - Y.y) ^ 2)
    rw [show (-2 * X.x - -2 * Y.x) ^ 2 + (2 * X.y - 2 * Y.y) ^ 2 =
      2 ^ 2 * ((X.x - Y.x) ^ 2 + (X.y - Y.y) ^ 2) by ring, Real.sqrt_mul (by norm_num),
      Real.sqrt_sq (by norm_num)]
  · cases Y
    simp only [V2.mk.injEq]
    constructor <;> ring
  · intro X
    constructor <;> intro hX k hk
    all_goals
      have hX0 := hX 0 (by omega)
      have hX1 := hX 1 (by omega)
      have hX2 := hX 2 (by omega)
      simp [triPoint, mirrorPoint, area2] at hX0 hX1 hX2
      have : k = 0 ∨ k = 1 ∨ k = 2 := by omega
      rcases this with rfl | rfl | rfl <;> simp [triPoint, mirrorPoint, area2] <;> linarith

/-- the same triangles with roofs 2 and 4 high -/
example (rt : Rt) : ∃ out fs out' fs',
    polygonize rt 13 triArgs = some out ∧ out.result = .ok ([] ++ fs) ∧
    polygonize rt 13 { mirrorArgs with height := 4 } = some out' ∧ out'.result = .ok ([] ++ fs') ∧
    ∀ X h, OnRoof out'.verts fs' ⟨-2 * X.x, 2 * X.y⟩ (0 + 2 * h) ↔ OnRoof out.verts fs X (5 + h) := by
  obtain ⟨h1, h2, h3⟩ := tri_meets
  refine C81_height_triangle rt rt triArgs { mirrorArgs with height := 4 } triPoint mirrorPoint 5 0 rfl rfl
    rfl (by
      intro k hk
      have : k = 0 ∨ k = 1 ∨ k = 2 := by omega
      rcases this with rfl | rfl | rfl <;> simp [triArgs, triPoint, V3.xy]) h2 h3 rfl rfl rfl (by
      intro k hk
      have : k = 0 ∨ k = 1 ∨ k = 2 := by omega
      rcases this with rfl | rfl | rfl <;> simp [mirrorArgs, mirrorPoint, V3.xy])
    (by norm_num [area2, mirrorPoint]) (by
      intro k hk
      have hsq : ∀ p q : V2 ℝ, eucl p q ^ 2 = (p.x - q.x) ^ 2 + (p.y - q.y) ^ 2 :=
        fun p q => Real.sq_sqrt (by positivity)
      rw [hsq]
      have : k = 0 ∨ k = 1 ∨ k = 2 := by omega
      rcases this with rfl | rfl | rfl <;> norm_num [mirrorPoint]) (by norm_num [triArgs])
    (fun X => ⟨-2 * X.x, 2 * X.y⟩) 2 two_pos (by norm_num [triArgs]) ?_ (fun Y => ⟨⟨-Y.x / 2, Y.y / 2⟩, ?_⟩) ?_ 13 13 le_rfl le_rfl
  · intro X Y
    show Real.sqrt ((-2 * X.x - -2 * Y.x) ^ 2 + (2 * X.y - 2 * Y.y) ^ 2) =
      2 * Real.sqrt ((X.x - Y.x) ^ 2 + (X.y - Y.y) ^ 2)
    rw [show (-2 * X.x - -2 * Y.x) ^ 2 + (2 * X.y - 2 * Y.y) ^ 2 =
      2 ^ 2 * ((X.x - Y.x) ^ 2 + (X.y - Y.y) ^ 2) by ring, Real.sqrt_mul (by norm_num),
      Real.sqrt_sq (by norm_num)]
  · cases Y
    simp only [V2.mk.injEq]
    constructor <;> ring
  · intro X
    constructor <;> intro hX k hk
    all_goals
      have hX0 := hX 0 (by omega)
      have hX1 := hX 1 (by omega)
      have hX2 := hX 2 (by omega)
      simp [triPoint, mirrorPoint, area2] at hX0 hX1 hX2
      have : k = 0 ∨ k = 1 ∨ k = 2 := by omega
      rcases this with rfl | rfl | rfl <;> simp [triPoint, mirrorPoint, area2] <;> linarith

end Polyskel
