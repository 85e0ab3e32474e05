import Verif.Proofs.Pitch
import Verif.Props.Building
import Verif.Props.RoofCells
/-
C76: the pitch and the area of the roof over a convex polygon.
-/
namespace Polyskel
open Scalar Geo Real

/-- The faces have the pitch `slope`: each starts with a side of the polygon with the `n` vertices `P`, its
normal looks upwards and leans outwards (to the right of the side) by `slope`, and its area is that of the
ground below it times `√(1 + slope²)`. -/
def Pitched (first n : Nat) (P : Nat → V2 ℝ) (V : List (V3 ℝ)) (slope : ℝ) (f : List Int) : Prop :=
  ∃ k, k < n ∧ f[0]? = some ((first + k : Nat) : Int) ∧ f[1]? = some ((first + (k + 1) % n : Nat) : Int) ∧
    0 < (faceNormal V f).z ∧
    (faceNormal V f).x * eucl (P k) (P ((k + 1) % n)) =
      slope * ((P ((k + 1) % n)).y - (P k).y) * (faceNormal V f).z ∧
    (faceNormal V f).y * eucl (P k) (P ((k + 1) % n)) =
      - slope * ((P ((k + 1) % n)).x - (P k).x) * (faceNormal V f).z ∧
    faceArea V f = Real.sqrt (1 + slope ^ 2) * ((faceNormal V f).z / 2)

/-- from the properties of C62, C64 and C74 -/
private theorem pitched {a : PolyArgs ℝ} {P : Nat → V2 ℝ} {z slope : ℝ} {V : List (V3 ℝ)} {fs : List (List Int)}
    {σ : List Nat} (hv : ∀ k, k < a.num → ∃ A, V[a.first + k]? = some A ∧ A.xy = P k ∧ A.z = z)
    (hpos : ∀ k, k < a.num → 0 < eucl (P k) (P ((k + 1) % a.num)))
    (hσ : σ.Perm (List.range a.num))
    (h : List.Forall₂ (fun k f => ∃ e, (sides a.first a.num P)[k]? = some e ∧
        RoofFace a (sides a.first a.num P) e z slope V k f) σ fs)
    (ht : Tiles a.num P V fs σ) : ∀ f ∈ fs, Pitched a.first a.num P V slope f := by
  intro f hf
  obtain ⟨i, hi, rfl⟩ := List.getElem_of_mem hf
  have hl := h.length_eq
  obtain ⟨e, he, hr⟩ := (List.forall₂_iff_get.1 h).2 i (by omega) hi
  simp only [List.get_eq_getElem] at he hr
  set k := σ[i]'(by omega) with hk
  have hkn : k < a.num := List.mem_range.1 ((hσ.mem_iff).1 (List.getElem_mem _))
  have hkn' : (k + 1) % a.num < a.num := Nat.mod_lt _ (by omega)
  obtain ⟨e', he', p1, p2⟩ := sides_get (first := a.first) (P := P) hkn
  rw [he] at he'
  cases he'
  have hs := fun X => sides_height he X
  have hE := hpos k hkn
  set E := eucl (P k) (P ((k + 1) % a.num)) with hEd
  -- all vertices are in the plane
  have hpl : ∀ v ∈ fs[i], (vertexAt V v).z = z + slope * sideDist a.num P k (vertexAt V v).xy := by
    intro v hv'
    obtain ⟨j, hj⟩ := List.mem_iff_getElem?.1 hv'
    have corner : ∀ q, q < a.num → area2 (P k) (P ((k + 1) % a.num)) (P q) = 0 → v = ((a.first + q : Nat) : Int) →
        (vertexAt V v).z = z + slope * sideDist a.num P k (vertexAt V v).xy := by
      rintro q hq h0 rfl
      obtain ⟨A, hA, hAP, hAz⟩ := hv q hq
      have : vertexAt V ((a.first + q : Nat) : Int) = A := by
        rw [vertexAt, Int.toNat_natCast, hA]; rfl
      rw [this, hAP, hAz, sideDist, h0]
      ring
    rcases j with _ | _ | j
    · rw [hr.first] at hj
      exact corner k hkn (by unfold area2; ring) (by simpa using hj.symm)
    · rw [hr.second] at hj
      exact corner _ hkn' (by unfold area2; ring) (by simpa using hj.symm)
    · obtain ⟨-, h2⟩ := hr.plane (j + 2) v (by omega) hj
      have hb := hr.index v hv'
      have hx : V[v.toNat]? = some V[v.toNat] := List.getElem?_eq_getElem (by omega)
      have := (h2 _ hx).2
      rw [hs] at this
      simpa [vertexAt, hx] using this
  obtain ⟨X, hX⟩ := ht.fat _ hf
  have hz : 0 < (faceNormal V fs[i]).z := faceNormal_pos
    (by intro h0; have := hr.size; rw [h0] at this; simp at this)
    (fun v hv' => by have := hr.index v hv'; omega) hX
  obtain ⟨nx, ny⟩ := faceNormal_plane (V := V) (f := fs[i])
    (α := z - slope * (((P ((k + 1) % a.num)).x - (P k).x) * (P k).y - ((P ((k + 1) % a.num)).y - (P k).y) * (P k).x) / E)
    (β := -slope * ((P ((k + 1) % a.num)).y - (P k).y) / E) (γ := slope * ((P ((k + 1) % a.num)).x - (P k).x) / E)
    (fun v hv' => by
      rw [hpl v hv', sideDist, ← hEd]
      simp only [area2, V3.xy]
      field_simp
      ring)
  have hE2 : E ^ 2 = ((P k).x - (P ((k + 1) % a.num)).x) ^ 2 + ((P k).y - (P ((k + 1) % a.num)).y) ^ 2 :=
    Real.sq_sqrt (by positivity)
  refine ⟨k, hkn, hr.first, hr.second, hz, ?_, ?_, ?_⟩
  · rw [nx]; field_simp; try ring
  · rw [ny]; field_simp; try ring
  · have : (faceNormal V fs[i]).x ^ 2 + (faceNormal V fs[i]).y ^ 2 + (faceNormal V fs[i]).z ^ 2 =
        (1 + slope ^ 2) * (faceNormal V fs[i]).z ^ 2 := by
      rw [nx, ny]
      field_simp
      rw [hE2]
      ring
    rw [faceArea, this, Real.sqrt_mul (by positivity), Real.sqrt_sq hz.le]
    ring

/-- the areas add up -/
private theorem areas {a : PolyArgs ℝ} {P : Nat → V2 ℝ} {slope : ℝ} {V : List (V3 ℝ)} {fs : List (List Int)}
    (hn : 0 < a.num) (hv : ∀ k, k < a.num → ∃ A, V[a.first + k]? = some A ∧ A.xy = P k)
    (hb : Bounded fs (polygonDarts a.first a.num)) (hp : ∀ f ∈ fs, Pitched a.first a.num P V slope f) :
    (fs.map (faceArea V)).sum = Real.sqrt (1 + slope ^ 2) * polygonArea a.num P := by
  have h1 : (fs.map (faceArea V)).sum =
      (fs.map fun f => Real.sqrt (1 + slope ^ 2) / 2 * (faceNormal V f).z).sum := by
    congr 1
    apply List.map_congr_left
    intro f hf
    obtain ⟨k, -, -, -, -, -, -, h⟩ := hp f hf
    rw [h]; ring
  have h2 := hb.sum (polygonDarts_nodup _ _)
    (fun d => (vertexAt V d.1).x * (vertexAt V d.2).y - (vertexAt V d.1).y * (vertexAt V d.2).x)
    (fun p q => by ring)
  have h3 : (fs.map fun f => (faceNormal V f).z).sum = 2 * polygonArea a.num P := by
    simp only [faceNormal]
    rw [h2, polygonArea, polygonDarts, List.map_map, mul_div_cancel₀ _ (two_ne_zero)]
    congr 1
    apply List.map_congr_left
    intro k hk
    obtain ⟨A, hA, hAP⟩ := hv k (List.mem_range.1 hk)
    obtain ⟨B, hB, hBP⟩ := hv ((k + 1) % a.num) (Nat.mod_lt _ hn)
    have e1 : vertexAt V ((a.first + k : Nat) : Int) = A := by
      rw [vertexAt, Int.toNat_natCast, hA]; rfl
    have e2 : vertexAt V ((a.first + (k + 1) % a.num : Nat) : Int) = B := by
      rw [vertexAt, Int.toNat_natCast, hB]; rfl
    simp only [Function.comp]
    rw [e1, e2, ← hAP, ← hBP]
    rfl
  rw [h1, List.sum_map_mul_left, h3]
  ring

private theorem long_pos {p q : V2 ℝ} (h : 1 / 10 ^ 35 < eucl p q ^ 2) : 0 < eucl p q := by
  rcases (Real.sqrt_nonneg ((p.x - q.x) ^ 2 + (p.y - q.y) ^ 2)).lt_or_eq with h' | h'
  · exact h'
  · rw [show eucl p q = 0 from h'.symm] at h
    norm_num at h

/-- C76: under the hypotheses of `C62_points`, and if the polygon is horizontal, each face of the roof looks
upwards and outwards with the same pitch, which is the one asked for if no height is given; and the area of
the roof is the area of the polygon times `√(1 + slope²)`. -/
theorem C76_points (rt : Rt) (a : PolyArgs ℝ) (P : Nat → V2 ℝ) (z : ℝ) (hh : a.holes.getD [] = [])
    (hu : a.units = none) (h3 : 3 ≤ a.num)
    (hv : ∀ k, k < a.num → ∃ A, a.verts[a.first + k]? = some A ∧ A.xy = P k ∧ A.z = z)
    (hleft : ∀ i j, i < a.num → j < a.num → j ≠ i → j ≠ (i + 1) % a.num →
      0 < area2 (P i) (P ((i + 1) % a.num)) (P j))
    (hlong : ∀ k, k < a.num → 1 / 10 ^ 35 < eucl (P k) (P ((k + 1) % a.num)) ^ 2)
    (hsep : Separated (sides a.first a.num P)) (hbl : Blunt (sides a.first a.num P))
    (hap : NodesApart (sides a.first a.num P)) (fuel : Nat) (hf : 4 * a.num + 1 ≤ fuel) :
    ∃ out slope fs, polygonize rt fuel a = some out ∧ out.result = .ok (a.faces.getD [] ++ fs) ∧
      fs.length = a.num ∧ (a.height = 0 → slope = a.tan) ∧ (0 < a.height → 0 < slope) ∧
      (∀ f ∈ fs, Pitched a.first a.num P out.verts slope f) ∧
      (fs.map (faceArea out.verts)).sum = Real.sqrt (1 + slope ^ 2) * polygonArea a.num P := by
  have hv' : ∀ k, k < a.num → ∃ A, a.verts[a.first + k]? = some A ∧ A.xy = P k := fun k hk => by
    obtain ⟨A, h1, h2, -⟩ := hv k hk
    exact ⟨A, h1, h2⟩
  obtain ⟨A, out, new, slope, fs, σ, hA, h1, h2, -, h4, h5, h6, h7, h8⟩ :=
    C62_points rt a P hh hu h3 hv' hleft hlong hsep hbl hap fuel hf
  obtain ⟨out', new', fs', k1, -, k3, k4, k5, -⟩ :=
    C74_roof rt a P hh hu h3 hv' hleft hlong hsep hbl hap fuel hf
  rw [h1] at k1
  cases k1
  rw [h4] at k3
  obtain rfl : fs = fs' := by simpa using k3
  have hVz : ∀ k, k < a.num → ∃ A, out.verts[a.first + k]? = some A ∧ A.xy = P k ∧ A.z = z := by
    intro k hk
    obtain ⟨B, hB, hBP⟩ := hv k hk
    exact ⟨B, by rw [h2, List.getElem?_append_left (List.getElem?_eq_some_iff.1 hB).1, hB], hBP⟩
  have hV : ∀ k, k < a.num → ∃ A, out.verts[a.first + k]? = some A ∧ A.xy = P k := fun k hk => by
    obtain ⟨A, h1, h2, -⟩ := hVz k hk
    exact ⟨A, h1, h2⟩
  obtain ⟨B, hB, -, hBz⟩ := hv 0 (by omega)
  obtain rfl : A = B := by simpa [hA] using hB
  rw [hBz] at h8
  have hp := pitched hVz (fun k hk => long_pos (hlong k hk)) h7 h8 (tiles_of_faces h3 hV hleft h7 h8)
  exact ⟨out, slope, fs, h1, h4, k4, h5, h6, hp, areas (by omega) hV k5 hp⟩

/-- C76 for triangles: no further hypothesis. -/
theorem C76_triangle (rt : Rt) (a : PolyArgs ℝ) (P : Nat → V2 ℝ) (z : ℝ) (hh : a.holes.getD [] = [])
    (hu : a.units = none) (h3 : a.num = 3)
    (hv : ∀ k, k < 3 → ∃ A, a.verts[a.first + k]? = some A ∧ A.xy = P k ∧ A.z = z)
    (hleft : 0 < area2 (P 0) (P 1) (P 2))
    (hlong : ∀ k, k < 3 → 1 / 10 ^ 35 < eucl (P k) (P ((k + 1) % 3)) ^ 2) (fuel : Nat)
    (hf : 13 ≤ fuel) :
    ∃ out slope fs, polygonize rt fuel a = some out ∧ out.result = .ok (a.faces.getD [] ++ fs) ∧
      fs.length = 3 ∧ (a.height = 0 → slope = a.tan) ∧ (0 < a.height → 0 < slope) ∧
      (∀ f ∈ fs, Pitched a.first 3 P out.verts slope f) ∧
      (fs.map (faceArea out.verts)).sum =
        Real.sqrt (1 + slope ^ 2) * (area2 (P 0) (P 1) (P 2) / 2) := by
  have hv' : ∀ k, k < 3 → ∃ A, a.verts[a.first + k]? = some A ∧ A.xy = P k := fun k hk => by
    obtain ⟨A, h1, h2, -⟩ := hv k hk
    exact ⟨A, h1, h2⟩
  obtain ⟨A, out, N, slope, fs, σ, hA, h1, h2, h4, h5, h6, h7, h8⟩ :=
    C62_triangle rt a P hh hu h3 hv' hleft hlong fuel hf
  obtain ⟨out', new', fs', k1, -, k3, k4, k5, -⟩ :=
    C74_roof_triangle rt a P hh hu h3 hv' hleft hlong fuel hf
  rw [h1] at k1
  cases k1
  rw [h4] at k3
  obtain rfl : fs = fs' := by simpa using k3
  have hVz : ∀ k, k < a.num → ∃ A, out.verts[a.first + k]? = some A ∧ A.xy = P k ∧ A.z = z := by
    intro k hk
    obtain ⟨B, hB, hBP⟩ := hv k (by omega)
    exact ⟨B, by rw [h2, List.getElem?_append_left (List.getElem?_eq_some_iff.1 hB).1, hB], hBP⟩
  have hV : ∀ k, k < a.num → ∃ A, out.verts[a.first + k]? = some A ∧ A.xy = P k := fun k hk => by
    obtain ⟨A, h1, h2, -⟩ := hVz k hk
    exact ⟨A, h1, h2⟩
  obtain ⟨B, hB, -, hBz⟩ := hv 0 (by omega)
  obtain rfl : A = B := by simpa [hA] using hB
  rw [hBz] at h8
  have h7' : σ.Perm (List.range a.num) := by rw [h3]; exact h7
  have h8' : List.Forall₂ (fun k f => ∃ e, (sides a.first a.num P)[k]? = some e ∧
      RoofFace a (sides a.first a.num P) e z slope out.verts k f) σ fs := by rw [h3]; exact h8
  have hp := pitched hVz (fun k hk => long_pos (by rw [h3]; exact hlong k (by omega))) h7' h8'
    (tiles_of_faces (by omega) hV (by rw [h3]; exact triangle_left hleft) h7' h8')
  have har := areas (by omega) hV k5 hp
  have e : polygonArea a.num P = area2 (P 0) (P 1) (P 2) / 2 := by
    rw [polygonArea, h3, show List.range 3 = [0, 1, 2] from rfl]
    simp [area2]
    ring
  rw [e] at har
  rw [h3] at hp
  exact ⟨out, slope, fs, h1, h4, k4, h5, h6, hp, har⟩

/-- the rectangle of 8 by 4, with a pitch of 1/2: the roof has the area 32 · √(5/4) -/
example (rt : Rt) : ∃ out fs, polygonize rt 17 rectArgs = some out ∧ out.result = .ok ([] ++ fs) ∧
    fs.length = 4 ∧ (∀ f ∈ fs, Pitched 0 4 rectPoint out.verts (1 / 2) f) ∧
    (fs.map (faceArea out.verts)).sum = Real.sqrt (5 / 4) * 32 := by
  obtain ⟨h1, h2, h3, h4, h5, h6, h7⟩ := rect_meets
  obtain ⟨out, slope, fs, k1, k2, k3, k4, -, k6, k7⟩ := C76_points rt rectArgs rectPoint 1 rfl rfl
    (by simp [rectArgs]) (by
      intro k hk
      have : k = 0 ∨ k = 1 ∨ k = 2 ∨ k = 3 := by simp only [rectArgs] at hk; omega
      rcases this with rfl | rfl | rfl | rfl <;> simp [rectArgs, rectPoint, V3.xy]) h2 h3 h4 h5 h7 17 (by simp [rectArgs])
  obtain rfl : slope = 1 / 2 := k4 rfl
  refine ⟨out, fs, k1, k2, k3, k6, ?_⟩
  have e : polygonArea rectArgs.num rectPoint = 32 := by
    rw [polygonArea, show List.range rectArgs.num = [0, 1, 2, 3] from rfl]
    norm_num [rectArgs, rectPoint]
  rw [k7, e]
  norm_num

/-- a right-angled triangle -/
example (rt : Rt) : ∃ out slope fs, polygonize rt 13 triArgs = some out ∧ out.result = .ok ([] ++ fs) ∧
    fs.length = 3 ∧ 0 < slope ∧ (∀ f ∈ fs, Pitched 0 3 triPoint out.verts slope f) ∧
    (fs.map (faceArea out.verts)).sum =
      Real.sqrt (1 + slope ^ 2) * (area2 (triPoint 0) (triPoint 1) (triPoint 2) / 2) := by
  obtain ⟨h1, h2, h3⟩ := tri_meets
  obtain ⟨out, slope, fs, k1, k2, k3, -, k4, k6, k7⟩ := C76_triangle rt triArgs triPoint 5 rfl rfl rfl (by
      intro k hk
      have : k = 0 ∨ k = 1 ∨ k = 2 := by omega
      rcases this with rfl | rfl | rfl <;> simp [triArgs, triPoint, V3.xy]) h2 h3 13 (le_refl _)
  exact ⟨out, slope, fs, k1, k2, k3, k4 (by simp [triArgs]), k6, k7⟩

end Polyskel
