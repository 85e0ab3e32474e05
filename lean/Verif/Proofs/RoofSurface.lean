import Verif.Spec.RoofSurface
import Verif.Proofs.Pitch
import Verif.Proofs.RunOff
/-
For C79 and C80: the height of the roof over a convex polygon is the smallest of the distances from its sides,
times the pitch.
-/
namespace Polyskel
open Scalar Geo Real

/-- the height of the roof at a point -/
theorem onRoof_iff {a : PolyArgs ℝ} {P : Nat → V2 ℝ} {z slope : ℝ} {V : List (V3 ℝ)} {fs : List (List Int)}
    {σ : List Nat} (h3 : 3 ≤ a.num)
    (hv : ∀ k, k < a.num → ∃ A, V[a.first + k]? = some A ∧ A.xy = P k ∧ A.z = z)
    (hleft : ∀ i j, i < a.num → j < a.num → j ≠ i → j ≠ (i + 1) % a.num →
      0 < area2 (P i) (P ((i + 1) % a.num)) (P j))
    (hσ : σ.Perm (List.range a.num))
    (hF : List.Forall₂ (fun k f => ∃ e, (sides a.first a.num P)[k]? = some e ∧
        RoofFace a (sides a.first a.num P) e z slope V k f) σ fs) (X : V2 ℝ) (h : ℝ) :
    OnRoof V fs X h ↔ ∃ k, k < a.num ∧ 0 ≤ sideDist a.num P k X ∧
      (∀ j, j < a.num → sideDist a.num P k X ≤ sideDist a.num P j X) ∧ h = z + slope * sideDist a.num P k X := by
  have hV : ∀ k, k < a.num → ∃ A, V[a.first + k]? = some A ∧ A.xy = P k := fun k hk => by
    obtain ⟨A, h1, h2, -⟩ := hv k hk
    exact ⟨A, h1, h2⟩
  have ht := tiles_of_faces h3 hV hleft hσ hF
  have hlen := eucl_of_left h3 hleft
  -- one face
  have face : ∀ (i : Nat) (hi : i < fs.length) (hi' : i < σ.length), (OverFace V fs[i] X ∧
      ∀ v ∈ fs[i], (faceNormal V fs[i]).x * (X.x - (vertexAt V v).x) +
        (faceNormal V fs[i]).y * (X.y - (vertexAt V v).y) + (faceNormal V fs[i]).z * (h - (vertexAt V v).z) = 0) ↔
      0 ≤ sideDist a.num P σ[i] X ∧ (∀ j, j < a.num → sideDist a.num P σ[i] X ≤ sideDist a.num P j X) ∧
        h = z + slope * sideDist a.num P σ[i] X := by
    intro i hi hi'
    obtain ⟨e, he, hr⟩ := (List.forall₂_iff_get.1 hF).2 i hi' hi
    have hcell := (List.forall₂_iff_get.1 ht.cell).2 i hi' hi X
    simp only [List.get_eq_getElem] at he hr hcell
    have hkn : σ[i] < a.num := List.mem_range.1 ((hσ.mem_iff).1 (List.getElem_mem _))
    generalize σ[i] = k at *
    have hkn' : (k + 1) % a.num < a.num := Nat.mod_lt _ (by omega)
    have hs := fun X => sides_height he X
    have hE := hlen k hkn
    have hpl : ∀ v ∈ fs[i], (vertexAt V v).z = z + slope * sideDist a.num P k (vertexAt V v).xy := by
      intro v hv'
      obtain ⟨j, hj⟩ := List.mem_iff_getElem?.1 hv'
      have corner : ∀ q, q < a.num → area2 (P k) (P ((k + 1) % a.num)) (P q) = 0 →
          v = ((a.first + q : Nat) : Int) →
          (vertexAt V v).z = z + slope * sideDist a.num P k (vertexAt V v).xy := by
        rintro q hq h0 rfl
        obtain ⟨A, hA, hAP, hAz⟩ := hv q hq
        have : vertexAt V ((a.first + q : Nat) : Int) = A := by
          rw [vertexAt, Int.toNat_natCast, hA]; rfl
        rw [this, hAP, hAz, sideDist, h0]
        ring
      rcases j with _ | _ | j
      · rw [hr.first] at hj
        exact corner k hkn (by unfold area2; ring) (by simpa using hj.symm)
      · rw [hr.second] at hj
        exact corner _ hkn' (by unfold area2; ring) (by simpa using hj.symm)
      · obtain ⟨-, h2⟩ := hr.plane (j + 2) v (by omega) hj
        have hb := hr.index v hv'
        have hx : V[v.toNat]? = some V[v.toNat] := List.getElem?_eq_getElem (by omega)
        have := (h2 _ hx).2
        rw [hs] at this
        simpa [vertexAt, hx] using this
    obtain ⟨Y, hY⟩ := ht.fat _ (List.getElem_mem hi)
    have hz : 0 < (faceNormal V fs[i]).z := faceNormal_pos
      (by intro h0; have := hr.size; rw [h0] at this; simp at this)
      (fun v hv' => by have := hr.index v hv'; omega) hY
    set E := eucl (P k) (P ((k + 1) % a.num)) with hEd
    obtain ⟨nx, ny⟩ := faceNormal_plane (V := V) (f := fs[i])
      (α := z - slope * (((P ((k + 1) % a.num)).x - (P k).x) * (P k).y -
        ((P ((k + 1) % a.num)).y - (P k).y) * (P k).x) / E)
      (β := -slope * ((P ((k + 1) % a.num)).y - (P k).y) / E)
      (γ := slope * ((P ((k + 1) % a.num)).x - (P k).x) / E)
      (fun v hv' => by
        rw [hpl v hv', sideDist, ← hEd]
        simp only [area2, V3.xy]
        field_simp
        ring)
    have key : ∀ v ∈ fs[i], (faceNormal V fs[i]).x * (X.x - (vertexAt V v).x) +
        (faceNormal V fs[i]).y * (X.y - (vertexAt V v).y) + (faceNormal V fs[i]).z * (h - (vertexAt V v).z) =
        (faceNormal V fs[i]).z * (h - (z + slope * sideDist a.num P k X)) := by
      intro v hv'
      rw [hpl v hv', nx, ny, sideDist, sideDist, ← hEd]
      simp only [area2, V3.xy]
      field_simp
      ring
    rw [hcell, and_assoc]
    refine and_congr_right fun _ => and_congr_right fun _ => ⟨fun hh => ?_, fun hh v hv' => ?_⟩
    · have hsz := hr.size
      have h0 := hh _ (List.getElem_mem (show 0 < fs[i].length by omega))
      rw [key _ (List.getElem_mem _)] at h0
      rcases mul_eq_zero.1 h0 with h1 | h1
      · exact absurd h1 hz.ne'
      · linarith
    · rw [key v hv', hh, sub_self, mul_zero]
  have hl := hF.length_eq
  constructor
  · rintro ⟨f, hf, hh⟩
    obtain ⟨i, hi, rfl⟩ := List.getElem_of_mem hf
    exact ⟨σ[i], List.mem_range.1 ((hσ.mem_iff).1 (List.getElem_mem _)), (face i hi (by omega)).1 hh⟩
  · rintro ⟨k, hk, hh⟩
    obtain ⟨i, hi, rfl⟩ := List.getElem_of_mem ((hσ.mem_iff).2 (List.mem_range.2 hk))
    exact ⟨fs[i], List.getElem_mem _, (face i (by omega) hi).2 hh⟩

/-- a side to which a point is nearest -/
theorem nearest_side {n : Nat} (h : 0 < n) (P : Nat → V2 ℝ) (X : V2 ℝ) :
    ∃ k, k < n ∧ ∀ j, j < n → sideDist n P k X ≤ sideDist n P j X := by
  obtain ⟨k, hk, hmin⟩ := (Finset.range n).exists_min_image (fun k => sideDist n P k X)
    ⟨0, Finset.mem_range.2 h⟩
  exact ⟨k, Finset.mem_range.1 hk, fun j hj => hmin j (Finset.mem_range.2 hj)⟩

/-- the distance from a side is affine -/
theorem sideDist_between {n k : Nat} {P : Nat → V2 ℝ} (X Y : V2 ℝ) (t : ℝ) :
    sideDist n P k (Geo.between X Y t) = (1 - t) * sideDist n P k X + t * sideDist n P k Y := by
  simp only [sideDist, area2, Geo.between]
  ring

/-- two points differ in their distance from a side by no more than their own distance -/
theorem sideDist_sub_le {n k : Nat} {P : Nat → V2 ℝ} (hk : 0 < eucl (P k) (P ((k + 1) % n))) (X Y : V2 ℝ) :
    sideDist n P k Y - sideDist n P k X ≤ eucl X Y := by
  have q : eucl (P k) (P ((k + 1) % n)) ^ 2 = _ := Real.sq_sqrt (by positivity)
  have qe : eucl X Y ^ 2 = _ := Real.sq_sqrt (by positivity)
  have h0 : 0 ≤ eucl X Y := Real.sqrt_nonneg _
  set l := eucl (P k) (P ((k + 1) % n))
  set m := eucl X Y
  rw [sideDist, sideDist, ← sub_div, div_le_iff₀ hk]
  have hs : (area2 (P k) (P ((k + 1) % n)) Y - area2 (P k) (P ((k + 1) % n)) X) ^ 2 ≤ (m * l) ^ 2 := by
    rw [mul_pow, q, qe]
    unfold area2
    nlinarith [sq_nonneg (((P ((k + 1) % n)).x - (P k).x) * (Y.x - X.x) +
      ((P ((k + 1) % n)).y - (P k).y) * (Y.y - X.y))]
  exact (abs_le_of_sq_le_sq' hs (by positivity)).2

/-- the graph of the smallest distance -/
theorem roofGraph_of {n : Nat} {P : Nat → V2 ℝ} {z slope : ℝ} {V : List (V3 ℝ)} {fs : List (List Int)}
    (hn : 0 < n) (hlen : ∀ k, k < n → 0 < eucl (P k) (P ((k + 1) % n))) (hs : 0 ≤ slope)
    (h : ∀ X h, OnRoof V fs X h ↔ ∃ k, k < n ∧ 0 ≤ sideDist n P k X ∧
      (∀ j, j < n → sideDist n P k X ≤ sideDist n P j X) ∧ h = z + slope * sideDist n P k X) :
    RoofGraph n P z slope V fs where
  over X := by
    constructor
    · intro hX
      obtain ⟨k, hk, hm⟩ := nearest_side hn P X
      exact ⟨_, (h X _).2 ⟨k, hk, hX k hk, hm, rfl⟩⟩
    · rintro ⟨m, hm⟩ j hj
      obtain ⟨k, -, h0, h1, -⟩ := (h X m).1 hm
      exact h0.trans (h1 j hj)
  unique X m m' hm hm' := by
    obtain ⟨k, hk, -, h1, rfl⟩ := (h X m).1 hm
    obtain ⟨k', hk', -, h1', rfl⟩ := (h X m').1 hm'
    rw [le_antisymm (h1 k' hk') (h1' k hk)]
  eaves X m k hk h0 hm := by
    obtain ⟨k', hk', g0, g1, rfl⟩ := (h X m).1 hm
    have := g1 k hk
    rw [h0] at this
    rw [le_antisymm this g0]
    ring
  concave X Y m m' t ht0 ht1 hm hm' := by
    obtain ⟨k, hk, g0, g1, rfl⟩ := (h X m).1 hm
    obtain ⟨k', hk', g0', g1', rfl⟩ := (h Y m').1 hm'
    obtain ⟨j, hj, hmin⟩ := nearest_side hn P (Geo.between X Y t)
    have e := sideDist_between (n := n) (k := j) (P := P) X Y t
    have a1 := mul_le_mul_of_nonneg_left (g1 j hj) (sub_nonneg.2 ht1)
    have a2 := mul_le_mul_of_nonneg_left (g1' j hj) ht0
    have a3 := mul_nonneg (sub_nonneg.2 ht1) g0
    have a4 := mul_nonneg ht0 g0'
    refine ⟨_, (h _ _).2 ⟨j, hj, by linarith, hmin, rfl⟩, ?_⟩
    have := mul_le_mul_of_nonneg_left (a := slope) (b := (1 - t) * sideDist n P k X + t * sideDist n P k' Y)
      (c := sideDist n P j (Geo.between X Y t)) (by linarith) hs
    linarith
  steep X Y m m' hm hm' := by
    obtain ⟨k, hk, g0, g1, rfl⟩ := (h X m).1 hm
    obtain ⟨k', hk', g0', g1', rfl⟩ := (h Y m').1 hm'
    have e1 := sideDist_sub_le (hlen k hk) X Y
    have e2 := sideDist_sub_le (hlen k' hk') Y X
    have esym : eucl Y X = eucl X Y := by unfold eucl; congr 1; ring
    rw [esym] at e2
    have f1 := g1 k' hk'
    have f2 := g1' k hk
    rw [abs_le]
    constructor
    · have := mul_le_mul_of_nonneg_left (a := slope) (b := sideDist n P k' Y - sideDist n P k X) (c := eucl X Y)
        (by linarith) hs
      linarith
    · have := mul_le_mul_of_nonneg_left (a := slope) (b := sideDist n P k X - sideDist n P k' Y) (c := eucl X Y)
        (by linarith) hs
      linarith

/-- the height of the roof under the hypotheses of `C62_points` -/
theorem roofHeight_points (rt : Rt) (a : PolyArgs ℝ) (P : Nat → V2 ℝ) (z : ℝ) (hh : a.holes.getD [] = [])
    (hu : a.units = none) (h3 : 3 ≤ a.num)
    (hv : ∀ k, k < a.num → ∃ A, a.verts[a.first + k]? = some A ∧ A.xy = P k ∧ A.z = z)
    (hleft : ∀ i j, i < a.num → j < a.num → j ≠ i → j ≠ (i + 1) % a.num →
      0 < area2 (P i) (P ((i + 1) % a.num)) (P j))
    (hlong : ∀ k, k < a.num → 1 / 10 ^ 35 < eucl (P k) (P ((k + 1) % a.num)) ^ 2)
    (hsep : Separated (sides a.first a.num P)) (hbl : Blunt (sides a.first a.num P))
    (hap : NodesApart (sides a.first a.num P)) (fuel : Nat) (hf : 4 * a.num + 1 ≤ fuel) :
    ∃ out slope fs, polygonize rt fuel a = some out ∧ out.result = .ok (a.faces.getD [] ++ fs) ∧
      (a.height = 0 → slope = a.tan) ∧ (0 < a.height → 0 < slope) ∧
      ∀ X h, OnRoof out.verts fs X h ↔ ∃ k, k < a.num ∧ 0 ≤ sideDist a.num P k X ∧
        (∀ j, j < a.num → sideDist a.num P k X ≤ sideDist a.num P j X) ∧
        h = z + slope * sideDist a.num P k X := by
  have hv' : ∀ k, k < a.num → ∃ A, a.verts[a.first + k]? = some A ∧ A.xy = P k := fun k hk => by
    obtain ⟨A, h1, h2, -⟩ := hv k hk
    exact ⟨A, h1, h2⟩
  obtain ⟨A, out, new, slope, fs, σ, hA, h1, h2, -, h4, h5, h6, h7, h8⟩ :=
    C62_points rt a P hh hu h3 hv' hleft hlong hsep hbl hap fuel hf
  have hVz : ∀ k, k < a.num → ∃ A, out.verts[a.first + k]? = some A ∧ A.xy = P k ∧ A.z = z := by
    intro k hk
    obtain ⟨B, hB, hBP⟩ := hv k hk
    exact ⟨B, by rw [h2, List.getElem?_append_left (List.getElem?_eq_some_iff.1 hB).1, hB], hBP⟩
  obtain ⟨B, hB, -, hBz⟩ := hv 0 (by omega)
  obtain rfl : A = B := by simpa [hA] using hB
  rw [hBz] at h8
  exact ⟨out, slope, fs, h1, h4, h5, h6, onRoof_iff h3 hVz hleft h7 h8⟩

/-- the same for triangles -/
theorem roofHeight_triangle (rt : Rt) (a : PolyArgs ℝ) (P : Nat → V2 ℝ) (z : ℝ) (hh : a.holes.getD [] = [])
    (hu : a.units = none) (h3 : a.num = 3)
    (hv : ∀ k, k < 3 → ∃ A, a.verts[a.first + k]? = some A ∧ A.xy = P k ∧ A.z = z)
    (hleft : 0 < area2 (P 0) (P 1) (P 2))
    (hlong : ∀ k, k < 3 → 1 / 10 ^ 35 < eucl (P k) (P ((k + 1) % 3)) ^ 2) (fuel : Nat) (hf : 13 ≤ fuel) :
    ∃ out slope fs, polygonize rt fuel a = some out ∧ out.result = .ok (a.faces.getD [] ++ fs) ∧
      (a.height = 0 → slope = a.tan) ∧ (0 < a.height → 0 < slope) ∧
      ∀ X h, OnRoof out.verts fs X h ↔ ∃ k, k < 3 ∧ 0 ≤ sideDist 3 P k X ∧
        (∀ j, j < 3 → sideDist 3 P k X ≤ sideDist 3 P j X) ∧ h = z + slope * sideDist 3 P k X := by
  have hv' : ∀ k, k < 3 → ∃ A, a.verts[a.first + k]? = some A ∧ A.xy = P k := fun k hk => by
    obtain ⟨A, h1, h2, -⟩ := hv k hk
    exact ⟨A, h1, h2⟩
  obtain ⟨A, out, N, slope, fs, σ, hA, h1, h2, h4, h5, h6, h7, h8⟩ :=
    C62_triangle rt a P hh hu h3 hv' hleft hlong fuel hf
  have hVz : ∀ k, k < a.num → ∃ A, out.verts[a.first + k]? = some A ∧ A.xy = P k ∧ A.z = z := by
    intro k hk
    obtain ⟨B, hB, hBP⟩ := hv k (by omega)
    exact ⟨B, by rw [h2, List.getElem?_append_left (List.getElem?_eq_some_iff.1 hB).1, hB], hBP⟩
  obtain ⟨B, hB, -, hBz⟩ := hv 0 (by omega)
  obtain rfl : A = B := by simpa [hA] using hB
  rw [hBz] at h8
  have key := onRoof_iff (a := a) (by omega) hVz (by rw [h3]; exact triangle_left hleft)
    (σ := σ) (slope := slope) (fs := fs) (by rw [h3]; exact h7) (by rw [h3]; exact h8)
  rw [h3] at key
  exact ⟨out, slope, fs, h1, h4, h5, h6, key⟩

theorem long_len {p q : V2 ℝ} (h : 1 / 10 ^ 35 < eucl p q ^ 2) : 0 < eucl p q := by
  rcases (Real.sqrt_nonneg ((p.x - q.x) ^ 2 + (p.y - q.y) ^ 2)).lt_or_eq with h' | h'
  · exact h'
  · rw [show eucl p q = 0 from h'.symm] at h
    norm_num at h

/-- how far the point is moved -/
theorem outwards_eucl {n k : Nat} {P : Nat → V2 ℝ} (hl : 0 < eucl (P k) (P ((k + 1) % n))) {t : ℝ} (h0 : 0 ≤ t)
    {X : V2 ℝ} : eucl X (outwards n P k t X) = t := by
  have q : eucl (P k) (P ((k + 1) % n)) ^ 2 = _ := Real.sq_sqrt (by positivity)
  set l := eucl (P k) (P ((k + 1) % n)) with hld
  have e : (X.x - (outwards n P k t X).x) ^ 2 + (X.y - (outwards n P k t X).y) ^ 2 = t ^ 2 := by
    simp only [outwards, ← hld]
    have : t ^ 2 = t ^ 2 * (l ^ 2 / l ^ 2) := by
      rw [div_self (by positivity)]; ring
    rw [this]
    nth_rewrite 1 [q]
    ring
  unfold eucl
  rw [e, Real.sqrt_sq h0]

/-- a point of a polygon within another one is not farther from the boundary of the first -/
theorem nearer_within {n n' : Nat} {P P' : Nat → V2 ℝ} (hn : 0 < n)
    (hlen : ∀ k, k < n → 0 < eucl (P k) (P ((k + 1) % n)))
    (hlen' : ∀ k, k < n' → 0 < eucl (P' k) (P' ((k + 1) % n')))
    (hin : ∀ X, (∀ k, k < n → 0 ≤ sideDist n P k X) → ∀ k, k < n' → 0 ≤ sideDist n' P' k X)
    {X : V2 ℝ} {k k' : Nat} (hk : k < n) (h0 : 0 ≤ sideDist n P k X)
    (hm : ∀ j, j < n → sideDist n P k X ≤ sideDist n P j X) (hk' : k' < n') :
    sideDist n P k X ≤ sideDist n' P' k' X := by
  -- straight towards the side `k'`, as far as the first polygon reaches
  have key := hin (outwards n' P' k' (sideDist n P k X) X) (fun j hj => by
    have hj0 := hlen j hj
    have ht : eucl X (outwards n' P' k' (sideDist n P k X) X) = sideDist n P k X := outwards_eucl (hlen' k' hk') h0
    have := sideDist_sub_le hj0 (outwards n' P' k' (sideDist n P k X) X) X
    rw [show eucl (outwards n' P' k' (sideDist n P k X) X) X =
      eucl X (outwards n' P' k' (sideDist n P k X) X) by unfold eucl; congr 1; ring, ht] at this
    linarith [hm j hj]) k' hk'
  rw [(sideDist_outwards (hlen' k' hk') (hlen' k' hk') h0).1] at key
  linarith

/-- the distance from the boundary, without mentioning the sides: a disc of this radius lies in the polygon -/
theorem disc_within {n : Nat} {P : Nat → V2 ℝ} (hlen : ∀ k, k < n → 0 < eucl (P k) (P ((k + 1) % n)))
    {X : V2 ℝ} {r : ℝ} (hr : 0 ≤ r) :
    (∀ Y, eucl X Y ≤ r → ∀ k, k < n → 0 ≤ sideDist n P k Y) ↔ ∀ k, k < n → r ≤ sideDist n P k X := by
  constructor
  · intro h k hk
    have := h (outwards n P k r X) (outwards_eucl (hlen k hk) hr).le k hk
    rw [(sideDist_outwards (hlen k hk) (hlen k hk) hr).1] at this
    linarith
  · intro h Y hY k hk
    have := sideDist_sub_le (hlen k hk) Y X
    rw [show eucl Y X = eucl X Y by unfold eucl; congr 1; ring] at this
    linarith [h k hk]

/-- the height of the roof at a point, without mentioning the sides -/
theorem nearest_iff_disc {n : Nat} {P : Nat → V2 ℝ} (hn : 0 < n)
    (hlen : ∀ k, k < n → 0 < eucl (P k) (P ((k + 1) % n))) (X : V2 ℝ) (d : ℝ) :
    (∃ k, k < n ∧ 0 ≤ sideDist n P k X ∧ (∀ j, j < n → sideDist n P k X ≤ sideDist n P j X) ∧
      d = sideDist n P k X) ↔
    0 ≤ d ∧ ∀ r, 0 ≤ r → ((∀ Y, eucl X Y ≤ r → ∀ k, k < n → 0 ≤ sideDist n P k Y) ↔ r ≤ d) := by
  constructor
  · rintro ⟨k, hk, h0, hm, rfl⟩
    refine ⟨h0, fun r hr => ?_⟩
    rw [disc_within hlen hr]
    exact ⟨fun h => h k hk, fun h j hj => h.trans (hm j hj)⟩
  · rintro ⟨h0, h⟩
    obtain ⟨k, hk, hm⟩ := nearest_side hn P X
    have h1 := (disc_within hlen h0).1 ((h d h0).2 le_rfl)
    have h2 := (h _ (h0.trans (h1 k hk))).1 ((disc_within hlen (h0.trans (h1 k hk))).2 hm)
    exact ⟨k, hk, h0.trans (h1 k hk), hm, le_antisymm (h1 k hk) h2⟩

/-- a map that multiplies distances takes one roof to the other -/
theorem roof_similar {n n' : Nat} {P P' : Nat → V2 ℝ} (hn : 0 < n) (hn' : 0 < n')
    (hlen : ∀ k, k < n → 0 < eucl (P k) (P ((k + 1) % n)))
    (hlen' : ∀ k, k < n' → 0 < eucl (P' k) (P' ((k + 1) % n')))
    {T : V2 ℝ → V2 ℝ} {l : ℝ} (hl : 0 < l) (hT : ∀ X Y, eucl (T X) (T Y) = l * eucl X Y)
    (hsur : Function.Surjective T)
    (hin : ∀ X, (∀ k, k < n' → 0 ≤ area2 (P' k) (P' ((k + 1) % n')) (T X)) ↔
      ∀ k, k < n → 0 ≤ area2 (P k) (P ((k + 1) % n)) X) {z z' slope : ℝ} (X : V2 ℝ) (h : ℝ) :
    (∃ k, k < n' ∧ 0 ≤ sideDist n' P' k (T X) ∧ (∀ j, j < n' → sideDist n' P' k (T X) ≤ sideDist n' P' j (T X)) ∧
      z' + l * h = z' + slope * sideDist n' P' k (T X)) ↔
    ∃ k, k < n ∧ 0 ≤ sideDist n P k X ∧ (∀ j, j < n → sideDist n P k X ≤ sideDist n P j X) ∧
      z + h = z + slope * sideDist n P k X := by
  have hsgn : ∀ {n : Nat} {P : Nat → V2 ℝ} (hl : ∀ k, k < n → 0 < eucl (P k) (P ((k + 1) % n))) (X : V2 ℝ),
      (∀ k, k < n → 0 ≤ sideDist n P k X) ↔ ∀ k, k < n → 0 ≤ area2 (P k) (P ((k + 1) % n)) X := by
    intro n P hl X
    refine forall₂_congr fun k hk => ?_
    rw [sideDist, le_div_iff₀ (hl k hk), zero_mul]
  -- the distance from the boundary is multiplied by `l`
  have hdist : ∀ d, (∃ k, k < n' ∧ 0 ≤ sideDist n' P' k (T X) ∧
      (∀ j, j < n' → sideDist n' P' k (T X) ≤ sideDist n' P' j (T X)) ∧
      l * d = sideDist n' P' k (T X)) ↔ ∃ k, k < n ∧ 0 ≤ sideDist n P k X ∧
      (∀ j, j < n → sideDist n P k X ≤ sideDist n P j X) ∧ d = sideDist n P k X := by
    intro d
    rw [nearest_iff_disc hn' hlen', nearest_iff_disc hn hlen]
    have hd0 : 0 ≤ l * d ↔ 0 ≤ d := mul_nonneg_iff_of_pos_left hl
    have hdisc : ∀ r, (∀ Y, eucl (T X) Y ≤ l * r → ∀ k, k < n' → 0 ≤ sideDist n' P' k Y) ↔
        ∀ Y, eucl X Y ≤ r → ∀ k, k < n → 0 ≤ sideDist n P k Y := by
      intro r
      constructor
      · intro h Y hY
        rw [hsgn hlen, ← hin, ← hsgn hlen']
        exact h (T Y) (by rw [hT]; exact mul_le_mul_of_nonneg_left hY hl.le)
      · intro h Y hY
        obtain ⟨Z, rfl⟩ := hsur Y
        rw [hsgn hlen', hin, ← hsgn hlen]
        rw [hT] at hY
        exact h Z (le_of_mul_le_mul_left hY hl)
    rw [hd0]
    refine and_congr_right fun _ => ⟨fun h r hr => ?_, fun h r hr => ?_⟩
    · rw [← hdisc, h (l * r) (by positivity)]
      exact mul_le_mul_iff_right₀ hl
    · have := h (r / l) (by positivity)
      rw [← hdisc, mul_div_cancel₀ r hl.ne'] at this
      rw [this, div_le_iff₀ hl, mul_comm]
  constructor
  · rintro ⟨k, hk, g0, g1, g2⟩
    obtain ⟨k', hk', e0, e1, e2⟩ := (hdist (sideDist n' P' k (T X) / l)).1
      ⟨k, hk, g0, g1, mul_div_cancel₀ _ hl.ne'⟩
    refine ⟨k', hk', e0, e1, ?_⟩
    rw [← e2]
    have : l * h = slope * sideDist n' P' k (T X) := by linarith
    have : h = slope * (sideDist n' P' k (T X) / l) := by
      rw [← mul_div_assoc, ← this, mul_div_cancel_left₀ _ hl.ne']
    rw [this]
  · rintro ⟨k, hk, g0, g1, g2⟩
    obtain ⟨k', hk', e0, e1, e2⟩ := (hdist (sideDist n P k X)).2 ⟨k, hk, g0, g1, rfl⟩
    refine ⟨k', hk', e0, e1, ?_⟩
    rw [← e2]
    have : h = slope * sideDist n P k X := by linarith
    rw [this]
    ring

end Polyskel
