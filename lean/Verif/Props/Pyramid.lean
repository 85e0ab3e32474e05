import Verif.Props.ConvexUnique
import Mathlib.Analysis.SpecialFunctions.Trigonometric.Bounds
/-
C68: the roof over a polygon with an inscribed circle is a pyramid.
-/
namespace Polyskel
open Scalar Geo

/-- C68: if all sides of a strictly convex polygon have the same distance `r` from the point `I` (the polygon
has an inscribed circle: triangles, squares, rhombi, kites, all regular polygons), `polygonize` adds one
vertex over `I`, and returns one triangle for each side, from the side to this vertex.  No further
hypothesis on angles or distances is needed. -/
theorem C68_pyramid (rt : Rt) (a : PolyArgs ℝ) (P : Nat → V2 ℝ) (I : V2 ℝ) (r : ℝ)
    (hh : a.holes.getD [] = []) (hu : a.units = none) (h3 : 3 ≤ a.num)
    (hv : ∀ k, k < a.num → ∃ A, a.verts[a.first + k]? = some A ∧ A.xy = P k)
    (hleft : ∀ i j, i < a.num → j < a.num → j ≠ i → j ≠ (i + 1) % a.num →
      0 < area2 (P i) (P ((i + 1) % a.num)) (P j))
    (hlong : ∀ k, k < a.num → 1 / 10 ^ 35 < eucl (P k) (P ((k + 1) % a.num)) ^ 2)
    (hin : ∀ k, k < a.num → sideDist a.num P k I = r) (fuel : Nat) (hf : 4 * a.num + 1 ≤ fuel) :
    ∃ A out N fs, a.verts[a.first]? = some A ∧ polygonize rt fuel a = some out ∧
      out.verts = a.verts ++ [N] ∧ N.xy = I ∧ (a.height = 0 → N.z = A.z + a.tan * r) ∧
      (a.height ≠ 0 → N.z = A.z + a.height) ∧ out.result = .ok (a.faces.getD [] ++ fs) ∧
      fs.Perm ((List.range a.num).map fun k =>
        [((a.first + k : Nat) : Int), ((a.first + (k + 1) % a.num : Nat) : Int), (a.verts.length : Int)]) := by
  have hc0 := sides_convex (first := a.first) h3 hleft
  obtain ⟨A, ctr, hA, hb⟩ := contours_of_points a hh hu (by omega) hv hlong
  set c := (sides a.first a.num P).map (moveEdge ⟨-ctr.x, -ctr.y⟩) with hcdef
  have hl : c.length = a.num := by rw [hcdef, List.length_map, sides_length]
  have hc : ConvexPolygon c := hc0.move _
  have hI : Inscribed c ⟨I.x - ctr.x, I.y - ctr.y⟩ r := by
    intro e he
    obtain ⟨e0, he0, rfl⟩ := List.mem_map.1 he
    obtain ⟨k, hk⟩ := List.mem_iff_getElem?.1 he0
    have hkn : k < a.num := by simpa [sides] using (List.getElem?_eq_some_iff.1 hk).1
    rw [← hin k hkn, ← sides_height hk I]
    simp only [height, moveEdge]
    ring
  obtain ⟨out, sk, slope, fs, σ, hp, hvs, hlen, hnode, hnd, hta, -, hres, -, -, hσ, hF⟩ :=
    convex_core_nodes rt a A.z ctr c hb hc (by omega) (hI.separated hc) (.inr (hI.one hc))
      (fun _ _ _ hg hl' ha => one_finish hc (by omega) (hI.one hc) hg hl' ha) fuel (by rw [hl]; exact hf)
  -- one node
  have hone : sk.length = 1 := by
    by_contra hcon
    have l0 : 0 < sk.length := by omega
    have l1 : 1 < sk.length := by omega
    have he : sk[0].source = sk[1].source := by
      rw [(hI.node hc (hnode _ (List.getElem_mem l0)).node).1, (hI.node hc (hnode _ (List.getElem_mem l1)).node).1]
    have := List.nodup_iff_injective_getElem.1 hnd
      (a₁ := ⟨0, by simpa using l0⟩) (a₂ := ⟨1, by simpa using l1⟩) (by simpa using he)
    simp at this
  obtain ⟨s, rfl⟩ := List.length_eq_one_iff.1 hone
  obtain ⟨hs1, hs2⟩ := hI.node hc (hnode s (by simp)).node
  have hr : 0 < s.height := hc.node_pos (hnode s (by simp)).node
  rw [List.map_singleton] at hvs
  obtain ⟨v0, outer, holes, -, -, hce, -⟩ := buildContours_ok hb
  obtain ⟨-, -, -, -, hcz⟩ := centerOf_exact hce
  have hz : (node3D ctr A.z slope s).z = A.z + slope * s.height := by
    simp [node3D, V3.add, mkV3, hcz]; ring
  refine ⟨A, out, node3D ctr A.z slope s, fs, hA, hp, hvs, ?_, ?_, ?_, hres, ?_⟩
  · simp [node3D, V3.add, mkV3, V3.xy, hs1]
  · intro h0
    rcases tanAlpha_exact hta with ⟨_, h1⟩ | ⟨h1, _⟩
    · rw [hz, h1, hs2]
    · exact absurd h0 h1
  · intro h0
    rcases tanAlpha_exact hta with ⟨h1, _⟩ | ⟨_, s', hs', h1, h2, -⟩
    · exact absurd h1 h0
    · obtain rfl : s' = s := by simpa using hs'
      rw [hz, h2]
      field_simp
  · have hmap : fs = σ.map fun k =>
        [((a.first + k : Nat) : Int), ((a.first + (k + 1) % a.num : Nat) : Int), (a.verts.length : Int)] := by
      have hall : ∀ k f, (∃ e, c[k]? = some e ∧ RoofFace a (c.map (moveEdge ⟨ctr.x, ctr.y⟩))
          (moveEdge ⟨ctr.x, ctr.y⟩ e) A.z slope out.verts k f) →
          f = [((a.first + k : Nat) : Int), ((a.first + (k + 1) % a.num : Nat) : Int), (a.verts.length : Int)] := by
        rintro k f ⟨e, -, h⟩
        have hnew : ∀ (i : Nat) v, 2 ≤ i → f[i]? = some v → v = (a.verts.length : Int) := by
          intro i v hi hfi
          have h1 := (h.plane i v hi hfi).1
          have h2 := (h.index v (List.mem_of_getElem? hfi)).2
          rw [hvs, List.length_append, List.length_singleton] at h2
          omega
        match f, h with
        | [], h => exact absurd h.size (by simp)
        | [_], h => exact absurd h.size (by simp)
        | [_, _], h => exact absurd h.size (by simp)
        | [x, y, w], h =>
          have h0 := h.first
          have h1 := h.second
          have h2 := hnew 2 w (by omega) rfl
          simp only [List.getElem?_cons_zero, List.getElem?_cons_succ, Option.some.injEq] at h0 h1
          rw [h0, h1, h2]
        | x :: y :: w :: w' :: l, h =>
          exfalso
          have h2 := hnew 2 w (by omega) rfl
          have h3 := hnew 3 w' (by omega) rfl
          have := h.nodup
          simp [h2, h3] at this
      clear hσ hlen hres
      induction hF with
      | nil => rfl
      | cons h1 _ ih => rw [List.map_cons, hall _ _ h1, ← ih]
    rw [hmap, ← hl]
    exact hσ.map _

/-! ### Regular polygons -/

/-- vertex `k` of the regular polygon with `n` vertices on the circle around `O` with the radius `R`, the
first vertex in the direction `φ` -/
noncomputable def regularPoint (O : V2 ℝ) (R φ : ℝ) (n k : Nat) : V2 ℝ :=
  ⟨O.x + R * Real.cos (φ + 2 * Real.pi * k / n), O.y + R * Real.sin (φ + 2 * Real.pi * k / n)⟩

theorem regularPoint_mod (O : V2 ℝ) (R φ : ℝ) {n i : Nat} (hi : i < n) :
    regularPoint O R φ n ((i + 1) % n) = regularPoint O R φ n (i + 1) := by
  by_cases h : i + 1 = n
  · have hn : (n : ℝ) ≠ 0 := by
      have : 0 < n := by omega
      positivity
    rw [h, Nat.mod_self]
    unfold regularPoint
    have : φ + 2 * Real.pi * (n : ℝ) / n = φ + 2 * Real.pi * ((0 : Nat) : ℝ) / n + 2 * Real.pi := by
      field_simp
      push_cast
      ring
    rw [this, Real.cos_add_two_pi, Real.sin_add_two_pi]
  · rw [Nat.mod_eq_of_lt (by omega)]

/-- the triangle between three points of a circle -/
theorem circle_area (O : V2 ℝ) (R x y z : ℝ) :
    area2 ⟨O.x + R * Real.cos x, O.y + R * Real.sin x⟩ ⟨O.x + R * Real.cos y, O.y + R * Real.sin y⟩
      ⟨O.x + R * Real.cos z, O.y + R * Real.sin z⟩ =
    4 * R ^ 2 * (Real.sin ((y - x) / 2) * Real.sin ((z - y) / 2) * Real.sin ((z - x) / 2)) := by
  obtain ⟨u, hu⟩ : ∃ u, u = (y - x) / 2 := ⟨_, rfl⟩
  obtain ⟨v, hv⟩ : ∃ v, v = (z - y) / 2 := ⟨_, rfl⟩
  have e3 : (z - x) / 2 = u + v := by rw [hu, hv]; ring
  have h1 : area2 ⟨O.x + R * Real.cos x, O.y + R * Real.sin x⟩ ⟨O.x + R * Real.cos y, O.y + R * Real.sin y⟩
      ⟨O.x + R * Real.cos z, O.y + R * Real.sin z⟩ =
      R ^ 2 * (Real.sin (y - x) + Real.sin (z - y) - Real.sin (z - x)) := by
    rw [Real.sin_sub, Real.sin_sub, Real.sin_sub]
    unfold area2
    ring
  rw [h1, e3, ← hu, ← hv, show y - x = 2 * u by rw [hu]; ring, show z - y = 2 * v by rw [hv]; ring,
    show z - x = 2 * u + 2 * v by rw [hu, hv]; ring, Real.sin_add (2 * u), Real.sin_add u]
  have c1 : Real.cos (2 * u) = 1 - 2 * Real.sin u ^ 2 := by rw [Real.cos_two_mul, Real.cos_sq']; ring
  have c2 : Real.cos (2 * v) = 1 - 2 * Real.sin v ^ 2 := by rw [Real.cos_two_mul, Real.cos_sq']; ring
  rw [c1, c2, Real.sin_two_mul, Real.sin_two_mul]
  ring

/-- the chord between two points of a circle -/
theorem circle_chord (O : V2 ℝ) (R x y : ℝ) :
    eucl ⟨O.x + R * Real.cos x, O.y + R * Real.sin x⟩ ⟨O.x + R * Real.cos y, O.y + R * Real.sin y⟩ ^ 2 =
      (2 * R * Real.sin ((y - x) / 2)) ^ 2 := by
  unfold eucl
  rw [Real.sq_sqrt (by positivity)]
  have c1 : Real.cos (y - x) = 1 - 2 * Real.sin ((y - x) / 2) ^ 2 := by
    conv_lhs => rw [show y - x = 2 * ((y - x) / 2) by ring]
    rw [Real.cos_two_mul, Real.cos_sq']; ring
  rw [Real.cos_sub] at c1
  have h1 := Real.sin_sq_add_cos_sq x
  have h2 := Real.sin_sq_add_cos_sq y
  simp only
  linear_combination R ^ 2 * h1 + R ^ 2 * h2 - 2 * R ^ 2 * c1

/-- C68 for regular polygons, of any number of vertices: a pyramid over the centre of the polygon. -/
theorem C68_regular (rt : Rt) (a : PolyArgs ℝ) (O : V2 ℝ) (R φ : ℝ) (hR : 0 < R)
    (hh : a.holes.getD [] = []) (hu : a.units = none) (h3 : 3 ≤ a.num)
    (hv : ∀ k, k < a.num → ∃ A, a.verts[a.first + k]? = some A ∧ A.xy = regularPoint O R φ a.num k)
    (hlong : 1 / 10 ^ 35 < (2 * R * Real.sin (Real.pi / a.num)) ^ 2) (fuel : Nat)
    (hf : 4 * a.num + 1 ≤ fuel) :
    ∃ A out N fs, a.verts[a.first]? = some A ∧ polygonize rt fuel a = some out ∧
      out.verts = a.verts ++ [N] ∧ N.xy = O ∧
      (a.height = 0 → N.z = A.z + a.tan * (R * Real.cos (Real.pi / a.num))) ∧
      (a.height ≠ 0 → N.z = A.z + a.height) ∧ out.result = .ok (a.faces.getD [] ++ fs) ∧
      fs.Perm ((List.range a.num).map fun k =>
        [((a.first + k : Nat) : Int), ((a.first + (k + 1) % a.num : Nat) : Int), (a.verts.length : Int)]) := by
  obtain ⟨n, hn⟩ : ∃ n, n = a.num := ⟨_, rfl⟩
  have hn3 : (3 : ℝ) ≤ n := by rw [hn]; exact_mod_cast h3
  have hn0 : (0 : ℝ) < n := by linarith
  have hpi := Real.pi_pos
  have hsin : 0 < Real.sin (Real.pi / n) :=
    Real.sin_pos_of_pos_of_lt_pi (by positivity) (by rw [div_lt_iff₀ hn0]; nlinarith)
  have hhalf : ∀ i j : Nat, (φ + 2 * Real.pi * j / n - (φ + 2 * Real.pi * i / n)) / 2 = Real.pi * ((j : ℝ) - i) / n := by
    intro i j; field_simp; ring
  have hstep : ∀ i : Nat, (φ + 2 * Real.pi * ((i + 1 : Nat) : ℝ) / n - (φ + 2 * Real.pi * i / n)) / 2 = Real.pi / n := by
    intro i; rw [hhalf]; push_cast; congr 1; ring
  rw [← hn] at h3 hv hlong hf ⊢
  have := C68_pyramid rt a (regularPoint O R φ n) O (R * Real.cos (Real.pi / n)) hh hu (hn ▸ h3)
    (hn ▸ hv) ?_ ?_ ?_ fuel (hn ▸ hf)
  · rw [← hn] at this; exact this
  · rw [← hn]
    intro i j hi hj h1 h2
    rw [regularPoint_mod O R φ hi]
    unfold regularPoint
    rw [circle_area, hstep, hhalf, hhalf]
    have hR2 : 0 < 4 * R ^ 2 := by positivity
    refine mul_pos hR2 ?_
    rw [mul_assoc]
    refine mul_pos hsin ?_
    have hin : (i : ℝ) < n := by exact_mod_cast hi
    have hjn : (j : ℝ) < n := by exact_mod_cast hj
    have hi0 : (0 : ℝ) ≤ i := Nat.cast_nonneg i
    have hj0 : (0 : ℝ) ≤ j := Nat.cast_nonneg j
    rcases Nat.lt_or_ge i j with hij | hij
    · have hij2 : i + 1 < j := by
        rcases Nat.lt_or_ge (i + 1) j with h | h
        · exact h
        · exact absurd (by rw [Nat.mod_eq_of_lt (by omega)]; omega) h2
      have hc : (i : ℝ) + 1 < j := by exact_mod_cast hij2
      refine mul_pos (Real.sin_pos_of_pos_of_lt_pi ?_ ?_) (Real.sin_pos_of_pos_of_lt_pi ?_ ?_)
      · push_cast; apply div_pos _ hn0; apply mul_pos hpi; linarith
      · push_cast; rw [div_lt_iff₀ hn0]; apply mul_lt_mul_of_pos_left _ hpi; linarith
      · apply div_pos _ hn0; apply mul_pos hpi; linarith
      · rw [div_lt_iff₀ hn0]; apply mul_lt_mul_of_pos_left _ hpi; linarith
    · have hij2 : (j : ℝ) + 1 ≤ i := by exact_mod_cast (show j + 1 ≤ i by omega)
      have hfar : (i : ℝ) + 1 - j < n := by
        have : i + 1 < n + j := by
          by_contra hcon
          apply h2
          rw [show i + 1 = n by omega, Nat.mod_self]
          omega
        have : (i : ℝ) + 1 < n + j := by exact_mod_cast this
        linarith
      rw [← neg_mul_neg, ← Real.sin_neg, ← Real.sin_neg]
      refine mul_pos (Real.sin_pos_of_pos_of_lt_pi ?_ ?_) (Real.sin_pos_of_pos_of_lt_pi ?_ ?_)
      · push_cast; rw [← neg_div, ← mul_neg]; apply div_pos _ hn0; apply mul_pos hpi; linarith
      · push_cast; rw [← neg_div, ← mul_neg, div_lt_iff₀ hn0]; apply mul_lt_mul_of_pos_left _ hpi; linarith
      · rw [← neg_div, ← mul_neg]; apply div_pos _ hn0; apply mul_pos hpi; linarith
      · rw [← neg_div, ← mul_neg, div_lt_iff₀ hn0]; apply mul_lt_mul_of_pos_left _ hpi; linarith
  · rw [← hn]
    intro k hk
    rw [regularPoint_mod O R φ hk]
    unfold regularPoint
    rw [circle_chord, hstep]
    exact hlong
  · rw [← hn]
    intro k hk
    unfold sideDist
    rw [regularPoint_mod O R φ hk]
    have hch : eucl (regularPoint O R φ n k) (regularPoint O R φ n (k + 1)) = 2 * R * Real.sin (Real.pi / n) := by
      have h1 : eucl (regularPoint O R φ n k) (regularPoint O R φ n (k + 1)) ^ 2 =
          (2 * R * Real.sin (Real.pi / n)) ^ 2 := by
        unfold regularPoint
        rw [circle_chord, hstep]
      exact (sq_eq_sq₀ (Real.sqrt_nonneg _) (by positivity)).1 h1
    rw [hch, div_eq_iff (by positivity)]
    have hs2 : Real.sin (2 * (Real.pi / n)) = 2 * Real.sin (Real.pi / n) * Real.cos (Real.pi / n) := Real.sin_two_mul _
    have h2 : area2 (regularPoint O R φ n k) (regularPoint O R φ n (k + 1)) O =
        R ^ 2 * Real.sin (2 * (Real.pi / n)) := by
      rw [show 2 * (Real.pi / n) = (φ + 2 * Real.pi * ((k + 1 : Nat) : ℝ) / n) - (φ + 2 * Real.pi * k / n) by
        have := hstep k; linarith, Real.sin_sub]
      unfold regularPoint area2
      ring
    rw [h2, hs2]
    ring

/-- a polygon with 100 vertices, at the height 3, with a roof of the height 2; the angles of its corners
are 176.4° -/
noncomputable def hundredArgs : PolyArgs ℝ :=
  { verts := (List.range 100).map fun k => ⟨(regularPoint ⟨0, 0⟩ 5 0 100 k).x, (regularPoint ⟨0, 0⟩ 5 0 100 k).y, 3⟩,
    first := 0, num := 100, holes := none, height := 2, tan := 0, faces := none, units := none }

/-- it gets a pyramid -/
example (rt : Rt) : ∃ out fs, polygonize rt 401 hundredArgs = some out ∧
    out.verts = hundredArgs.verts ++ [⟨0, 0, 5⟩] ∧ out.result = .ok fs ∧
    fs.Perm ((List.range 100).map fun (k : Nat) => [(k : Int), (((k + 1) % 100 : Nat) : Int), 100]) := by
  obtain ⟨A, out, N, fs, h1, h2, h3, h4, -, h6, h7, h8⟩ := C68_regular rt hundredArgs ⟨0, 0⟩ 5 0 (by norm_num)
    rfl rfl (by simp [hundredArgs])
    (fun k hk => ⟨⟨(regularPoint ⟨0, 0⟩ 5 0 100 k).x, (regularPoint ⟨0, 0⟩ 5 0 100 k).y, 3⟩, by
      have hk' : k < 100 := hk
      simp [hundredArgs, hk'], rfl⟩)
    (by
      have h := Real.mul_le_sin (x := Real.pi / 100) (by positivity) (by linarith [Real.pi_pos])
      have e : 2 / Real.pi * (Real.pi / 100) = 1 / 50 := by
        have := Real.pi_pos.ne'
        field_simp
        norm_num
      rw [e] at h
      have : (1 / 5 : ℝ) ≤ 2 * 5 * Real.sin (Real.pi / (hundredArgs.num : ℝ)) := by
        have : (hundredArgs.num : ℝ) = 100 := by simp [hundredArgs]
        rw [this]; linarith
      nlinarith) 401 (by simp [hundredArgs])
  have hN : N = ⟨0, 0, 5⟩ := by
    have hA : A.z = 3 := by
      simp [hundredArgs] at h1
      rw [← h1]
    have := h6 (by norm_num [hundredArgs])
    cases N
    simp only [V3.xy, V2.mk.injEq] at h4
    simp only [hA, hundredArgs] at this
    rw [h4.1, h4.2, this]
    norm_num
  refine ⟨out, fs, h2, by rw [h3, hN], by simpa [hundredArgs] using h7, ?_⟩
  simpa [hundredArgs] using h8

/-! ### A rhombus with corners of 11.5°, which is not blunt -/

def rhombPoint : Nat → V2 ℝ
  | 0 => ⟨399, 0⟩
  | 1 => ⟨0, 40⟩
  | 2 => ⟨-399, 0⟩
  | _ => ⟨0, -40⟩

noncomputable def rhombArgs : PolyArgs ℝ :=
  { verts := [⟨399, 0, 0⟩, ⟨0, 40, 0⟩, ⟨-399, 0, 0⟩, ⟨0, -40, 0⟩], first := 0, num := 4, holes := some [],
    height := 0, tan := 401 / 399, faces := some [[7, 8, 9]], units := none }

example (rt : Rt) : ∃ out fs, polygonize rt 17 rhombArgs = some out ∧
    out.verts = rhombArgs.verts ++ [⟨0, 0, 40⟩] ∧ out.result = .ok ([7, 8, 9] :: fs) ∧
    fs.Perm [[0, 1, 4], [1, 2, 4], [2, 3, 4], [3, 0, 4]] := by
  have hside : ∀ k, k < 4 → eucl (rhombPoint k) (rhombPoint ((k + 1) % 4)) = 401 := by
    intro k hk
    have : k = 0 ∨ k = 1 ∨ k = 2 ∨ k = 3 := by omega
    unfold eucl
    rcases this with rfl | rfl | rfl | rfl <;>
      (rw [Real.sqrt_eq_iff_mul_self_eq (by positivity) (by norm_num)]; norm_num [rhombPoint])
  obtain ⟨A, out, N, fs, h1, h2, h3, h4, h5, -, h7, h8⟩ := C68_pyramid rt rhombArgs rhombPoint ⟨0, 0⟩
    (15960 / 401) rfl rfl (by simp [rhombArgs])
    (by
      intro k hk
      have hk' : k < 4 := hk
      have : k = 0 ∨ k = 1 ∨ k = 2 ∨ k = 3 := by omega
      rcases this with rfl | rfl | rfl | rfl <;> simp [rhombArgs, rhombPoint, V3.xy])
    (by
      show ∀ i j, i < 4 → j < 4 → j ≠ i → j ≠ (i + 1) % 4 → _
      intro i j hi hj h1 h2
      have hi' : i = 0 ∨ i = 1 ∨ i = 2 ∨ i = 3 := by omega
      have hj' : j = 0 ∨ j = 1 ∨ j = 2 ∨ j = 3 := by omega
      rcases hi' with rfl | rfl | rfl | rfl <;> rcases hj' with rfl | rfl | rfl | rfl <;>
        simp at h1 h2 <;> norm_num [rhombPoint, area2, rhombArgs])
    (by
      intro k hk
      show _ < eucl (rhombPoint k) (rhombPoint ((k + 1) % 4)) ^ 2
      rw [hside k hk]; norm_num)
    (by
      show ∀ k, k < 4 → sideDist 4 rhombPoint k ⟨0, 0⟩ = _
      intro k hk
      unfold sideDist
      rw [hside k hk]
      have : k = 0 ∨ k = 1 ∨ k = 2 ∨ k = 3 := by omega
      rcases this with rfl | rfl | rfl | rfl <;> norm_num [rhombPoint, area2]) 17 (by simp [rhombArgs])
  have hN : N = ⟨0, 0, 40⟩ := by
    have hA : A.z = 0 := by
      simp [rhombArgs] at h1
      rw [← h1]
    have := h5 rfl
    cases N
    simp only [V3.xy, V2.mk.injEq] at h4
    simp only [hA, rhombArgs] at this
    rw [h4.1, h4.2, this]
    norm_num
  refine ⟨out, fs, h2, by rw [h3, hN], h7, ?_⟩
  have r4 : List.range 4 = [0, 1, 2, 3] := rfl
  simpa [rhombArgs, r4] using h8

end Polyskel
