import Verif.Proofs.Inscribed
import Verif.Props.RoofSurface
/-
C83: the top of the roof over a convex polygon is over the centre of a largest disc in the polygon.
-/
namespace Polyskel
open Scalar Geo Real

/-- C83: under the hypotheses of `C62_points`, for a horizontal polygon, there is a largest disc in the polygon.
The roof over its centre is at the pitch times its radius above the polygon; nowhere is the roof higher.  If a
height is given, it is the height of this point, so the pitch is the height divided by the radius. -/
theorem C83_points (rt : Rt) (a : PolyArgs ℝ) (P : Nat → V2 ℝ) (z : ℝ) (hh : a.holes.getD [] = [])
    (hu : a.units = none) (h3 : 3 ≤ a.num)
    (hv : ∀ k, k < a.num → ∃ A, a.verts[a.first + k]? = some A ∧ A.xy = P k ∧ A.z = z)
    (hleft : ∀ i j, i < a.num → j < a.num → j ≠ i → j ≠ (i + 1) % a.num →
      0 < area2 (P i) (P ((i + 1) % a.num)) (P j))
    (hlong : ∀ k, k < a.num → 1 / 10 ^ 35 < eucl (P k) (P ((k + 1) % a.num)) ^ 2)
    (hsep : Separated (sides a.first a.num P)) (hbl : Blunt (sides a.first a.num P))
    (hap : NodesApart (sides a.first a.num P)) (fuel : Nat) (hf : 4 * a.num + 1 ≤ fuel) :
    ∃ out fs slope X r, polygonize rt fuel a = some out ∧ out.result = .ok (a.faces.getD [] ++ fs) ∧
      DiscWithin a.num P X r ∧ 0 < r ∧ (∀ Y s, DiscWithin a.num P Y s → s ≤ r) ∧
      (a.height = 0 → slope = a.tan) ∧ (a.height ≠ 0 → slope * r = a.height) ∧
      OnRoof out.verts fs X (z + slope * r) ∧
      ∀ Y h, OnRoof out.verts fs Y h → ∃ s, 0 ≤ s ∧ s ≤ r ∧ h = z + slope * s := by
  have hv' : ∀ k, k < a.num → ∃ A, a.verts[a.first + k]? = some A ∧ A.xy = P k := fun k hk => by
    obtain ⟨A, h1, h2, -⟩ := hv k hk
    exact ⟨A, h1, h2⟩
  have hlen := fun k hk => long_len (hlong k hk)
  have hc := sides_convex (first := a.first) h3 hleft
  obtain ⟨A, out, new, slope, fs, σ, hA, h1, h2, -, h4, h5, -, h7, h8⟩ :=
    C62_points rt a P hh hu h3 hv' hleft hlong hsep hbl hap fuel hf
  have hVz : ∀ k, k < a.num → ∃ A, out.verts[a.first + k]? = some A ∧ A.xy = P k ∧ A.z = z := by
    intro k hk
    obtain ⟨B, hB, hBP⟩ := hv k hk
    exact ⟨B, by rw [h2, List.getElem?_append_left (List.getElem?_eq_some_iff.1 hB).1, hB], hBP⟩
  have hV : ∀ k, k < a.num → ∃ A, out.verts[a.first + k]? = some A ∧ A.xy = P k := fun k hk => by
    obtain ⟨A, h1, h2, -⟩ := hVz k hk
    exact ⟨A, h1, h2⟩
  obtain ⟨B, hB, -, hBz⟩ := hv 0 (by omega)
  obtain rfl : A = B := by simpa [hA] using hB
  rw [hBz] at h8
  have key := onRoof_iff (a := a) h3 hVz hleft (σ := σ) (slope := slope) (fs := fs) h7 h8
  -- the nodes, in this call
  obtain ⟨A', out', new', t, hA', n1, n2, -, n3, n4, -, n6⟩ :=
    C67_nodes rt a P hh hu h3 hv' hleft hlong hsep hbl hap fuel hf
  rw [hA] at hA'
  cases hA'
  rw [h1] at n1
  cases n1
  obtain rfl : new = new' := by rw [h2] at n2; exact List.append_cancel_left n2
  -- a highest node
  obtain ⟨_, _, _, _, _, _, _, _, _, _, _, hmax⟩ := C67_nodes rt { a with height := 1 } P hh hu h3 hv' hleft hlong
    hsep hbl hap fuel hf
  obtain ⟨M, -, r, hM, -, hr⟩ := hmax one_ne_zero
  have hr0 := hc.node_pos hM
  obtain ⟨⟨k0, hk0, e0⟩, l0⟩ := node_sideDist hM
  have hnew : ∀ (p : Int) N, (a.verts.length : Int) ≤ p → out.verts[p.toNat]? = some N → N ∈ new := by
    intro p N hp hN
    rw [h2, List.getElem?_append_right (by omega)] at hN
    exact List.mem_of_getElem? hN
  -- no point is farther from the sides
  have hfar : ∀ Y k, k < a.num → 0 ≤ sideDist a.num P k Y →
      (∀ j, j < a.num → sideDist a.num P k Y ≤ sideDist a.num P j Y) → sideDist a.num P k Y ≤ r := by
    intro Y k hk g0 g1
    obtain ⟨f, -, p, -, hp, N, hN, d1, d2, d3, -⟩ := top_vertex h3 hV hleft h7 h8 hk g0 g1
    obtain ⟨h, hNn⟩ := (n3 N.xy).1 (List.mem_map.2 ⟨N, hnew p N hp hN, rfl⟩)
    obtain ⟨⟨k1, hk1, e1⟩, -⟩ := node_sideDist hNn
    have := hr _ _ hNn
    have := d3 k1 hk1
    linarith
  refine ⟨out, fs, slope, M.xy, r, h1, h4, (discWithin_iff hlen).2 ⟨hr0.le, l0⟩, hr0, ?_, h5, ?_, ?_, ?_⟩
  · intro Y s hY
    obtain ⟨s0, hs⟩ := (discWithin_iff hlen).1 hY
    obtain ⟨k, hk, hm⟩ := nearest_side (show 0 < a.num by omega) P Y
    exact (hs k hk).trans (hfar Y k hk (s0.trans (hs k hk)) hm)
  · intro hne
    obtain ⟨T, hT, h, hTn, ht, hTmax⟩ := n6 hne
    obtain rfl : r = h := le_antisymm (hTmax _ _ hM) (hr _ _ hTn)
    obtain ⟨⟨k, hk, e1⟩, l1⟩ := node_sideDist hTn
    obtain ⟨f, hf, p, hpf, hp, N, hN, hNT⟩ := node_in_face h3 hV hleft h7 h8 hTn
    have hz := n4 N (hnew p N hp hN) r (by rw [hNT]; exact hTn)
    rw [ht, hBz] at hz
    -- the height of this vertex, in its face
    obtain ⟨i, hi, rfl⟩ := List.getElem_of_mem hf
    have hl := h8.length_eq
    obtain ⟨e, he, hrf⟩ := (List.forall₂_iff_get.1 h8).2 i (by omega) hi
    simp only [List.get_eq_getElem] at he hrf
    obtain ⟨j, hj⟩ := List.mem_iff_getElem?.1 hpf
    have hin : ∀ q : Nat, q < a.num → ((a.first + q : Nat) : Int) < a.verts.length := by
      intro q hq
      obtain ⟨C, hC, -⟩ := hv q hq
      exact_mod_cast (List.getElem?_eq_some_iff.1 hC).1
    have hσi : σ[i] < a.num := List.mem_range.1 ((h7.mem_iff).1 (List.getElem_mem _))
    have hj2 : 2 ≤ j := by
      by_contra hcon
      have : j = 0 ∨ j = 1 := by omega
      rcases this with rfl | rfl
      · rw [hrf.first] at hj
        have := hin _ hσi
        have := Option.some.inj hj
        omega
      · rw [hrf.second] at hj
        have := hin _ (Nat.mod_lt (σ[i] + 1) (show a.num > 0 by omega))
        have := Option.some.inj hj
        omega
    have hpl := ((hrf.plane j p hj2 hj).2 N hN).2
    rw [sides_height he, hNT] at hpl
    have hnear := hrf.nearest p hpf N hN
    obtain ⟨g, hg, -⟩ := sides_get (first := a.first) (P := P) hk
    have hle := hnear g (List.mem_of_getElem? hg)
    rw [sides_height he, sides_height hg, hNT, e1] at hle
    have : sideDist a.num P σ[i] T.xy = r := le_antisymm hle (l1 _ hσi)
    rw [this] at hpl
    linarith
  · rw [key]
    exact ⟨k0, hk0, by rw [e0]; exact hr0.le, fun j hj => by rw [e0]; exact l0 j hj, by rw [e0]⟩
  · intro Y h hY
    obtain ⟨k, hk, g0, g1, g2⟩ := (key Y h).1 hY
    exact ⟨_, g0, hfar Y k hk g0 g1, g2⟩

/-- C83 for triangles: without hypotheses about the skeleton -/
theorem C83_triangle (rt : Rt) (a : PolyArgs ℝ) (P : Nat → V2 ℝ) (z : ℝ) (hh : a.holes.getD [] = [])
    (hu : a.units = none) (h3 : a.num = 3)
    (hv : ∀ k, k < 3 → ∃ A, a.verts[a.first + k]? = some A ∧ A.xy = P k ∧ A.z = z)
    (hleft : 0 < area2 (P 0) (P 1) (P 2))
    (hlong : ∀ k, k < 3 → 1 / 10 ^ 35 < eucl (P k) (P ((k + 1) % 3)) ^ 2) (fuel : Nat) (hf : 13 ≤ fuel) :
    ∃ out fs slope X r, polygonize rt fuel a = some out ∧ out.result = .ok (a.faces.getD [] ++ fs) ∧
      DiscWithin 3 P X r ∧ 0 < r ∧ (∀ Y s, DiscWithin 3 P Y s → s ≤ r) ∧
      (a.height = 0 → slope = a.tan) ∧ (a.height ≠ 0 → slope * r = a.height) ∧
      OnRoof out.verts fs X (z + slope * r) ∧
      ∀ Y h, OnRoof out.verts fs Y h → ∃ s, 0 ≤ s ∧ s ≤ r ∧ h = z + slope * s := by
  have hv' : ∀ k, k < 3 → ∃ A, a.verts[a.first + k]? = some A ∧ A.xy = P k := fun k hk => by
    obtain ⟨A, h1, h2, -⟩ := hv k hk
    exact ⟨A, h1, h2⟩
  have hlen := fun k hk => long_len (hlong k hk)
  have hleft' := triangle_left hleft
  obtain ⟨A, out, N, slope, fs, σ, hA, h1, h2, h4, h5, -, h7, h8⟩ :=
    C62_triangle rt a P hh hu h3 hv' hleft hlong fuel hf
  have hVz : ∀ k, k < 3 → ∃ A, out.verts[a.first + k]? = some A ∧ A.xy = P k ∧ A.z = z := by
    intro k hk
    obtain ⟨B, hB, hBP⟩ := hv k hk
    exact ⟨B, by rw [h2, List.getElem?_append_left (List.getElem?_eq_some_iff.1 hB).1, hB], hBP⟩
  have hV : ∀ k, k < 3 → ∃ A, out.verts[a.first + k]? = some A ∧ A.xy = P k := fun k hk => by
    obtain ⟨A, h1, h2, -⟩ := hVz k hk
    exact ⟨A, h1, h2⟩
  obtain ⟨B, hB, -, hBz⟩ := hv 0 (by omega)
  obtain rfl : A = B := by simpa [hA] using hB
  rw [hBz] at h8
  have key := onRoof_iff (a := a) (by omega) (by rw [h3]; exact hVz) (by rw [h3]; exact hleft')
    (σ := σ) (slope := slope) (fs := fs) (by rw [h3]; exact h7) (by rw [h3]; exact h8)
  have top := fun (Y : V2 ℝ) (k : Nat) => top_vertex (a := a) (by omega) (by rw [h3]; exact hV)
    (by rw [h3]; exact hleft') (σ := σ) (slope := slope) (fs := fs) (z := z) (Y := Y) (k := k)
    (by rw [h3]; exact h7) (by rw [h3]; exact h8)
  rw [h3] at key top
  have hN : ∀ (p : Int) M, (a.verts.length : Int) ≤ p → out.verts[p.toNat]? = some M → M = N := by
    intro p M hp hM
    rw [h2, List.getElem?_append_right (by omega)] at hM
    simpa using List.mem_of_getElem? hM
  obtain ⟨k0, hk0, m0⟩ := nearest_side (show 0 < 3 by omega) P N.xy
  -- the only new vertex is farthest from the sides
  have hfar : ∀ Y k, k < 3 → 0 ≤ sideDist 3 P k Y → (∀ j, j < 3 → sideDist 3 P k Y ≤ sideDist 3 P j Y) →
      sideDist 3 P k Y ≤ sideDist 3 P k0 N.xy ∧ 0 < sideDist 3 P k0 N.xy ∧
      N.z = z + slope * sideDist 3 P k0 N.xy := by
    intro Y k hk g0 g1
    obtain ⟨f, -, p, -, hp, M, hM, d1, d2, d3, d4⟩ := top Y k hk g0 g1
    obtain rfl := hN p M hp hM
    have := le_antisymm (d3 k0 hk0) (m0 k hk)
    rw [this] at d1 d2 d4
    exact ⟨d1, d2, d4⟩
  have hzero : ∀ j, j < 3 → sideDist 3 P 0 (P 0) ≤ sideDist 3 P j (P 0) := by
    intro j hj
    have e0 : sideDist 3 P 0 (P 0) = 0 := by unfold sideDist area2; ring
    rw [e0]
    apply div_nonneg _ (hlen j hj).le
    have : j = 0 ∨ j = 1 ∨ j = 2 := by omega
    rcases this with rfl | rfl | rfl
    · unfold area2; exact le_of_eq (by ring)
    · exact (hleft' 1 0 (by omega) (by omega) (by omega) (by decide)).le
    · unfold area2; exact le_of_eq (by ring)
  obtain ⟨-, hr0, hz⟩ := hfar (P 0) 0 (by omega) (le_of_eq (by unfold sideDist area2; ring)) hzero
  refine ⟨out, fs, slope, N.xy, _, h1, h4, (discWithin_iff hlen).2 ⟨hr0.le, m0⟩, hr0, ?_, h5, ?_, ?_, ?_⟩
  · intro Y s hY
    obtain ⟨s0, hs⟩ := (discWithin_iff hlen).1 hY
    obtain ⟨k, hk, hm⟩ := nearest_side (show 0 < 3 by omega) P Y
    exact (hs k hk).trans (hfar Y k hk (s0.trans (hs k hk)) hm).1
  · intro hne
    obtain ⟨base, new, c1, c2, ⟨v, hvn, hvz⟩, -⟩ := C21_height rt fuel a out _ h1 h4 hne
    rw [hA] at c1
    cases c1
    obtain rfl : [N] = new := by rw [h2] at c2; exact List.append_cancel_left c2
    obtain rfl : v = N := by simpa using hvn
    rw [hBz] at hvz
    linarith
  · rw [key]
    exact ⟨k0, hk0, hr0.le, m0, rfl⟩
  · intro Y h hY
    obtain ⟨k, hk, g0, g1, g2⟩ := (key Y h).1 hY
    exact ⟨_, g0, (hfar Y k hk g0 g1).1, g2⟩

/-- the square of 4 by 4 with a roof 3 high -/
example (rt : Rt) : ∃ out fs slope X r, polygonize rt 17 squareArgs = some out ∧ out.result = .ok ([] ++ fs) ∧
    DiscWithin 4 squarePoint X r ∧ 0 < r ∧ (∀ Y s, DiscWithin 4 squarePoint Y s → s ≤ r) ∧ slope * r = 3 ∧
    OnRoof out.verts fs X (1 + 3) := by
  obtain ⟨g1, g2, g3, g4, g5, g6, -⟩ := square_meets
  obtain ⟨out, fs, slope, X, r, k1, k2, k3, k4, k5, -, k6, k7, -⟩ := C83_points rt squareArgs squarePoint 1 rfl rfl
    (by simp [squareArgs]) (by
      intro k hk
      have : k = 0 ∨ k = 1 ∨ k = 2 ∨ k = 3 := by simp only [squareArgs] at hk; omega
      rcases this with rfl | rfl | rfl | rfl <;> simp [squareArgs, squarePoint, V3.xy]) g2 g3 g4 g5 g6
    17 (by simp [squareArgs])
  have h3 : slope * r = 3 := k6 (by norm_num [squareArgs])
  rw [h3] at k7
  exact ⟨out, fs, slope, X, r, k1, k2, k3, k4, k5, h3, k7⟩

/-- a right-angled triangle with a roof 2 high -/
example (rt : Rt) : ∃ out fs slope X r, polygonize rt 13 triArgs = some out ∧ out.result = .ok ([] ++ fs) ∧
    DiscWithin 3 triPoint X r ∧ 0 < r ∧ (∀ Y s, DiscWithin 3 triPoint Y s → s ≤ r) ∧ slope * r = 2 ∧
    OnRoof out.verts fs X (5 + 2) := by
  obtain ⟨h1, h2, h3⟩ := tri_meets
  obtain ⟨out, fs, slope, X, r, k1, k2, k3, k4, k5, -, k6, k7, -⟩ := C83_triangle rt triArgs triPoint 5 rfl rfl rfl
    (by
      intro k hk
      have : k = 0 ∨ k = 1 ∨ k = 2 := by omega
      rcases this with rfl | rfl | rfl <;> simp [triArgs, triPoint, V3.xy]) h2 h3 13 (le_refl _)
  have h3 : slope * r = 2 := k6 (by norm_num [triArgs])
  rw [h3] at k7
  exact ⟨out, fs, slope, X, r, k1, k2, k3, k4, k5, h3, k7⟩

end Polyskel
