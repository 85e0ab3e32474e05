import Mathlib.Analysis.SpecialFunctions.Complex.Arg
import Mathlib.Algebra.Order.ToIntervalMod
import Verif.Spec.Convex
/-
Strictly convex polygons are convex contours: the edge directions turn by one full turn.
-/
namespace Polyskel
open Real

/-- every unit vector has an angle in a given full turn -/
theorem exists_angle (a x y : ℝ) (h : x ^ 2 + y ^ 2 = 1) :
    ∃ s, a ≤ s ∧ s < a + 2 * π ∧ cos s = x ∧ sin s = y := by
  have hn : ‖(⟨x, y⟩ : ℂ)‖ = 1 := by
    rw [Complex.norm_eq_sqrt_sq_add_sq]
    simp [h]
  have h0 : (⟨x, y⟩ : ℂ) ≠ 0 := by
    intro h'
    rw [h'] at hn
    simp at hn
  have hc := Complex.cos_arg h0
  have hs := Complex.sin_arg (⟨x, y⟩ : ℂ)
  rw [hn] at hc hs
  simp only [div_one] at hc hs
  set b := Complex.arg ⟨x, y⟩
  have hm := toIcoMod_mem_Ico two_pi_pos a b
  refine ⟨toIcoMod two_pi_pos a b, hm.1, hm.2, ?_, ?_⟩
  · rw [← hc, toIcoMod, zsmul_eq_mul]
    exact cos_sub_int_mul_two_pi b _
  · rw [← hs, toIcoMod, zsmul_eq_mul]
    exact sin_sub_int_mul_two_pi b _

/-- the turn from one direction to the next, in the full turn that begins with the first -/
theorem turn_cases {s t : ℝ} (h1 : 0 < sin (t - s)) (hd : -(2 * π) < t - s) (hd' : t - s < 2 * π) :
    (0 < t - s ∧ t - s < π) ∨ t - s < -π := by
  by_contra hcon
  simp only [not_or, not_and, not_lt] at hcon
  obtain ⟨ha, hb⟩ := hcon
  by_cases hp : 0 < t - s
  · have hq := ha hp
    have : sin (t - s) ≤ 0 := by
      rw [← sin_sub_two_pi]
      exact sin_nonpos_of_nonpos_of_neg_pi_le (by linarith) (by linarith)
    linarith
  · have : sin (t - s) ≤ 0 := sin_nonpos_of_nonpos_of_neg_pi_le (by linarith) hb
    linarith

theorem convexContour_of_polygon {c : List (Edge2 ℝ)} (h3 : 3 ≤ c.length) (h : ConvexPolygon c) :
    ConvexContour c := by
  have h0 : 0 < c.length := by omega
  -- the points are different
  have hne : ∀ i j (hi : i < c.length) (hj : j < c.length), i ≠ j → c[i].p1 ≠ c[j].p1 := by
    intro i j hi hj hij he
    have := (List.nodup_iff_injective_getElem.1 h.distinct)
      (a₁ := ⟨i, by simpa using hi⟩) (a₂ := ⟨j, by simpa using hj⟩) (by simpa using he)
    simp only [Fin.mk.injEq] at this
    exact hij this
  -- the next edge turns left
  have hcross : ∀ e ∈ c, ∀ f ∈ c, e.p2 = f.p1 → f.p2 ∈ c.map (·.p1) → f.p2 ≠ e.p1 → f.p2 ≠ e.p2 →
      0 < e.norm.x * f.norm.y - e.norm.y * f.norm.x := by
    intro e he f hf hef hmem hn1 hn2
    obtain ⟨g, hg, hgp⟩ := List.mem_map.1 hmem
    have hl := h.left e he g hg (by rw [hgp]; exact hn1) (by rw [hgp]; exact hn2)
    obtain ⟨r, hr, hx, hy⟩ := h.along e he
    obtain ⟨q, hq, hx', hy'⟩ := h.along f hf
    rw [hgp] at hl
    rw [← hef] at hx' hy'
    have key : e.norm.x * (f.p2.y - e.p1.y) - e.norm.y * (f.p2.x - e.p1.x) =
        q * (e.norm.x * f.norm.y - e.norm.y * f.norm.x) := by
      linear_combination e.norm.x * hy' + e.norm.x * hy - e.norm.y * hx' - e.norm.y * hx
    rw [key] at hl
    exact (mul_pos_iff_of_pos_left hq).1 hl
  -- angles
  obtain ⟨a, -, -, hca, hsa⟩ := exists_angle 0 _ _ (h.unit c[0] (List.getElem_mem h0))
  have hang : ∀ i, ∃ s, a ≤ s ∧ s < a + 2 * π ∧
      ∀ hi : i < c.length, cos s = c[i].norm.x ∧ sin s = c[i].norm.y := by
    intro i
    by_cases hi : i < c.length
    · obtain ⟨s, h1, h2, h4, h5⟩ := exists_angle a _ _ (h.unit c[i] (List.getElem_mem hi))
      exact ⟨s, h1, h2, fun _ => ⟨h4, h5⟩⟩
    · exact ⟨a, le_refl _, by linarith [pi_pos], fun h => absurd h hi⟩
  choose u hu1 hu2 hu using hang
  have hu0 : u 0 = a := by
    have h1 := (hu 0 h0).1
    have h2 := (hu 0 h0).2
    by_contra hne'
    have hlt : a < u 0 := lt_of_le_of_ne (hu1 0) (Ne.symm hne')
    have : cos (u 0 - a) = 1 := by
      rw [cos_sub, h1, h2, hca, hsa]
      have := h.unit c[0] (List.getElem_mem h0)
      nlinarith
    rw [cos_eq_one_iff_of_lt_of_lt (by linarith [hu2 0, pi_pos]) (by linarith [hu2 0])] at this
    linarith
  -- the cross product of two directions
  have hsin : ∀ i j (hi : i < c.length) (hj : j < c.length),
      sin (u j - u i) = c[i].norm.x * c[j].norm.y - c[i].norm.y * c[j].norm.x := by
    intro i j hi hj
    rw [sin_sub, (hu i hi).1, (hu i hi).2, (hu j hj).1, (hu j hj).2]
    ring
  have hmem : ∀ i (hi : i < c.length), c[i] ∈ c := fun i hi => List.getElem_mem hi
  have hp2 : ∀ i (hi : i < c.length), c[i].p2 = (c[(i + 1) % c.length]'(Nat.mod_lt _ h0)).p1 := by
    intro i hi
    by_cases hl : i + 1 < c.length
    · rw [h.ring i hl]
      congr 2
      rw [Nat.mod_eq_of_lt hl]
    · have hi' : i = c.length - 1 := by omega
      subst hi'
      rw [h.last h0]
      congr 2
      rw [show c.length - 1 + 1 = c.length by omega, Nat.mod_self]
  have hleft : ∀ i j (hi : i < c.length) (hj : j < c.length), j = (i + 1) % c.length →
      0 < sin (u j - u i) := by
    intro i j hi hj hij
    subst hij
    rw [hsin i _ hi hj]
    have hm1 : ((i + 1) % c.length + 1) % c.length ≠ i := by
      rw [Nat.mod_add_mod]
      intro he
      have : i + 1 + 1 < c.length ∨ i + 1 + 1 = c.length ∨ i + 1 + 1 = c.length + 1 := by omega
      rcases this with h' | h' | h'
      · rw [Nat.mod_eq_of_lt h'] at he; omega
      · rw [h', Nat.mod_self] at he; omega
      · rw [h', Nat.add_mod_left, Nat.mod_eq_of_lt (by omega)] at he; omega
    have hm2 : ((i + 1) % c.length + 1) % c.length ≠ (i + 1) % c.length := by
      intro he
      by_cases hl : (i + 1) % c.length + 1 < c.length
      · rw [Nat.mod_eq_of_lt hl] at he; omega
      · have h' : (i + 1) % c.length + 1 = c.length := by omega
        rw [h', Nat.mod_self] at he; omega
    refine hcross _ (hmem i hi) _ (hmem _ hj) (hp2 i hi) ?_ ?_ ?_
    · rw [hp2 _ hj]
      exact List.mem_map.2 ⟨_, hmem _ (Nat.mod_lt _ h0), rfl⟩
    · rw [hp2 _ hj]
      exact hne _ _ _ _ hm1
    · rw [hp2 _ hj, hp2 i hi]
      exact hne _ _ _ _ hm2
  have hstep : ∀ i, i + 1 < c.length → u i ≤ u (i + 1) ∧ u (i + 1) ≤ u i + π := by
    intro i hi
    have hi' : i < c.length := by omega
    have hs := hleft i (i + 1) hi' hi (Nat.mod_eq_of_lt hi).symm
    rcases turn_cases hs (by linarith [hu1 (i + 1), hu2 i]) (by linarith [hu1 i, hu2 (i + 1)]) with
      h' | h'
    · exact ⟨by linarith, by linarith⟩
    · exfalso
      by_cases hi0 : i = 0
      · subst hi0
        have := hu1 (0 + 1)
        rw [hu0] at h'
        linarith [pi_pos]
      · -- the first direction lies between the two, so the vertex is not left of the first edge
        have s1 : 0 ≤ sin (u (i + 1) - u 0) := by
          rw [hu0]
          exact sin_nonneg_of_nonneg_of_le_pi (by linarith [hu1 (i + 1)]) (by linarith [hu2 i])
        have s2 : 0 ≤ sin (u 0 - u i) := by
          rw [hu0, ← sin_add_two_pi]
          exact sin_nonneg_of_nonneg_of_le_pi (by linarith [hu2 i]) (by linarith [hu1 (i + 1)])
        have hl := h.left _ (hmem 0 h0) _ (hmem (i + 1) hi) (hne _ _ _ _ (by omega))
          (by rw [h.ring 0 (by omega)]; exact hne _ _ _ _ (by omega))
        have weak : ∀ j (hj : j < c.length),
            (0 : ℝ) ≤ c[j].norm.x * (c[0].p1.y - c[j].p1.y) - c[j].norm.y * (c[0].p1.x - c[j].p1.x) := by
          intro j hj
          by_cases hj0 : c[0].p1 = c[j].p1
          · rw [hj0]; simp
          · by_cases hj2 : c[0].p1 = c[j].p2
            · obtain ⟨r, hr, hx, hy⟩ := h.along _ (hmem j hj)
              rw [hj2, hx, hy]
              apply le_of_eq
              ring
            · exact (h.left _ (hmem j hj) _ (hmem 0 h0) hj0 hj2).le
        have w1 := weak i hi'
        have w2 := weak (i + 1) hi
        obtain ⟨r, hr, hx, hy⟩ := h.along _ (hmem i hi')
        rw [h.ring i hi] at hx hy
        rw [hsin _ _ hi' hi] at hs
        rw [hsin _ _ h0 hi] at s1
        rw [hsin _ _ hi' h0] at s2
        have m1 := mul_nonneg s1 w1
        have m2 := mul_nonneg s2 w2
        have m3 := mul_pos hs hl
        have key : (c[i].norm.x * c[i + 1].norm.y - c[i].norm.y * c[i + 1].norm.x) *
            (c[0].norm.x * (c[i + 1].p1.y - c[0].p1.y) - c[0].norm.y * (c[i + 1].p1.x - c[0].p1.x)) =
            -((c[0].norm.x * c[i + 1].norm.y - c[0].norm.y * c[i + 1].norm.x) *
              (c[i].norm.x * (c[0].p1.y - c[i].p1.y) - c[i].norm.y * (c[0].p1.x - c[i].p1.x)) +
            (c[i].norm.x * c[0].norm.y - c[i].norm.y * c[0].norm.x) *
              (c[i + 1].norm.x * (c[0].p1.y - c[i + 1].p1.y) -
                c[i + 1].norm.y * (c[0].p1.x - c[i + 1].p1.x))) := by
          have ex : c[i].p1.x = c[i + 1].p1.x - r * c[i].norm.x := by linarith
          have ey : c[i].p1.y = c[i + 1].p1.y - r * c[i].norm.y := by linarith
          rw [ex, ey]
          ring
        linarith
  refine ⟨u, fun i hi => ?_, hstep, ?_, ?_⟩
  · rw [unitDir, (hu i hi).1, (hu i hi).2]
  · rw [hu0]; linarith [hu2 (c.length - 1)]
  · have hs := hleft (c.length - 1) 0 (by omega) h0 (by
      rw [show c.length - 1 + 1 = c.length by omega, Nat.mod_self])
    rcases turn_cases hs (by rw [hu0]; linarith [hu2 (c.length - 1)])
      (by rw [hu0]; linarith [hu1 (c.length - 1), pi_pos]) with h' | h'
    · have := hu1 (c.length - 1)
      rw [hu0] at h'
      linarith
    · linarith

end Polyskel
