import Verif.Proofs.RoofNodes
/-
The nodes of the roof over a convex polygon are above the ground.  Used for C62.
-/
namespace Polyskel
open Scalar Real Geo
set_option linter.unusedSectionVars false

section
variable {c : List (Edge2 ℝ)}

theorem ConvexPolygon.corner_nonneg (h : ConvexPolygon c) {e f : Edge2 ℝ} (he : e ∈ c) (hf : f ∈ c) :
    0 ≤ hgt e f.p1 ∧ (hgt e f.p1 = 0 → f.p1 = e.p1 ∨ f.p1 = e.p2) := by
  obtain ⟨r, -, h1, h2⟩ := h.along e he
  by_cases hc : f.p1 = e.p1
  · rw [hc]
    simp [hgt, height]
  · by_cases hd : f.p1 = e.p2
    · rw [hd]
      simp only [hgt, height, h1, h2]
      exact ⟨le_of_eq (by ring), fun _ => Or.inr trivial⟩
    · have := h.left e he f hf hc hd
      simp only [hgt, height]
      exact ⟨this.le, fun h0 => by linarith⟩

theorem ConvexPolygon.same (h : ConvexPolygon c) {e f : Edge2 ℝ} (he : e ∈ c) (hf : f ∈ c)
    (hef : e.p1 = f.p1) : e = f := by
  obtain ⟨i, hi, rfl⟩ := List.getElem_of_mem he
  obtain ⟨j, hj, rfl⟩ := List.getElem_of_mem hf
  have : (c.map (·.p1))[i]'(by simpa using hi) = (c.map (·.p1))[j]'(by simpa using hj) := by
    simpa using hef
  have := (h.distinct.getElem_inj_iff).1 this
  simp only [this]

theorem ConvexPolygon.end_mem (h : ConvexPolygon c) {e : Edge2 ℝ} (he : e ∈ c) :
    ∃ f ∈ c, f.p1 = e.p2 := by
  obtain ⟨i, hi, rfl⟩ := List.getElem_of_mem he
  by_cases hl : i + 1 = c.length
  · refine ⟨c[0], List.getElem_mem _, ?_⟩
    have := h.last (by omega)
    have e1 : c.length - 1 = i := by omega
    simp only [e1] at this
    exact this.symm
  · exact ⟨c[i + 1], List.getElem_mem _, (h.ring i (by omega)).symm⟩

/-- two edges at which the roof has the same height, at or under the ground, are not parallel -/
theorem ConvexPolygon.cross_ne (h : ConvexPolygon c) {e f g : Edge2 ℝ} (he : e ∈ c) (hf : f ∈ c)
    (hg : g ∈ c) (hef : e ≠ f) (hfg : f ≠ g) (heg : e ≠ g) {X : V2 ℝ} {t : ℝ} (ht : t ≤ 0)
    (h1 : hgt e X = t) (h2 : hgt f X = t) : cr e.norm f.norm ≠ 0 := by
  intro h0
  have ue := h.unit e he
  have uf := h.unit f hf
  simp only [cr] at h0
  -- the cosine is 1 or -1
  have hsq : (e.norm.x * f.norm.x + e.norm.y * f.norm.y) ^ 2 = 1 := by
    have : (e.norm.x * f.norm.x + e.norm.y * f.norm.y) ^ 2 + (e.norm.x * f.norm.y - e.norm.y * f.norm.x) ^ 2 =
        (e.norm.x ^ 2 + e.norm.y ^ 2) * (f.norm.x ^ 2 + f.norm.y ^ 2) := by ring
    rw [ue, uf, h0] at this
    linarith
  obtain ⟨pe, qe⟩ := h.corner_nonneg he hf
  obtain ⟨pf, qf⟩ := h.corner_nonneg hf he
  simp only [hgt, height] at *
  rcases (sq_eq_sq_iff_eq_or_eq_neg.1 (hsq.trans (one_pow 2).symm)) with hd | hd
  · -- the same direction
    have ex : f.norm.x = e.norm.x := by
      linear_combination e.norm.x * hd - e.norm.y * h0 - f.norm.x * ue
    have ey : f.norm.y = e.norm.y := by
      linear_combination e.norm.y * hd + e.norm.x * h0 - f.norm.y * ue
    rw [ex, ey] at pf qf
    have z1 : e.norm.x * (f.p1.y - e.p1.y) - e.norm.y * (f.p1.x - e.p1.x) = 0 := by linarith
    have z2 : e.norm.x * (e.p1.y - f.p1.y) - e.norm.y * (e.p1.x - f.p1.x) = 0 := by linarith
    rcases qe z1 with a | a
    · exact hef (h.same he hf a.symm)
    · rcases qf z2 with b | b
      · exact hef (h.same he hf b)
      · obtain ⟨r, hr, r1, r2⟩ := h.along e he
        obtain ⟨s, hs, s1, s2⟩ := h.along f hf
        rw [← a, ex, ey, ← b] at *
        have k1 : (r + s) * e.norm.x = 0 := by linarith
        have k2 : (r + s) * e.norm.y = 0 := by linarith
        have n1 := (mul_eq_zero.1 k1).resolve_left (by linarith)
        have n2 := (mul_eq_zero.1 k2).resolve_left (by linarith)
        rw [n1, n2] at ue
        norm_num at ue
  · have ex : f.norm.x = -e.norm.x := by
      linear_combination e.norm.x * hd - e.norm.y * h0 - f.norm.x * ue
    have ey : f.norm.y = -e.norm.y := by
      linear_combination e.norm.y * hd + e.norm.x * h0 - f.norm.y * ue
    rw [ex, ey] at pf qf h2
    have z1 : e.norm.x * (f.p1.y - e.p1.y) - e.norm.y * (f.p1.x - e.p1.x) = 0 := by linarith
    have z2 : -e.norm.x * (e.p1.y - f.p1.y) - -e.norm.y * (e.p1.x - f.p1.x) = 0 := by linarith
    rcases qe z1 with a | a
    · exact hef (h.same he hf a.symm)
    · rcases qf z2 with b | b
      · exact hef (h.same he hf b)
      · obtain ⟨pg, qg⟩ := h.corner_nonneg he hg
        obtain ⟨pg', qg'⟩ := h.corner_nonneg hf hg
        simp only [hgt, height] at pg qg pg' qg'
        rw [ex, ey] at pg' qg'
        have z3 : e.norm.x * (g.p1.y - e.p1.y) - e.norm.y * (g.p1.x - e.p1.x) = 0 := by linarith
        rcases qg z3 with a' | a'
        · exact heg (h.same he hg a'.symm)
        · exact hfg (h.same hf hg (a.trans a'.symm))

/-- at or under the ground, the edges of a node lie to the same side of each of them -/
theorem ConvexPolygon.same_side (h : ConvexPolygon c) {e f g : Edge2 ℝ} (he : e ∈ c) (hf : f ∈ c)
    (hg : g ∈ c) {X : V2 ℝ} {t : ℝ} (ht : t ≤ 0) (h1 : hgt e X = t) (h2 : hgt f X = t) (h3 : hgt g X = t)
    (hne : cr f.norm e.norm ≠ 0) (hne' : cr g.norm e.norm ≠ 0) :
    0 < cr f.norm e.norm * cr g.norm e.norm := by
  have ue := h.unit e he
  obtain ⟨r, hr, r1, r2⟩ := h.along e he
  obtain ⟨e', he', hp⟩ := h.end_mem he
  -- the edge, moved out by `-t`, is above the height `t` everywhere
  have above : ∀ d ∈ c, ∀ w ∈ c, t ≤ hgt d ⟨w.p1.x - t * e.norm.y, w.p1.y + t * e.norm.x⟩ := by
    intro d hd w hw
    have ud := h.unit d hd
    have hn := (h.corner_nonneg hd hw).1
    simp only [hgt, height] at hn ⊢
    have hdt : d.norm.x * e.norm.x + d.norm.y * e.norm.y ≤ 1 := by
      nlinarith [sq_nonneg (d.norm.x - e.norm.x), sq_nonneg (d.norm.y - e.norm.y)]
    nlinarith
  have fA := above f hf e he
  have fB := above f hf e' he'
  have gA := above g hg e he
  have gB := above g hg e' he'
  rw [hp] at fB gB
  have hx2 : e.p2.x = e.p1.x + r * e.norm.x := by linarith
  have hy2 : e.p2.y = e.p1.y + r * e.norm.y := by linarith
  rw [hx2, hy2] at fB gB
  simp only [hgt, height, cr] at *
  -- places along the line of `e`, seen from `X`
  set a := e.norm.x * (e.p1.x - X.x) + e.norm.y * (e.p1.y - X.y) with ha
  have k1 : e.p1.x - t * e.norm.y - X.x = a * e.norm.x := by
    rw [ha]
    linear_combination e.norm.y * h1 - (e.p1.x - X.x) * ue
  have k2 : e.p1.y + t * e.norm.x - X.y = a * e.norm.y := by
    rw [ha]
    linear_combination -e.norm.x * h1 - (e.p1.y - X.y) * ue
  have f1 : 0 ≤ a * (f.norm.x * e.norm.y - f.norm.y * e.norm.x) := by
    have : a * (f.norm.x * e.norm.y - f.norm.y * e.norm.x) =
      f.norm.x * (e.p1.y + t * e.norm.x - X.y) - f.norm.y * (e.p1.x - t * e.norm.y - X.x) := by
      rw [k1, k2]; ring
    rw [this]; linarith
  have f2 : 0 ≤ (a + r) * (f.norm.x * e.norm.y - f.norm.y * e.norm.x) := by
    have : (a + r) * (f.norm.x * e.norm.y - f.norm.y * e.norm.x) =
      f.norm.x * (e.p1.y + t * e.norm.x - X.y + r * e.norm.y) -
        f.norm.y * (e.p1.x - t * e.norm.y - X.x + r * e.norm.x) := by
      rw [k1, k2]; ring
    rw [this]; linarith
  have g1 : 0 ≤ a * (g.norm.x * e.norm.y - g.norm.y * e.norm.x) := by
    have : a * (g.norm.x * e.norm.y - g.norm.y * e.norm.x) =
      g.norm.x * (e.p1.y + t * e.norm.x - X.y) - g.norm.y * (e.p1.x - t * e.norm.y - X.x) := by
      rw [k1, k2]; ring
    rw [this]; linarith
  have g2 : 0 ≤ (a + r) * (g.norm.x * e.norm.y - g.norm.y * e.norm.x) := by
    have : (a + r) * (g.norm.x * e.norm.y - g.norm.y * e.norm.x) =
      g.norm.x * (e.p1.y + t * e.norm.x - X.y + r * e.norm.y) -
        g.norm.y * (e.p1.x - t * e.norm.y - X.x + r * e.norm.x) := by
      rw [k1, k2]; ring
    rw [this]; linarith
  rcases le_or_gt 0 a with hs | hs
  · have hs' : 0 < a + r := by linarith
    have p1 := nonneg_of_mul_nonneg_right f2 hs'
    have p2 := nonneg_of_mul_nonneg_right g2 hs'
    exact mul_pos (lt_of_le_of_ne p1 (Ne.symm hne)) (lt_of_le_of_ne p2 (Ne.symm hne'))
  · have p1 := nonpos_of_mul_nonneg_right f1 hs
    have p2 := nonpos_of_mul_nonneg_right g1 hs
    exact mul_pos_of_neg_of_neg (lt_of_le_of_ne p1 hne) (lt_of_le_of_ne p2 hne')

/-- A node of the roof is above the ground. -/
theorem ConvexPolygon.node_pos (h : ConvexPolygon c) {X : V2 ℝ} {t : ℝ} (hn : RoofNode c X t) : 0 < t := by
  by_contra ht
  rw [not_lt] at ht
  obtain ⟨e1, m1, e2, m2, e3, m3, n12, n23, n13, p1, p2, p3⟩ := hn.three
  have c12 := h.cross_ne m1 m2 m3 n12 n23 n13 ht p1 p2
  have c23 := h.cross_ne m2 m3 m1 n23 n13.symm n12.symm ht p2 p3
  have c13 := h.cross_ne m1 m3 m2 n13 n23.symm n12 ht p1 p3
  have a12 : cr e2.norm e1.norm = -cr e1.norm e2.norm := by simp only [cr]; ring
  have a23 : cr e3.norm e2.norm = -cr e2.norm e3.norm := by simp only [cr]; ring
  have a13 : cr e3.norm e1.norm = -cr e1.norm e3.norm := by simp only [cr]; ring
  have s1 := h.same_side m1 m2 m3 ht p1 p2 p3 (by rw [a12]; simpa using c12) (by rw [a13]; simpa using c13)
  have s2 := h.same_side m2 m1 m3 ht p2 p1 p3 c12 (by rw [a23]; simpa using c23)
  have s3 := h.same_side m3 m1 m2 ht p3 p1 p2 c13 c23
  rw [a12, a13] at s1
  rw [a23] at s2
  have k := mul_pos (mul_pos s1 s2) s3
  nlinarith [sq_nonneg (cr e1.norm e2.norm * cr e1.norm e3.norm * cr e2.norm e3.norm)]

end
end Polyskel
