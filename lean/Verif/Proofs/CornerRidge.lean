import Verif.Proofs.RoofUnique
/-
The ridge that starts at a corner of a convex polygon ends at the same point for both faces beside it.
-/
namespace Polyskel
open Scalar Geo

/-- the ends of the ridges from the corner between two edges, on the boundaries of their two parts of the roof -/
theorem CellRing.pair {c : List (Edge2 ℝ)} {e f : Edge2 ℝ} {n m : Nat} {Q R : Nat → V2 ℝ}
    (hal : ∃ r > 0, e.p2.x - e.p1.x = r * e.norm.x ∧ e.p2.y - e.p1.y = r * e.norm.y)
    (hal' : ∃ r > 0, f.p2.x - f.p1.x = r * f.norm.x ∧ f.p2.y - f.p1.y = r * f.norm.y)
    (hQ : CellRing c e n Q) (hR : CellRing c f m R) (hne : f.norm ≠ e.norm) (hef : e.p2 = f.p1)
    (hz : ∀ g ∈ c, height g.p1 g.norm e.p2 = 0 → g = e ∨ g = f) : Q 2 = R (m - 1) := by
  have hn3 := hQ.size
  have hm3 := hR.size
  have z1 : height e.p1 e.norm e.p2 = 0 := by
    obtain ⟨r, -, r1, r2⟩ := hal
    unfold height; rw [r1, r2]; ring
  have z2 : height f.p1 f.norm e.p2 = 0 := by rw [hef]; simp [height]
  have i1 : (1 + 1) % n = 2 := Nat.mod_eq_of_lt (by omega)
  have i2 : (m - 1 + 1) % m = 0 := by rw [Nat.sub_add_cancel (by omega), Nat.mod_self]
  have i3 : (m - 2 + 1) % m = m - 1 := by rw [show m - 2 + 1 = m - 1 by omega]; exact Nat.mod_eq_of_lt (by omega)
  have i4 : (m - 2 + 2) % m = 0 := by rw [show m - 2 + 2 = m by omega, Nat.mod_self]
  -- both ends are as far from one edge as from the other
  have hV : height f.p1 f.norm (Q 2) = height e.p1 e.norm (Q 2) := by
    obtain ⟨g, hg, gn, g1, g2⟩ := hQ.ridge 1 (by omega) (by omega)
    rw [hQ.second, z1] at g1
    rw [i1] at g2
    rcases hz g hg g1 with rfl | rfl
    · exact absurd rfl gn
    · exact g2
  have hW : height e.p1 e.norm (R (m - 1)) = height f.p1 f.norm (R (m - 1)) := by
    obtain ⟨g, hg, gn, g1, g2⟩ := hR.ridge (m - 1) (by omega) (by omega)
    rw [i2, hR.first.trans hef.symm, z2] at g2
    rcases hz g hg g2 with rfl | rfl
    · exact g1
    · exact absurd rfl gn
  have pV := hQ.inside 2 le_rfl (by omega)
  have pW := hR.inside (m - 1) (by omega) (by omega)
  -- the point is in the other cell, too
  have oV := (hR.over hal' (Q 2)).2 ⟨by rw [hV]; exact pV.le, fun g hg => by rw [hV]; exact hQ.near 2 (by omega) g hg⟩
  have oW := (hQ.over hal (R (m - 1))).2 ⟨by rw [hW]; exact pW.le,
    fun g hg => by rw [hW]; exact hR.near (m - 1) (by omega) g hg⟩
  have lV := hQ.left 1 (by omega)
  have lW := hR.left (m - 2) (by omega)
  have oV := oV (m - 2) (by omega)
  have oW := oW 2 (by omega)
  rw [i1, hQ.second] at lV
  rw [i3, i4, hR.first.trans hef.symm] at lW
  rw [i3] at oV
  rw [show (1 + 2) % n = (2 + 1) % n from rfl] at lV
  set C := e.p2
  set V := Q 2
  set W := R (m - 1)
  set U := R (m - 2)
  set X := Q ((2 + 1) % n)
  -- they are on a line through the corner
  have hcol : area2 C V W = 0 := by
    by_contra hcon
    have d1 := height_diff e f C
    have d2 := height_diff e f V
    have d3 := height_diff e f W
    rw [z1, z2, sub_self] at d1
    rw [hV, sub_self] at d2
    rw [hW, sub_self] at d3
    exact norm_ne hne (affine_zero hcon d1.symm d2.symm d3.symm)
  have hW' : 0 < height e.p1 e.norm W := by rw [hW]; exact pW
  obtain ⟨t, ht, tx, ty⟩ : ∃ t : ℝ, 0 < t ∧ V.x = C.x + t * (W.x - C.x) ∧ V.y = C.y + t * (W.y - C.y) := by
    refine ⟨height e.p1 e.norm V / height e.p1 e.norm W, div_pos pV hW', ?_, ?_⟩
    · rw [div_mul_eq_mul_div, ← sub_eq_iff_eq_add', eq_div_iff hW'.ne']
      unfold height area2 at *
      linear_combination e.norm.x * hcol + (V.x - W.x) * z1
    · rw [div_mul_eq_mul_div, ← sub_eq_iff_eq_add', eq_div_iff hW'.ne']
      unfold height area2 at *
      linear_combination e.norm.y * hcol + (V.y - W.y) * z1
  have q1 : area2 U W V = (1 - t) * area2 U W C := by unfold area2; rw [tx, ty]; ring
  have q2 : t * area2 V X W = (t - 1) * area2 C V X := by unfold area2; rw [tx, ty]; ring
  rw [q1] at oV
  have t1 : t ≤ 1 := by
    by_contra hcon
    have := mul_neg_of_neg_of_pos (show 1 - t < 0 by linarith) lW
    linarith
  have t2 : 1 ≤ t := by
    by_contra hcon
    have := mul_neg_of_neg_of_pos (show t - 1 < 0 by linarith) lV
    have := mul_nonneg ht.le oW
    linarith
  obtain rfl : t = 1 := le_antisymm t1 t2
  cases hVV : V with
  | mk x y =>
    cases hWW : W with
    | mk x' y' =>
      rw [hVV, hWW] at tx ty
      simp only at tx ty
      rw [show x = x' by linarith, show y = y' by linarith]

end Polyskel
