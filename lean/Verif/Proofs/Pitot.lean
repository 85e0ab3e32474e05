import Verif.Spec.RoofFace
import Verif.Proofs.RoofPoints
import Mathlib.Tactic.Linarith
import Mathlib.Tactic.LinearCombination
import Mathlib.Tactic.Positivity
/-
Helper lemmas for C87: the lengths of the tangents to a circle that touches three sides of a quadrangle.
-/
set_option linter.unusedSectionVars false
namespace Polyskel
open Geo Real

/-- the direction of a side, and the distance of a point from it -/
theorem side_unit {A B : V2 ℝ} (h : 0 < eucl A B) : ∃ ux uy : ℝ, ux ^ 2 + uy ^ 2 = 1 ∧ B.x = A.x + eucl A B * ux ∧
    B.y = A.y + eucl A B * uy ∧ (∀ X, area2 A B X / eucl A B = ux * (X.y - A.y) - uy * (X.x - A.x)) := by
  have hne := h.ne'
  have hsq : eucl A B ^ 2 = (A.x - B.x) ^ 2 + (A.y - B.y) ^ 2 := by
    unfold eucl; exact Real.sq_sqrt (by positivity)
  refine ⟨(B.x - A.x) / eucl A B, (B.y - A.y) / eucl A B, ?_, by field_simp; ring, by field_simp; ring, ?_⟩
  · field_simp
    rw [hsq]; ring
  · intro X
    unfold area2
    field_simp

/-- At a corner between the directions `u` and `v`, seen from which a point is at `w`: the distances `p`, `q` of
the point from the two sides, and the distances `t`, `s` of its feet from the corner. -/
theorem corner_feet {ux uy vx vy wx wy : ℝ} (hu : ux ^ 2 + uy ^ 2 = 1) (hv : vx ^ 2 + vy ^ 2 = 1) :
    -(wx * ux + wy * uy) * (ux * vy - uy * vx) =
      (vx * wy - vy * wx) - (ux * wy - uy * wx) * (ux * vx + uy * vy) ∧
    (wx * vx + wy * vy) * (ux * vy - uy * vx) =
      (ux * wy - uy * wx) - (vx * wy - vy * wx) * (ux * vx + uy * vy) ∧
    (wx * ux + wy * uy) ^ 2 + (ux * wy - uy * wx) ^ 2 = (wx * vx + wy * vy) ^ 2 + (vx * wy - vy * wx) ^ 2 := by
  refine ⟨?_, ?_, ?_⟩
  · linear_combination (vx * wy - vy * wx) * hu
  · linear_combination (ux * wy - uy * wx) * hv
  · linear_combination (wx ^ 2 + wy ^ 2) * hu - (wx ^ 2 + wy ^ 2) * hv

/-- the cosine is less than 1 if the sine is not 0 -/
theorem cos_lt {ux uy vx vy : ℝ} (hu : ux ^ 2 + uy ^ 2 = 1) (hv : vx ^ 2 + vy ^ 2 = 1) (h : 0 < ux * vy - uy * vx) :
    ux * vx + uy * vy < 1 := by
  have : (ux * vx + uy * vy) ^ 2 + (ux * vy - uy * vx) ^ 2 = 1 := by
    linear_combination (vx ^ 2 + vy ^ 2) * hu + hv
  nlinarith [mul_pos h h]

/-- Let a circle touch the lines of the sides `DA`, `AB` and `BC` of a strictly convex quadrangle from within, and let
it not reach over the side `CD`.  Then `AB` and `CD` together are not longer than `BC` and `DA`, and shorter if the
circle does not touch `CD`. -/
theorem pitot {A B C D N : V2 ℝ} {r : ℝ} (hA : 0 < area2 D A B) (hB : 0 < area2 A B C) (hC : 0 < area2 B C D)
    (hD : 0 < area2 C D A) (lA : 0 < eucl A B) (lB : 0 < eucl B C) (lC : 0 < eucl C D) (lD : 0 < eucl D A)
    (hr : 0 < r) (h0 : area2 A B N / eucl A B = r) (h1 : area2 B C N / eucl B C = r)
    (h3 : area2 D A N / eucl D A = r) (h2 : r ≤ area2 C D N / eucl C D) :
    eucl A B + eucl C D ≤ eucl B C + eucl D A ∧
    (r < area2 C D N / eucl C D → eucl A B + eucl C D < eucl B C + eucl D A) := by
  obtain ⟨ax, ay, ha, aB1, aB2, fa⟩ := side_unit lA
  obtain ⟨bx, by', hb, bC1, bC2, fb⟩ := side_unit lB
  obtain ⟨cx, cy, hc, cD1, cD2, fc⟩ := side_unit lC
  obtain ⟨dx, dy, hd, dA1, dA2, fd⟩ := side_unit lD
  -- the corners turn to the left
  have tA : 0 < dx * ay - dy * ax := by
    have e : area2 D A B = eucl D A * (eucl A B * (dx * ay - dy * ax)) := by
      unfold area2; rw [aB1, aB2, dA1, dA2]; ring
    rw [e] at hA
    exact pos_of_mul_pos_right (pos_of_mul_pos_right hA lD.le) lA.le
  have tB : 0 < ax * by' - ay * bx := by
    have e : area2 A B C = eucl A B * (eucl B C * (ax * by' - ay * bx)) := by
      unfold area2; rw [bC1, bC2, aB1, aB2]; ring
    rw [e] at hB
    exact pos_of_mul_pos_right (pos_of_mul_pos_right hB lA.le) lB.le
  have tC : 0 < bx * cy - by' * cx := by
    have e : area2 B C D = eucl B C * (eucl C D * (bx * cy - by' * cx)) := by
      unfold area2; rw [cD1, cD2, bC1, bC2]; ring
    rw [e] at hC
    exact pos_of_mul_pos_right (pos_of_mul_pos_right hC lB.le) lC.le
  have tD : 0 < cx * dy - cy * dx := by
    have e : area2 C D A = eucl C D * (eucl D A * (cx * dy - cy * dx)) := by
      unfold area2; rw [dA1, dA2, cD1, cD2]; ring
    rw [e] at hD
    exact pos_of_mul_pos_right (pos_of_mul_pos_right hD lC.le) lD.le
  rw [fa] at h0; rw [fb] at h1; rw [fd] at h3; rw [fc] at h2 ⊢
  set q := cx * (N.y - C.y) - cy * (N.x - C.x) with hq
  -- the distances, seen from the other ends
  have h0' : ax * (N.y - B.y) - ay * (N.x - B.x) = r := by rw [← h0, aB1, aB2]; ring
  have h1' : bx * (N.y - C.y) - by' * (N.x - C.x) = r := by rw [← h1, bC1, bC2]; ring
  have h2' : cx * (N.y - D.y) - cy * (N.x - D.x) = q := by rw [hq, cD1, cD2]; ring
  have h3' : dx * (N.y - A.y) - dy * (N.x - A.x) = r := by rw [← h3, dA1, dA2]; ring
  -- the feet
  obtain ⟨A1, A2, -⟩ := corner_feet (wx := N.x - A.x) (wy := N.y - A.y) hd ha
  obtain ⟨B1, B2, -⟩ := corner_feet (wx := N.x - B.x) (wy := N.y - B.y) ha hb
  obtain ⟨C1, -, C3⟩ := corner_feet (wx := N.x - C.x) (wy := N.y - C.y) hb hc
  obtain ⟨-, D2, D3⟩ := corner_feet (wx := N.x - D.x) (wy := N.y - D.y) hc hd
  rw [h0, h3'] at A1 A2
  rw [h0', h1] at B1 B2
  rw [h1', ← hq] at C1 C3
  rw [h2', h3] at D2 D3
  have kA : -((N.x - A.x) * dx + (N.y - A.y) * dy) = (N.x - A.x) * ax + (N.y - A.y) * ay :=
    mul_right_cancel₀ tA.ne' (A1.trans A2.symm)
  have kB : -((N.x - B.x) * ax + (N.y - B.y) * ay) = (N.x - B.x) * bx + (N.y - B.y) * by' :=
    mul_right_cancel₀ tB.ne' (B1.trans B2.symm)
  have cC := cos_lt hb hc tC
  have cD := cos_lt hc hd tD
  have kC : 0 < -((N.x - C.x) * bx + (N.y - C.y) * by') := by
    refine pos_of_mul_pos_left ?_ tC.le
    rw [C1]
    have := mul_lt_mul_of_pos_left cC hr
    linarith
  have kD : 0 < (N.x - D.x) * dx + (N.y - D.y) * dy := by
    refine pos_of_mul_pos_left ?_ tD.le
    rw [D2]
    have := mul_lt_mul_of_pos_left cD hr
    linarith
  -- the lengths of the sides
  have LA : eucl A B = ((N.x - A.x) * ax + (N.y - A.y) * ay) - ((N.x - B.x) * ax + (N.y - B.y) * ay) := by
    rw [aB1, aB2]; linear_combination (-eucl A B) * ha
  have LB : eucl B C = ((N.x - B.x) * bx + (N.y - B.y) * by') - ((N.x - C.x) * bx + (N.y - C.y) * by') := by
    rw [bC1, bC2]; linear_combination (-eucl B C) * hb
  have LC : eucl C D = ((N.x - C.x) * cx + (N.y - C.y) * cy) - ((N.x - D.x) * cx + (N.y - D.y) * cy) := by
    rw [cD1, cD2]; linear_combination (-eucl C D) * hc
  have LD : eucl D A = ((N.x - D.x) * dx + (N.y - D.y) * dy) - ((N.x - A.x) * dx + (N.y - A.y) * dy) := by
    rw [dA1, dA2]; linear_combination (-eucl D A) * hd
  set s2 := (N.x - C.x) * cx + (N.y - C.y) * cy
  set t3 := (N.x - D.x) * cx + (N.y - D.y) * cy
  set t2 := (N.x - C.x) * bx + (N.y - C.y) * by'
  set s3 := (N.x - D.x) * dx + (N.y - D.y) * dy
  have hrq : r ^ 2 ≤ q ^ 2 := pow_le_pow_left₀ hr.le h2 2
  have e1 : s2 ≤ -t2 := (abs_le_of_sq_le_sq' (by rw [neg_sq]; linarith) kC.le).2
  have e2 : -t3 ≤ s3 := by
    have := (abs_le_of_sq_le_sq' (a := t3) (b := s3) (by linarith) kD.le).1
    linarith
  refine ⟨by rw [LA, LB, LC, LD]; linarith, fun hlt => ?_⟩
  have e3 : s2 < -t2 := by
    refine lt_of_le_of_ne e1 fun he => ?_
    have : t2 ^ 2 = s2 ^ 2 := by rw [he]; ring
    have := pow_lt_pow_left₀ hlt hr.le two_ne_zero
    linarith
  rw [LA, LB, LC, LD]; linarith

end Polyskel
