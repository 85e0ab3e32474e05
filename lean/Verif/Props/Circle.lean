import Mathlib.Tactic.Linarith
import Mathlib.Tactic.LinearCombination
import Mathlib.Tactic.Ring
import Mathlib.Tactic.FieldSimp
import Verif.Spec.Geometry
import Verif.Proofs.Except
/-
C04: fitCircle3Points (bpyeuclid.py:96-109), exact arithmetic.
-/
namespace Polyskel
open Geo

theorem Cx.div_zero (a b : Cx ℝ) (h : b.re = 0 ∧ b.im = 0) : Cx.div a b = .error .zeroDivision := by
  simp [Cx.div, h.1, h.2]

theorem Cx.div_ne (a b : Cx ℝ) (h : ¬ (b.re = 0 ∧ b.im = 0)) :
    Cx.div a b = .ok ⟨(a.re * b.re + a.im * b.im) / (b.re * b.re + b.im * b.im),
      (a.im * b.re - a.re * b.im) / (b.re * b.re + b.im * b.im)⟩ := by
  obtain ⟨ar, ai⟩ := a
  obtain ⟨br, bi⟩ := b
  simp only at h
  have hpos : 0 < br * br + bi * bi := by
    rcases not_and_or.1 h with h | h
    · have := mul_self_pos.2 h; nlinarith [mul_self_nonneg bi]
    · have := mul_self_pos.2 h; nlinarith [mul_self_nonneg br]
  simp only [Cx.div, ex_abs, ex_le, ex_eq, ex_zero, ex_add, ex_mul, ex_div, ex_sub]
  by_cases hle : |bi| ≤ |br|
  · rw [if_pos hle]
    have hbr : br ≠ 0 := by
      intro h0; apply h; refine ⟨h0, ?_⟩
      rw [h0, abs_zero] at hle
      exact abs_eq_zero.1 (le_antisymm hle (abs_nonneg _))
    rw [if_neg hbr]
    have hden : br + bi * (bi / br) = (br * br + bi * bi) / br := by field_simp
    rw [hden]
    congr 2
    · field_simp
    · field_simp
  · rw [if_neg hle]
    have hbi : bi ≠ 0 := by
      intro h0; apply hle; rw [h0, abs_zero]; exact abs_nonneg _
    have hden : br * (br / bi) + bi = (br * br + bi * bi) / bi := by field_simp
    rw [hden]
    congr 2
    · field_simp
    · field_simp

/-- the computation for three given points -/
theorem fitCircle_core (points : List (V2 ℝ)) (p0 pm pl : V2 ℝ) (h0 : pyGet points 0 = .ok p0)
    (hm : pyGet points ((points.length / 2 : Nat) : Int) = .ok pm)
    (hl : pyGet points (-1) = .ok pl) :
    (Collinear3 p0 pm pl → fitCircle3Points points = .error .zeroDivision) ∧
    (¬ Collinear3 p0 pm pl → ∃ c R, fitCircle3Points points = .ok (c, R) ∧
      eucl c p0 = R ∧ eucl c pm = R ∧ eucl c pl = R) := by
  obtain ⟨x1, x2⟩ := p0
  obtain ⟨y1, y2⟩ := pm
  obtain ⟨z1, z2⟩ := pl
  simp only [Collinear3, area2]
  simp only [fitCircle3Points, h0, hm, hl, ok_bind]
  by_cases hd : y1 - x1 = 0 ∧ y2 - x2 = 0
  · have hz : Cx.div (Cx.sub ⟨z1, z2⟩ ⟨x1, x2⟩) (Cx.sub ⟨y1, y2⟩ ⟨x1, x2⟩) =
      (.error .zeroDivision : Except PyErr (Cx ℝ)) := Cx.div_zero _ _ (by simpa [Cx.sub] using hd)
    rw [hz]
    refine ⟨fun _ => rfl, fun h => absurd ?_ h⟩
    rw [hd.1, hd.2]; ring
  · have hz := Cx.div_ne (Cx.sub ⟨z1, z2⟩ ⟨x1, x2⟩) (Cx.sub ⟨y1, y2⟩ ⟨x1, x2⟩ : Cx ℝ)
      (by simpa [Cx.sub] using hd)
    rw [hz, ok_bind]
    simp only [Cx.sub, ex_sub]
    have hN : 0 < (y1 - x1) * (y1 - x1) + (y2 - x2) * (y2 - x2) := by
      rcases not_and_or.1 hd with h | h
      · have := mul_self_pos.2 h; nlinarith [mul_self_nonneg (y2 - x2)]
      · have := mul_self_pos.2 h; nlinarith [mul_self_nonneg (y1 - x1)]
    rw [Cx.div_ne _ (⟨fzero, Scalar.lit 2 1⟩ : Cx ℝ) (by simp), ok_bind]
    set N := (y1 - x1) * (y1 - x1) + (y2 - x2) * (y2 - x2) with hNdef
    set wr := ((z1 - x1) * (y1 - x1) + (z2 - x2) * (y2 - x2)) / N with hwr
    set wi := ((z2 - x2) * (y1 - x1) - (z1 - x1) * (y2 - x2)) / N with hwi
    have hNne : N ≠ 0 := ne_of_gt hN
    have hwi0 : (y1 - x1) * (z2 - x2) - (y2 - x2) * (z1 - x1) = 0 ↔ wi = 0 := by
      rw [hwi, div_eq_zero_iff]
      constructor
      · intro h; left; linarith
      · rintro (h | h)
        · linarith
        · exact absurd h hNne
    constructor
    · intro h
      rw [Cx.div_zero _ _ (by simpa using hwi0.1 h)]; rfl
    · intro h
      have hw : wi ≠ 0 := fun h' => h (hwi0.2 h')
      rw [Cx.div_ne _ _ (by simpa using hw), ok_bind]
      refine ⟨_, _, rfl, ?_⟩
      have hz1 : (z1 - x1) = wr * (y1 - x1) - wi * (y2 - x2) := by
        rw [hwr, hwi]; field_simp; rw [hNdef]; ring
      have hz2 : (z2 - x2) = wr * (y2 - x2) + wi * (y1 - x1) := by
        rw [hwr, hwi]; field_simp; rw [hNdef]; ring
      have haw : Cx.abs (⟨wr, wi⟩ : Cx ℝ) * Cx.abs (⟨wr, wi⟩ : Cx ℝ) = wr * wr + wi * wi := by
        simp only [Cx.abs, ex_add, ex_mul, ex_sqrt]
        exact Real.mul_self_sqrt (add_nonneg (mul_self_nonneg _) (mul_self_nonneg _))
      clear_value wr wi
      simp only [mkV2, ex_rnd, ex_neg, ex_mul, haw]
      simp only [Cx.mul, Cx.add, ex_mul, ex_sub, ex_add, ex_zero, ex_lit, Cx.abs, ex_sqrt, eucl]
      have e1 : z1 = x1 + (wr * (y1 - x1) - wi * (y2 - x2)) := by linarith
      have e2 : z2 = x2 + (wr * (y2 - x2) + wi * (y1 - x1)) := by linarith
      clear hwi0 h hz
      clear_value N
      clear hz1 hz2 hwr hwi
      subst e1 e2
      obtain ⟨e, he⟩ : ∃ e, e = y1 - x1 := ⟨_, rfl⟩
      obtain ⟨f, hf⟩ : ∃ f, f = y2 - x2 := ⟨_, rfl⟩
      have hy1 : y1 = x1 + e := by linarith
      have hy2 : y2 = x2 + f := by linarith
      clear he hf
      subst hy1 hy2
      obtain ⟨q, hq⟩ : ∃ q, q = wi⁻¹ := ⟨_, rfl⟩
      have hq1 : wi * q = 1 := by rw [hq]; exact mul_inv_cancel₀ hw
      obtain ⟨s, hs⟩ : ∃ s, s = wr * wr + wi * wi := ⟨_, rfl⟩
      have r1 : ∀ t : ℝ, t / (wi * wi + 0 * 0) = t * (q * q) := by
        intro t; rw [hq]; field_simp; ring
      simp only [r1]
      generalize h1 : _ * (q * q) = C1
      generalize h2 : _ * (q * q) = C2
      have hq2 : wi * (q * q) = q := by rw [← mul_assoc, hq1, one_mul]
      have k1 : 2 * C1 = (-e * wi - f * (wr - (wr * wr + wi * wi))) * q := by
        rw [← h1]; push_cast
        linear_combination (-e * wi - f * (wr - (wr * wr + wi * wi))) * hq2
      have k2 : 2 * C2 = -(-e * (wr - (wr * wr + wi * wi)) + f * wi) * q := by
        rw [← h2]; push_cast
        linear_combination -(-e * (wr - (wr * wr + wi * wi)) + f * wi) * hq2
      clear h1 h2 r1 hs s hq hq2
      refine ⟨?_, ?_, ?_⟩
      · congr 1; ring
      · congr 1
        linear_combination e * k1 + f * k2 - (e * e + f * f) * hq1
      · congr 1
        linear_combination (wr * e - wi * f) * k1 + (wr * f + wi * e) * k2 - (wr * wr + wi * wi) * (e * e + f * f) * hq1

/-- the points the function looks at exist -/
theorem fitCircle_points (points : List (V2 ℝ)) (hne : points ≠ []) :
    ∃ p0 pm pl, points.head? = some p0 ∧ points[points.length / 2]? = some pm ∧
      points.getLast? = some pl ∧ pyGet points 0 = .ok p0 ∧
      pyGet points ((points.length / 2 : Nat) : Int) = .ok pm ∧ pyGet points (-1) = .ok pl := by
  have hpos : 0 < points.length := List.length_pos_iff.2 hne
  have hm : points.length / 2 < points.length := by omega
  refine ⟨points[0], points[points.length / 2], points[points.length - 1], ?_, ?_, ?_, ?_, ?_, ?_⟩
  · rw [List.head?_eq_getElem?]; simp
  · simp
  · rw [List.getLast?_eq_getElem?]; simp
  · exact pyGet_nat_ok.2 (by simp)
  · exact pyGet_nat_ok.2 (by simp)
  · unfold pyGet
    have h1 : ((-1 : Int) + (points.length : Int)) = ((points.length - 1 : Nat) : Int) := by omega
    have h2 : ¬ (((points.length - 1 : Nat) : Int) < 0) := by omega
    simp only [show ((-1 : Int) < 0) from by omega, if_true, h1, h2, if_false, Int.toNat_natCast]
    rw [List.getElem?_eq_getElem (by omega)]

/-- C04: for first, middle and last point not on a line, the function returns a circle through
them. -/
theorem C04_fitCircle_equidistant (points : List (V2 ℝ)) (p0 pm pl : V2 ℝ)
    (h0 : points.head? = some p0) (hm : points[points.length / 2]? = some pm)
    (hl : points.getLast? = some pl) (hc : ¬ Collinear3 p0 pm pl) :
    ∃ c R, fitCircle3Points points = .ok (c, R) ∧
      eucl c p0 = R ∧ eucl c pm = R ∧ eucl c pl = R := by
  have hne : points ≠ [] := by rintro rfl; simp at h0
  obtain ⟨q0, qm, ql, e0, em, el, g0, gm, gl⟩ := fitCircle_points points hne
  rw [h0] at e0; rw [hm] at em; rw [hl] at el
  cases e0; cases em; cases el
  exact (fitCircle_core points _ _ _ g0 gm gl).2 hc

/-- C04: if they are collinear (or coincide), ZeroDivisionError is raised. -/
theorem C04_fitCircle_collinear (points : List (V2 ℝ)) (p0 pm pl : V2 ℝ)
    (h0 : points.head? = some p0) (hm : points[points.length / 2]? = some pm)
    (hl : points.getLast? = some pl) (hc : Collinear3 p0 pm pl) :
    fitCircle3Points points = .error .zeroDivision := by
  have hne : points ≠ [] := by rintro rfl; simp at h0
  obtain ⟨q0, qm, ql, e0, em, el, g0, gm, gl⟩ := fitCircle_points points hne
  rw [h0] at e0; rw [hm] at em; rw [hl] at el
  cases e0; cases em; cases el
  exact (fitCircle_core points _ _ _ g0 gm gl).1 hc

/-- case: three points of the unit circle; case: three points of a line -/
example : ∃ c R, fitCircle3Points ([⟨1, 0⟩, ⟨0, 1⟩, ⟨-1, 0⟩] : List (V2 ℝ)) = .ok (c, R) ∧
    eucl c ⟨1, 0⟩ = R ∧ eucl c ⟨0, 1⟩ = R ∧ eucl c ⟨-1, 0⟩ = R :=
  C04_fitCircle_equidistant _ _ _ _ rfl rfl rfl (by norm_num [Collinear3, area2])

example : fitCircle3Points ([⟨1, 0⟩, ⟨2, 0⟩, ⟨3, 0⟩] : List (V2 ℝ)) = .error .zeroDivision :=
  C04_fitCircle_collinear _ _ _ _ rfl rfl rfl (by norm_num [Collinear3, area2])

end Polyskel
