import Verif.Proofs.RoofUnique
import Mathlib.Tactic.FieldSimp
/-
No three points of the boundary of a part of the roof are in a line, and a line that supports it meets it in a side.
-/
namespace Polyskel
open Scalar Geo

/-- an affine function that is zero at two points -/
theorem affine_chord {A B C : ℝ} {P T : V2 ℝ} (hne : P ≠ T) (h1 : A * P.x + B * P.y + C = 0)
    (h2 : A * T.x + B * T.y + C = 0) (hn : ¬ (A = 0 ∧ B = 0)) :
    ∃ k : ℝ, k ≠ 0 ∧ ∀ X : V2 ℝ, A * X.x + B * X.y + C = k * area2 P T X := by
  have hpos : 0 < (T.x - P.x) ^ 2 + (T.y - P.y) ^ 2 := by
    rcases lt_or_eq_of_le (add_nonneg (sq_nonneg (T.x - P.x)) (sq_nonneg (T.y - P.y))) with h | h
    · exact h
    · exfalso
      apply hne
      have e1 : T.x - P.x = 0 := by nlinarith [sq_nonneg (T.x - P.x), sq_nonneg (T.y - P.y)]
      have e2 : T.y - P.y = 0 := by nlinarith [sq_nonneg (T.x - P.x), sq_nonneg (T.y - P.y)]
      cases P; cases T
      simp only at e1 e2
      congr 1 <;> linarith
  set L := (T.x - P.x) ^ 2 + (T.y - P.y) ^ 2 with hL
  have hk : ∀ X : V2 ℝ, L * (A * X.x + B * X.y + C) = (B * (T.x - P.x) - A * (T.y - P.y)) * area2 P T X := by
    intro X
    unfold area2
    rw [hL]
    linear_combination ((T.x - P.x) ^ 2 + (T.y - P.y) ^ 2) * h1 +
      ((T.x - P.x) * (X.x - P.x) + (T.y - P.y) * (X.y - P.y)) * (h2 - h1)
  refine ⟨(B * (T.x - P.x) - A * (T.y - P.y)) / L, ?_, ?_⟩
  · intro h0
    have h0 : B * (T.x - P.x) - A * (T.y - P.y) = 0 := by
      rcases div_eq_zero_iff.1 h0 with h | h
      · exact h
      · exact absurd h hpos.ne'
    apply hn
    have g : A * (T.x - P.x) + B * (T.y - P.y) = 0 := by linear_combination h2 - h1
    constructor
    · apply (mul_eq_zero.1 (?_ : L * A = 0)).resolve_left hpos.ne'
      rw [hL]; linear_combination (T.x - P.x) * g - (T.y - P.y) * h0
    · apply (mul_eq_zero.1 (?_ : L * B = 0)).resolve_left hpos.ne'
      rw [hL]; linear_combination (T.y - P.y) * g + (T.x - P.x) * h0
  · intro X
    rw [div_mul_eq_mul_div, eq_div_iff hpos.ne', ← hk X]
    ring

/-- of three different points in a line one is between the others -/
theorem between_of_line {P T N : V2 ℝ} (h : area2 P T N = 0) (h1 : P ≠ T) (h2 : T ≠ N) (h3 : P ≠ N) :
    (∃ t : ℝ, 0 < t ∧ t < 1 ∧ P.x = T.x + t * (N.x - T.x) ∧ P.y = T.y + t * (N.y - T.y)) ∨
    (∃ t : ℝ, 0 < t ∧ t < 1 ∧ T.x = P.x + t * (N.x - P.x) ∧ T.y = P.y + t * (N.y - P.y)) ∨
    (∃ t : ℝ, 0 < t ∧ t < 1 ∧ N.x = P.x + t * (T.x - P.x) ∧ N.y = P.y + t * (T.y - P.y)) := by
  have hpos : 0 < (T.x - P.x) ^ 2 + (T.y - P.y) ^ 2 := by
    rcases lt_or_eq_of_le (add_nonneg (sq_nonneg (T.x - P.x)) (sq_nonneg (T.y - P.y))) with h | h
    · exact h
    · exfalso
      apply h1
      have e1 : T.x - P.x = 0 := by nlinarith [sq_nonneg (T.x - P.x), sq_nonneg (T.y - P.y)]
      have e2 : T.y - P.y = 0 := by nlinarith [sq_nonneg (T.x - P.x), sq_nonneg (T.y - P.y)]
      cases P; cases T
      simp only at e1 e2
      congr 1 <;> linarith
  set L := (T.x - P.x) ^ 2 + (T.y - P.y) ^ 2 with hL
  obtain ⟨s, sx, sy⟩ : ∃ s : ℝ, N.x = P.x + s * (T.x - P.x) ∧ N.y = P.y + s * (T.y - P.y) := by
    refine ⟨((N.x - P.x) * (T.x - P.x) + (N.y - P.y) * (T.y - P.y)) / L, ?_, ?_⟩
    · rw [div_mul_eq_mul_div, ← sub_eq_iff_eq_add', eq_div_iff hpos.ne', hL]
      unfold area2 at h
      linear_combination -(T.y - P.y) * h
    · rw [div_mul_eq_mul_div, ← sub_eq_iff_eq_add', eq_div_iff hpos.ne', hL]
      unfold area2 at h
      linear_combination (T.x - P.x) * h
  have s0 : s ≠ 0 := by
    rintro rfl
    apply h3
    cases P; cases N
    simp only at sx sy
    congr 1 <;> linarith
  have s1 : s ≠ 1 := by
    rintro rfl
    apply h2
    cases T; cases N
    simp only at sx sy
    congr 1 <;> linarith
  rcases lt_or_gt_of_ne s0 with hs | hs
  · left
    have hd : (1 - s) ≠ 0 := by intro h; linarith
    refine ⟨1 / (1 - s), by apply div_pos <;> linarith, by rw [div_lt_one (by linarith)]; linarith, ?_, ?_⟩
    · rw [sx]; field_simp; ring
    · rw [sy]; field_simp; ring
  · rcases lt_or_gt_of_ne s1 with hs' | hs'
    · right; right
      exact ⟨s, hs, hs', sx, sy⟩
    · right; left
      refine ⟨1 / s, by apply div_pos <;> linarith, by rw [div_lt_one (by linarith)]; linarith, ?_, ?_⟩
      · rw [sx]; field_simp; ring
      · rw [sy]; field_simp; ring

variable {c : List (Edge2 ℝ)} {e : Edge2 ℝ} {n : Nat} {Q : Nat → V2 ℝ}

/-- no point of the ring is between two others -/
theorem CellRing.no_between
    (hal : ∃ r > 0, e.p2.x - e.p1.x = r * e.norm.x ∧ e.p2.y - e.p1.y = r * e.norm.y)
    (hQ : CellRing c e n Q) (hu : e.norm.x ^ 2 + e.norm.y ^ 2 = 1)
    (hc : ∀ g ∈ c, g.norm.x ^ 2 + g.norm.y ^ 2 = 1) {i j m : Nat} (hi : i < n) (hj : j < n) (hm : m < n)
    (hij : i ≠ j) (hjm : j ≠ m) (him : i ≠ m) {t : ℝ} (t0 : 0 < t) (t1 : t < 1)
    (hx : (Q i).x = (Q j).x + t * ((Q m).x - (Q j).x)) (hy : (Q i).y = (Q j).y + t * ((Q m).y - (Q j).y)) :
    False := by
  -- an affine function that is nowhere negative and zero at the point between is zero at the others
  have aff : ∀ {p q r : ℝ}, 0 ≤ q → 0 ≤ r → p = 0 → p = (1 - t) * q + t * r → q = 0 ∧ r = 0 := by
    intro p q r h1 h2 h3 h4
    have b1 := mul_nonneg (show 0 ≤ 1 - t by linarith) h1
    have b2 := mul_nonneg t0.le h2
    exact ⟨(mul_eq_zero.1 (by linarith : (1 - t) * q = 0)).resolve_left (by intro h; linarith),
      (mul_eq_zero.1 (by linarith : t * r = 0)).resolve_left (by intro h; linarith)⟩
  rcases Nat.lt_or_ge i 2 with h2 | h2
  · have z : height e.p1 e.norm (Q i) = 0 := by
      obtain ⟨r, -, r1, r2⟩ := hal
      have : i = 0 ∨ i = 1 := by omega
      rcases this with rfl | rfl
      · rw [hQ.first]; simp [height]
      · rw [hQ.second]; unfold height; rw [r1, r2]; ring
    obtain ⟨zj, zm⟩ := aff (hQ.nonneg hal hj) (hQ.nonneg hal hm) z (by unfold height; rw [hx, hy]; ring)
    have lt : ∀ l, l < n → height e.p1 e.norm (Q l) = 0 → l < 2 := by
      intro l hl h0
      by_contra hcon
      have := hQ.inside l (by omega) hl
      linarith
    have := lt j hj zj
    have := lt m hm zm
    omega
  · obtain ⟨g1, m1, g2, m2, n1, n2, n3, a1, a2⟩ := hQ.two h2 hi
    have k1 := aff (p := height g1.p1 g1.norm (Q i) - height e.p1 e.norm (Q i))
      (sub_nonneg.2 (hQ.near j hj g1 m1)) (sub_nonneg.2 (hQ.near m hm g1 m1)) (sub_eq_zero.2 a1)
      (by unfold height; rw [hx, hy]; ring)
    have k2 := aff (p := height g2.p1 g2.norm (Q i) - height e.p1 e.norm (Q i))
      (sub_nonneg.2 (hQ.near j hj g2 m2)) (sub_nonneg.2 (hQ.near m hm g2 m2)) (sub_eq_zero.2 a2)
      (by unfold height; rw [hx, hy]; ring)
    rw [height_diff, height_diff] at k1 k2
    have z1 : (e.norm.y - g1.norm.y) * ((Q m).x - (Q j).x) + (g1.norm.x - e.norm.x) * ((Q m).y - (Q j).y) = 0 := by
      linear_combination k1.2 - k1.1
    have z2 : (e.norm.y - g2.norm.y) * ((Q m).x - (Q j).x) + (g2.norm.x - e.norm.x) * ((Q m).y - (Q j).y) = 0 := by
      linear_combination k2.2 - k2.1
    have hdet := unit_three hu (hc _ m1) (hc _ m2) n1 n2 n3
    have w1 : (Q m).x - (Q j).x = 0 := (mul_eq_zero.1 (by
      linear_combination -(g2.norm.x - e.norm.x) * z1 + (g1.norm.x - e.norm.x) * z2 :
      ((g1.norm.x - e.norm.x) * (g2.norm.y - e.norm.y) - (g1.norm.y - e.norm.y) * (g2.norm.x - e.norm.x)) *
        ((Q m).x - (Q j).x) * (-1) = 0)).resolve_right (by norm_num) |> fun h => (mul_eq_zero.1 h).resolve_left hdet
    have w2 : (Q m).y - (Q j).y = 0 := (mul_eq_zero.1 (by
      linear_combination (e.norm.y - g2.norm.y) * z1 - (e.norm.y - g1.norm.y) * z2 :
      ((g1.norm.x - e.norm.x) * (g2.norm.y - e.norm.y) - (g1.norm.y - e.norm.y) * (g2.norm.x - e.norm.x)) *
        ((Q m).y - (Q j).y) * (-1) = 0)).resolve_right (by norm_num) |> fun h => (mul_eq_zero.1 h).resolve_left hdet
    apply hjm
    refine (hQ.inj hal hu hc hm hj ?_).symm
    cases hqm : Q m
    cases hqj : Q j
    rw [hqm, hqj] at w1 w2
    simp only at w1 w2
    congr 1 <;> linarith

/-- no three points of the ring are in a line -/
theorem CellRing.no_three
    (hal : ∃ r > 0, e.p2.x - e.p1.x = r * e.norm.x ∧ e.p2.y - e.p1.y = r * e.norm.y)
    (hQ : CellRing c e n Q) (hu : e.norm.x ^ 2 + e.norm.y ^ 2 = 1)
    (hc : ∀ g ∈ c, g.norm.x ^ 2 + g.norm.y ^ 2 = 1) {i j m : Nat} (hi : i < n) (hj : j < n) (hm : m < n)
    (hij : i ≠ j) (hjm : j ≠ m) (him : i ≠ m) : area2 (Q i) (Q j) (Q m) ≠ 0 := by
  intro h
  have ne : ∀ {i j}, i < n → j < n → i ≠ j → Q i ≠ Q j := fun hi hj h e => h (hQ.inj hal hu hc hi hj e)
  rcases between_of_line h (ne hi hj hij) (ne hj hm hjm) (ne hi hm him) with
    ⟨t, t0, t1, hx, hy⟩ | ⟨t, t0, t1, hx, hy⟩ | ⟨t, t0, t1, hx, hy⟩
  · exact hQ.no_between hal hu hc hi hj hm hij hjm him t0 t1 hx hy
  · exact hQ.no_between hal hu hc hj hi hm hij.symm him hjm t0 t1 hx hy
  · exact hQ.no_between hal hu hc hm hi hj him.symm hij hjm.symm t0 t1 hx hy

/-- if no point of the ring is to the right of the line through two of them, they are neighbours -/
theorem CellRing.neighbour
    (hal : ∃ r > 0, e.p2.x - e.p1.x = r * e.norm.x ∧ e.p2.y - e.p1.y = r * e.norm.y)
    (hQ : CellRing c e n Q) (hu : e.norm.x ^ 2 + e.norm.y ^ 2 = 1)
    (hc : ∀ g ∈ c, g.norm.x ^ 2 + g.norm.y ^ 2 = 1) {i j : Nat} (hi : i < n) (hj : j < n) (hij : i ≠ j)
    (h : ∀ m, m < n → 0 ≤ area2 (Q i) (Q j) (Q m)) : j = (i + 1) % n := by
  have hn := hQ.size
  by_contra hcon
  have hm : (i + 1) % n < n := Nat.mod_lt _ (by omega)
  have him : i ≠ (i + 1) % n := by
    intro h
    by_cases hl : i + 1 < n
    · rw [Nat.mod_eq_of_lt hl] at h; omega
    · rw [show i + 1 = n by omega, Nat.mod_self] at h; omega
  have h1 := lt_of_le_of_ne (h _ hm) (hQ.no_three hal hu hc hi hj hm hij hcon him).symm
  have h2 := (hQ.over hal (Q j)).2 ⟨hQ.nonneg hal hj, hQ.near j hj⟩ i hi
  have : area2 (Q i) (Q j) (Q ((i + 1) % n)) = - area2 (Q i) (Q ((i + 1) % n)) (Q j) := by unfold area2; ring
  linarith

end Polyskel
