import Mathlib.Analysis.SpecialFunctions.Trigonometric.Inverse
import Mathlib.Tactic.Linarith
import Mathlib.Tactic.Ring
import Mathlib.Tactic.FieldSimp
import Mathlib.Tactic.NormNum
import Mathlib.Tactic.Positivity
import Verif.Spec.Geometry
import Verif.Model.Graph
import Verif.Proofs.Except
/-
C05 (pseudoangle), C06 (circular iterators), C07 (approximate equalities).
-/
namespace Polyskel
open Geo

/-! ### C05 -/

/-- the value of `pseudoangle` for a non-zero direction -/
theorem pseudoangle_eq (x y : ℝ) (h : ¬ (x = 0 ∧ y = 0)) :
    pseudoangle x y = .ok (if y < 0 then 3 + x / (|x| + |y|) else 1 - x / (|x| + |y|)) := by
  have h0 : |x| + |y| ≠ 0 := by
    intro h'
    have hx := abs_nonneg x
    have hy := abs_nonneg y
    exact h ⟨abs_eq_zero.1 (by linarith), abs_eq_zero.1 (by linarith)⟩
  simp only [pseudoangle, pydiv, ex_abs, ex_add, ex_eq, ex_zero, if_neg h0, ok_bind, ex_div,
    ex_lit, ex_one, ex_sub, ex_lt]
  split <;> simp

/-- the numerical value for `r * (cos t, sin t)` -/
noncomputable def pangle (t : ℝ) : ℝ :=
  if Real.sin t < 0 then 3 + Real.cos t / (|Real.cos t| + |Real.sin t|)
  else 1 - Real.cos t / (|Real.cos t| + |Real.sin t|)

theorem polar_ne_zero {r : ℝ} (hr : 0 < r) (t : ℝ) :
    ¬ (r * Real.cos t = 0 ∧ r * Real.sin t = 0) := by
  rintro ⟨h1, h2⟩
  have := Real.sin_sq_add_cos_sq t
  rcases mul_eq_zero.1 h1 with h | h
  · linarith
  rcases mul_eq_zero.1 h2 with h' | h'
  · linarith
  rw [h, h'] at this; norm_num at this

theorem pseudoangle_polar (r t : ℝ) (hr : 0 < r) :
    pseudoangle (r * Real.cos t) (r * Real.sin t) = .ok (pangle t) := by
  rw [pseudoangle_eq _ _ (polar_ne_zero hr t)]
  unfold pangle
  have e : r * Real.cos t / (|r * Real.cos t| + |r * Real.sin t|) =
      Real.cos t / (|Real.cos t| + |Real.sin t|) := by
    rw [abs_mul, abs_mul, abs_of_pos hr, ← mul_add, mul_div_mul_left _ _ (ne_of_gt hr)]
  rw [e]
  by_cases hs : Real.sin t < 0
  · rw [if_pos hs, if_pos (mul_neg_of_pos_of_neg hr hs)]
  · rw [if_neg hs, if_neg (not_lt.2 (mul_nonneg hr.le (not_lt.1 hs)))]

theorem cs_pos (t : ℝ) : 0 < |Real.cos t| + |Real.sin t| := by
  have := polar_ne_zero one_pos t
  simp only [one_mul] at this
  rcases not_and_or.1 this with h | h
  · have := abs_pos.2 h; have := abs_nonneg (Real.sin t); linarith
  · have := abs_pos.2 h; have := abs_nonneg (Real.cos t); linarith

/-- a fraction `c / (|c| + |s|)` lies between -1 and 1 -/
theorem ratio_bounds (t : ℝ) : -1 ≤ Real.cos t / (|Real.cos t| + |Real.sin t|) ∧
    Real.cos t / (|Real.cos t| + |Real.sin t|) ≤ 1 := by
  have hp := cs_pos t
  have h1 := neg_abs_le (Real.cos t)
  have h2 := le_abs_self (Real.cos t)
  have h3 := abs_nonneg (Real.sin t)
  constructor
  · rw [le_div_iff₀ hp]; linarith
  · rw [div_le_iff₀ hp]; linarith

theorem ratio_bounds_lt (t : ℝ) (hs : Real.sin t ≠ 0) :
    -1 < Real.cos t / (|Real.cos t| + |Real.sin t|) ∧
    Real.cos t / (|Real.cos t| + |Real.sin t|) < 1 := by
  have hp := cs_pos t
  have h1 := neg_abs_le (Real.cos t)
  have h2 := le_abs_self (Real.cos t)
  have h3 := abs_pos.2 hs
  constructor
  · rw [lt_div_iff₀ hp]; linarith
  · rw [div_lt_iff₀ hp]; linarith

theorem abs_mono_aux {a b : ℝ} (h : b ≤ a) : b * |a| ≤ a * |b| := by
  rcases le_or_gt 0 b with hb | hb
  · rw [abs_of_nonneg hb, abs_of_nonneg (le_trans hb h), mul_comm]
  · rw [abs_of_neg hb]
    rcases le_or_gt 0 a with ha | ha
    · rw [abs_of_nonneg ha]; nlinarith
    · rw [abs_of_neg ha]; nlinarith

theorem pangle_mono {s t : ℝ} (h0 : 0 ≤ s) (hst : s < t) (ht : t < 2 * Real.pi) :
    pangle s < pangle t := by
  have hpi := Real.pi_pos
  have hps := cs_pos s
  have hpt := cs_pos t
  have hdiff : Real.sin (t - s) = Real.sin t * Real.cos s - Real.cos t * Real.sin s := by
    rw [Real.sin_sub]
  unfold pangle
  rcases le_or_gt t Real.pi with htp | htp
  · -- both in the upper half plane
    have hs1 : 0 ≤ Real.sin s := Real.sin_nonneg_of_nonneg_of_le_pi h0 (by linarith)
    have ht1 : 0 ≤ Real.sin t := Real.sin_nonneg_of_nonneg_of_le_pi (by linarith) htp
    rw [if_neg (not_lt.2 hs1), if_neg (not_lt.2 ht1)]
    have hc : Real.cos t < Real.cos s := Real.cos_lt_cos_of_nonneg_of_le_pi h0 htp hst
    have h1 := abs_mono_aux hc.le
    have h2 : 0 ≤ Real.sin (t - s) := Real.sin_nonneg_of_nonneg_of_le_pi (by linarith) (by linarith)
    have key : Real.cos t / (|Real.cos t| + |Real.sin t|) <
        Real.cos s / (|Real.cos s| + |Real.sin s|) := by
      rw [div_lt_div_iff₀ hpt hps, abs_of_nonneg hs1, abs_of_nonneg ht1]
      rcases lt_or_eq_of_le h2 with h2 | h2
      · nlinarith
      · -- then s = 0 and t = pi
        have hts : t - s = Real.pi := by
          by_contra hne
          have := Real.sin_pos_of_pos_of_lt_pi (x := t - s) (by linarith)
            (lt_of_le_of_ne (by linarith) hne)
          linarith
        have hs0 : s = 0 := by linarith
        have ht0 : t = Real.pi := by linarith
        subst hs0 ht0
        norm_num
    linarith
  · have ht1 : Real.sin t < 0 := by
      have := Real.sin_neg_of_neg_of_neg_pi_lt (x := t - 2 * Real.pi) (by linarith) (by linarith)
      rwa [Real.sin_sub_two_pi] at this
    rw [if_pos ht1]
    rcases le_or_gt s Real.pi with hsp | hsp
    · have hs1 : 0 ≤ Real.sin s := Real.sin_nonneg_of_nonneg_of_le_pi h0 hsp
      rw [if_neg (not_lt.2 hs1)]
      have b1 := (ratio_bounds s).1
      have b2 := (ratio_bounds_lt t (ne_of_lt ht1)).1
      linarith
    · have hs1 : Real.sin s < 0 := by
        have := Real.sin_neg_of_neg_of_neg_pi_lt (x := s - 2 * Real.pi) (by linarith) (by linarith)
        rwa [Real.sin_sub_two_pi] at this
      rw [if_pos hs1]
      have hc : Real.cos s ≤ Real.cos t := by
        have := Real.cos_le_cos_of_nonneg_of_le_pi (x := 2 * Real.pi - t) (y := 2 * Real.pi - s)
          (by linarith) (by linarith) (by linarith)
        rwa [Real.cos_two_pi_sub, Real.cos_two_pi_sub] at this
      have h1 := abs_mono_aux hc
      have h2 : 0 < Real.sin (t - s) := Real.sin_pos_of_pos_of_lt_pi (by linarith) (by linarith)
      have key : Real.cos s / (|Real.cos s| + |Real.sin s|) <
          Real.cos t / (|Real.cos t| + |Real.sin t|) := by
        rw [div_lt_div_iff₀ hps hpt, abs_of_neg hs1, abs_of_neg ht1]
        nlinarith
      linarith

/-- C05: pseudoangle of a direction with polar angle `t` in [0, 2 pi) is strictly increasing in
`t` and does not depend on the length of the direction; its value lies in [0, 4). -/
theorem C05_pseudoangle_polar (r₁ r₂ s t : ℝ) (hr₁ : 0 < r₁) (hr₂ : 0 < r₂)
    (hs : 0 ≤ s) (hs' : s < 2 * Real.pi) (ht : 0 ≤ t) (ht' : t < 2 * Real.pi) :
    ∃ a b, pseudoangle (r₁ * Real.cos s) (r₁ * Real.sin s) = .ok a ∧
      pseudoangle (r₂ * Real.cos t) (r₂ * Real.sin t) = .ok b ∧
      0 ≤ a ∧ a < 4 ∧ (a < b ↔ s < t) ∧ (a = b ↔ s = t) := by
  refine ⟨_, _, pseudoangle_polar r₁ s hr₁, pseudoangle_polar r₂ t hr₂, ?_, ?_, ?_, ?_⟩
  · unfold pangle
    have := ratio_bounds s
    split <;> linarith
  · unfold pangle
    have := ratio_bounds s
    split
    · rename_i h
      have := (ratio_bounds_lt s (ne_of_lt h)).2
      linarith
    · linarith
  · constructor
    · intro h
      by_contra hn
      rcases lt_or_eq_of_le (not_lt.1 hn) with h' | h'
      · exact absurd (pangle_mono ht h' hs') (not_lt.2 h.le)
      · rw [h'] at h; exact lt_irrefl _ h
    · intro h; exact pangle_mono hs h ht'
  · constructor
    · intro h
      rcases lt_trichotomy s t with h' | h' | h'
      · exact absurd h (ne_of_lt (pangle_mono hs h' ht'))
      · exact h'
      · exact absurd h.symm (ne_of_lt (pangle_mono ht h' hs'))
    · intro h; rw [h]

/-- C05: every non-zero direction has such a polar form, so the theorem above covers all of
them. -/
theorem C05_polar_form (x y : ℝ) (h : ¬ (x = 0 ∧ y = 0)) :
    ∃ r t, 0 < r ∧ 0 ≤ t ∧ t < 2 * Real.pi ∧ x = r * Real.cos t ∧ y = r * Real.sin t := by
  have hpos : 0 < x * x + y * y := by
    rcases not_and_or.1 h with h | h
    · have := mul_self_pos.2 h; have := mul_self_nonneg y; linarith
    · have := mul_self_pos.2 h; have := mul_self_nonneg x; linarith
  set r := Real.sqrt (x * x + y * y) with hr
  have hr0 : 0 < r := Real.sqrt_pos.2 hpos
  have hrr : r * r = x * x + y * y := Real.mul_self_sqrt hpos.le
  have hc1 : -1 ≤ x / r := by
    rw [le_div_iff₀ hr0]; nlinarith [mul_self_nonneg y]
  have hc2 : x / r ≤ 1 := by
    rw [div_le_iff₀ hr0]; nlinarith [mul_self_nonneg y]
  have hcos : Real.cos (Real.arccos (x / r)) = x / r := Real.cos_arccos hc1 hc2
  have hx : x = r * (x / r) := by field_simp
  have hsq : Real.sqrt (1 - (x / r) ^ 2) = |y| / r := by
    have : 1 - (x / r) ^ 2 = (|y| / r) ^ 2 := by
      rw [div_pow, div_pow, sq_abs]; field_simp; nlinarith
    rw [this]; exact Real.sqrt_sq (by positivity)
  rcases le_or_gt 0 y with hy | hy
  · refine ⟨r, Real.arccos (x / r), hr0, Real.arccos_nonneg _, ?_, ?_, ?_⟩
    · have := Real.arccos_le_pi (x / r); have := Real.pi_pos; linarith
    · rw [hcos]; exact hx
    · rw [Real.sin_arccos, hsq, abs_of_nonneg hy]; field_simp
  · have hp : 0 < Real.arccos (x / r) := by
      rw [Real.arccos_pos]
      rw [div_lt_iff₀ hr0]; nlinarith [mul_self_pos.2 (ne_of_lt hy)]
    refine ⟨r, 2 * Real.pi - Real.arccos (x / r), hr0, ?_, by linarith, ?_, ?_⟩
    · have := Real.arccos_le_pi (x / r); have := Real.pi_pos; linarith
    · rw [Real.cos_two_pi_sub, hcos]; exact hx
    · rw [Real.sin_two_pi_sub, Real.sin_arccos, hsq, abs_of_neg hy]; field_simp

/-- C05: it raises exactly for the zero direction. -/
theorem C05_pseudoangle_raises (x y : ℝ) :
    pseudoangle x y = .error .zeroDivision ↔ x = 0 ∧ y = 0 := by
  constructor
  · intro h
    by_contra hn
    rw [pseudoangle_eq x y hn] at h
    simp at h
  · rintro ⟨rfl, rfl⟩
    simp [pseudoangle, pydiv]

/-- case: north (pi/2) comes before south-west -/
example : ∃ a b, pseudoangle (0 : ℝ) 1 = .ok a ∧ pseudoangle (-1 : ℝ) (-1) = .ok b ∧ a < b := by
  refine ⟨1, 3 + (-1) / 2, ?_, ?_, by norm_num⟩
  · rw [pseudoangle_eq _ _ (by norm_num)]; norm_num
  · rw [pseudoangle_eq _ _ (by norm_num)]; norm_num

/-! ### C06 -/

/-- C06: the pairs yielded by `_iterCircularPrevNext` -/
theorem C06_iterPrevNext {α : Type} (l : List α) (h : l ≠ []) :
    ∃ r, iterPrevNext l = .ok r ∧ r.length = l.length ∧
      ∀ i (hi : i < l.length),
        r[i]? = some (l[(i + l.length - 1) % l.length]'(Nat.mod_lt _ (by omega)), l[i]) := by
  have hpos : 0 < l.length := List.length_pos_iff.2 h
  refine ⟨_, by simp only [iterPrevNext, if_neg (ne_of_gt hpos)]; rfl, ?_, ?_⟩
  · simp
  · intro i hi
    rw [List.getElem?_eq_getElem (by simp; omega)]
    simp only [List.getElem_zip, Option.some.injEq, Prod.mk.injEq, and_true]
    rw [List.getElem_append]
    split
    · rename_i hlt
      simp at hlt
      rw [List.getElem_drop]
      congr 1
      rw [Nat.mod_eq_of_lt (by omega)]; omega
    · rename_i hlt
      simp at hlt
      rw [List.getElem_take]
      congr 1
      simp only [List.length_drop]
      have : i + l.length - 1 = (i - 1) + l.length := by omega
      rw [this, Nat.add_mod_right, Nat.mod_eq_of_lt (by omega)]; omega

/-- C06: the triples yielded by `_iterCircularPrevThisNext` -/
theorem C06_iterPrevThisNext {α : Type} (l : List α) (h : l ≠ []) :
    ∃ r, iterPrevThisNext l = .ok r ∧ r.length = l.length ∧
      ∀ i (hi : i < l.length),
        r[i]? = some (l[(i + l.length - 1) % l.length]'(Nat.mod_lt _ (by omega)), l[i],
          l[(i + 1) % l.length]'(Nat.mod_lt _ (by omega))) := by
  have hpos : 0 < l.length := List.length_pos_iff.2 h
  refine ⟨_, by simp only [iterPrevThisNext, if_neg (ne_of_gt hpos)]; rfl, ?_, ?_⟩
  · simp; omega
  · intro i hi
    rw [List.getElem?_eq_getElem (by simp; omega)]
    simp only [List.getElem_zip, Option.some.injEq, Prod.mk.injEq, true_and]
    constructor
    · rw [List.getElem_append]
      split
      · rename_i hlt
        simp at hlt
        rw [List.getElem_drop]
        congr 1
        rw [Nat.mod_eq_of_lt (by omega)]; omega
      · rename_i hlt
        simp at hlt
        rw [List.getElem_take]
        congr 1
        simp only [List.length_drop]
        have : i + l.length - 1 = (i - 1) + l.length := by omega
        rw [this, Nat.add_mod_right, Nat.mod_eq_of_lt (by omega)]; omega
    · rw [List.getElem_append]
      split
      · rename_i hlt
        simp at hlt
        rw [List.getElem_drop]
        congr 1
        rw [Nat.mod_eq_of_lt (by omega)]; omega
      · rename_i hlt
        simp at hlt
        rw [List.getElem_take]
        congr 1
        have h1 : i + 1 = l.length := by omega
        simp only [List.length_drop, h1, Nat.mod_self]
        omega

/-- C06: both raise ValueError exactly for the empty sequence. -/
theorem C06_iter_raises {α : Type} (l : List α) :
    ((∃ e, iterPrevNext l = .error e) ↔ l = []) ∧
    ((∃ e, iterPrevThisNext l = .error e) ↔ l = []) ∧
    (iterPrevNext ([] : List α) = .error .value) ∧
    (iterPrevThisNext ([] : List α) = .error .value) := by
  refine ⟨?_, ?_, rfl, rfl⟩
  · cases l <;> simp [iterPrevNext]
  · cases l <;> simp [iterPrevThisNext]

example : iterPrevThisNext [10, 20, 30] = .ok [(30, 10, 20), (10, 20, 30), (20, 30, 10)] := rfl
example : iterPrevNext [10, 20, 30] = .ok [(30, 10), (10, 20), (20, 30)] := rfl

/-! ### C07 -/

/-- the magnitude of a vector -/
noncomputable def mag (a : V2 ℝ) : ℝ := eucl a ⟨0, 0⟩

theorem length_sub (a b : V2 ℝ) : V2.length (V2.sub a b) = eucl a b := by
  simp only [V2.length, V2.dot, V2.sub, ex_sqrt, ex_rnd, ex_sub, ex_mul, ex_add, eucl]
  congr 1; ring

theorem length_mag (a : V2 ℝ) : V2.length a = mag a := by
  simp only [V2.length, V2.dot, ex_sqrt, ex_mul, ex_add, mag, eucl]
  congr 1; ring

theorem eucl_self (a : V2 ℝ) : eucl a a = 0 := by simp [eucl]
theorem eucl_comm (a b : V2 ℝ) : eucl a b = eucl b a := by
  unfold eucl; congr 1; ring
theorem eucl_nonneg (a b : V2 ℝ) : 0 ≤ eucl a b := Real.sqrt_nonneg _

/-- C07: meaning of `_approximately_equals` -/
theorem C07_approximatelyEquals_iff (a b : V2 ℝ) :
    approximatelyEquals a b = true ↔ eucl a b ≤ max (mag a) (mag b) * (1 / 1000) := by
  simp only [approximatelyEquals, Bool.or_eq_true, ex_veq, ex_le, length_sub, length_mag a, length_mag b,
    ex_mul, ex_pymax, ex_lit]
  constructor
  · rintro (rfl | h)
    · rw [eucl_self]
      have : 0 ≤ mag a := eucl_nonneg _ _
      have := le_max_left (mag a) (mag a)
      positivity
    · push_cast at h; linarith
  · intro h; right; push_cast; linarith

/-- C07: it is reflexive and symmetric -/
theorem C07_approximatelyEquals_refl_symm :
    (∀ a : V2 ℝ, approximatelyEquals a a = true) ∧
    (∀ a b : V2 ℝ, approximatelyEquals a b = approximatelyEquals b a) := by
  constructor
  · intro a; simp [approximatelyEquals]
  · intro a b
    rw [Bool.eq_iff_iff, C07_approximatelyEquals_iff, C07_approximatelyEquals_iff, eucl_comm,
      max_comm]

/-- C07: meaning of `robustFloatEqual` -/
theorem C07_robustFloatEqual_iff (a b : ℝ) :
    robustFloatEqual a b = true ↔
      |a - b| ≤ 1 / 100000 ∨ |a - b| ≤ 1 / 100000 * max |a| |b| := by
  simp only [robustFloatEqual, ex_abs, ex_sub, ex_le, ex_EPSILON, ex_mul, ex_pymax]
  split
  · rename_i h; exact ⟨fun _ => .inl h, fun _ => rfl⟩
  · rename_i h; simp only [ex_le, h, false_or]

/-- C07: it is reflexive and symmetric -/
theorem C07_robustFloatEqual_refl_symm :
    (∀ a : ℝ, robustFloatEqual a a = true) ∧
    (∀ a b : ℝ, robustFloatEqual a b = robustFloatEqual b a) := by
  constructor
  · intro a; rw [C07_robustFloatEqual_iff]; left; simp
  · intro a b
    rw [Bool.eq_iff_iff, C07_robustFloatEqual_iff, C07_robustFloatEqual_iff, abs_sub_comm,
      max_comm]

/-- C07: neither is transitive (the equality used for merging vertices is not an equivalence). -/
theorem C07_not_transitive :
    (¬ ∀ a b c : V2 ℝ, approximatelyEquals a b = true → approximatelyEquals b c = true →
      approximatelyEquals a c = true) ∧
    (¬ ∀ a b c : ℝ, robustFloatEqual a b = true → robustFloatEqual b c = true →
      robustFloatEqual a c = true) := by
  have hm : ∀ x : ℝ, 0 ≤ x → mag ⟨x, 0⟩ = x := by
    intro x hx
    simp only [mag, eucl, sub_zero]
    rw [show x ^ 2 + 0 ^ 2 = x ^ 2 by ring, Real.sqrt_sq hx]
  have he : ∀ x y : ℝ, eucl ⟨x, 0⟩ ⟨y, 0⟩ = |x - y| := by
    intro x y
    simp only [eucl, sub_zero]
    rw [show (x - y) ^ 2 + 0 ^ 2 = (x - y) ^ 2 by ring, Real.sqrt_sq_eq_abs]
  constructor
  · intro h
    have := h ⟨998, 0⟩ ⟨998.9, 0⟩ ⟨999.8, 0⟩
    simp only [C07_approximatelyEquals_iff] at this
    rw [he, he, he, hm _ (by norm_num), hm _ (by norm_num), hm _ (by norm_num)] at this
    norm_num [abs_of_neg, abs_of_nonneg] at this
  · intro h
    have := h 0 (1 / 100000) (2 / 100000)
    simp only [C07_robustFloatEqual_iff] at this
    norm_num [abs_of_neg, abs_of_nonneg] at this

/-- case: 1000 and 1000.005 are robustly equal, 1 and 1.005 are not -/
example : robustFloatEqual (1000 : ℝ) 1000.005 = true ∧ robustFloatEqual (1 : ℝ) 1.005 = false := by
  constructor
  · rw [C07_robustFloatEqual_iff]; right; norm_num [abs_of_neg]
  · rw [← Bool.not_eq_true, C07_robustFloatEqual_iff]; norm_num [abs_of_neg]

end Polyskel
