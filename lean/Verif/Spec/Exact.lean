import Mathlib.Analysis.Real.Sqrt
import Verif.Model.Scalar
/-
Exact arithmetic: the real numbers, no rounding, exact comparisons.
-/
namespace Polyskel
open Scalar

noncomputable instance : Scalar ℝ where
  add := (· + ·)
  sub := (· - ·)
  mul := (· * ·)
  div := (· / ·)
  neg := (- ·)
  abs := (|·|)
  sqrt := Real.sqrt
  lt a b := by classical exact decide (a < b)
  le a b := by classical exact decide (a ≤ b)
  eq a b := by classical exact decide (a = b)
  rnd := id
  feq a b := by classical exact decide (a = b)
  lit n d := (n : ℝ) / (d : ℝ)

section
variable (a b : ℝ)
@[simp] theorem ex_add : Scalar.add a b = a + b := rfl
@[simp] theorem ex_sub : Scalar.sub a b = a - b := rfl
@[simp] theorem ex_mul : Scalar.mul a b = a * b := rfl
@[simp] theorem ex_div : Scalar.div a b = a / b := rfl
@[simp] theorem ex_neg : Scalar.neg a = -a := rfl
@[simp] theorem ex_abs : Scalar.abs a = |a| := rfl
@[simp] theorem ex_sqrt : Scalar.sqrt a = Real.sqrt a := rfl
@[simp] theorem ex_rnd : Scalar.rnd a = a := rfl
@[simp] theorem ex_lt : (Scalar.lt a b = true) ↔ a < b := by simp [Scalar.lt]
@[simp] theorem ex_le : (Scalar.le a b = true) ↔ a ≤ b := by simp [Scalar.le]
@[simp] theorem ex_eq : (Scalar.eq a b = true) ↔ a = b := by simp [Scalar.eq]
@[simp] theorem ex_feq : (Scalar.feq a b = true) ↔ a = b := by simp [Scalar.feq]
@[simp] theorem ex_lt_false : (Scalar.lt a b = false) ↔ b ≤ a := by simp [Scalar.lt]
@[simp] theorem ex_le_false : (Scalar.le a b = false) ↔ b < a := by simp [Scalar.le]
@[simp] theorem ex_eq_false : (Scalar.eq a b = false) ↔ a ≠ b := by simp [Scalar.eq]
@[simp] theorem ex_feq_false : (Scalar.feq a b = false) ↔ a ≠ b := by simp [Scalar.feq]
@[simp] theorem ex_lit (n : Int) (d : Nat) : (Scalar.lit n d : ℝ) = (n : ℝ) / (d : ℝ) := rfl
@[simp] theorem ex_zero : (fzero : ℝ) = 0 := by simp [fzero]
@[simp] theorem ex_one : (fone : ℝ) = 1 := by simp [fone]
theorem ex_EPSILON : (EPSILON : ℝ) = 1 / 100000 := by norm_num [EPSILON]
theorem ex_PARALLEL : (PARALLEL : ℝ) = 1 / 100 := by norm_num [PARALLEL]
theorem ex_pymin : pymin a b = min a b := by
  unfold pymin; split <;> rename_i h
  · rw [min_eq_right (le_of_lt (by simpa using h))]
  · rw [min_eq_left (by simpa using h)]
theorem ex_pymax : pymax a b = max a b := by
  unfold pymax; split <;> rename_i h
  · rw [max_eq_right (le_of_lt (by simpa using h))]
  · rw [max_eq_left (by simpa using h)]
end

/-- equality of vectors is exact -/
@[simp] theorem ex_veq (a b : V2 ℝ) : V2.veq a b = true ↔ a = b := by
  cases a; cases b; simp [V2.veq]
@[simp] theorem ex_teq (a b : V2 ℝ) : V2.teq a b = true ↔ a = b := by
  cases a; cases b; simp [V2.teq]
@[simp] theorem ex_mem (a : V2 ℝ) (l : List (V2 ℝ)) : V2.mem a l = true ↔ a ∈ l := by
  simp [V2.mem, List.any_eq_true]

end Polyskel
