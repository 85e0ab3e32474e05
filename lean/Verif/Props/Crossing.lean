import Mathlib.Algebra.BigOperators.Fin
import Mathlib.Tactic.Linarith
import Mathlib.Tactic.LinearCombination
import Mathlib.Tactic.Ring
import Mathlib.Tactic.FieldSimp
import Mathlib.Tactic.NormNum
import Verif.Spec.Geometry
import Verif.Model.Skel
/-
C43: checkEdgeCrossing (bpypolyskel.py:470-493), exact arithmetic.
-/
namespace Polyskel
open Geo

/-- The segments `AB` and `CD` are not parallel and cross at a point which, on both of them, is
away from the ends by more than the fraction 1e-5. -/
def CrossInside (A B C D : V2 ℝ) : Prop :=
  ¬ Parallel ⟨B.x - A.x, B.y - A.y⟩ ⟨D.x - C.x, D.y - C.y⟩ ∧
  ∃ r s : ℝ, 1 / 100000 < r ∧ r < 1 - 1 / 100000 ∧ 1 / 100000 < s ∧ s < 1 - 1 / 100000 ∧
    between A B r = between C D s

theorem CrossInside.symm {A B C D : V2 ℝ} (h : CrossInside A B C D) : CrossInside C D A B := by
  obtain ⟨h0, r, s, h1, h2, h3, h4, h5⟩ := h
  refine ⟨fun h => h0 ?_, s, r, h3, h4, h1, h2, h5.symm⟩
  simp only [Parallel] at h ⊢; linarith

theorem edgesCross_iff (A B C D : V2 ℝ) : edgesCross A B C D = true ↔ CrossInside A B C D := by
  obtain ⟨ax, ay⟩ := A
  obtain ⟨bx, by'⟩ := B
  obtain ⟨cx, cy⟩ := C
  obtain ⟨dx, dy⟩ := D
  simp only [edgesCross, CrossInside, Parallel, between, ex_sub, ex_mul, ex_div, ex_zero,
    ex_eq, ex_EPSILON, ex_one]
  by_cases hd : (bx - ax) * (dy - cy) - (by' - ay) * (dx - cx) = 0
  · rw [if_pos hd]
    simp only [Bool.false_eq_true, false_iff, not_and]
    intro h; exact absurd (by linarith) h
  · rw [if_neg hd]
    simp only [Bool.not_eq_true', Bool.or_eq_false_iff, ex_le_false]
    have hd' : ¬ (bx - ax) * (dy - cy) = (by' - ay) * (dx - cx) := fun h => hd (by linarith)
    constructor
    · rintro ⟨⟨h1, h2⟩, h3, h4⟩
      refine ⟨hd', _, _, h1, h2, h3, h4, ?_⟩
      have hq := mul_inv_cancel₀ hd
      simp only [div_eq_mul_inv]
      generalize ((bx - ax) * (dy - cy) - (by' - ay) * (dx - cx))⁻¹ = q at hq
      congr 1
      · linear_combination (cx - ax) * hq
      · linear_combination (cy - ay) * hq
    · rintro ⟨_, r, s, h1, h2, h3, h4, h5⟩
      simp only [V2.mk.injEq] at h5
      obtain ⟨e1, e2⟩ := h5
      have hr : ((ay - cy) * (dx - cx) - (ax - cx) * (dy - cy)) /
          ((bx - ax) * (dy - cy) - (by' - ay) * (dx - cx)) = r := by
        rw [div_eq_iff hd]
        linear_combination (cy - dy) * e1 + (dx - cx) * e2
      have hs : ((ay - cy) * (bx - ax) - (ax - cx) * (by' - ay)) /
          ((bx - ax) * (dy - cy) - (by' - ay) * (dx - cx)) = s := by
        rw [div_eq_iff hd]
        linear_combination (ay - by') * e1 + (bx - ax) * e2
      rw [hr, hs]
      exact ⟨⟨h1, h2⟩, h3, h4⟩

/-- number of unordered pairs of positions of a list whose elements are related -/
noncomputable def pairCount {α : Type} (R : α → α → Prop) (l : List α) : Nat := by
  classical
  exact ∑ i : Fin l.length, ∑ j : Fin l.length, if i < j ∧ R l[i] l[j] then 1 else 0

theorem sum_map_countP {α : Type} (P : α → Prop) [DecidablePred P] (l : List α) :
    (l.countP (fun a => decide (P a))) = ∑ j : Fin l.length, if P l[j] then 1 else 0 := by
  induction l with
  | nil => simp
  | cons a l ih =>
    rw [List.countP_cons, ih]
    simp only [List.length_cons]
    rw [Fin.sum_univ_succ]
    rw [add_comm]; simp only [decide_eq_true_eq]; rfl

theorem pairs_count {α : Type} (R : α → α → Prop) (f : α × α → Bool)
    (hf : ∀ a b, f (a, b) = true ↔ R a b) (l : List α) :
    ((pairs l).filter f).length = pairCount R l := by
  classical
  unfold pairCount
  rw [← List.countP_eq_length_filter]
  induction l with
  | nil => simp [pairs]
  | cons a l ih =>
    simp only [pairs, List.countP_append, ih, List.countP_map, List.length_cons]
    rw [Fin.sum_univ_succ, Fin.sum_univ_succ]
    have h1 : List.countP (f ∘ fun b => (a, b)) l = List.countP (fun b => decide (R a b)) l := by
      congr 1; funext b
      rw [Bool.eq_iff_iff]; simp [hf]
    rw [h1, sum_map_countP (fun b => R a b)]
    simp only [lt_self_iff_false, false_and, if_false, zero_add]
    congr 1
    · apply Finset.sum_congr rfl; intro j _
      simp
    · apply Finset.sum_congr rfl; intro i _
      rw [Fin.sum_univ_succ]
      simp

/-- C43: the returned number is the number of unordered pairs of crossing connections. -/
theorem C43_checkEdgeCrossing_count (sk : List (Subtree ℝ)) :
    checkEdgeCrossing sk =
      pairCount (fun e f => CrossInside e.1 e.2 f.1 f.2)
        (sk.flatMap (fun node => node.sinks.map (fun s => (node.source, s)))) := by
  unfold checkEdgeCrossing skelEdges
  exact pairs_count _ _ (fun a b => edgesCross_iff a.1 a.2 b.1 b.2) _

theorem pairs_count_perm {α : Type} (f : α × α → Bool) (hs : ∀ a b, f (a, b) = f (b, a))
    {l l' : List α} (h : l.Perm l') : (pairs l).countP f = (pairs l').countP f := by
  induction h with
  | nil => rfl
  | cons a h ih =>
    simp only [pairs, List.countP_append, ih]
    congr 1
    exact (h.map _).countP_eq _
  | swap a b l =>
    simp only [pairs, List.map_cons, List.cons_append, List.countP_cons, List.countP_append, hs a b]
    omega
  | trans _ _ ih1 ih2 => rw [ih1, ih2]

/-- C43: it does not depend on the order of the nodes. -/
theorem C43_checkEdgeCrossing_perm (sk sk' : List (Subtree ℝ)) (h : sk.Perm sk') :
    checkEdgeCrossing sk = checkEdgeCrossing sk' := by
  unfold checkEdgeCrossing skelEdges
  rw [← List.countP_eq_length_filter, ← List.countP_eq_length_filter]
  apply pairs_count_perm
  · intro a b
    rw [Bool.eq_iff_iff, edgesCross_iff, edgesCross_iff]
    exact ⟨CrossInside.symm, CrossInside.symm⟩
  · exact h.flatMap_right _

/-- case: the diagonals of a square cross, two of its sides do not -/
example : CrossInside ⟨0, 0⟩ ⟨2, 2⟩ ⟨0, 2⟩ ⟨2, 0⟩ ∧ ¬ CrossInside ⟨0, 0⟩ ⟨2, 0⟩ ⟨2, 0⟩ ⟨2, 2⟩ := by
  constructor
  · refine ⟨by norm_num [Parallel], 1 / 2, 1 / 2, ?_⟩
    norm_num [between]
  · rintro ⟨_, r, s, h1, h2, h3, h4, h5⟩
    simp only [between, V2.mk.injEq] at h5
    norm_num at *; linarith

end Polyskel
