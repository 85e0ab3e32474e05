import Verif.Proofs.RoofSurface
/-
Helper lemmas for C82: an affine function over a convex polygon is least at a vertex.
-/
set_option linter.unusedSectionVars false
namespace Polyskel
open Scalar Geo Real

/-- a point of a convex polygon lies in a triangle of the fan from the first vertex -/
theorem fan_triangle {n : Nat} {P : Nat → V2 ℝ} (h3 : 3 ≤ n) {X : V2 ℝ}
    (hin : ∀ k, k < n → 0 ≤ area2 (P k) (P ((k + 1) % n)) X) :
    ∃ k, 1 ≤ k ∧ k + 1 < n ∧ 0 ≤ area2 (P 0) (P k) X ∧ area2 (P 0) (P (k + 1)) X ≤ 0 := by
  have h1 : 0 ≤ area2 (P 0) (P 1) X := by
    have := hin 0 (by omega)
    rwa [Nat.mod_eq_of_lt (by omega)] at this
  have hlast : area2 (P 0) (P (n - 1)) X ≤ 0 := by
    have := hin (n - 1) (by omega)
    rw [show n - 1 + 1 = n by omega, Nat.mod_self] at this
    have e : area2 (P 0) (P (n - 1)) X = - area2 (P (n - 1)) (P 0) X := by unfold area2; ring
    linarith
  by_contra hno
  push Not at hno
  have hall : ∀ m, m + 2 < n → 0 ≤ area2 (P 0) (P (m + 1)) X ∧ 0 < area2 (P 0) (P (m + 2)) X := by
    intro m
    induction m with
    | zero => exact fun hm => ⟨h1, hno 1 le_rfl hm h1⟩
    | succ m ih =>
      intro hm
      have := ih (by omega)
      exact ⟨this.2.le, hno (m + 2) (by omega) (by omega) this.2.le⟩
  have := (hall (n - 3) (by omega)).2
  rw [show n - 3 + 2 = n - 1 by omega] at this
  linarith

/-- an affine function over a convex polygon is not below its least value at a vertex -/
theorem affine_ge {n : Nat} {P : Nat → V2 ℝ} (h3 : 3 ≤ n)
    (hleft : ∀ i j, i < n → j < n → j ≠ i → j ≠ (i + 1) % n → 0 < area2 (P i) (P ((i + 1) % n)) (P j))
    {u v w c : ℝ} (hc : ∀ k, k < n → c ≤ u * (P k).x + v * (P k).y + w) {X : V2 ℝ}
    (hin : ∀ k, k < n → 0 ≤ area2 (P k) (P ((k + 1) % n)) X) : c ≤ u * X.x + v * X.y + w := by
  obtain ⟨k, k1, k2, a1, a2⟩ := fan_triangle h3 hin
  have a3 := hin k (by omega)
  have hpos := hleft k 0 (by omega) (by omega) (by omega) (by rw [Nat.mod_eq_of_lt (by omega)]; omega)
  rw [Nat.mod_eq_of_lt (by omega)] at a3 hpos
  have e : (u * X.x + v * X.y + w - c) * area2 (P k) (P (k + 1)) (P 0) =
      (u * (P 0).x + v * (P 0).y + w - c) * area2 (P k) (P (k + 1)) X +
      (u * (P k).x + v * (P k).y + w - c) * (- area2 (P 0) (P (k + 1)) X) +
      (u * (P (k + 1)).x + v * (P (k + 1)).y + w - c) * area2 (P 0) (P k) X := by
    unfold area2; ring
  have : 0 ≤ (u * X.x + v * X.y + w - c) * area2 (P k) (P (k + 1)) (P 0) := by
    rw [e]
    have b0 := hc 0 (by omega)
    have b1 := hc k (by omega)
    have b2 := hc (k + 1) (by omega)
    have := mul_nonneg (sub_nonneg.2 b0) a3
    have := mul_nonneg (sub_nonneg.2 b1) (neg_nonneg.2 a2)
    have := mul_nonneg (sub_nonneg.2 b2) a1
    linarith
  have := nonneg_of_mul_nonneg_left this hpos
  linarith

/-- if the vertices of the first polygon are not farther than `ε` from the second one, its distances from the
boundary are not greater than those of the second one by more than `ε` -/
theorem near_sideDist {n n' : Nat} {P P' : Nat → V2 ℝ} (h3 : 3 ≤ n)
    (hleft : ∀ i j, i < n → j < n → j ≠ i → j ≠ (i + 1) % n → 0 < area2 (P i) (P ((i + 1) % n)) (P j))
    (hlen : ∀ k, k < n → 0 < eucl (P k) (P ((k + 1) % n)))
    (hlen' : ∀ k, k < n' → 0 < eucl (P' k) (P' ((k + 1) % n'))) {ε : ℝ}
    (hnear : ∀ k, k < n → ∃ Z, (∀ j, j < n' → 0 ≤ area2 (P' j) (P' ((j + 1) % n')) Z) ∧ eucl (P k) Z ≤ ε)
    {X : V2 ℝ} {k k' : Nat} (hk' : k' < n') (h0 : 0 ≤ sideDist n P k X)
    (hm : ∀ j, j < n → sideDist n P k X ≤ sideDist n P j X) :
    sideDist n P k X - ε ≤ sideDist n' P' k' X := by
  have hl := hlen' k' hk'
  -- the second polygon's distance is bounded below over the first polygon
  have hlow : ∀ Y, (∀ j, j < n → 0 ≤ sideDist n P j Y) → -ε ≤ sideDist n' P' k' Y := by
    intro Y hY
    have e : ∀ Z : V2 ℝ, sideDist n' P' k' Z =
        (-((P' ((k' + 1) % n')).y - (P' k').y) / eucl (P' k') (P' ((k' + 1) % n'))) * Z.x +
        (((P' ((k' + 1) % n')).x - (P' k').x) / eucl (P' k') (P' ((k' + 1) % n'))) * Z.y +
        sideDist n' P' k' ⟨0, 0⟩ := by
      intro Z
      unfold sideDist area2
      ring
    rw [e]
    refine affine_ge h3 hleft ?_ (fun j hj => ?_)
    · intro j hj
      rw [← e]
      obtain ⟨Z, hZ, hd⟩ := hnear j hj
      have h1 : 0 ≤ sideDist n' P' k' Z := div_nonneg (hZ k' hk') hl.le
      have := sideDist_sub_le hl (P j) Z
      linarith
    · have := hY j hj
      rwa [sideDist, le_div_iff₀ (hlen j hj), zero_mul] at this
  have := hlow (outwards n' P' k' (sideDist n P k X) X)
    ((disc_within hlen h0).2 hm _ (outwards_eucl hl h0).le)
  rw [(sideDist_outwards hl hl h0).1] at this
  linarith

end Polyskel
