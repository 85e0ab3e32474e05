import Verif.Spec.RoofFace
/-
The vocabulary of C83: discs in a polygon.
-/
namespace Polyskel
open Scalar Geo Real

/-- The disc about `X` with the radius `r` lies in the polygon with the `n` vertices `P`. -/
def DiscWithin (n : Nat) (P : Nat → V2 ℝ) (X : V2 ℝ) (r : ℝ) : Prop :=
  0 ≤ r ∧ ∀ Y, eucl X Y ≤ r → ∀ k, k < n → 0 ≤ area2 (P k) (P ((k + 1) % n)) Y

end Polyskel
