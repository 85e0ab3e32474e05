import Verif.Spec.RoofFace
/-
Water on a roof: the way straight down, and the way along the sides of the faces.
-/
namespace Polyskel
open Scalar Geo Real

/-- The point `X`, moved by `t` at right angles to the side `k` of the polygon with the `n` vertices `P`,
towards the outside (the side has the polygon to its left). -/
noncomputable def outwards (n : Nat) (P : Nat → V2 ℝ) (k : Nat) (t : ℝ) (X : V2 ℝ) : V2 ℝ :=
  ⟨X.x + t * (((P ((k + 1) % n)).y - (P k).y) / eucl (P k) (P ((k + 1) % n))),
   X.y - t * (((P ((k + 1) % n)).x - (P k).x) / eucl (P k) (P ((k + 1) % n)))⟩

/-- Two vertices, next to each other in one of the faces, the second one lower. -/
def Below (verts : List (V3 ℝ)) (fs : List (List Int)) (v w : Nat) : Prop :=
  ∃ f ∈ fs, ∃ i, ((f[i]? = some (v : Int) ∧ f[(i + 1) % f.length]? = some (w : Int)) ∨
      (f[i]? = some (w : Int) ∧ f[(i + 1) % f.length]? = some (v : Int))) ∧
    ∃ V W, verts[v]? = some V ∧ verts[w]? = some W ∧ W.z < V.z

/-- The face `f` over the side `k` is drained by this side: the straight line down from a point over the face
(at right angles to the side) stays over the face, and ends on the side. -/
def Drained (n : Nat) (P : Nat → V2 ℝ) (verts : List (V3 ℝ)) (k : Nat) (f : List Int) : Prop :=
  ∀ X, OverFace verts f X →
    (∀ t, 0 ≤ t → t ≤ sideDist n P k X → OverFace verts f (outwards n P k t X)) ∧
    ∃ u, 0 ≤ u ∧ u ≤ 1 ∧ outwards n P k (sideDist n P k X) X = Geo.between (P k) (P ((k + 1) % n)) u

end Polyskel
