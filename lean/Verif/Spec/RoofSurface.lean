import Verif.Spec.RoofFace
import Verif.Spec.Mesh
/-
The roof as a surface over the ground.
-/
namespace Polyskel
open Scalar Geo Real

/-- The point at the height `h` over `X` is on one of the faces: seen from above it is over the face, and the
line to each vertex of the face is at right angles to the normal of the face. -/
def OnRoof (V : List (V3 ℝ)) (fs : List (List Int)) (X : V2 ℝ) (h : ℝ) : Prop :=
  ∃ f ∈ fs, OverFace V f X ∧ ∀ v ∈ f, (faceNormal V f).x * (X.x - (vertexAt V v).x) +
    (faceNormal V f).y * (X.y - (vertexAt V v).y) + (faceNormal V f).z * (h - (vertexAt V v).z) = 0

/-- The faces are the graph of a function over the polygon with the `n` vertices `P`, at the height `z` over its
sides, concave (no valleys), and nowhere steeper than `slope`. -/
structure RoofGraph (n : Nat) (P : Nat → V2 ℝ) (z slope : ℝ) (V : List (V3 ℝ)) (fs : List (List Int)) : Prop where
  /-- it is over the polygon, and over nothing else -/
  over : ∀ X, (∀ k, k < n → 0 ≤ sideDist n P k X) ↔ ∃ h, OnRoof V fs X h
  /-- there is one point over each point -/
  unique : ∀ X h h', OnRoof V fs X h → OnRoof V fs X h' → h = h'
  /-- it begins at the sides of the polygon -/
  eaves : ∀ X h k, k < n → sideDist n P k X = 0 → OnRoof V fs X h → h = z
  /-- it is concave -/
  concave : ∀ X Y h h' t, 0 ≤ t → t ≤ 1 → OnRoof V fs X h → OnRoof V fs Y h' →
    ∃ m, OnRoof V fs (Geo.between X Y t) m ∧ (1 - t) * h + t * h' ≤ m
  /-- it is nowhere steeper than `slope` -/
  steep : ∀ X Y h h', OnRoof V fs X h → OnRoof V fs Y h' → |h - h'| ≤ slope * eucl X Y

end Polyskel
