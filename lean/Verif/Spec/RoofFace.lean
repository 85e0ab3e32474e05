import Verif.Model.Polygonize
import Verif.Spec.Roof
/-
The vocabulary of C62 and C64: a face of the roof in the result of `polygonize`, and the roof as a whole.
-/
namespace Polyskel
open Scalar Geo

/-- The face over the edge `e`, number `k` of the polygon's edges `c`, as it should be. -/
structure RoofFace (a : PolyArgs ℝ) (c : List (Edge2 ℝ)) (e : Edge2 ℝ) (z slope : ℝ)
    (verts : List (V3 ℝ)) (k : Nat) (f : List Int) : Prop where
  /-- it starts with the edge -/
  first : f[0]? = some ((a.first + k : Nat) : Int)
  second : f[1]? = some ((a.first + (k + 1) % a.num : Nat) : Int)
  size : 3 ≤ f.length
  nodup : f.Nodup
  index : ∀ v ∈ f, 0 ≤ v ∧ v < verts.length
  /-- its other vertices are new ones; they are inside, and in a plane through the edge -/
  plane : ∀ (i : Nat) v, 2 ≤ i → f[i]? = some v → (a.verts.length : Int) ≤ v ∧
    ∀ V, verts[v.toNat]? = some V → 0 < height e.p1 e.norm V.xy ∧
      V.z = z + slope * height e.p1 e.norm V.xy
  /-- no edge of the polygon is nearer -/
  nearest : ∀ v ∈ f, ∀ V, verts[v.toNat]? = some V → ∀ g ∈ c,
    height e.p1 e.norm V.xy ≤ height g.p1 g.norm V.xy
  /-- seen from above it turns left at each vertex -/
  left : ∀ (i : Nat) p t x P T X, f[i]? = some p → f[(i + 1) % f.length]? = some t →
    f[(i + 2) % f.length]? = some x → verts[p.toNat]? = some P → verts[t.toNat]? = some T →
    verts[x.toNat]? = some X → 0 < area2 P.xy T.xy X.xy
  /-- each of its sides but the first is on a ridge: both ends are as near to another edge -/
  ridge : ∀ (i : Nat) p t P T, i ≠ 0 → f[i]? = some p → f[(i + 1) % f.length]? = some t →
    verts[p.toNat]? = some P → verts[t.toNat]? = some T → ∃ g ∈ c, g.norm ≠ e.norm ∧
      height g.p1 g.norm P.xy = height e.p1 e.norm P.xy ∧
      height g.p1 g.norm T.xy = height e.p1 e.norm T.xy

/-- The point is, seen from above, to the left of or on each side of the face. -/
def OverFace (verts : List (V3 ℝ)) (f : List Int) (X : V2 ℝ) : Prop :=
  ∀ (i : Nat) p t P T, f[i]? = some p → f[(i + 1) % f.length]? = some t →
    verts[p.toNat]? = some P → verts[t.toNat]? = some T → 0 ≤ area2 P.xy T.xy X

/-- The point is, seen from above, to the left of each side of the face. -/
def WithinFace (verts : List (V3 ℝ)) (f : List Int) (X : V2 ℝ) : Prop :=
  ∀ (i : Nat) p t P T, f[i]? = some p → f[(i + 1) % f.length]? = some t →
    verts[p.toNat]? = some P → verts[t.toNat]? = some T → 0 < area2 P.xy T.xy X

/-- The distance of a point from the line through the side `k` of the polygon with the `n` vertices `P`,
positive to the left of it. -/
noncomputable def sideDist (n : Nat) (P : Nat → V2 ℝ) (k : Nat) (X : V2 ℝ) : ℝ :=
  area2 (P k) (P ((k + 1) % n)) X / eucl (P k) (P ((k + 1) % n))

/-- The faces `fs` are the roof over the polygon with the `n` vertices `P`, seen from above: -/
structure Tiles (n : Nat) (P : Nat → V2 ℝ) (verts : List (V3 ℝ)) (fs : List (List Int)) (σ : List Nat) :
    Prop where
  /-- exactly the points of the polygon are covered -/
  cover : ∀ X, (∀ k, k < n → 0 ≤ sideDist n P k X) ↔ ∃ f ∈ fs, OverFace verts f X
  /-- no point within one face is covered by another one -/
  apart : ∀ (i j : Nat) f g X, i ≠ j → fs[i]? = some f → fs[j]? = some g → WithinFace verts f X →
    ¬ OverFace verts g X
  /-- no face is empty -/
  fat : ∀ f ∈ fs, ∃ X, WithinFace verts f X
  /-- a face covers the points of the polygon that are not nearer to another side than to its own -/
  cell : List.Forall₂ (fun k f => ∀ X, OverFace verts f X ↔
    0 ≤ sideDist n P k X ∧ ∀ j, j < n → sideDist n P k X ≤ sideDist n P j X) σ fs
  /-- a point is within a face if it is nearer to its side than to the others -/
  inner : List.Forall₂ (fun k f => ∀ X, WithinFace verts f X ↔
    0 < sideDist n P k X ∧ ∀ j, j < n → j ≠ k → sideDist n P k X < sideDist n P j X) σ fs

end Polyskel
