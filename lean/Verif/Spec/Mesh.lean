import Mathlib.Data.List.Rotate
import Mathlib.Analysis.Real.Sqrt
import Verif.Model.Scalar
/-
Meshes: lists of faces, each the list of the numbers of its vertices.
-/
namespace Polyskel

/-- the directed edges of the faces, from each vertex of a face to the next one, and from the last to the
first -/
def meshDarts (fs : List (List Int)) : List (Int × Int) := fs.flatMap fun f => f.zip (f.rotate 1)

/-- The mesh is a surface with an orientation, and its border consists of the directed edges `border`: no
directed edge is in two faces or twice in a face; each is matched by the opposite one in the neighbouring
face, but those of the border are not. -/
structure Bounded (fs : List (List Int)) (border : List (Int × Int)) : Prop where
  once : (meshDarts fs).Nodup
  bord : ∀ d ∈ border, d ∈ meshDarts fs
  match_iff : ∀ d ∈ meshDarts fs, (d.2, d.1) ∉ meshDarts fs ↔ d ∈ border

/-- the directed edges around a polygon of `num` vertices, numbered from `first` -/
def polygonDarts (first num : Nat) : List (Int × Int) :=
  (List.range num).map fun k => (((first + k : Nat) : Int), ((first + (k + 1) % num : Nat) : Int))

/-- the vertex with this number -/
def vertexAt (V : List (V3 ℝ)) (v : Int) : V3 ℝ := (V[v.toNat]?).getD ⟨0, 0, 0⟩

/-- The vector area of a face, doubled: the sum of the cross products of successive vertices.  It is orthogonal
to a plane face, and as long as twice its area. -/
noncomputable def faceNormal (V : List (V3 ℝ)) (f : List Int) : V3 ℝ where
  x := ((f.zip (f.rotate 1)).map fun d =>
    (vertexAt V d.1).y * (vertexAt V d.2).z - (vertexAt V d.1).z * (vertexAt V d.2).y).sum
  y := ((f.zip (f.rotate 1)).map fun d =>
    (vertexAt V d.1).z * (vertexAt V d.2).x - (vertexAt V d.1).x * (vertexAt V d.2).z).sum
  z := ((f.zip (f.rotate 1)).map fun d =>
    (vertexAt V d.1).x * (vertexAt V d.2).y - (vertexAt V d.1).y * (vertexAt V d.2).x).sum

/-- the area of a plane face in space -/
noncomputable def faceArea (V : List (V3 ℝ)) (f : List Int) : ℝ :=
  Real.sqrt ((faceNormal V f).x ^ 2 + (faceNormal V f).y ^ 2 + (faceNormal V f).z ^ 2) / 2

/-- the area of the polygon with the `n` vertices `P` (signed; positive if they are anticlockwise) -/
noncomputable def polygonArea (n : Nat) (P : Nat → V2 ℝ) : ℝ :=
  ((List.range n).map fun k => (P k).x * (P ((k + 1) % n)).y - (P k).y * (P ((k + 1) % n)).x).sum / 2

end Polyskel
