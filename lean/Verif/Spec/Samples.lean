import Verif.Model.Polygonize
import Verif.Spec.Soft
import Verif.Spec.Runtime
/-
Small concrete inputs in IEEE arithmetic, used in the examples beside the theorems and in the
refutations.
-/
namespace Polyskel

/-- the number `n / d` -/
def sq (n : Int) (d : Nat := 1) : Soft := Scalar.lit n d

/-- a point of the plane -/
def sp2 (x y : Int) : V2 Soft := mkV2 (sq x) (sq y)

/-- a point in space -/
def sp3 (x y : Int) (z : Int := 0) : V3 Soft := mkV3 (sq x) (sq y) (sq z)

/-- vertices at height 0 -/
def ground (l : List (Int × Int)) : List (V3 Soft) := l.map (fun p => sp3 p.1 p.2)

/-- the call `polygonize(verts, 0, len(verts), None, 0, n/d)` -/
def simpleCall (l : List (Int × Int)) (n : Int) (d : Nat) : PolyArgs Soft :=
  { verts := ground l, first := 0, num := l.length, height := sq 0, tan := sq n d }

/-- the edges of a closed contour of points -/
def ringEdges (l : List (Int × Int)) : List (Edge2 Soft) :=
  ((l.zip (l.drop 1 ++ l.take 1)).zipIdx).map (fun p =>
    Edge2.ofPoints p.2 (sp2 p.1.1.1 p.1.1.2) (sp2 p.1.2.1 p.1.2.2))

end Polyskel
