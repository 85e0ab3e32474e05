import Verif.Model.Polygonize
import Verif.Spec.Soft
import Verif.Spec.Runtime
/-
The arithmetic of `Soft` with exact comparison of vector components (mathutils allows one unit in
the last place).  Used for concrete runs beside the theorems that assume exact comparison.
-/
namespace Polyskel

/-- a binary64 number -/
def SoftX : Type := Soft

instance : DecidableEq SoftX := inferInstanceAs (DecidableEq Soft)
instance : Inhabited SoftX := inferInstanceAs (Inhabited Soft)

open Soft in
instance : Scalar SoftX where
  add (a b : Soft) := ofInt64 (Int.add a.k b.k)
  sub (a b : Soft) := ofInt64 (Int.sub a.k b.k)
  mul (a b : Soft) := mk64 (isNeg (Int.mul a.k b.k)) 1074 (Int.natAbs (Int.mul a.k b.k))
  div (a b : Soft) := qdiv (isNeg a.k != isNeg b.k) (Nat.shiftLeft a.k.natAbs 1134) b.k.natAbs
  neg (a : Soft) := (⟨Int.neg a.k⟩ : Soft)
  abs (a : Soft) := (⟨Int.ofNat a.k.natAbs⟩ : Soft)
  sqrt (a : Soft) := qsqrt (Nat.shiftLeft a.k.toNat 1194)
  lt (a b : Soft) := ilt a.k b.k
  le (a b : Soft) := !(ilt b.k a.k)
  eq (a b : Soft) := !(ilt a.k b.k) && !(ilt b.k a.k)
  rnd (a : Soft) := sgn (isNeg a.k) (rn 24 925 0 a.k.natAbs)
  feq (a b : Soft) := !(ilt a.k b.k) && !(ilt b.k a.k)
  lit n d := qdiv (isNeg n) (Nat.shiftLeft n.natAbs 1134) d

/-- a point of the plane -/
def xp2 (x y : Int) : V2 SoftX := mkV2 (Scalar.lit x 1) (Scalar.lit y 1)

/-- the edges of a closed contour of points -/
def ringEdgesX (l : List (Int × Int)) : List (Edge2 SoftX) :=
  ((l.zip (l.drop 1 ++ l.take 1)).zipIdx).map (fun p =>
    Edge2.ofPoints p.2 (mkV2 (Scalar.lit p.1.1.1 1) (Scalar.lit p.1.1.2 1))
      (mkV2 (Scalar.lit p.1.2.1 1) (Scalar.lit p.1.2.2 1)))

/-- the call `polygonize(verts, 0, len(verts), None, 0, n/d)` -/
def simpleCallX (l : List (Int × Int)) (n : Int) (d : Nat) : PolyArgs SoftX :=
  { verts := l.map (fun p => mkV3 (Scalar.lit p.1 1) (Scalar.lit p.2 1) (Scalar.lit 0 1)),
    first := 0, num := l.length, height := Scalar.lit 0 1, tan := Scalar.lit n d }

end Polyskel
