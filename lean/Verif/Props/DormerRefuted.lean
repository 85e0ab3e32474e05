import Verif.Spec.Samples
import Verif.Props.Skeleton
/-
C38 and C45: what does not hold for a house with a dormer-like part.
-/
namespace Polyskel

/-- a 24 x 16 house with a 4 x 3 extension in the middle of its front: the corners 1 to 4 turn right,
left, left, right, which is what `detectDormers` looks for -/
def dormerHouse : List (Int × Int) :=
  [(0, 0), (10, 0), (10, -3), (14, -3), (14, 0), (24, 0), (24, 16), (0, 16)]

/-- C38 is false: the skeleton of the house has four nodes when its contour starts at (0, 0), and
five when the same contour starts at (10, -3).  In the second case the four corners of the dormer are
not consecutive in the list and it is not recognised. -/
theorem C38_refuted :
    (skeletonize 60 [ringEdges dormerHouse]).map (fun r => r.map List.length) = some (.ok 4) ∧
    (skeletonize 60 [ringEdges (dormerHouse.drop 2 ++ dormerHouse.take 2)]).map
      (fun r => r.map List.length) = some (.ok 5) := by
  decide +kernel

/-- the nodes within 1/1000 of `p` whose height is at least `h` -/
def highNodes (p : V2 Soft) (h : Soft) (sk : List (Subtree Soft)) : List (Subtree Soft) :=
  sk.filter (fun s => (Scalar.abs (s.source.x -. p.x) <. sq 1 1000) &&
    (Scalar.abs (s.source.y -. p.y) <. sq 1 1000) && (h <. s.height))

/-- C45 is false: the skeleton of the house has a node at (12, 2), where the dormer's roof meets the
main roof, with a height above 4.4.  The corner (10, 0) of the contour is less than 3 away from it, so
the distance to the nearest edge is less than 3. -/
theorem C45_refuted :
    (skeletonize 60 [ringEdges dormerHouse]).map
      (fun r => r.map (fun sk => (highNodes (sp2 12 2) (sq 44 10) sk).length)) = some (.ok 1) ∧
    (((sq 12 -. sq 10) *. (sq 12 -. sq 10) +. (sq 2 -. sq 0) *. (sq 2 -. sq 0)) <. sq 9) = true := by
  decide +kernel

end Polyskel
