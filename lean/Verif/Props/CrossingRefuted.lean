import Verif.Spec.Samples
import Verif.Model.Skel
/-
C94: a polygon, not convex, whose skeleton has connections that cross.  (In a file of its own because checking the run
takes a few minutes.)
-/
namespace Polyskel

/-- a polygon with seven corners, of which the first and the fourth are reflex -/
def barb : List (Int × Int) := [(4, 5), (1, 8), (1, 7), (2, 6), (1, 0), (2, 1), (7, 3)]

/-- twice the signed area of the triangle of three corners of `barb` -/
private def side (i j k : Fin 7) : Int :=
  let p := barb.getD i (0, 0)
  let q := barb.getD j (0, 0)
  let r := barb.getD k (0, 0)
  (q.1 - p.1) * (r.2 - p.2) - (q.2 - p.2) * (r.1 - p.1)

/-- the sides of `barb` do not meet, except for neighbours in their corner: of two others, one has both its ends
strictly on one side of the line of the other; and no corner is straight -/
example : (∀ i j : Fin 7, i ≠ j → i + 1 ≠ j → j + 1 ≠ i → 0 < side i (i + 1) j * side i (i + 1) (j + 1) ∨
    0 < side j (j + 1) i * side j (j + 1) (i + 1)) ∧ ∀ i : Fin 7, side i (i + 1) (i + 2) ≠ 0 := by
  decide

/-- what is left over of a run when its skeleton is counted -/
private def crossings (r : Option (Except PyErr (List (Subtree Soft)))) : Nat :=
  match r with
  | some (.ok sk) => checkEdgeCrossing sk
  | _ => 0

private theorem of_crossings {r : Option (Except PyErr (List (Subtree Soft)))} (h : crossings r = 1) :
    ∃ sk, r = some (.ok sk) ∧ checkEdgeCrossing sk = 1 := by
  match r, h with
  | some (.ok sk), h => exact ⟨sk, rfl, h⟩

private theorem barb_run : crossings (skeletonize 40 [ringEdges barb]) = 1 := by decide +kernel

/-- C94, the general case: two connections of the skeleton of this simple polygon cross. -/
theorem C94_barb_crosses : ∃ sk, skeletonize 40 [ringEdges barb] = some (.ok sk) ∧ checkEdgeCrossing sk = 1 :=
  of_crossings barb_run

end Polyskel
