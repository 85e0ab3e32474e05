import Verif.Model.Polygonize
import Verif.Spec.Samples
import Verif.Spec.Exact
/-
The bound on the number of iterations of the main loop is not part of the result: once it is large
enough, a larger one changes nothing.
-/
namespace Polyskel
open Scalar

variable {S : Type} [Scalar S]

/-- C61: with any larger bound the main loop ends in the same way. -/
theorem C61_mainLoop (k : Nat) (lp : Loop S) (r : Except PyErr (Loop S)) (h : mainLoop k lp = some r)
    (j : Nat) (hj : k ≤ j) : mainLoop j lp = some r := by
  induction k generalizing lp j with
  | zero =>
    unfold mainLoop at h
    split at h
    · rename_i hc
      cases j <;> (unfold mainLoop; rw [if_pos hc, h])
    · cases h
  | succ k ih =>
    obtain ⟨j, rfl⟩ : ∃ i, j = i + 1 := ⟨j - 1, by omega⟩
    unfold mainLoop at h ⊢
    split
    · rename_i hc
      rwa [if_pos hc] at h
    · rename_i hc
      rw [if_neg hc] at h
      split at h
      · exact h
      · split at h
        · exact h
        · exact ih _ h j (by omega)

/-- C61: the same for `skeletonize`. -/
theorem C61_skeletonize (k : Nat) (cs : List (List (Edge2 S))) (r : Except PyErr (List (Subtree S)))
    (h : skeletonize k cs = some r) (j : Nat) (hj : k ≤ j) : skeletonize j cs = some r := by
  unfold skeletonize at h ⊢
  split at h
  · exact h
  · rename_i lp _
    cases hm : mainLoop k lp with
    | none => rw [hm] at h; cases h
    | some x => rw [C61_mainLoop k lp x hm j hj]; rwa [hm] at h

/-- C61: and for `polygonize`: two bounds that are both large enough give the same vertices, faces and
result. -/
theorem C61_polygonize (rt : Rt) (k : Nat) (a : PolyArgs S) (out : PolyOut S)
    (h : polygonize rt k a = some out) (j : Nat) (hj : k ≤ j) : polygonize rt j a = some out := by
  unfold polygonize at h ⊢
  simp only at h ⊢
  split at h
  · exact h
  · rename_i z c cs _
    cases hm : skeletonize k cs with
    | none => rw [hm] at h; cases h
    | some x => rw [C61_skeletonize k cs x hm j hj]; rwa [hm] at h

/-- a roof over a triangle: three iterations are enough, and every larger bound gives the same faces -/
example : ∀ j, 3 ≤ j → ∃ out, polygonize rt0 j (simpleCall [(0, 0), (4, 0), (0, 3)] 1 1) = some out ∧
    out.result = .ok [[2, 0, 3], [1, 2, 3], [0, 1, 3]] := by
  have h : (polygonize rt0 3 (simpleCall [(0, 0), (4, 0), (0, 3)] 1 1)).map (·.result) =
      some (.ok [[2, 0, 3], [1, 2, 3], [0, 1, 3]]) := by
    decide +kernel
  obtain ⟨out, h1, h2⟩ := Option.map_eq_some_iff.1 h
  exact fun j hj => ⟨out, C61_polygonize _ 3 _ out h1 j hj, h2⟩

end Polyskel
