import Verif.Spec.Moments
/-
The vocabulary of C72: neighbours in the wavefront, and questions for their next event.
-/
namespace Polyskel
open Scalar
variable {S : Type} [Scalar S]

/-- `i` and `j` are valid and follow each other in the wavefront -/
def Neighbours (st : St S) (i j : Nat) : Prop :=
  Link st i j ∧ (∃ v, st.vs[i]? = some v ∧ v.valid = true) ∧ ∃ v, st.vs[j]? = some v ∧ v.valid = true

/-- The vertex has been asked for its next event, and the answer, if there is one, is among `es`. -/
def Asked (st : St S) (es : List (Event S)) (i : Nat) : Prop :=
  ∃ o, nextEvent st i = .ok o ∧ ∀ e, o = some e → e ∈ es

end Polyskel
