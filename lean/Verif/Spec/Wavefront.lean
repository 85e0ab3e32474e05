import Mathlib.Data.List.Chain
import Verif.Model.Lav
/-
Vocabulary for statements about the wavefront: successor, neighbours, closed loops of vertices.
-/
namespace Polyskel

variable {S : Type}

/-- `b` is the `next` of vertex `a` -/
def Succ (st : St S) (a b : Nat) : Prop := ∃ v, st.vs[a]? = some v ∧ v.next = b

/-- `a` is the `prev` of vertex `b` -/
def Pred (st : St S) (a b : Nat) : Prop := ∃ v, st.vs[b]? = some v ∧ v.prev = a

/-- `a` and `b` are neighbours: each points to the other -/
def Link (st : St S) (a b : Nat) : Prop := Succ st a b ∧ Pred st a b

/-- `vs` are the different vertices met when following `next` from `h` until it comes back -/
def Ring (st : St S) (h : Nat) (vs : List Nat) : Prop :=
  vs.Nodup ∧ vs.head? = some h ∧ (vs ++ [h]).IsChain (Succ st)

/-- `v` is reached from `h` by following `next` -/
inductive Reach (st : St S) (h : Nat) : Nat → Prop
  | head : Reach st h h
  | next {a b : Nat} : Reach st h a → Succ st a b → Reach st h b

end Polyskel
