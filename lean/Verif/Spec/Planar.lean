import Verif.Model.Graph
/-
Notions for the graph and face properties, independent of how the code computes them.
-/
namespace Polyskel

/-- `w` is the cyclic successor of `u` in the list `ns` -/
def Follows (ns : List Int) (u w : Int) : Prop :=
  ∃ i, ns[i]? = some u ∧ ns[(i + 1) % ns.length]? = some w

/-- A simple undirected graph: no vertex listed twice, no repeated edge, no loop, symmetric. -/
structure Graph.Simple (g : Graph) : Prop where
  keys : (Graph.keys g).Nodup
  nodup : ∀ v, (Graph.nbrs g v).Nodup
  irrefl : ∀ v, v ∉ Graph.nbrs g v
  symm : ∀ v w, w ∈ Graph.nbrs g v → v ∈ Graph.nbrs g w

/-- `emb` lists for every vertex exactly its neighbours, in some order -/
def Graph.Embeds (emb g : Graph) : Prop := ∀ v, (Graph.nbrs emb v).Perm (Graph.nbrs g v)

/-- the directed edge `d` belongs to the graph -/
def Graph.HasDart (g : Graph) (d : Dart) : Prop := d.2 ∈ Graph.nbrs g d.1

/-- After arriving along the directed edge `a`, the walk continues with `b`: it starts where `a`
ends and leads to the neighbour that follows `a`'s start in the embedding order. -/
def TurnsTo (emb : Graph) (a b : Dart) : Prop :=
  b.1 = a.2 ∧ Follows (Graph.nbrs emb a.2) a.1 b.2

/-- `f` is a closed walk that always takes the next edge of the embedding (cyclically) -/
def FaceCycle (emb : Graph) (f : List Dart) : Prop :=
  f ≠ [] ∧ ∀ i a b, f[i]? = some a → f[(i + 1) % f.length]? = some b → TurnsTo emb a b

/-- undirected edge between `v` and `w` (different vertices) -/
def Joins (v w : Int) (e : Dart) : Bool :=
  e.1 != e.2 && (e == (v, w) || e == (w, v))

/-- `l₂` consists of the faces of `l₁` in another order, each possibly starting elsewhere -/
def SameCycles {α : Type} (l₁ l₂ : List (List α)) : Prop :=
  ∃ l : List (List α), l.Perm l₂ ∧ l.length = l₁.length ∧
    ∀ (i : Nat) (a b : List α), l₁[i]? = some a → l[i]? = some b →
      ∃ k, k ≤ a.length ∧ b = a.drop k ++ a.take k

end Polyskel
