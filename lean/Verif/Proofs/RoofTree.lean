import Verif.Proofs.Front
import Verif.Proofs.ConvexRun
/-
The vertices of a run on a convex contour as a tree: each one rises to the node at which it meets
others.  Used for C62.
-/
namespace Polyskel
open Scalar Real Geo

/-- index of the next edge in a ring of `n` -/
def nextIdx (n k : Nat) : Nat := if k + 1 = n then 0 else k + 1

/-- index of the previous edge in a ring of `n` -/
def prevIdx (n k : Nat) : Nat := if k = 0 then n - 1 else k - 1

/-- the vertex `q`, which turns by `θ`, comes to `X`, which has the distance `h` from its edges -/
structure Rise (q : Core ℝ) (θ : ℝ) (X : V2 ℝ) (h : ℝ) : Prop where
  turn : TurnsBy q θ
  pos : 0 < θ
  on : ∃ s, 0 ≤ s ∧ X = along q.point q.bisector.v s
  hp : hgt q.edgePrev X = h
  hn : hgt q.edgeNext X = h

/-- two vertices meet at the source of `arc` and become the vertex `N` -/
def IsMerge (st : St ℝ) (N : Nat) (arc : Subtree ℝ) (ks : List Nat) : Prop :=
  ∃ a b qa qb qn α β, ks = [a, b] ∧ a < N ∧ b < N ∧ st.co a = some qa ∧ st.co b = some qb ∧ st.co N = some qn ∧
    arc.sinks = [qa.point, qb.point] ∧ Rise qa α arc.source arc.height ∧
    Rise qb β arc.source arc.height ∧ α + β < 2 * π ∧ qa.edgeNext = qb.edgePrev ∧
    qn.edgePrev = qa.edgePrev ∧ qn.edgeNext = qb.edgeNext ∧ qn.point = arc.source

/-- the last three vertices meet at the source of `arc` -/
def IsPeak (st : St ℝ) (arc : Subtree ℝ) (ks : List Nat) : Prop :=
  ∃ a b d qa qb qd α β γ, ks.Perm [a, b, d] ∧ st.co a = some qa ∧ st.co b = some qb ∧
    st.co d = some qd ∧
    List.Forall₂ (fun k s => ∃ q, st.co k = some q ∧ q.point = s) ks arc.sinks ∧
    Rise qa α arc.source arc.height ∧ Rise qb β arc.source arc.height ∧
    Rise qd γ arc.source arc.height ∧ α + β + γ = 2 * π ∧ qa.edgeNext = qb.edgePrev ∧
    qb.edgeNext = qd.edgePrev ∧ qd.edgeNext = qa.edgePrev

/-- What has grown so far: the corners, the node each vertex came to (`ch j` are the vertices that met
at the source of the arc number `j`), and `act`, the vertices on the wavefront. -/
structure Grown (c : List (Edge2 ℝ)) (st : St ℝ) (out : List (Subtree ℝ)) (ch : Nat → List Nat)
    (act : List Nat) : Prop where
  size : st.vs.length + (if act = [] then 1 else 0) = c.length + out.length
  corner : ∀ k, (hk : k < c.length) → ∃ q, st.co k = some q ∧ q.point = c[k].p1 ∧
    q.edgeNext = c[k] ∧ q.edgePrev = c[prevIdx c.length k]'(by unfold prevIdx; split <;> omega)
  merge : ∀ j arc, out[j]? = some arc → (act = [] → j + 1 < out.length) →
    IsMerge st (c.length + j) arc (ch j)
  peak : act = [] → ∃ arc, out[out.length - 1]? = some arc ∧ IsPeak st arc (ch (out.length - 1))
  perm : ((List.range out.length).flatMap ch ++ act).Perm (List.range st.vs.length)
  late : ∀ j, j < out.length → ∃ e, (∃ k ∈ ch j, ∃ q, st.co k = some q ∧ q.edgeNext = e) ∧
    (∀ j', j < j' → j' < out.length → ∀ k ∈ ch j', ∀ q, st.co k = some q →
      q.edgePrev ≠ e ∧ q.edgeNext ≠ e) ∧
    ∀ k ∈ act, ∀ q, st.co k = some q → q.edgePrev ≠ e ∧ q.edgeNext ≠ e

variable {c : List (Edge2 ℝ)} {st st' : St ℝ} {out : List (Subtree ℝ)} {ch : Nat → List Nat}
  {act : List Nat}

theorem IsMerge.mono (h : ∀ k x, st.co k = some x → st'.co k = some x) {N : Nat} {arc : Subtree ℝ}
    {ks : List Nat} (hm : IsMerge st N arc ks) : IsMerge st' N arc ks := by
  obtain ⟨a, b, qa, qb, qn, α, β, h1, l1, l2, h2, h3, h4, h5⟩ := hm
  exact ⟨a, b, qa, qb, qn, α, β, h1, l1, l2, h _ _ h2, h _ _ h3, h _ _ h4, h5⟩

private def upd (ch : Nat → List Nat) (m : Nat) (ks : List Nat) : Nat → List Nat :=
  fun j => if j = m then ks else ch j

private theorem upd_flatMap (ch : Nat → List Nat) (m : Nat) (ks : List Nat) :
    (List.range (m + 1)).flatMap (upd ch m ks) = (List.range m).flatMap ch ++ ks := by
  rw [List.range_succ, List.flatMap_append]
  congr 1
  · apply List.flatMap_congr
    intro j hj
    rw [List.mem_range] at hj
    simp only [upd, if_neg hj.ne]
  · simp [upd]

private theorem co_of_lt {k : Nat} (h : k < st.vs.length) : ∃ q, st.co k = some q := by
  simp [St.co, List.getElem?_eq_getElem h]

private theorem Grown.co_mem (h : Grown c st out ch act)
    (co : ∀ k x, st.co k = some x → st'.co k = some x) {k : Nat}
    (hk : (∃ j, j < out.length ∧ k ∈ ch j) ∨ k ∈ act) {q : Core ℝ} (hq : st'.co k = some q) :
    st.co k = some q := by
  have hm : k ∈ (List.range out.length).flatMap ch ++ act := by
    rw [List.mem_append, List.mem_flatMap]
    rcases hk with ⟨j, hj, hk⟩ | hk
    · exact Or.inl ⟨j, List.mem_range.2 hj, hk⟩
    · exact Or.inr hk
  obtain ⟨r, hr⟩ := co_of_lt (List.mem_range.1 (h.perm.mem_iff.1 hm))
  rw [co _ _ hr] at hq
  rw [hr, hq]

theorem Grown.grow (h : Grown c st out ch act) {a b : Nat} {L : List Nat} (hp : (a :: b :: L).Perm act)
    (co : ∀ k x, st.co k = some x → st'.co k = some x) (len : st'.vs.length = st.vs.length + 1)
    {arc : Subtree ℝ} (hm : IsMerge st' st.vs.length arc [a, b])
    (hmid : ∀ qa, st'.co a = some qa → ∀ k ∈ st.vs.length :: L, ∀ q, st'.co k = some q →
      q.edgePrev ≠ qa.edgeNext ∧ q.edgeNext ≠ qa.edgeNext) :
    ∃ ch', Grown c st' (out ++ [arc]) ch' (st.vs.length :: L) := by
  have hne : act ≠ [] := by rintro rfl; simpa using hp.length_eq
  have hsz := h.size
  rw [if_neg hne] at hsz
  refine ⟨upd ch out.length [a, b], ?_, ?_, ?_, fun h0 => by simp at h0, ?_, ?_⟩
  · rw [if_neg (by simp), len, List.length_append, List.length_singleton]
    omega
  · intro k hk
    obtain ⟨q, h1, h2⟩ := h.corner k hk
    exact ⟨q, co _ _ h1, h2⟩
  · intro j x hj _
    rcases Nat.lt_or_ge j out.length with hlt | hge
    · rw [List.getElem?_append_left hlt] at hj
      simp only [upd, if_neg hlt.ne]
      exact (h.merge j x hj (fun h0 => absurd h0 hne)).mono co
    · have hj' : j = out.length := by
        have := (List.getElem?_eq_some_iff.1 hj).1
        simp at this
        omega
      subst hj'
      simp only [List.getElem?_concat_length, Option.some.injEq] at hj
      subst hj
      simp only [upd, if_pos]
      rw [show c.length + out.length = st.vs.length by omega]
      exact hm
  · rw [List.length_append, List.length_singleton, upd_flatMap, len, List.range_succ]
    have h1 : ((List.range out.length).flatMap ch ++ (a :: b :: L)).Perm
        (List.range st.vs.length) := (hp.append_left _).trans h.perm
    have h2 : ((List.range out.length).flatMap ch ++ [a, b] ++ st.vs.length :: L).Perm
        (((List.range out.length).flatMap ch ++ (a :: b :: L)) ++ [st.vs.length]) := by
      simp only [List.append_assoc, List.cons_append, List.nil_append]
      refine List.Perm.append_left _ (.cons _ (.cons _ ?_))
      exact (List.perm_append_singleton _ _).symm
    exact h2.trans (h1.append_right _)
  · intro j hj
    simp only [List.length_append, List.length_singleton] at hj ⊢
    have hm' := hm
    obtain ⟨a', b', qa, qb, qn, -, -, hab, -, -, ca, cb, cn, -, -, -, -, -, n1, n2, -⟩ := hm'
    simp only [List.cons.injEq, and_true] at hab
    obtain ⟨rfl, rfl⟩ := hab
    have hina : a ∈ act := hp.mem_iff.1 (by simp)
    have hinb : b ∈ act := hp.mem_iff.1 (by simp)
    rcases Nat.lt_or_ge j out.length with hlt | hge
    · obtain ⟨e, ⟨k, hk, q, hq, he⟩, h2, h3⟩ := h.late j hlt
      refine ⟨e, ⟨k, by simpa only [upd, if_neg hlt.ne] using hk, q, co _ _ hq, he⟩, ?_, ?_⟩
      · intro j' hj' hl k hk q hq
        simp only [upd] at hk
        split at hk
        · have hka : k ∈ act := by
            simp only [List.mem_cons, List.not_mem_nil, or_false] at hk
            rcases hk with rfl | rfl
            · exact hina
            · exact hinb
          exact h3 k hka q (h.co_mem co (Or.inr hka) hq)
        · have hl' : j' < out.length := by omega
          exact h2 j' hj' hl' k hk q (h.co_mem co (Or.inl ⟨j', hl', hk⟩) hq)
      · intro k hk q hq
        rcases List.mem_cons.1 hk with rfl | hk
        · rw [cn] at hq
          cases hq
          rw [n1, n2]
          exact ⟨(h3 a hina _ (h.co_mem co (Or.inr hina) ca)).1,
            (h3 b hinb _ (h.co_mem co (Or.inr hinb) cb)).2⟩
        · have hka : k ∈ act := hp.mem_iff.1 (by simp [hk])
          exact h3 k hka q (h.co_mem co (Or.inr hka) hq)
    · obtain rfl : j = out.length := by omega
      refine ⟨qa.edgeNext, ⟨a, by simp [upd], qa, ca, rfl⟩, fun j' h1 h2 => by omega, hmid qa ca⟩

theorem Grown.close (h : Grown c st out ch act) (hne : act ≠ []) {ks : List Nat} (hp : ks.Perm act)
    (co : ∀ k x, st.co k = some x → st'.co k = some x) (len : st'.vs.length = st.vs.length)
    {arc : Subtree ℝ} (hm : IsPeak st' arc ks) :
    ∃ ch', Grown c st' (out ++ [arc]) ch' [] := by
  have hsz := h.size
  rw [if_neg hne] at hsz
  refine ⟨upd ch out.length ks, ?_, ?_, ?_, fun _ => ⟨arc, ?_, ?_⟩, ?_, ?_⟩
  · rw [if_pos rfl, len, List.length_append, List.length_singleton]
    omega
  · intro k hk
    obtain ⟨q, h1, h2⟩ := h.corner k hk
    exact ⟨q, co _ _ h1, h2⟩
  · intro j x hj hlt
    have hlt := hlt rfl
    simp only [List.length_append, List.length_singleton, Nat.add_lt_add_iff_right] at hlt
    rw [List.getElem?_append_left hlt] at hj
    simp only [upd, if_neg hlt.ne]
    exact (h.merge j x hj (fun h0 => absurd h0 hne)).mono co
  · simp
  · simpa [upd] using hm
  · rw [List.length_append, List.length_singleton, upd_flatMap, len, List.append_nil]
    exact (hp.append_left _).trans h.perm
  · intro j hj
    simp only [List.length_append, List.length_singleton] at hj ⊢
    rcases Nat.lt_or_ge j out.length with hlt | hge
    · obtain ⟨e, ⟨k, hk, q, hq, he⟩, h2, h3⟩ := h.late j hlt
      refine ⟨e, ⟨k, by simpa only [upd, if_neg hlt.ne] using hk, q, co _ _ hq, he⟩, ?_, by simp⟩
      intro j' hj' hl k hk q hq
      simp only [upd] at hk
      split at hk
      · have hka : k ∈ act := hp.mem_iff.1 hk
        exact h3 k hka q (h.co_mem co (Or.inr hka) hq)
      · have hl' : j' < out.length := by omega
        exact h2 j' hj' hl' k hk q (h.co_mem co (Or.inl ⟨j', hl', hk⟩) hq)
    · obtain rfl : j = out.length := by omega
      obtain ⟨a, b, d, qa, qb, qd, -, -, -, hks, ca, -⟩ := hm
      refine ⟨qa.edgeNext, ⟨a, ?_, qa, ca, rfl⟩, fun j' h1 h2 => by omega, by simp⟩
      simp only [upd, if_pos]
      exact hks.mem_iff.2 (by simp)

end Polyskel
