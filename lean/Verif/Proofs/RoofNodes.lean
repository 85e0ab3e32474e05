import Verif.Proofs.RoofOut
import Verif.Proofs.RoofBin
import Verif.Proofs.RoofFinish
import Verif.Proofs.SweepStart
/-
The roof that a run on a convex polygon has grown, as a tree with places.  Used for C62.
-/
namespace Polyskel
open Scalar Real Geo Graph
set_option linter.unusedSectionVars false

/-- where the vertex number `k` is: the corners come first, then the nodes -/
noncomputable def posOf (c : List (Edge2 ℝ)) (out : List (Subtree ℝ)) (k : Nat) : V2 ℝ :=
  if h : k < c.length then c[k].p1 else ((out[k - c.length]?).map (·.source)).getD ⟨0, 0⟩

/-- how high it is -/
noncomputable def hhOf (c : List (Edge2 ℝ)) (out : List (Subtree ℝ)) (k : Nat) : ℝ :=
  if k < c.length then 0 else ((out[k - c.length]?).map (·.height)).getD 0

/-- the edge before a vertex -/
def leftOf (st : St ℝ) (d : Edge2 ℝ) (k : Nat) : Edge2 ℝ := ((st.co k).map (·.edgePrev)).getD d

/-- the edge after a vertex -/
def rightOf (st : St ℝ) (d : Edge2 ℝ) (k : Nat) : Edge2 ℝ := ((st.co k).map (·.edgeNext)).getD d

section
variable {c : List (Edge2 ℝ)} {st : St ℝ} {out : List (Subtree ℝ)} {ch : Nat → List Nat}

theorem posOf_corner {k : Nat} (hk : k < c.length) : posOf c out k = c[k].p1 := dif_pos hk

theorem posOf_node {j : Nat} {arc : Subtree ℝ} (hj : out[j]? = some arc) :
    posOf c out (c.length + j) = arc.source := by
  simp [posOf, hj]

theorem hhOf_corner {k : Nat} (hk : k < c.length) : hhOf c out k = 0 := if_pos hk

theorem hhOf_node {j : Nat} {arc : Subtree ℝ} (hj : out[j]? = some arc) :
    hhOf c out (c.length + j) = arc.height := by
  simp [hhOf, hj]

theorem Grown.point (h : Grown c st out ch []) {k : Nat} (hk : k < c.length + (out.length - 1))
    {q : Core ℝ} (hq : st.co k = some q) : q.point = posOf c out k := by
  by_cases hn : k < c.length
  · obtain ⟨q', h1, h2, -⟩ := h.corner k hn
    rw [hq] at h1
    cases h1
    rw [posOf_corner hn, h2]
  · obtain ⟨j, rfl⟩ : ∃ j, k = c.length + j := ⟨k - c.length, by omega⟩
    have hj : j < out.length := by omega
    obtain ⟨a, b, qa, qb, qn, α, β, -, -, -, -, -, hc, -, -, -, -, -, -, -, hp⟩ :=
      h.merge j out[j] (List.getElem?_eq_getElem hj) (fun _ => by omega)
    rw [hq] at hc
    cases hc
    rw [posOf_node (List.getElem?_eq_getElem hj), hp]

theorem Rise.up {d : Edge2 ℝ} (h : Grown c st out ch []) {k j : Nat} {q : Core ℝ} {θ : ℝ} {arc : Subtree ℝ}
    (hk : k < c.length + (out.length - 1)) (hq : st.co k = some q) (hj : out[j]? = some arc)
    (hr : Rise q θ arc.source arc.height) :
    Up (posOf c out) (hhOf c out) (leftOf st d) (rightOf st d) k (c.length + j) θ := by
  have hl : leftOf st d k = q.edgePrev := by simp [leftOf, hq]
  have hR : rightOf st d k = q.edgeNext := by simp [rightOf, hq]
  refine ⟨?_, hr.pos, ?_, ?_, ?_⟩
  · rw [hl, hR]; exact hr.turn.dir
  · obtain ⟨s, hs, he⟩ := hr.on
    refine ⟨s, hs, ?_, ?_⟩
    · rw [posOf_node hj, ← h.point hk hq, hl, hR, he, hr.turn.bis]
      simp [along, V2.sub]
    · rw [posOf_node hj, ← h.point hk hq, hl, hR, he, hr.turn.bis]
      simp [along, V2.sub]
  · rw [posOf_node hj, hhOf_node hj, hl]; exact hr.hp
  · rw [posOf_node hj, hhOf_node hj, hR]; exact hr.hn

/-- what the main loop has made of a convex polygon is the tree of a roof, made of pairs -/
theorem Grown.tree (h : Grown c st out ch []) (hl : out.length + 2 = c.length) (h3 : 3 ≤ c.length)
    (d : Edge2 ℝ) :
    BinTree c out.length (posOf c out) (hhOf c out) (leftOf st d) (rightOf st d) ch := by
  have hsz := h.size
  rw [if_pos rfl] at hsz
  have hlen : st.vs.length = c.length + (out.length - 1) := by omega
  refine ⟨hl, by omega, ?_, ?_, ?_, ?_, ?_⟩
  · intro k hk
    obtain ⟨q, h1, h2, h4, h5⟩ := h.corner k hk
    refine ⟨posOf_corner hk, ?_, ?_, hhOf_corner hk⟩
    · simp [rightOf, h1, h4]
    · simp [leftOf, h1, h5]
  · intro j hj
    have hj' : j < out.length := by omega
    have hg := List.getElem?_eq_getElem hj'
    obtain ⟨a, b, qa, qb, qn, α, β, e, la, lb, ca, cb, cn, -, ra, rb, hs, e1, e2, e3, -⟩ :=
      h.merge j out[j] hg (fun _ => hj)
    refine ⟨a, b, α, β, e, la, lb, ra.up h (by omega) ca hg, rb.up h (by omega) cb hg, hs, ?_, ?_, ?_⟩
    · simp [leftOf, rightOf, ca, cb, e1]
    · simp [leftOf, ca, cn, e2]
    · simp [rightOf, cb, cn, e3]
  · obtain ⟨arc, hg, a, b, e, qa, qb, qe, α, β, γ, hp, ca, cb, ce, -, ra, rb, re, hs, e1, e2, e3⟩ :=
      h.peak rfl
    have hlt : ∀ k ∈ [a, b, e], k < c.length + (out.length - 1) := by
      intro k hk
      rw [← hlen, ← List.mem_range, ← h.perm.mem_iff, List.append_nil, List.mem_flatMap]
      exact ⟨out.length - 1, List.mem_range.2 (by omega), hp.mem_iff.2 hk⟩
    refine ⟨a, b, e, α, β, γ, hp, ra.up h (hlt _ (by simp)) ca hg, rb.up h (hlt _ (by simp)) cb hg,
      re.up h (hlt _ (by simp)) ce hg, hs, ?_, ?_, ?_⟩
    · simp [leftOf, rightOf, ca, cb, e1]
    · simp [leftOf, rightOf, cb, ce, e2]
    · simp [leftOf, rightOf, ce, ca, e3]
  · have := h.perm
    rwa [List.append_nil, hlen] at this
  · intro j hj
    obtain ⟨e, ⟨k, hk, q, hq, rfl⟩, hlate, -⟩ := h.late j hj
    refine ⟨k, hk, fun j' h1 h2 k' hk' => ?_⟩
    have hlt : k' < st.vs.length := by
      rw [← List.mem_range, ← h.perm.mem_iff, List.append_nil, List.mem_flatMap]
      exact ⟨j', List.mem_range.2 h2, hk'⟩
    obtain ⟨q', hq'⟩ : ∃ q', st.co k' = some q' := by simp [St.co, List.getElem?_eq_getElem hlt]
    have := hlate j' h1 h2 k' hk' q' hq'
    simpa [leftOf, rightOf, hq, hq'] using this

/-- the sinks of an arc are where its vertices are -/
theorem Grown.sinks (h : Grown c st out ch []) (hl : out.length + 2 = c.length) (h3 : 3 ≤ c.length)
    {j : Nat} {arc : Subtree ℝ} (hj : out[j]? = some arc) :
    arc.sinks = (ch j).map (posOf c out) := by
  have hjl := (List.getElem?_eq_some_iff.1 hj).1
  have hsz := h.size
  rw [if_pos rfl] at hsz
  have hlen : st.vs.length = c.length + (out.length - 1) := by omega
  have hlt : ∀ k ∈ ch j, k < c.length + (out.length - 1) := by
    intro k hk
    rw [← hlen, ← List.mem_range, ← h.perm.mem_iff, List.append_nil, List.mem_flatMap]
    exact ⟨j, List.mem_range.2 hjl, hk⟩
  by_cases hm : j + 1 < out.length
  · obtain ⟨a, b, qa, qb, qn, α, β, e, la, lb, ca, cb, cn, hs, -⟩ := h.merge j arc hj (fun _ => hm)
    rw [hs, e, h.point (hlt a (by simp [e])) ca, h.point (hlt b (by simp [e])) cb]
    rfl
  · obtain ⟨arc', hg, a, b, e, qa, qb, qe, α, β, γ, hp, ca, cb, ce, hf, -⟩ := h.peak rfl
    obtain rfl : j = out.length - 1 := by omega
    rw [hj] at hg
    cases hg
    have key : ∀ (ks : List Nat) (ss : List (V2 ℝ)),
        List.Forall₂ (fun k s => ∃ q, st.co k = some q ∧ q.point = s) ks ss →
        (∀ k ∈ ks, k < c.length + (out.length - 1)) → ss = ks.map (posOf c out) := by
      intro ks ss hf
      induction hf with
      | nil => intro _; rfl
      | cons hx _ ih =>
        intro hk
        obtain ⟨q, hq, rfl⟩ := hx
        rw [List.map_cons, ← h.point (hk _ (by simp)) hq, ← ih (fun k hk' => hk k (by simp [hk']))]
    exact key _ _ hf hlt

end

/-! ### Different places -/

section
variable {c : List (Edge2 ℝ)} {m : Nat} {pos : Nat → V2 ℝ} {hh : Nat → ℝ} {L R : Nat → Edge2 ℝ}
  {ch : Nat → List Nat}

/-- a corner is not a node of the roof -/
theorem ConvexPolygon.not_node (h : ConvexPolygon c) {k : Nat} (hk : k < c.length) {t : ℝ}
    (hn : RoofNode c c[k].p1 t) : False := by
  have hself : height c[k].p1 c[k].norm c[k].p1 = 0 := by simp [height]
  -- the edges at height 0
  have hzero : ∀ e ∈ c, height e.p1 e.norm c[k].p1 = t → e.p1 = c[k].p1 ∨ e.p2 = c[k].p1 := by
    intro e he ht
    by_contra hc
    push Not at hc
    have h1 := h.left e he c[k] (List.getElem_mem hk) hc.1.symm hc.2.symm
    have h2 := hn.least c[k] (List.getElem_mem hk)
    rw [hself] at h2
    simp only [height] at ht
    linarith
  obtain ⟨e1, m1, e2, m2, e3, m3, n12, n23, n13, p1, p2, p3⟩ := hn.three
  have inj1 : ∀ {e f}, e ∈ c → f ∈ c → e.p1 = f.p1 → e = f := by
    intro e f he hf hef
    obtain ⟨i, hi, rfl⟩ := List.getElem_of_mem he
    obtain ⟨j, hj, rfl⟩ := List.getElem_of_mem hf
    have : (c.map (·.p1))[i]'(by simpa using hi) = (c.map (·.p1))[j]'(by simpa using hj) := by
      simpa using hef
    have := (h.distinct.getElem_inj_iff).1 this
    simp only [this]
  have inj2 : ∀ {e f}, e ∈ c → f ∈ c → e.p2 = f.p2 → e = f := by
    intro e f he hf hef
    obtain ⟨i, hi, rfl⟩ := List.getElem_of_mem he
    obtain ⟨j, hj, rfl⟩ := List.getElem_of_mem hf
    have nx : ∀ i, (hi : i < c.length) → c[i].p2 = (c[nextIdx c.length i]'(nextIdx_lt' hi)).p1 := by
      intro i hi
      by_cases hl : i + 1 = c.length
      · have := h.last (by omega)
        have e1 : c.length - 1 = i := by omega
        simp only [e1] at this
        rw [this]
        simp [nextIdx, hl]
      · rw [h.ring i (by omega)]
        simp [nextIdx, hl]
    rw [nx i hi, nx j hj] at hef
    have : (c.map (·.p1))[nextIdx c.length i]'(by simpa using nextIdx_lt' hi) =
        (c.map (·.p1))[nextIdx c.length j]'(by simpa using nextIdx_lt' hj) := by
      simpa using hef
    have := (h.distinct.getElem_inj_iff).1 this
    have hij : i = j := by
      unfold nextIdx at this
      split at this <;> split at this <;> omega
    subst hij
    rfl
  rcases hzero e1 m1 p1 with a1 | a1 <;> rcases hzero e2 m2 p2 with a2 | a2 <;>
    rcases hzero e3 m3 p3 with a3 | a3
  · exact n12 (inj1 m1 m2 (a1.trans a2.symm))
  · exact n12 (inj1 m1 m2 (a1.trans a2.symm))
  · exact n13 (inj1 m1 m3 (a1.trans a3.symm))
  · exact n23 (inj2 m2 m3 (a2.trans a3.symm))
  · exact n23 (inj1 m2 m3 (a2.trans a3.symm))
  · exact n13 (inj2 m1 m3 (a1.trans a3.symm))
  · exact n12 (inj2 m1 m2 (a1.trans a2.symm))
  · exact n12 (inj2 m1 m2 (a1.trans a2.symm))

theorem RoofNode.height_unique {p : V2 ℝ} {s t : ℝ} (h : RoofNode c p s) (h' : RoofNode c p t) : s = t := by
  obtain ⟨e, he, -, -, -, -, -, -, -, h1, -⟩ := h.three
  obtain ⟨f, hf, -, -, -, -, -, -, -, h2, -⟩ := h'.three
  have a1 := h.least f hf
  have a2 := h'.least e he
  linarith

end

section
variable {c : List (Edge2 ℝ)} {st : St ℝ} {out : List (Subtree ℝ)} {ch : Nat → List Nat}

private theorem mem_three {α : Type} {e1 e2 e3 x y z e : α} (hx : x = e1 ∨ x = e2 ∨ x = e3)
    (hy : y = e1 ∨ y = e2 ∨ y = e3) (hz : z = e1 ∨ z = e2 ∨ z = e3) (n1 : x ≠ y) (n2 : y ≠ z)
    (n3 : x ≠ z) (he : e = e1 ∨ e = e2 ∨ e = e3) : e = x ∨ e = y ∨ e = z := by
  rcases hx with rfl | rfl | rfl <;> rcases hy with rfl | rfl | rfl <;> rcases hz with rfl | rfl | rfl <;>
    simp_all <;> tauto

/-- the vertices are at different places -/
theorem Grown.inj (h : Grown c st out ch []) (hl : out.length + 2 = c.length) (h3 : 3 ≤ c.length)
    (hc : ConvexPolygon c) (ha : ∀ a ∈ out, RoofArc c a) (ho : OnlyThree c) :
    ∀ i j, i < c.length + out.length → j < c.length + out.length → posOf c out i = posOf c out j →
      i = j := by
  have hcc : ∀ i j, (hi : i < c.length) → (hj : j < c.length) → posOf c out i = posOf c out j → i = j := by
    intro i j hi hj hij
    rw [posOf_corner hi, posOf_corner hj] at hij
    have : (c.map (·.p1))[i]'(by simpa using hi) = (c.map (·.p1))[j]'(by simpa using hj) := by
      simpa using hij
    exact (hc.distinct.getElem_inj_iff).1 this
  have hcn : ∀ i j, i < c.length → j < out.length → posOf c out i ≠ posOf c out (c.length + j) := by
    intro i j hi hj hij
    have hg := List.getElem?_eq_getElem hj
    rw [posOf_corner hi, posOf_node hg] at hij
    have := (ha _ (List.getElem_mem hj)).node
    rw [← hij] at this
    exact hc.not_node hi this
  have hnn : ∀ i j, i < j → j < out.length → posOf c out (c.length + i) ≠ posOf c out (c.length + j) := by
    intro i j hij hj he
    have hi : i < out.length := by omega
    have gi := List.getElem?_eq_getElem hi
    have gj := List.getElem?_eq_getElem hj
    have ht := h.tree hl h3 c[0]
    have ni := (ha _ (List.getElem_mem hi)).node
    have nj := (ha _ (List.getElem_mem hj)).node
    rw [posOf_node gi, posOf_node gj] at he
    obtain ⟨f1, f2, f3, hf⟩ := ho _ _ ni
    rw [he] at ni
    have hh := ni.height_unique nj
    obtain ⟨e, ⟨k, hk, q, hq, rfl⟩, hlate, -⟩ := h.late i hi
    -- the edge is one of those at the node number `j`
    have hke : hgt q.edgeNext (posOf c out (c.length + i)) = out[i].height ∧ q.edgeNext ∈ c := by
      obtain ⟨θ, -, hu⟩ := ht.up hi hk
      have h1 := hu.hr
      have h2 := (ht.edges_mem k (ht.child_lt hi hk).2).2
      rw [hhOf_node gi] at h1
      have : rightOf st c[0] k = q.edgeNext := by simp [rightOf, hq]
      rw [this] at h1 h2
      exact ⟨h1, h2⟩
    obtain ⟨x, y, z, n1, n2, n3, hw⟩ := ht.three hj
    have hin : ∀ w, w = x ∨ w = y ∨ w = z → w = f1 ∨ w = f2 ∨ w = f3 := by
      intro w hw'
      obtain ⟨w1, w2, -⟩ := hw w hw'
      rw [hhOf_node gj, posOf_node gj, ← hh, ← he] at w2
      exact hf w w1 w2
    rw [posOf_node gi] at hke
    have hmem := mem_three (hin x (by simp)) (hin y (by simp)) (hin z (by simp)) n1 n2 n3
      (hf _ hke.2 hke.1)
    obtain ⟨-, -, k', hk', hkk⟩ := hw _ hmem
    have hsz := h.size
    rw [if_pos rfl] at hsz
    have hlt := (ht.child_lt hj hk').2
    obtain ⟨q', hq'⟩ : ∃ q', st.co k' = some q' := by
      have : k' < st.vs.length := by omega
      simp [St.co, List.getElem?_eq_getElem this]
    have hne := hlate j hij hj k' hk' q' hq'
    simp only [leftOf, rightOf, hq', Option.map_some, Option.getD_some] at hkk
    rcases hkk with hkk | hkk
    · exact hne.1 hkk.symm
    · exact hne.2 hkk.symm
  intro i j hi hj hij
  by_cases i1 : i < c.length <;> by_cases j1 : j < c.length
  · exact hcc i j i1 j1 hij
  · exact absurd hij (by
      have := hcn i (j - c.length) i1 (by omega)
      rwa [show c.length + (j - c.length) = j by omega] at this)
  · exact absurd hij.symm (by
      have := hcn j (i - c.length) j1 (by omega)
      rwa [show c.length + (i - c.length) = i by omega] at this)
  · rcases Nat.lt_trichotomy i j with hlt | rfl | hlt
    · exact absurd hij (by
        have := hnn (i - c.length) (j - c.length) (by omega) (by omega)
        rwa [show c.length + (j - c.length) = j by omega,
          show c.length + (i - c.length) = i by omega] at this)
    · rfl
    · exact absurd hij.symm (by
        have := hnn (j - c.length) (i - c.length) (by omega) (by omega)
        rwa [show c.length + (j - c.length) = j by omega,
          show c.length + (i - c.length) = i by omega] at this)

end
end Polyskel
