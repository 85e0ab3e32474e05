import Verif.Proofs.RoofFaces
/-
The tree of a roof as the main loop makes it: two vertices meet at a time, and three at the end.  Several
of its nodes can be at the same place.  Used for C62.
-/
namespace Polyskel
open Scalar Real Geo Graph
set_option linter.unusedSectionVars false

/-- The tree of a roof with the polygon `c` and `m` nodes, as it is made, two vertices at a time.  The
vertices are numbered: first the corners, then the nodes, the last of which is the top.  `ch j` are the
vertices that rise to the node number `j`; the edge between them is not met again. -/
structure BinTree (c : List (Edge2 ℝ)) (m : Nat) (pos : Nat → V2 ℝ) (hh : Nat → ℝ)
    (L R : Nat → Edge2 ℝ) (ch : Nat → List Nat) : Prop where
  size : m + 2 = c.length
  one : 1 ≤ m
  corner : ∀ k, (hk : k < c.length) → pos k = c[k].p1 ∧ R k = c[k] ∧
    L k = c[prevIdx c.length k]'(by unfold prevIdx; split <;> omega) ∧ hh k = 0
  merge : ∀ j, j + 1 < m → ∃ a b α β, ch j = [a, b] ∧ a < c.length + j ∧ b < c.length + j ∧
    Up pos hh L R a (c.length + j) α ∧ Up pos hh L R b (c.length + j) β ∧ α + β < 2 * π ∧
    R a = L b ∧ L (c.length + j) = L a ∧ R (c.length + j) = R b
  peak : ∃ a b d α β γ, (ch (m - 1)).Perm [a, b, d] ∧ Up pos hh L R a (c.length + (m - 1)) α ∧
    Up pos hh L R b (c.length + (m - 1)) β ∧ Up pos hh L R d (c.length + (m - 1)) γ ∧
    α + β + γ = 2 * π ∧ R a = L b ∧ R b = L d ∧ R d = L a
  perm : ((List.range m).flatMap ch).Perm (List.range (c.length + (m - 1)))
  late : ∀ j, j < m → ∃ k ∈ ch j, ∀ j', j < j' → j' < m → ∀ k' ∈ ch j', L k' ≠ R k ∧ R k' ≠ R k

section
variable {c : List (Edge2 ℝ)} {m : Nat} {pos : Nat → V2 ℝ} {hh : Nat → ℝ} {L R : Nat → Edge2 ℝ}
  {ch : Nat → List Nat}

theorem BinTree.nodup (h : BinTree c m pos hh L R ch) : ((List.range m).flatMap ch).Nodup :=
  h.perm.nodup_iff.2 List.nodup_range

theorem BinTree.ch_nodup (h : BinTree c m pos hh L R ch) {j : Nat} (hj : j < m) : (ch j).Nodup :=
  (List.nodup_flatMap.1 h.nodup).1 j (List.mem_range.2 hj)

theorem BinTree.parent (h : BinTree c m pos hh L R ch) {k : Nat} (hk : k < c.length + (m - 1)) :
    ∃ j < m, k ∈ ch j := by
  have := h.perm.mem_iff.2 (List.mem_range.2 hk)
  obtain ⟨j, hj, hm⟩ := List.mem_flatMap.1 this
  exact ⟨j, List.mem_range.1 hj, hm⟩

theorem BinTree.parent_unique (h : BinTree c m pos hh L R ch) {k i j : Nat} (hi : i < m) (hj : j < m)
    (h1 : k ∈ ch i) (h2 : k ∈ ch j) : i = j := by
  by_contra hne
  have hp := (List.nodup_flatMap.1 h.nodup).2
  have hd : List.Disjoint (ch i) (ch j) := by
    rcases Nat.lt_or_gt_of_ne hne with hlt | hlt
    · have := (List.pairwise_iff_getElem.1 hp) i j (by simpa using hi) (by simpa using hj) hlt
      simpa [Function.onFun] using this
    · have := (List.pairwise_iff_getElem.1 hp) j i (by simpa using hj) (by simpa using hi) hlt
      have : List.Disjoint (ch j) (ch i) := by simpa [Function.onFun] using this
      exact this.symm
  exact hd h1 h2

theorem BinTree.child_lt (h : BinTree c m pos hh L R ch) {k j : Nat} (hj : j < m) (hk : k ∈ ch j) :
    k < c.length + j ∧ k < c.length + (m - 1) := by
  have h1 : k < c.length + (m - 1) :=
    List.mem_range.1 (h.perm.mem_iff.1 (List.mem_flatMap.2 ⟨j, List.mem_range.2 hj, hk⟩))
  refine ⟨?_, h1⟩
  by_cases hl : j + 1 < m
  · obtain ⟨a, b, α, β, e, ha, hb, -⟩ := h.merge j hl
    rw [e] at hk
    simp only [List.mem_cons, List.not_mem_nil, or_false] at hk
    rcases hk with rfl | rfl
    · exact ha
    · exact hb
  · rwa [show j = m - 1 by omega]

theorem BinTree.up (h : BinTree c m pos hh L R ch) {k j : Nat} (hj : j < m) (hk : k ∈ ch j) :
    ∃ θ, θ < 2 * π ∧ Up pos hh L R k (c.length + j) θ := by
  by_cases hl : j + 1 < m
  · obtain ⟨a, b, α, β, e, -, -, ha, hb, hs, -⟩ := h.merge j hl
    rw [e] at hk
    have := ha.gt
    have := hb.gt
    simp only [List.mem_cons, List.not_mem_nil, or_false] at hk
    rcases hk with rfl | rfl
    · exact ⟨α, by linarith, ha⟩
    · exact ⟨β, by linarith, hb⟩
  · obtain ⟨a, b, d, α, β, γ, e, ha, hb, hd, hs, -⟩ := h.peak
    obtain rfl : j = m - 1 := by omega
    have := ha.gt
    have := hb.gt
    have := hd.gt
    have hk := e.mem_iff.1 hk
    simp only [List.mem_cons, List.not_mem_nil, or_false] at hk
    rcases hk with rfl | rfl | rfl
    · exact ⟨α, by linarith, ha⟩
    · exact ⟨β, by linarith, hb⟩
    · exact ⟨γ, by linarith, hd⟩

/-- the heights over the two edges of a vertex -/
theorem BinTree.height (h : BinTree c m pos hh L R ch) (hc : ConvexPolygon c) {k : Nat}
    (hk : k < c.length + (m - 1)) : hgt (L k) (pos k) = hh k ∧ hgt (R k) (pos k) = hh k := by
  by_cases hn : k < c.length
  · obtain ⟨h1, h2, h3, h4⟩ := h.corner k hn
    rw [h1, h2, h3, h4]
    have hp : prevIdx c.length k < c.length := by unfold prevIdx; split <;> omega
    constructor
    · obtain ⟨r, -, e1, e2⟩ := hc.along c[prevIdx c.length k] (List.getElem_mem _)
      have hpp : (c[prevIdx c.length k]).p2 = c[k].p1 := by
        by_cases h0 : k = 0
        · subst h0
          have := hc.last (by omega)
          simpa [prevIdx] using this
        · have := hc.ring (k - 1) (by omega)
          simp only [show k - 1 + 1 = k by omega] at this
          simpa [prevIdx, h0] using this
      rw [← hpp]
      simp only [hgt, Geo.height]
      rw [e1, e2]; ring
    · simp [hgt, Geo.height]
  · obtain ⟨j, rfl⟩ : ∃ j, k = c.length + j := ⟨k - c.length, by omega⟩
    obtain ⟨a, b, α, β, -, -, -, ha, hb, -, -, e2, e3⟩ := h.merge j (by omega)
    rw [e2, e3]
    exact ⟨ha.hl, hb.hr⟩

theorem BinTree.edges_mem (h : BinTree c m pos hh L R ch) : ∀ k, k < c.length + (m - 1) → L k ∈ c ∧ R k ∈ c := by
  intro k
  induction k using Nat.strong_induction_on with
  | _ k ih =>
    intro hk
    by_cases hn : k < c.length
    · obtain ⟨-, h2, h3, -⟩ := h.corner k hn
      rw [h2, h3]
      exact ⟨List.getElem_mem _, List.getElem_mem _⟩
    · obtain ⟨j, rfl⟩ : ∃ j, k = c.length + j := ⟨k - c.length, by omega⟩
      obtain ⟨a, b, α, β, -, la, lb, -, -, -, -, e2, e3⟩ := h.merge j (by omega)
      rw [e2, e3]
      exact ⟨(ih a la (by omega)).1, (ih b lb (by omega)).2⟩

theorem tri_ne {x y z : V2 ℝ} (h : 0 < tri x y z) : x ≠ y ∧ y ≠ z ∧ x ≠ z := by
  refine ⟨?_, ?_, ?_⟩
  · rintro rfl; simp [tri] at h
  · rintro rfl; simp [tri, mul_comm] at h
  · rintro rfl; simp [tri] at h

/-- the three edges that meet at a node -/
theorem BinTree.three (h : BinTree c m pos hh L R ch) {j : Nat} (hj : j < m) :
    ∃ x y z, x ≠ y ∧ y ≠ z ∧ x ≠ z ∧ ∀ w, w = x ∨ w = y ∨ w = z →
      w ∈ c ∧ hgt w (pos (c.length + j)) = hh (c.length + j) ∧ ∃ k ∈ ch j, w = L k ∨ w = R k := by
  have hsz := h.size
  by_cases hl : j + 1 < m
  · obtain ⟨a, b, α, β, e, la, lb, ha, hb, hs, e1, -⟩ := h.merge j hl
    obtain ⟨n1, n2, n3⟩ := tri_ne (ha.tri hb hs e1)
    refine ⟨L a, R a, R b, fun he => n1 (by rw [he]), fun he => n2 (by rw [he]),
      fun he => n3 (by rw [he]), ?_⟩
    have ma := h.edges_mem a (by omega)
    have mb := h.edges_mem b (by omega)
    rintro w (rfl | rfl | rfl)
    · exact ⟨ma.1, ha.hl, a, by simp [e], Or.inl rfl⟩
    · exact ⟨ma.2, ha.hr, a, by simp [e], Or.inr rfl⟩
    · exact ⟨mb.2, hb.hr, b, by simp [e], Or.inr rfl⟩
  · obtain ⟨a, b, d, α, β, γ, e, ha, hb, hd, hs, e1, e2, e3⟩ := h.peak
    obtain rfl : j = m - 1 := by omega
    obtain ⟨n1, n2, n3⟩ := tri_ne (ha.tri hb (by linarith [hd.gt]) e1)
    refine ⟨L a, R a, R b, fun he => n1 (by rw [he]), fun he => n2 (by rw [he]),
      fun he => n3 (by rw [he]), ?_⟩
    have ma := h.edges_mem a (h.child_lt hj (e.mem_iff.2 (by simp))).2
    have mb := h.edges_mem b (h.child_lt hj (e.mem_iff.2 (by simp))).2
    rintro w (rfl | rfl | rfl)
    · exact ⟨ma.1, ha.hl, a, e.mem_iff.2 (by simp), Or.inl rfl⟩
    · exact ⟨ma.2, ha.hr, a, e.mem_iff.2 (by simp), Or.inr rfl⟩
    · exact ⟨mb.2, hb.hr, b, e.mem_iff.2 (by simp), Or.inr rfl⟩

end
end Polyskel
