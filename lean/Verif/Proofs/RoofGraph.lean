import Verif.Proofs.RoofTree
import Verif.Proofs.Cyclic
/-
The graph of a roof over a convex polygon: corners, nodes, sides and arcs.  Its faces belong to the
edges of the polygon.  Used for C62.
-/
namespace Polyskel
open Scalar Real Geo Graph
set_option linter.unusedSectionVars false

/-- the vertex `k`, between the edges `L k` and `R k`, rises to `X` -/
structure Up (pos : Nat → V2 ℝ) (hh : Nat → ℝ) (L R : Nat → Edge2 ℝ) (k X : Nat) (θ : ℝ) : Prop where
  dir : ∃ p, (L k).norm = unitDir p ∧ (R k).norm = unitDir (p + θ)
  gt : 0 < θ
  on : ∃ s, 0 ≤ s ∧ (pos X).x - (pos k).x = s * ((R k).norm.x - (L k).norm.x) ∧
    (pos X).y - (pos k).y = s * ((R k).norm.y - (L k).norm.y)
  hl : hgt (L k) (pos X) = hh X
  hr : hgt (R k) (pos X) = hh X

/-- The vertices of the list rise to `X` side by side: the right edge of each is the left edge of the
next.  Together they go from the edge `e` to the edge `f`, which is `θ` further to the left.  The edges
between them satisfy `M`. -/
inductive Fan (M : Edge2 ℝ → Prop) (pos : Nat → V2 ℝ) (hh : Nat → ℝ) (L R : Nat → Edge2 ℝ) (X : Nat) :
    List Nat → Edge2 ℝ → Edge2 ℝ → ℝ → Prop
  | one {k : Nat} {θ : ℝ} : Up pos hh L R k X θ → Fan M pos hh L R X [k] (L k) (R k) θ
  | cons {k : Nat} {θ τ : ℝ} {l : List Nat} {f : Edge2 ℝ} : Up pos hh L R k X θ → M (R k) →
      Fan M pos hh L R X l (R k) f τ → Fan M pos hh L R X (k :: l) (L k) f (θ + τ)

/-- The tree of a roof with the polygon `c` and `m` nodes.  The vertices are numbered: first the
corners, then the nodes.  `ch j` are the vertices that rise to the node number `j`.  The vertices that
rise to a top go once around it. -/
structure RoofTree (c : List (Edge2 ℝ)) (m : Nat) (pos : Nat → V2 ℝ) (hh : Nat → ℝ)
    (L R : Nat → Edge2 ℝ) (ch : Nat → List Nat) : Prop where
  three : 3 ≤ c.length
  corner : ∀ k, (hk : k < c.length) → pos k = c[k].p1 ∧ R k = c[k] ∧
    L k = c[prevIdx c.length k]'(by unfold prevIdx; split <;> omega) ∧ hh k = 0
  leaf : ∀ k, k < c.length → ∃ j < m, k ∈ ch j
  node : ∀ j, j < m → ∃ l e f θ, (ch j).Perm l ∧ Fan (fun _ => True) pos hh L R (c.length + j) l e f θ ∧
    ((2 ≤ l.length ∧ θ < 2 * π ∧ L (c.length + j) = e ∧ R (c.length + j) = f ∧
        ∃ i < m, c.length + j ∈ ch i) ∨
      (3 ≤ l.length ∧ θ = 2 * π ∧ e = f ∧ ∀ i < m, c.length + j ∉ ch i))
  nodup : ((List.range m).flatMap ch).Nodup
  rank : ∃ rk : Nat → Nat, ∀ j, j < m → ∀ k ∈ ch j, k < c.length + m ∧ rk k < rk (c.length + j)

def sideDarts (n : Nat) : List (Nat × Nat) := (List.range n).map (fun k => (k, nextIdx n k))

def treeDarts (n m : Nat) (ch : Nat → List Nat) : List (Nat × Nat) :=
  (List.range m).flatMap (fun j => (ch j).map (fun k => (n + j, k)))

section
variable {c : List (Edge2 ℝ)} {m : Nat} {pos : Nat → V2 ℝ} {hh : Nat → ℝ} {L R : Nat → Edge2 ℝ}
  {ch : Nat → List Nat}

theorem RoofTree.ch_nodup (h : RoofTree c m pos hh L R ch) {j : Nat} (hj : j < m) : (ch j).Nodup :=
  (List.nodup_flatMap.1 h.nodup).1 j (List.mem_range.2 hj)

theorem RoofTree.parent_unique (h : RoofTree c m pos hh L R ch) {k i j : Nat} (hi : i < m) (hj : j < m)
    (h1 : k ∈ ch i) (h2 : k ∈ ch j) : i = j := by
  by_contra hne
  have hp := (List.nodup_flatMap.1 h.nodup).2
  have hd : List.Disjoint (ch i) (ch j) := by
    rcases Nat.lt_or_gt_of_ne hne with hlt | hlt
    · have := (List.pairwise_iff_getElem.1 hp) i j (by simpa using hi) (by simpa using hj) hlt
      simpa [Function.onFun] using this
    · have := (List.pairwise_iff_getElem.1 hp) j i (by simpa using hj) (by simpa using hi) hlt
      have : List.Disjoint (ch j) (ch i) := by simpa [Function.onFun] using this
      exact this.symm
  exact hd h1 h2

theorem RoofTree.child_lt (h : RoofTree c m pos hh L R ch) {k j : Nat} (hj : j < m) (hk : k ∈ ch j) :
    k < c.length + m ∧ k ≠ c.length + j := by
  obtain ⟨rk, hr⟩ := h.rank
  obtain ⟨h1, h2⟩ := hr j hj k hk
  refine ⟨h1, ?_⟩
  rintro rfl
  omega

section
variable {M : Edge2 ℝ → Prop} {X : Nat} {l l' : List Nat} {e f g : Edge2 ℝ} {θ τ : ℝ}

theorem Fan.gt (h : Fan M pos hh L R X l e f θ) : 0 < θ := by
  induction h with
  | one h => exact h.gt
  | cons h _ _ ih => linarith [h.gt]

theorem Fan.len (h : Fan M pos hh L R X l e f θ) : 0 < l.length := by
  cases h <;> simp

theorem Fan.mono {M' : Edge2 ℝ → Prop} (h : Fan M pos hh L R X l e f θ) (hM : ∀ e, M e → M' e) :
    Fan M' pos hh L R X l e f θ := by
  induction h with
  | one h => exact .one h
  | cons h h1 _ ih => exact .cons h (hM _ h1) ih

theorem Fan.append (h : Fan M pos hh L R X l e f θ) (hM : M f) (h' : Fan M pos hh L R X l' f g τ) :
    Fan M pos hh L R X (l ++ l') e g (θ + τ) := by
  induction h with
  | one h => exact .cons h hM h'
  | cons h h1 _ ih =>
    have := Fan.cons h h1 (ih hM h')
    rwa [← add_assoc] at this

theorem Fan.up (h : Fan M pos hh L R X l e f θ) {k : Nat} (hk : k ∈ l) :
    ∃ τ, τ ≤ θ ∧ (2 ≤ l.length → τ < θ) ∧ Up pos hh L R k X τ := by
  induction h with
  | @one k' θ h =>
    rw [List.mem_singleton] at hk
    subst hk
    exact ⟨θ, le_refl _, fun h0 => by simp at h0, h⟩
  | @cons k' θ τ l f h h1 h2 ih =>
    have := h.gt
    have := h2.gt
    rcases List.mem_cons.1 hk with rfl | hk
    · exact ⟨θ, by linarith, fun _ => by linarith, h⟩
    · obtain ⟨τ', a1, -, a2⟩ := ih hk
      exact ⟨τ', by linarith, fun _ => by linarith, a2⟩

theorem Fan.ends (h : Fan M pos hh L R X l e f θ) : (∃ k ∈ l, L k = e) ∧ ∃ k ∈ l, R k = f := by
  induction h with
  | @one k' θ h => exact ⟨⟨k', by simp, rfl⟩, k', by simp, rfl⟩
  | @cons k' θ τ l f h h1 h2 ih =>
    obtain ⟨k, hk, e⟩ := ih.2
    exact ⟨⟨k', by simp, rfl⟩, k, by simp [hk], e⟩

/-- the edges and their directions, in order -/
theorem Fan.edges (h : Fan M pos hh L R X l e f θ) : ∀ p, e.norm = unitDir p →
    ∃ (E : Nat → Edge2 ℝ) (q : Nat → ℝ), q 0 = p ∧ q l.length = p + θ ∧ E 0 = e ∧ E l.length = f ∧
      (∀ i, i ≤ l.length → (E i).norm = unitDir (q i)) ∧ (∀ i, i < l.length → q i < q (i + 1)) ∧
      ∀ i k, l[i]? = some k → L k = E i ∧ R k = E (i + 1) ∧ Up pos hh L R k X (q (i + 1) - q i) := by
  induction h with
  | @one k θ h =>
    intro p hp
    obtain ⟨p', d1, d2⟩ := h.dir
    rw [d1] at hp
    rw [unitDir_add hp] at d2
    have := h.gt
    refine ⟨fun | 0 => L k | _ + 1 => R k, fun | 0 => p | _ + 1 => p + θ, rfl, rfl, rfl, rfl, ?_, ?_, ?_⟩
    · intro i hi
      match i with
      | 0 => simpa [d1] using hp
      | i + 1 => exact d2
    · intro i hi
      obtain rfl : i = 0 := by simp at hi; omega
      simp only
      linarith
    · intro i k' hk
      match i with
      | 0 =>
        simp only [List.getElem?_cons_zero, Option.some.injEq] at hk
        subst hk
        refine ⟨rfl, rfl, ?_⟩
        simp only [add_sub_cancel_left]
        exact h
      | i + 1 => simp at hk
  | @cons k θ τ l f h h1 h2 ih =>
    intro p hp
    obtain ⟨p', d1, d2⟩ := h.dir
    rw [d1] at hp
    rw [unitDir_add hp] at d2
    have := h.gt
    obtain ⟨E, q, q0, q1, e0, e1, hE, hq, hu⟩ := ih _ d2
    refine ⟨fun | 0 => L k | i + 1 => E i, fun | 0 => p | i + 1 => q i, rfl, ?_, rfl, ?_, ?_, ?_, ?_⟩
    · simp only [List.length_cons, q1]; ring
    · simpa using e1
    · intro i hi
      match i with
      | 0 => simpa [d1] using hp
      | i + 1 => exact hE i (by simpa using hi)
    · intro i hi
      match i with
      | 0 => simp only [q0]; linarith
      | i + 1 => exact hq i (by simpa using hi)
    · intro i k' hk
      match i with
      | 0 =>
        simp only [List.getElem?_cons_zero, Option.some.injEq] at hk
        subst hk
        refine ⟨rfl, e0.symm, ?_⟩
        simp only [q0, add_sub_cancel_left]
        exact h
      | i + 1 => exact hu i k' (by simpa using hk)

end

theorem RoofTree.up (h : RoofTree c m pos hh L R ch) {k j : Nat} (hj : j < m) (hk : k ∈ ch j) :
    ∃ θ, θ < 2 * π ∧ Up pos hh L R k (c.length + j) θ := by
  obtain ⟨l, e, f, θ, hp, hf, hc⟩ := h.node j hj
  obtain ⟨τ, h1, h2, h3⟩ := hf.up (hp.mem_iff.1 hk)
  refine ⟨τ, ?_, h3⟩
  rcases hc with ⟨-, h4, -⟩ | ⟨h4, h5, -⟩
  · linarith
  · have := h2 (by omega)
    linarith

/-- a vertex that rises to a node is a corner, or a node that is not a top -/
theorem RoofTree.inner (h : RoofTree c m pos hh L R ch) {j i : Nat} (hj : j < m) (hi : i < m)
    (hk : c.length + j ∈ ch i) : ∃ l θ, (ch j).Perm l ∧
      Fan (fun _ => True) pos hh L R (c.length + j) l (L (c.length + j)) (R (c.length + j)) θ ∧
      2 ≤ l.length ∧ θ < 2 * π := by
  obtain ⟨l, e, f, θ, hp, hf, hc⟩ := h.node j hj
  rcases hc with ⟨h1, h2, rfl, rfl, -⟩ | ⟨-, -, -, h4⟩
  · exact ⟨l, θ, hp, hf, h1, h2⟩
  · exact absurd hk (h4 i hi)

/-- the heights over the two edges of a vertex -/
theorem RoofTree.height (h : RoofTree c m pos hh L R ch) (hc : ConvexPolygon c) {k j : Nat}
    (hj : j < m) (hkj : k ∈ ch j) : hgt (L k) (pos k) = hh k ∧ hgt (R k) (pos k) = hh k := by
  by_cases hn : k < c.length
  · obtain ⟨h1, h2, h3, h4⟩ := h.corner k hn
    rw [h1, h2, h3, h4]
    have hp : prevIdx c.length k < c.length := by unfold prevIdx; split <;> omega
    constructor
    · obtain ⟨r, -, e1, e2⟩ := hc.along c[prevIdx c.length k] (List.getElem_mem _)
      have hpp : (c[prevIdx c.length k]).p2 = c[k].p1 := by
        by_cases h0 : k = 0
        · subst h0
          have := hc.last (by omega)
          simpa [prevIdx] using this
        · have := hc.ring (k - 1) (by omega)
          simp only [show k - 1 + 1 = k by omega] at this
          simpa [prevIdx, h0] using this
      rw [← hpp]
      simp only [hgt, Geo.height]
      rw [e1, e2]; ring
    · simp [hgt, Geo.height]
  · obtain ⟨i, rfl⟩ : ∃ i, k = c.length + i := ⟨k - c.length, by omega⟩
    have := (h.child_lt hj hkj).1
    obtain ⟨l, θ, -, hf, -⟩ := h.inner (by omega) hj hkj
    obtain ⟨⟨a, ha, e1⟩, b, hb, e2⟩ := hf.ends
    obtain ⟨_, -, -, ua⟩ := hf.up ha
    obtain ⟨_, -, -, ub⟩ := hf.up hb
    rw [← e1, ← e2]
    exact ⟨ua.hl, ub.hr⟩

/-! ### Simple graph -/

theorem nextIdx_lt' {n k : Nat} (hk : k < n) : nextIdx n k < n := by
  unfold nextIdx; split <;> omega

theorem RoofTree.darts_pairwise (h : RoofTree c m pos hh L R ch) :
    (sideDarts c.length ++ treeDarts c.length m ch).Pairwise
      (fun a b => a ≠ b ∧ a ≠ (b.2, b.1)) := by
  have hsz := h.three
  rw [List.pairwise_append]
  refine ⟨?_, ?_, ?_⟩
  · unfold sideDarts
    rw [List.pairwise_map]
    have hlt : (List.range c.length).Pairwise (· < ·) := List.pairwise_lt_range
    refine (List.Pairwise.and_mem.1 hlt).imp ?_
    rintro i j ⟨hi, hj, hij⟩
    rw [List.mem_range] at hi hj
    simp only [ne_eq, Prod.mk.injEq, not_and]
    unfold nextIdx
    constructor
    · intro; omega
    · intro h2; split <;> split at h2 <;> omega
  · unfold treeDarts
    have hnd : ((List.range m).flatMap (fun j => (ch j).map (fun k => (c.length + j, k)))).Nodup := by
      rw [List.nodup_flatMap]
      refine ⟨fun j hj => ?_, ?_⟩
      · exact (h.ch_nodup (List.mem_range.1 hj)).map (fun a b hab => by simpa using hab)
      · refine (List.pairwise_lt_range (n := m)).imp ?_
        intro i j hij
        simp only [Function.onFun]
        intro x hx hx'
        obtain ⟨a, -, rfl⟩ := List.mem_map.1 hx
        obtain ⟨b, -, hb⟩ := List.mem_map.1 hx'
        simp only [Prod.mk.injEq] at hb
        omega
    refine (List.Pairwise.and_mem.1 hnd).imp ?_
    rintro x y ⟨hx, hy, hxy⟩
    refine ⟨hxy, ?_⟩
    rintro rfl
    obtain ⟨i, hi, hx⟩ := List.mem_flatMap.1 hx
    obtain ⟨j, hj, hy⟩ := List.mem_flatMap.1 hy
    obtain ⟨a, ha, hx⟩ := List.mem_map.1 hx
    obtain ⟨b, hb, rfl⟩ := List.mem_map.1 hy
    simp only [Prod.mk.injEq] at hx
    obtain ⟨rk, hr⟩ := h.rank
    have r1 := (hr i (List.mem_range.1 hi) a ha).2
    have r2 := (hr j (List.mem_range.1 hj) b hb).2
    rw [hx.2] at r1
    rw [hx.1] at r1
    omega
  · intro x hx y hy
    obtain ⟨k, hk, rfl⟩ := List.mem_map.1 hx
    obtain ⟨j, -, hy⟩ := List.mem_flatMap.1 hy
    obtain ⟨b, -, rfl⟩ := List.mem_map.1 hy
    have := List.mem_range.1 hk
    have := nextIdx_lt' this
    simp only [ne_eq, Prod.mk.injEq, not_and]
    omega

/-- numbers of the vertices in the graph -/
def Numbering (N : Nat) (gi : Nat → Int) : Prop := ∀ i j, i < N → j < N → gi i = gi j → i = j

theorem RoofTree.dart_lt (h : RoofTree c m pos hh L R ch) {d : Nat × Nat}
    (hd : d ∈ sideDarts c.length ++ treeDarts c.length m ch) :
    d.1 < c.length + m ∧ d.2 < c.length + m ∧ d.1 ≠ d.2 := by
  have hsz := h.three
  rcases List.mem_append.1 hd with hd | hd
  · obtain ⟨k, hk, rfl⟩ := List.mem_map.1 hd
    have hk := List.mem_range.1 hk
    have := nextIdx_lt' hk
    refine ⟨by simp only; omega, by simp only; omega, ?_⟩
    simp only [nextIdx]
    split <;> omega
  · obtain ⟨j, hj, hd⟩ := List.mem_flatMap.1 hd
    obtain ⟨b, hb, rfl⟩ := List.mem_map.1 hd
    have hj := List.mem_range.1 hj
    have := h.child_lt hj hb
    exact ⟨by simp only; omega, by simp only; omega, by simp only; omega⟩

variable {gi : Nat → Int} {ds : List Dart} {rt : Rt}

theorem RoofTree.simple (h : RoofTree c m pos hh L R ch) (hg : Numbering (c.length + m) gi)
    (hds : ds.Perm ((sideDarts c.length ++ treeDarts c.length m ch).map (Prod.map gi gi))) :
    Simple (addEdges rt [] ds) := by
  apply C10_simple
  intro v w
  rw [hds.countP_eq]
  apply joins_le_one
  rw [List.pairwise_map]
  refine (List.Pairwise.and_mem.1 h.darts_pairwise).imp ?_
  rintro x y ⟨hx, hy, h1, h2⟩
  obtain ⟨x1, x2, -⟩ := h.dart_lt hx
  obtain ⟨y1, y2, -⟩ := h.dart_lt hy
  refine ⟨fun he => h1 ?_, fun he => h2 ?_⟩
  · simp only [Prod.map, Prod.mk.injEq] at he
    exact Prod.ext (hg _ _ x1 y1 he.1) (hg _ _ x2 y2 he.2)
  · simp only [Prod.map, Prod.mk.injEq] at he
    exact Prod.ext (hg _ _ x1 y2 he.1) (hg _ _ x2 y1 he.2)

/-- the neighbours of a vertex -/
theorem RoofTree.nbrs (h : RoofTree c m pos hh L R ch) (hg : Numbering (c.length + m) gi)
    (hds : ds.Perm ((sideDarts c.length ++ treeDarts c.length m ch).map (Prod.map gi gi)))
    {u : Nat} (hu : u < c.length + m) (w : Int) :
    w ∈ Graph.nbrs (addEdges rt [] ds) (gi u) ↔
      ∃ x, w = gi x ∧ ((u, x) ∈ sideDarts c.length ++ treeDarts c.length m ch ∨
        (x, u) ∈ sideDarts c.length ++ treeDarts c.length m ch) := by
  rw [← List.count_pos_iff, C10_neighbour_count, hds.countP_eq, List.countP_pos_iff]
  constructor
  · rintro ⟨e, he, hj⟩
    obtain ⟨d, hd, rfl⟩ := List.mem_map.1 he
    obtain ⟨d1, d2, -⟩ := h.dart_lt hd
    simp only [Joins, Prod.map, Bool.and_eq_true, Bool.or_eq_true, beq_iff_eq, Prod.mk.injEq] at hj
    rcases hj.2 with ⟨e1, e2⟩ | ⟨e1, e2⟩
    · have := hg _ _ d1 hu e1
      subst this
      exact ⟨d.2, e2.symm, Or.inl hd⟩
    · have := hg _ _ d2 hu e2
      subst this
      exact ⟨d.1, e1.symm, Or.inr hd⟩
  · rintro ⟨x, rfl, hd | hd⟩
    · refine ⟨_, List.mem_map.2 ⟨_, hd, rfl⟩, ?_⟩
      obtain ⟨d1, d2, d3⟩ := h.dart_lt hd
      simp only [Joins, Prod.map, Bool.and_eq_true, Bool.or_eq_true, beq_iff_eq, Prod.mk.injEq,
        bne_iff_ne, ne_eq]
      exact ⟨fun he => d3 (hg _ _ d1 d2 he), Or.inl trivial⟩
    · refine ⟨_, List.mem_map.2 ⟨_, hd, rfl⟩, ?_⟩
      obtain ⟨d1, d2, d3⟩ := h.dart_lt hd
      simp only [Joins, Prod.map, Bool.and_eq_true, Bool.or_eq_true, beq_iff_eq, Prod.mk.injEq,
        bne_iff_ne, ne_eq]
      exact ⟨fun he => d3 (hg _ _ d1 d2 he), Or.inr trivial⟩

theorem mem_sideDarts {n : Nat} {d : Nat × Nat} : d ∈ sideDarts n ↔ d.1 < n ∧ d.2 = nextIdx n d.1 := by
  simp only [sideDarts, List.mem_map, List.mem_range]
  constructor
  · rintro ⟨k, hk, rfl⟩; exact ⟨hk, rfl⟩
  · rintro ⟨h1, h2⟩; exact ⟨d.1, h1, Prod.ext rfl h2.symm⟩

theorem mem_treeDarts {n m : Nat} {ch : Nat → List Nat} {d : Nat × Nat} :
    d ∈ treeDarts n m ch ↔ ∃ j < m, d.1 = n + j ∧ d.2 ∈ ch j := by
  simp only [treeDarts, List.mem_flatMap, List.mem_range, List.mem_map]
  constructor
  · rintro ⟨j, hj, k, hk, rfl⟩; exact ⟨j, hj, rfl, hk⟩
  · rintro ⟨j, hj, h1, h2⟩; exact ⟨j, hj, d.2, h2, Prod.ext h1.symm rfl⟩

/-- three neighbours -/
theorem RoofTree.nbrs_perm (h : RoofTree c m pos hh L R ch) (hg : Numbering (c.length + m) gi)
    (hds : ds.Perm ((sideDarts c.length ++ treeDarts c.length m ch).map (Prod.map gi gi)))
    {u : Nat} (hu : u < c.length + m) {l : List Nat} (hl : l.Nodup) (hlt : ∀ x ∈ l, x < c.length + m)
    (hm : ∀ x, x ∈ l ↔ ((u, x) ∈ sideDarts c.length ++ treeDarts c.length m ch ∨
        (x, u) ∈ sideDarts c.length ++ treeDarts c.length m ch)) :
    (Graph.nbrs (addEdges rt [] ds) (gi u)).Perm (l.map gi) ∧ (l.map gi).Nodup := by
  have hnd : (l.map gi).Nodup := by
    rw [List.nodup_map_iff_inj_on hl]
    intro x hx y hy he
    exact hg _ _ (hlt x hx) (hlt y hy) he
  refine ⟨?_, hnd⟩
  rw [List.perm_ext_iff_of_nodup ((h.simple hg hds).nodup _) hnd]
  intro w
  rw [h.nbrs hg hds hu, List.mem_map]
  constructor
  · rintro ⟨x, rfl, hx⟩; exact ⟨x, (hm x).2 hx, rfl⟩
  · rintro ⟨x, hx, rfl⟩; exact ⟨x, rfl, (hm x).1 hx⟩

theorem RoofTree.nbrs_corner (h : RoofTree c m pos hh L R ch) (hg : Numbering (c.length + m) gi)
    (hds : ds.Perm ((sideDarts c.length ++ treeDarts c.length m ch).map (Prod.map gi gi)))
    {k j : Nat} (hk : k < c.length) (hj : j < m) (hkj : k ∈ ch j) :
    (Graph.nbrs (addEdges rt [] ds) (gi k)).Perm
      [gi (prevIdx c.length k), gi (c.length + j), gi (nextIdx c.length k)] ∧
    [gi (prevIdx c.length k), gi (c.length + j), gi (nextIdx c.length k)].Nodup := by
  have hsz := h.three
  refine h.nbrs_perm (l := [prevIdx c.length k, c.length + j, nextIdx c.length k]) hg hds (by omega)
    ?_ ?_ ?_
  · simp only [List.nodup_cons, List.mem_cons, List.not_mem_nil, or_false, not_or, not_false_eq_true,
      List.nodup_nil, and_true, prevIdx, nextIdx]
    refine ⟨⟨?_, ?_⟩, ?_⟩
    · split <;> omega
    · split <;> split <;> omega
    · split <;> omega
  · intro x hx
    simp only [List.mem_cons, List.not_mem_nil, or_false] at hx
    rcases hx with rfl | rfl | rfl
    · unfold prevIdx; split <;> omega
    · omega
    · unfold nextIdx; split <;> omega
  · intro x
    simp only [List.mem_append, mem_sideDarts, mem_treeDarts, List.mem_cons, List.not_mem_nil, or_false]
    constructor
    · rintro (rfl | rfl | rfl)
      · right; left
        constructor
        · unfold prevIdx; split <;> omega
        · unfold nextIdx prevIdx; split <;> split <;> omega
      · right; right
        exact ⟨j, hj, rfl, hkj⟩
      · left; left
        exact ⟨hk, rfl⟩
    · rintro ((⟨-, e⟩ | ⟨i, -, e, -⟩) | (⟨e1, e2⟩ | ⟨i, hi, e, hi'⟩))
      · exact Or.inr (Or.inr e)
      · omega
      · left
        unfold nextIdx at e2
        unfold prevIdx
        split at e2 <;> split <;> omega
      · right; left
        rw [e, h.parent_unique hi hj hi' hkj]

/-- the neighbours of a node that is not a top -/
theorem RoofTree.nbrs_node (h : RoofTree c m pos hh L R ch) (hg : Numbering (c.length + m) gi)
    (hds : ds.Perm ((sideDarts c.length ++ treeDarts c.length m ch).map (Prod.map gi gi)))
    {i j : Nat} {l : List Nat} (hi : i < m) (hl : (ch i).Perm l) (hj : j < m) (hkj : c.length + i ∈ ch j) :
    (Graph.nbrs (addEdges rt [] ds) (gi (c.length + i))).Perm ((l ++ [c.length + j]).map gi) ∧
    ((l ++ [c.length + j]).map gi).Nodup := by
  obtain ⟨rk, hr⟩ := h.rank
  refine h.nbrs_perm (l := l ++ [c.length + j]) hg hds (by omega) ?_ ?_ ?_
  · rw [List.nodup_append]
    refine ⟨hl.nodup_iff.1 (h.ch_nodup hi), by simp, ?_⟩
    intro a ha b hb
    rw [List.mem_singleton] at hb
    subst hb
    rintro rfl
    have := (hr i hi _ (hl.mem_iff.2 ha)).2
    have := (hr j hj _ hkj).2
    omega
  · intro x hx
    rcases List.mem_append.1 hx with hx | hx
    · exact (h.child_lt hi (hl.mem_iff.2 hx)).1
    · rw [List.mem_singleton] at hx
      omega
  · intro x
    simp only [List.mem_append, mem_sideDarts, mem_treeDarts, List.mem_cons, List.not_mem_nil, or_false]
    constructor
    · rintro (hx | rfl)
      · left; right
        exact ⟨i, hi, rfl, hl.mem_iff.2 hx⟩
      · right; right
        exact ⟨j, hj, rfl, hkj⟩
    · rintro ((⟨e, -⟩ | ⟨i', -, e, e2⟩) | (⟨e1, e2⟩ | ⟨i', hi', e, e2⟩))
      · omega
      · obtain rfl : i = i' := by omega
        exact .inl (hl.mem_iff.1 e2)
      · have := nextIdx_lt' e1
        omega
      · right
        rw [e, h.parent_unique hi' hj e2 hkj]

/-- the neighbours of a top -/
theorem RoofTree.nbrs_top (h : RoofTree c m pos hh L R ch) (hg : Numbering (c.length + m) gi)
    (hds : ds.Perm ((sideDarts c.length ++ treeDarts c.length m ch).map (Prod.map gi gi)))
    {i : Nat} {l : List Nat} (hi : i < m) (hl : (ch i).Perm l) (ht : ∀ j < m, c.length + i ∉ ch j) :
    (Graph.nbrs (addEdges rt [] ds) (gi (c.length + i))).Perm (l.map gi) ∧ (l.map gi).Nodup := by
  refine h.nbrs_perm (l := l) hg hds (by omega) (hl.nodup_iff.1 (h.ch_nodup hi)) ?_ ?_
  · intro x hx
    exact (h.child_lt hi (hl.mem_iff.2 hx)).1
  · intro x
    simp only [List.mem_append, mem_sideDarts, mem_treeDarts]
    rw [← hl.mem_iff]
    constructor
    · intro hx
      left; right
      exact ⟨i, hi, rfl, hx⟩
    · rintro ((⟨e, -⟩ | ⟨i', -, e, e2⟩) | (⟨e1, e2⟩ | ⟨i', hi', e, e2⟩))
      · omega
      · obtain rfl : i = i' := by omega
        exact e2
      · have := nextIdx_lt' e1
        omega
      · exact absurd e2 (ht i' hi')

end
end Polyskel
