import Verif.Proofs.RoofFaces
/-
Each directed connection of a roof's graph belongs to an edge of the polygon, or to the outside, and a
face walk stays with it.  Used for C62.
-/
namespace Polyskel
open Scalar Real Geo Graph
set_option linter.unusedSectionVars false

/-- the graph of a roof, with its points and its embedding -/
structure RoofG (c : List (Edge2 ℝ)) (m : Nat) (pos : Nat → V2 ℝ) (hh : Nat → ℝ)
    (L R : Nat → Edge2 ℝ) (ch : Nat → List Nat) (gi : Nat → Int) (ds : List Dart) (rt : Rt)
    (verts : List (V3 ℝ)) (z : V2 ℝ) (emb : Graph) : Prop where
  tree : RoofTree c m pos hh L R ch
  poly : ConvexPolygon c
  placed : Placed (c.length + m) pos gi verts z
  darts : ds.Perm ((sideDarts c.length ++ treeDarts c.length m ch).map (Prod.map gi gi))
  emb : circularEmbedding rt (addEdges rt [] ds) verts true = .ok emb

section
variable {c : List (Edge2 ℝ)} {m : Nat} {pos : Nat → V2 ℝ} {hh : Nat → ℝ} {L R : Nat → Edge2 ℝ}
  {ch : Nat → List Nat} {gi : Nat → Int} {ds : List Dart} {rt : Rt} {verts : List (V3 ℝ)} {z : V2 ℝ}
  {emb : Graph}

theorem RoofG.simple (h : RoofG c m pos hh L R ch gi ds rt verts z emb) :
    Simple (addEdges rt [] ds) := h.tree.simple h.placed.num h.darts

theorem RoofG.embeds (h : RoofG c m pos hh L R ch gi ds rt verts z emb) :
    Embeds emb (addEdges rt [] ds) := (C11_embedding_perm rt _ emb verts true h.emb).2

theorem RoofG.nodup (h : RoofG c m pos hh L R ch gi ds rt verts z emb) (v : Int) :
    (Graph.nbrs emb v).Nodup := (h.embeds v).nodup_iff.2 (h.simple.nodup v)

theorem RoofG.lab_lt (h : RoofG c m pos hh L R ch gi ds rt verts z emb) {u v : Nat}
    {o : Option (Edge2 ℝ)} (hl : Lab c.length m ch L R u v o) : u < c.length + m ∧ v < c.length + m := by
  rcases hl with ⟨k, hk, rfl, rfl, rfl⟩ | ⟨k, hk, rfl, rfl, rfl⟩ | ⟨k, j, hj, hk, rfl, rfl, rfl⟩ |
    ⟨k, j, hj, hk, rfl, rfl, rfl⟩
  · have := nextIdx_lt' hk; omega
  · have := nextIdx_lt' hk; omega
  · have := (h.tree.child_lt hj hk).1; omega
  · have := (h.tree.child_lt hj hk).1; omega

theorem RoofG.lab_dart (h : RoofG c m pos hh L R ch gi ds rt verts z emb) {u v : Nat}
    {o : Option (Edge2 ℝ)} (hl : Lab c.length m ch L R u v o) :
    HasDart (addEdges rt [] ds) (gi u, gi v) := by
  unfold HasDart
  rw [h.tree.nbrs h.placed.num h.darts (h.lab_lt hl).1]
  refine ⟨v, rfl, ?_⟩
  simp only [List.mem_append, mem_sideDarts, mem_treeDarts]
  rcases hl with ⟨k, hk, rfl, rfl, rfl⟩ | ⟨k, hk, rfl, rfl, rfl⟩ | ⟨k, j, hj, hk, rfl, rfl, rfl⟩ |
    ⟨k, j, hj, hk, rfl, rfl, rfl⟩
  · exact .inl (.inl ⟨hk, rfl⟩)
  · exact .inr (.inl ⟨hk, rfl⟩)
  · exact .inr (.inr ⟨j, hj, rfl, hk⟩)
  · exact .inl (.inr ⟨j, hj, rfl, hk⟩)

theorem RoofG.dart_lab (h : RoofG c m pos hh L R ch gi ds rt verts z emb) {d : Dart}
    (hd : HasDart (addEdges rt [] ds) d) :
    ∃ u v o, d = (gi u, gi v) ∧ Lab c.length m ch L R u v o := by
  have hu : ∃ u, u < c.length + m ∧ d.1 = gi u := by
    unfold HasDart at hd
    rw [← List.count_pos_iff, C10_neighbour_count, h.darts.countP_eq, List.countP_pos_iff] at hd
    obtain ⟨e, he, hj⟩ := hd
    obtain ⟨x, hx, rfl⟩ := List.mem_map.1 he
    obtain ⟨d1, d2, -⟩ := h.tree.dart_lt hx
    simp only [Joins, Prod.map, Bool.and_eq_true, Bool.or_eq_true, beq_iff_eq, Prod.mk.injEq] at hj
    rcases hj.2 with ⟨e1, e2⟩ | ⟨e1, e2⟩
    · exact ⟨x.1, d1, e1.symm⟩
    · exact ⟨x.2, d2, e2.symm⟩
  obtain ⟨u, hu, e⟩ := hu
  unfold HasDart at hd
  rw [e, h.tree.nbrs h.placed.num h.darts hu] at hd
  obtain ⟨v, e2, hd⟩ := hd
  have hdd : d = (gi u, gi v) := Prod.ext e e2
  simp only [List.mem_append, mem_sideDarts, mem_treeDarts] at hd
  rcases hd with (⟨h1, h2⟩ | ⟨j, hj, h1, h2⟩) | (⟨h1, h2⟩ | ⟨j, hj, h1, h2⟩)
  · exact ⟨u, v, _, hdd, by rw [h2]; exact .side u h1⟩
  · exact ⟨u, v, _, hdd, by rw [h1]; exact .down v j hj h2⟩
  · exact ⟨u, v, _, hdd, by rw [h2]; exact .outer v h1⟩
  · exact ⟨u, v, _, hdd, by rw [h1]; exact .up u j hj h2⟩

theorem prev_nextIdx {n k : Nat} (hk : k < n) : prevIdx n (nextIdx n k) = k := by
  unfold prevIdx nextIdx
  split <;> split <;> omega

theorem next_prevIdx {n k : Nat} (hk : k < n) : nextIdx n (prevIdx n k) = k := by
  unfold prevIdx nextIdx
  split <;> split <;> omega

theorem RoofTree.left_next (h : RoofTree c m pos hh L R ch) {k : Nat} (hk : k < c.length) :
    L (nextIdx c.length k) = R k := by
  obtain ⟨-, -, h3, -⟩ := h.corner _ (nextIdx_lt' hk)
  rw [h3, (h.corner k hk).2.1]
  simp only [prev_nextIdx hk]

/-- what follows a connection -/
theorem RoofG.lab_step (h : RoofG c m pos hh L R ch gi ds rt verts z emb) {u v : Nat}
    {o : Option (Edge2 ℝ)} (hl : Lab c.length m ch L R u v o) :
    ∃ w, Follows (Graph.nbrs emb (gi v)) (gi u) (gi w) ∧ Lab c.length m ch L R v w o ∧
      (o ≠ none → 0 < turn pos u v w ∧ (Blunt c → NotBack pos u v w)) := by
  have hsz := h.tree.three
  -- at a node
  have node : ∀ j u e, j < m → Lab c.length m ch L R u (c.length + j) (some e) →
      ∃ w, Follows (Graph.nbrs emb (gi (c.length + j))) (gi u) (gi w) ∧
        Lab c.length m ch L R (c.length + j) w (some e) ∧
        (some e ≠ none → 0 < turn pos u (c.length + j) w ∧ (Blunt c → NotBack pos u (c.length + j) w)) := by
    intro j u e hj hl
    obtain ⟨l, E, q, hS, hlt, hE, hn, hnd, hlab, hinv⟩ :=
      h.tree.around (rt := rt) h.placed.inj h.placed.num h.darts hj
    obtain ⟨i, hi, rfl⟩ := (hinv u e).2 hl
    obtain ⟨hb, hEb, -⟩ := hS.before (List.getElem?_eq_some_iff.1 hi).1
    have hw := List.getElem?_eq_getElem hb
    have st := hS.step h.placed h.emb (by omega) hlt hn hnd h.poly hE hi hw
    refine ⟨_, st.follows, ?_, fun _ => ⟨st.left, st.blunt⟩⟩
    have := (hlab _ _ hw).2
    rwa [hEb] at this
  rcases hl with ⟨k, hk, rfl, rfl, rfl⟩ | ⟨k, hk, rfl, rfl, rfl⟩ | ⟨k, j, hj, hk, rfl, rfl, rfl⟩ |
    ⟨k, j, hj, hk, rfl, rfl, rfl⟩
  · have hn := nextIdx_lt' hk
    obtain ⟨j, hj, hkj⟩ := h.tree.leaf _ hn
    obtain ⟨s1, -, -⟩ := h.tree.step_corner h.poly h.placed h.darts h.emb hn hj hkj
    rw [prev_nextIdx hk] at s1
    refine ⟨c.length + j, s1.follows, ?_, fun _ => ⟨s1.left, s1.blunt⟩⟩
    rw [← h.tree.left_next hk]
    exact .up _ j hj hkj
  · obtain ⟨j, hj, hkj⟩ := h.tree.leaf k hk
    obtain ⟨-, -, s3⟩ := h.tree.step_corner h.poly h.placed h.darts h.emb hk hj hkj
    refine ⟨prevIdx c.length k, s3, ?_, fun h0 => absurd rfl h0⟩
    have := Lab.outer (ch := ch) (L := L) (R := R) (m := m) (n := c.length) (prevIdx c.length k)
      (by unfold prevIdx; split <;> omega)
    rwa [next_prevIdx hk] at this
  · exact node j k _ hj (.up k j hj hk)
  · by_cases hn : k < c.length
    · obtain ⟨-, s2, -⟩ := h.tree.step_corner h.poly h.placed h.darts h.emb hn hj hk
      exact ⟨_, s2.follows, .side k hn, fun _ => ⟨s2.left, s2.blunt⟩⟩
    · obtain ⟨i, rfl⟩ : ∃ i, k = c.length + i := ⟨k - c.length, by omega⟩
      have := (h.tree.child_lt hj hk).1
      exact node i _ _ (by omega) (.down _ j hj hk)

theorem RoofG.turn (h : RoofG c m pos hh L R ch gi ds rt verts z emb) {u v : Nat} {d : Dart}
    {o : Option (Edge2 ℝ)} (hl : Lab c.length m ch L R u v o) (ht : TurnsTo emb (gi u, gi v) d) :
    ∃ w, d = (gi v, gi w) ∧ Lab c.length m ch L R v w o ∧
      (o ≠ none → 0 < turn pos u v w ∧ (Blunt c → NotBack pos u v w)) := by
  obtain ⟨w, hf, h2⟩ := h.lab_step hl
  refine ⟨w, Prod.ext ht.1 ?_, h2⟩
  exact ht.2.unique (h.nodup _) hf

theorem RoofTree.ne_edges (h : RoofTree c m pos hh L R ch) {k j : Nat} (hj : j < m) (hkj : k ∈ ch j) :
    (L k).norm ≠ (R k).norm := by
  obtain ⟨θ, ht, hu⟩ := h.up hj hkj
  obtain ⟨p, e1, e2⟩ := hu.dir
  rw [e1, e2]
  intro he
  have h1 : cos p = cos (p + θ) := congrArg V2.x he
  have h2 : sin p = sin (p + θ) := congrArg V2.y he
  have h3 : cos θ = 1 := by
    rw [show cos θ = cos (p + θ - p) by ring_nf, cos_sub, ← h1, ← h2]
    linarith [sin_sq_add_cos_sq p]
  have h4 : 0 < sin (θ / 2) := sin_pos_of_pos_of_lt_pi (by linarith [hu.gt]) (by linarith)
  have h5 : cos θ = 1 - 2 * sin (θ / 2) ^ 2 := by
    rw [show cos θ = cos (2 * (θ / 2)) by ring_nf, cos_two_mul]
    linarith [sin_sq_add_cos_sq (θ / 2)]
  nlinarith

/-- the connections from one vertex belong to different edges -/
theorem RoofG.lab_end (h : RoofG c m pos hh L R ch gi ds rt verts z emb) {u v v' : Nat}
    {e : Edge2 ℝ} (h1 : Lab c.length m ch L R u v (some e)) (h2 : Lab c.length m ch L R u v' (some e)) :
    v = v' := by
  by_cases hu : c.length ≤ u
  · obtain ⟨j, rfl⟩ : ∃ j, u = c.length + j := ⟨u - c.length, by omega⟩
    have hj : j < m := by have := (h.lab_lt h1).1; omega
    obtain ⟨l, E, q, hS, hlt, hE, hn, hnd, hlab, hinv⟩ :=
      h.tree.around (rt := rt) h.placed.inj h.placed.num h.darts hj
    obtain ⟨i, hi, e1⟩ := (hinv v e).1 h1
    obtain ⟨i', hi', e2⟩ := (hinv v' e).1 h2
    have := hS.inj (List.getElem?_eq_some_iff.1 hi).1 (List.getElem?_eq_some_iff.1 hi').1 (e1.symm.trans e2)
    subst this
    rw [hi] at hi'
    exact Option.some.inj hi'
  · have hu : u < c.length := by omega
    have side : ∀ v, Lab c.length m ch L R u v (some e) → (v = nextIdx c.length u ∧ R u = e) ∨
        ∃ j < m, u ∈ ch j ∧ v = c.length + j ∧ L u = e := by
      rintro v (⟨k, hk, rfl, rfl, ho⟩ | ⟨k, hk, rfl, rfl, ho⟩ | ⟨k, j, hj, hk, rfl, rfl, ho⟩ |
        ⟨k, j, hj, hk, rfl, rfl, ho⟩)
      · exact .inl ⟨rfl, Option.some.inj ho⟩
      · cases ho
      · exact .inr ⟨j, hj, hk, rfl, Option.some.inj ho⟩
      · omega
    rcases side v h1 with ⟨rfl, e1⟩ | ⟨j, hj, hk, rfl, e1⟩ <;>
      rcases side v' h2 with ⟨rfl, e2⟩ | ⟨j', hj', hk', rfl, e2⟩
    · rfl
    · exact absurd (by rw [e1, e2]) (h.tree.ne_edges hj' hk')
    · exact absurd (by rw [e1, e2]) (h.tree.ne_edges hj hk)
    · rw [h.tree.parent_unique hj hj' hk hk']

/-- the vertices of an edge's part of the roof are on its plane -/
theorem RoofG.lab_plane (h : RoofG c m pos hh L R ch gi ds rt verts z emb) {u v : Nat}
    {e : Edge2 ℝ} (hl : Lab c.length m ch L R u v (some e)) : e ∈ c ∧ hgt e (pos u) = hh u := by
  rcases hl with ⟨k, hk, rfl, rfl, ho⟩ | ⟨k, hk, rfl, rfl, ho⟩ | ⟨k, j, hj, hk, rfl, rfl, ho⟩ |
    ⟨k, j, hj, hk, rfl, rfl, ho⟩
  · simp only [Option.some.injEq] at ho
    subst ho
    obtain ⟨j, hj, hkj⟩ := h.tree.leaf _ hk
    exact ⟨(h.tree.edges_mem hj hkj).2, (h.tree.height h.poly hj hkj).2⟩
  · cases ho
  · simp only [Option.some.injEq] at ho
    subst ho
    exact ⟨(h.tree.edges_mem hj hk).1, (h.tree.height h.poly hj hk).1⟩
  · simp only [Option.some.injEq] at ho
    subst ho
    obtain ⟨θ, -, hu⟩ := h.tree.up hj hk
    exact ⟨(h.tree.edges_mem hj hk).2, hu.hr⟩

/-- A connection that is not a side of the polygon is level with the planes of two edges. -/
theorem RoofG.lab_other (h : RoofG c m pos hh L R ch gi ds rt verts z emb) {u v : Nat}
    {e : Edge2 ℝ} (hl : Lab c.length m ch L R u v (some e)) : (u < c.length ∧ e = R u) ∨
    ∃ g ∈ c, g.norm ≠ e.norm ∧ hgt g (pos u) = hh u ∧ hgt g (pos v) = hh v := by
  rcases hl with ⟨k, hk, rfl, rfl, ho⟩ | ⟨k, hk, rfl, rfl, ho⟩ | ⟨k, j, hj, hk, rfl, rfl, ho⟩ |
    ⟨k, j, hj, hk, rfl, rfl, ho⟩
  · simp only [Option.some.injEq] at ho
    exact .inl ⟨hk, ho.symm⟩
  · cases ho
  · simp only [Option.some.injEq] at ho
    subst ho
    obtain ⟨θ, -, hu⟩ := h.tree.up hj hk
    exact .inr ⟨_, (h.tree.edges_mem hj hk).2, (h.tree.ne_edges hj hk).symm,
      (h.tree.height h.poly hj hk).2, hu.hr⟩
  · simp only [Option.some.injEq] at ho
    subst ho
    obtain ⟨θ, -, hu⟩ := h.tree.up hj hk
    exact .inr ⟨_, (h.tree.edges_mem hj hk).1, h.tree.ne_edges hj hk,
      hu.hl, (h.tree.height h.poly hj hk).1⟩

theorem dt_lt_one {x y : V2 ℝ} (hx : x.x ^ 2 + x.y ^ 2 = 1) (hy : y.x ^ 2 + y.y ^ 2 = 1) (hne : x ≠ y) :
    x.x * y.x + x.y * y.y < 1 := by
  by_contra hc
  have h1 : (x.x - y.x) ^ 2 + (x.y - y.y) ^ 2 ≤ 0 := by nlinarith
  have h2 : x.x - y.x = 0 := by nlinarith [sq_nonneg (x.x - y.x), sq_nonneg (x.y - y.y)]
  have h3 : x.y - y.y = 0 := by nlinarith [sq_nonneg (x.x - y.x), sq_nonneg (x.y - y.y)]
  apply hne
  cases x
  cases y
  simp only at h2 h3
  rw [sub_eq_zero.1 h2, sub_eq_zero.1 h3]

/-- along the ridges of an edge's part of the roof one goes backwards -/
theorem RoofG.lab_back (h : RoofG c m pos hh L R ch gi ds rt verts z emb) {u v : Nat}
    {e : Edge2 ℝ} (hl : Lab c.length m ch L R u v (some e)) :
    (u < c.length ∧ v = nextIdx c.length u ∧ e = R u) ∨
      e.norm.x * (pos v).x + e.norm.y * (pos v).y < e.norm.x * (pos u).x + e.norm.y * (pos u).y := by
  have key : ∀ k j, j < m → k ∈ ch j → ∃ s > 0,
      (pos (c.length + j)).x - (pos k).x = s * ((R k).norm.x - (L k).norm.x) ∧
      (pos (c.length + j)).y - (pos k).y = s * ((R k).norm.y - (L k).norm.y) := by
    intro k j hj hk
    obtain ⟨θ, -, hu⟩ := h.tree.up hj hk
    have hlt := h.tree.child_lt hj hk
    exact hu.vec (fun he => hlt.2 (h.placed.inj _ _ hlt.1 (by omega) he))
  rcases hl with ⟨k, hk, rfl, rfl, ho⟩ | ⟨k, hk, rfl, rfl, ho⟩ | ⟨k, j, hj, hk, rfl, rfl, ho⟩ |
    ⟨k, j, hj, hk, rfl, rfl, ho⟩
  · simp only [Option.some.injEq] at ho
    exact .inl ⟨hk, rfl, ho.symm⟩
  · cases ho
  · right
    simp only [Option.some.injEq] at ho
    subst ho
    obtain ⟨s, hs, x1, y1⟩ := key k j hj hk
    have hm := h.tree.edges_mem hj hk
    have hU := h.poly.unit _ hm.1
    have := dt_lt_one hU (h.poly.unit _ hm.2) (h.tree.ne_edges hj hk)
    have hlt := mul_pos hs (sub_pos.2 this)
    have e1 : (pos (c.length + j)).x = (pos k).x + s * ((R k).norm.x - (L k).norm.x) := by linarith
    have e2 : (pos (c.length + j)).y = (pos k).y + s * ((R k).norm.y - (L k).norm.y) := by linarith
    rw [e1, e2]
    have e3 : (L k).norm.x * ((pos k).x + s * ((R k).norm.x - (L k).norm.x)) +
        (L k).norm.y * ((pos k).y + s * ((R k).norm.y - (L k).norm.y)) =
        (L k).norm.x * (pos k).x + (L k).norm.y * (pos k).y -
          s * (1 - ((L k).norm.x * (R k).norm.x + (L k).norm.y * (R k).norm.y)) := by
      linear_combination (-s) * hU
    linarith
  · right
    simp only [Option.some.injEq] at ho
    subst ho
    obtain ⟨s, hs, x1, y1⟩ := key k j hj hk
    have hm := h.tree.edges_mem hj hk
    have hU := h.poly.unit _ hm.2
    have := dt_lt_one (h.poly.unit _ hm.1) hU (h.tree.ne_edges hj hk)
    have hlt := mul_pos hs (sub_pos.2 this)
    have e1 : (pos (c.length + j)).x = (pos k).x + s * ((R k).norm.x - (L k).norm.x) := by linarith
    have e2 : (pos (c.length + j)).y = (pos k).y + s * ((R k).norm.y - (L k).norm.y) := by linarith
    rw [e1, e2]
    have e3 : (R k).norm.x * ((pos k).x + s * ((R k).norm.x - (L k).norm.x)) +
        (R k).norm.y * ((pos k).y + s * ((R k).norm.y - (L k).norm.y)) =
        (R k).norm.x * (pos k).x + (R k).norm.y * (pos k).y +
          s * (1 - ((L k).norm.x * (R k).norm.x + (L k).norm.y * (R k).norm.y)) := by
      linear_combination s * hU
    linarith

end
end Polyskel
