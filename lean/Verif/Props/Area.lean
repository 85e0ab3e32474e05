import Mathlib.Tactic.NormNum
import Verif.Proofs.AreaSum
/-
C66: the areas of the faces add up to the area of the polygon.
-/
namespace Polyskel
open Graph Geo

/-- twice the signed area, seen from above, of the closed polygon with these vertices -/
noncomputable def loopArea2 (V : List (V3 ℝ)) (f : List Int) : ℝ :=
  ((f.zip (f.rotate 1)).map (fun d =>
    ((V[d.1.toNat]?).getD ⟨0, 0, 0⟩).x * ((V[d.2.toNat]?).getD ⟨0, 0, 0⟩).y -
      ((V[d.1.toNat]?).getD ⟨0, 0, 0⟩).y * ((V[d.2.toNat]?).getD ⟨0, 0, 0⟩).x)).sum

/-- the vertices of the polygon and of its holes -/
def contourLoops {S : Type} (a : PolyArgs S) : List (List Int) :=
  ((a.first, a.num) :: a.holes.getD []).map (fun c => (List.range' c.1 c.2).map (fun i : Nat => (i : Int)))

section
variable {S : Type} [Scalar S]

theorem contourDarts_steps {first num : Nat} {ds : List Dart} (h : contourDarts first num = .ok ds) :
    ds.Perm (steps ((List.range' first num).map (fun i : Nat => (i : Int)))) := by
  unfold contourDarts at h
  obtain ⟨l, hl, h⟩ := bind_ok.1 h
  simp only [pure_ok, Except.ok.injEq] at h
  subst h
  unfold iterPrevNext at hl
  split at hl
  · cases hl
  · rename_i h0
    cases hl
    rw [List.length_range'] at h0
    have e : ((List.range' first num).drop ((List.range' first num).length - 1) ++
        (List.range' first num).take ((List.range' first num).length - 1)) =
        (List.range' first num).rotate (num - 1) := by
      rw [List.length_range', List.rotate_eq_drop_append_take (by simp)]
    rw [e]
    refine List.Perm.trans ?_ (steps_rotate _ (num - 1))
    unfold steps
    rw [List.rotate_rotate, show num - 1 + 1 = num by omega]
    have : (List.map (fun i : Nat => (i : Int)) (List.range' first num)).rotate num =
        List.map (fun i : Nat => (i : Int)) (List.range' first num) := by
      have := List.rotate_length (List.map (fun i : Nat => (i : Int)) (List.range' first num))
      rwa [List.length_map, List.length_range'] at this
    rw [this, ← List.map_rotate, List.zip_map]
    rfl

theorem holeDarts_steps {hs : List (Nat × Nat)} {ds : List Dart} (h : holeDarts hs = .ok ds) :
    ds.Perm ((hs.map (fun c => (List.range' c.1 c.2).map (fun i : Nat => (i : Int)))).flatMap steps) := by
  induction hs generalizing ds with
  | nil => cases h; simp
  | cons c hs ih =>
    obtain ⟨f, n⟩ := c
    unfold holeDarts at h
    obtain ⟨A, hA, h⟩ := bind_ok.1 h
    obtain ⟨B, hB, h⟩ := bind_ok.1 h
    cases h
    rw [List.map_cons, List.flatMap_cons]
    exact (contourDarts_steps hA).append (ih hB)

/-- the polygon edges and the connections in the graph of `polygonize` -/
theorem graphDarts_parts {a : PolyArgs S} {edges : List (Edge2 S)} {sk : List (Subtree S)}
    {ds : List Dart} (h : graphDarts a edges sk = .ok ds) :
    ∃ P K, ds = P ++ K ∧ (∀ d, d ∈ P ↔ PolyEdge a d) ∧ (∀ d, d ∈ K ↔ Connection edges sk a.verts.length d) ∧
      P.Perm ((contourLoops a).flatMap steps) := by
  unfold graphDarts at h
  obtain ⟨d1, h1, h⟩ := bind_ok.1 h
  obtain ⟨d2, h2, h⟩ := bind_ok.1 h
  cases h
  refine ⟨d1 ++ d2, skelDarts edges sk a.verts.length, rfl, ?_, ?_, ?_⟩
  · intro d
    rw [List.mem_append, mem_contourDarts_iff h1, mem_holeDarts_iff h2]
    unfold PolyEdge edgeEnds
    simp only [List.mem_flatMap, List.mem_map, List.mem_range, List.mem_cons]
    constructor
    · rintro (⟨k, hk, rfl⟩ | ⟨c, hc, k, hk, rfl⟩)
      · exact ⟨_, ⟨(a.first, a.num), .inl rfl, k, hk, rfl⟩, rfl⟩
      · exact ⟨_, ⟨c, .inr hc, k, hk, rfl⟩, rfl⟩
    · rintro ⟨_, ⟨c, rfl | hc, k, hk, rfl⟩, rfl⟩
      · exact .inl ⟨k, hk, rfl⟩
      · exact .inr ⟨c, hc, k, hk, rfl⟩
  · intro d
    unfold skelDarts Connection
    simp only [List.mem_flatMap, List.mem_map]
    constructor
    · rintro ⟨⟨s, j⟩, hs, p, hp, rfl⟩
      refine ⟨j, s, by simpa [List.mem_zipIdx_iff_getElem?] using hs, ?_, p, hp, rfl⟩
      simp only; omega
    · rintro ⟨j, s, hs, hd1, p, hp, hd2⟩
      refine ⟨(s, j), by simpa [List.mem_zipIdx_iff_getElem?] using hs, p, hp, ?_⟩
      obtain ⟨x, y⟩ := d
      simp only at hd1 hd2
      rw [hd1, hd2]; simp only [Prod.mk.injEq, and_true]; omega
  · unfold contourLoops
    rw [List.map_cons, List.flatMap_cons]
    exact (contourDarts_steps h1).append (holeDarts_steps h2)

/-- C66, in general: let the edges in the graph of `polygonize` be different, let each edge of the
polygon and of its holes belong to a returned face on its inner side and to none on its outer side.
Then everything that changes its sign with the direction of an edge has, summed up along the edges of all
faces, the same value as summed up along the edges of the polygon and the holes. -/
theorem C66_boundary (rt : Rt) (a : PolyArgs S) (edges : List (Edge2 S)) (sk : List (Subtree S))
    (V : List (V3 S)) (ds : List Dart) (emb : Graph) (out : List (List Int))
    (hds : graphDarts a edges sk = .ok ds) (hsimple : ∀ v w, ds.countP (Joins v w) ≤ 1)
    (hemb : circularEmbedding rt (addEdges rt [] ds) V = .ok emb)
    (hout : faces rt (addEdges rt [] ds) emb a.verts.length = .ok out)
    (hin : ∀ d, PolyEdge a d → d ∈ out.flatMap (fun f => f.zip (f.rotate 1)) ∧
      (d.2, d.1) ∉ out.flatMap (fun f => f.zip (f.rotate 1)))
    (w : Dart → ℝ) (hw : ∀ a b, w (b, a) = - w (a, b)) :
    (out.map (fun f => ((f.zip (f.rotate 1)).map w).sum)).sum =
      ((contourLoops a).map (fun f => ((f.zip (f.rotate 1)).map w).sum)).sum := by
  have key : ∀ l : List (List Int), (l.map (fun f => ((f.zip (f.rotate 1)).map w).sum)).sum =
      ((l.flatMap steps).map w).sum := by
    intro l
    induction l with
    | nil => simp
    | cons f l ih => rw [List.map_cons, List.sum_cons, ih, List.flatMap_cons, List.map_append,
        List.sum_append]; rfl
  obtain ⟨P, K, rfl, hP, hK, hp⟩ := graphDarts_parts hds
  rw [key, key, ← (hp.map w).sum_eq]
  refine sum_of_sides hsimple hemb hout (fun d hd => ?_) (fun d hd => hin d ((hP d).1 hd)) w hw
  obtain ⟨j, s, -, h, -⟩ := (hK d).1 hd
  omega

end

/-- A corner `p, v, x` of the polygon or of a hole as it should be: it belongs to no other contour, it is
connected to exactly one node, and this lies to the left of the edges before and after the corner. -/
def InnerCorner (a : PolyArgs ℝ) (edges : List (Edge2 ℝ)) (sk : List (Subtree ℝ)) (V : List (V3 ℝ))
    (p v x : Int) : Prop :=
  (∀ u, PolyEdge a (u, v) → u = p) ∧ (∀ u, PolyEdge a (v, u) → u = x) ∧
  ∃ q, Connection edges sk a.verts.length (q, v) ∧
    (∀ u, Connection edges sk a.verts.length (u, v) → u = q) ∧
    ∃ A B C Q, pyGet V p = .ok A ∧ pyGet V v = .ok B ∧ pyGet V x = .ok C ∧ pyGet V q = .ok Q ∧
      0 < area2 A.xy B.xy Q.xy ∧ 0 < area2 B.xy C.xy Q.xy

/-- C66: for every polygon, convex or not, with or without holes, and every skeleton that connects each
corner with one node on the inner side of its edges: the faces that are found in the graph have, seen from
above, together the signed area of the polygon less that of its holes.  (Holes are given clockwise: their
own signed areas are negative.) -/
theorem C66_area (rt : Rt) (a : PolyArgs ℝ) (edges : List (Edge2 ℝ)) (sk : List (Subtree ℝ))
    (V : List (V3 ℝ)) (ds : List Dart) (emb : Graph) (out : List (List Int))
    (hr : ∀ ij ∈ edgeEnds a, ij.1 < a.verts.length)
    (hds : graphDarts a edges sk = .ok ds) (hsimple : ∀ v w, ds.countP (Joins v w) ≤ 1)
    (hcorner : ∀ p v x, PolyEdge a (p, v) → PolyEdge a (v, x) → InnerCorner a edges sk V p v x)
    (hemb : circularEmbedding rt (addEdges rt [] ds) V = .ok emb)
    (hout : faces rt (addEdges rt [] ds) emb a.verts.length = .ok out) :
    (out.map (loopArea2 V)).sum = ((contourLoops a).map (loopArea2 V)).sum := by
  refine C66_boundary rt a edges sk V ds emb out hds hsimple hemb hout ?_ _ (fun a b => by ring)
  obtain ⟨P, K, rfl, hP, hK, hp⟩ := graphDarts_parts hds
  have hpos : ∀ d, PolyEdge a d → ∃ c ∈ (a.first, a.num) :: a.holes.getD [], ∃ k < c.2,
      d = (((c.1 + k : Nat) : Int), ((c.1 + (k + 1) % c.2 : Nat) : Int)) := by
    rintro d ⟨ij, h, rfl⟩
    unfold edgeEnds at h
    simp only [List.mem_flatMap, List.mem_map, List.mem_range] at h
    obtain ⟨c, hc, k, hk, rfl⟩ := h
    exact ⟨c, hc, k, hk, rfl⟩
  have hpos' : ∀ c ∈ (a.first, a.num) :: a.holes.getD [], ∀ k < c.2,
      PolyEdge a (((c.1 + k : Nat) : Int), ((c.1 + (k + 1) % c.2 : Nat) : Int)) := by
    intro c hc k hk
    refine ⟨(c.1 + k, c.1 + (k + 1) % c.2), ?_, rfl⟩
    unfold edgeEnds
    simp only [List.mem_flatMap, List.mem_map, List.mem_range]
    exact ⟨c, hc, k, hk, rfl⟩
  have hnext : ∀ d ∈ P, ∃ e ∈ P, d.2 = e.1 := by
    intro d hd
    obtain ⟨c, hc, k, hk, rfl⟩ := hpos d ((hP d).1 hd)
    exact ⟨_, (hP _).2 (hpos' c hc ((k + 1) % c.2) (Nat.mod_lt _ (by omega))), rfl⟩
  have hprev : ∀ e ∈ P, ∃ d ∈ P, d.2 = e.1 := by
    intro e he
    obtain ⟨c, hc, k, hk, rfl⟩ := hpos e ((hP e).1 he)
    refine ⟨_, (hP _).2 (hpos' c hc ((k + c.2 - 1) % c.2) (Nat.mod_lt _ (by omega))), ?_⟩
    simp only
    rw [Nat.mod_add_mod, show k + c.2 - 1 + 1 = k + c.2 by omega, Nat.add_mod_right,
      Nat.mod_eq_of_lt hk]
  have hlow : ∀ d ∈ P, d.1 < (a.verts.length : Int) := by
    intro d hd
    obtain ⟨ij, h, rfl⟩ := (hP d).1 hd
    have := hr ij h
    simp only; omega
  have hmain := sides_of_corners hsimple hemb hout
    (fun d hd => ⟨hlow d hd, by
      obtain ⟨e, he, hde⟩ := hnext d hd
      rw [hde]; exact hlow e he⟩)
    (fun d hd => by
      obtain ⟨j, s, -, h, -⟩ := (hK d).1 hd
      omega) hprev hnext (by
    rintro ⟨p, v⟩ hd ⟨v', x⟩ he rfl
    obtain ⟨h1, h2, q, hq, hq1, A, B, C, Q, hA, hB, hC, hQ, a1, a2⟩ :=
      hcorner p v x ((hP _).1 hd) ((hP _).1 he)
    refine ⟨q, (hK _).2 hq, ?_, ?_, A, B, C, Q, hA, hB, hC, hQ, a1, a2⟩
    · rintro ⟨u, v'⟩ hk rfl
      exact hq1 u ((hK _).1 hk)
    · rintro ⟨u, u'⟩ hd'
      refine ⟨?_, ?_⟩
      · rintro rfl
        rw [h1 u ((hP _).1 hd')]
      · rintro rfl
        rw [h2 u' ((hP _).1 hd')])
  intro d hd
  exact hmain d ((hP d).2 hd)

/-- C66 for the removal of a spike: when the spike `p, t, x` of the face `fi` is merged into its two
neighbour faces (C51), nothing that changes its sign with the direction of an edge changes in total, in
particular not the area: what one face loses another one gains. -/
theorem C66_spike (n : Nat) (faces faces' : List (List Int)) (fi ri li : Nat)
    (p t x : Int) (face right left : List Int)
    (h : removeSpike n faces fi p t x = .ok (some faces'))
    (hface : faces[fi]? = some face) (htri : ∃ i, TripleAt face i p t x)
    (hright : faces[ri]? = some right) (hrs : HasStep right t p)
    (hru : ∀ j g, faces[j]? = some g → HasStep g t p → j = ri)
    (hleft : faces[li]? = some left) (hls : HasStep left x t)
    (hlu : ∀ j g, faces[j]? = some g → HasStep g x t → j = li)
    (hrl : ri ≠ li) (hfr : fi ≠ ri) (hfl : fi ≠ li)
    (hcf : face.count t = 1) (hcr : right.count p = 1) (hcl : left.count t = 1) (hxt : x ≠ t)
    (hpt : p ≠ t) (w : Dart → ℝ) (hw : ∀ a b, w (b, a) = - w (a, b)) :
    (faces'.map (fun f => ((f.zip (f.rotate 1)).map w).sum)).sum =
      (faces.map (fun f => ((f.zip (f.rotate 1)).map w).sum)).sum := by
  have key : ∀ l : List (List Int), (l.map (fun f => ((f.zip (f.rotate 1)).map w).sum)).sum =
      ((l.flatMap steps).map w).sum := by
    intro l
    induction l with
    | nil => simp
    | cons f l ih => rw [List.map_cons, List.sum_cons, ih, List.flatMap_cons, List.map_append,
        List.sum_append]; rfl
  have hp := ((C51_spike_merge_steps n faces faces' fi ri li p t x face right left h hface htri hright hrs
    hru hleft hls hlu hrl hfr hfl hcf hcr hcl hxt hpt).map w).sum_eq
  simp only [List.map_append, List.sum_append, List.map_cons, List.sum_cons, List.map_nil, List.sum_nil] at hp
  rw [key, key]
  have e1 := hw p t
  have e2 := hw t x
  have e3 := hw p x
  linarith

/-- the case of C51 -/
example (w : Dart → ℝ) (hw : ∀ a b, w (b, a) = - w (a, b)) :
    (([[0, 4, 6, 3], [0, 1, 5, 1, 2, 3, 6, 4]] : List (List Int)).map
      (fun f => ((f.zip (f.rotate 1)).map w).sum)).sum =
    (([[0, 4, 5, 6, 3], [0, 1, 5, 4], [1, 2, 3, 6, 5]] : List (List Int)).map
      (fun f => ((f.zip (f.rotate 1)).map w).sum)).sum :=
  C66_spike 4 _ _ 0 1 2 4 5 6 [0, 4, 5, 6, 3] [0, 1, 5, 4] [1, 2, 3, 6, 5]
    (by decide) rfl ⟨2, by decide⟩ rfl ⟨2, by decide⟩ (by
      intro j g hg hs
      match j, hg with
      | 0, hg => cases hg; exact absurd hs (by rintro ⟨i, h1, h2⟩; revert h1 h2; exact no_step (by decide) i)
      | 1, _ => rfl
      | 2, hg => cases hg; exact absurd hs (by rintro ⟨i, h1, h2⟩; revert h1 h2; exact no_step (by decide) i)
      | _ + 3, hg => simp at hg)
    rfl ⟨3, by decide⟩ (by
      intro j g hg hs
      match j, hg with
      | 0, hg => cases hg; exact absurd hs (by rintro ⟨i, h1, h2⟩; revert h1 h2; exact no_step (by decide) i)
      | 1, hg => cases hg; exact absurd hs (by rintro ⟨i, h1, h2⟩; revert h1 h2; exact no_step (by decide) i)
      | 2, _ => rfl
      | _ + 3, hg => simp at hg)
    (by decide) (by decide) (by decide) (by decide) (by decide) (by decide) (by decide) (by decide) w hw

/-- C66, what is not kept: when both edges of the spike have the same face on their other side, the code
removes two vertices from it.  That is right for an edge that ends nowhere (`p = x`), otherwise the faces
no longer fit together.  Here the ridge of a roof over four corners has a bend, node 5; before, each
directed edge with a node has its opposite; afterwards the edge from 6 to 4 has none. -/
theorem C66_common_refuted :
    (∀ d ∈ [[0, 1, 6, 5, 4], [2, 3, 4, 5, 6], [1, 2, 6], [3, 0, 4]].flatMap steps, (4 ≤ d.1 ∨ 4 ≤ d.2) →
      (d.2, d.1) ∈ [[0, 1, 6, 5, 4], [2, 3, 4, 5, 6], [1, 2, 6], [3, 0, 4]].flatMap steps) ∧
    removeSpike 4 [[0, 1, 6, 5, 4], [2, 3, 4, 5, 6], [1, 2, 6], [3, 0, 4]] 0 6 5 4 =
      .ok (some [[0, 1, 6, 4], [2, 3, 4], [1, 2, 6], [3, 0, 4]]) ∧
    (6, 4) ∈ [[0, 1, 6, 4], [2, 3, 4], [1, 2, 6], [3, 0, 4]].flatMap steps ∧
    (4, 6) ∉ [[0, 1, 6, 4], [2, 3, 4], [1, 2, 6], [3, 0, 4]].flatMap steps := by decide

/-- the embedding exists when the ends of each edge are different points -/
theorem embedding_exists (rt : Rt) (ds : List Dart) (V : List (V3 ℝ))
    (h : ∀ d ∈ ds, d.1 ≠ d.2 → ∃ A B, pyGet V d.1 = .ok A ∧ pyGet V d.2 = .ok B ∧ ¬ (A.x = B.x ∧ A.y = B.y)) :
    ∃ emb, circularEmbedding rt (addEdges rt [] ds) V = .ok emb := by
  have hn : ∀ vl ∈ addEdges rt [] ds, ∀ w ∈ vl.2, ∃ A B, pyGet V vl.1 = .ok A ∧ pyGet V w = .ok B ∧
      ¬ (A.x = B.x ∧ A.y = B.y) := by
    intro vl hvl w hw
    obtain ⟨-, -, hnd, -⟩ := C10_vertices rt ds
    rw [← mem_of_nodup hnd (show (vl.1, vl.2) ∈ addEdges rt [] ds from hvl), ← List.count_pos_iff,
      C10_neighbour_count, List.countP_pos_iff] at hw
    simp only [Joins, Bool.and_eq_true, bne_iff_ne, ne_eq, Bool.or_eq_true, beq_iff_eq] at hw
    obtain ⟨e, he, hne, rfl | rfl⟩ := hw
    · exact h _ he hne
    · obtain ⟨A, B, hA, hB, h⟩ := h _ he hne
      exact ⟨B, A, hB, hA, fun h' => h ⟨h'.1.symm, h'.2.symm⟩⟩
  have hr := C11_embedding_raises rt (addEdges rt [] ds) V true (by
    intro vl hvl
    refine ⟨?_, fun w hw => ?_⟩
    · obtain ⟨-, -, -, hk⟩ := C10_vertices rt ds
      obtain ⟨e, he, hne, hv⟩ := (hk vl.1).1 (List.mem_map.2 ⟨vl, hvl, rfl⟩)
      obtain ⟨A, B, hA, hB, -⟩ := h e he hne
      rcases hv with hv | hv <;> rw [hv]
      · exact ⟨A, hA⟩
      · exact ⟨B, hB⟩
    · obtain ⟨A, B, -, hB, -⟩ := hn vl hvl w hw
      exact ⟨B, hB⟩)
  cases he : circularEmbedding rt (addEdges rt [] ds) V true with
  | ok emb => exact ⟨emb, rfl⟩
  | error e =>
    exfalso
    obtain ⟨vl, hvl, -, w, hw, C, P, hC, hP, ex, ey⟩ := hr.1.1 ⟨e, he⟩
    obtain ⟨A, B, hA, hB, hne⟩ := hn vl hvl w hw
    rw [hA] at hC; rw [hB] at hP
    cases hC; cases hP
    exact hne ⟨ex.symm, ey.symm⟩

/-! ### An L-shaped polygon and its skeleton -/

def ellVerts : List (V3 ℝ) := [⟨0, 0, 0⟩, ⟨4, 0, 0⟩, ⟨4, 2, 0⟩, ⟨2, 2, 0⟩, ⟨2, 4, 0⟩, ⟨0, 4, 0⟩]

noncomputable def ellArgs : PolyArgs ℝ := { verts := ellVerts, first := 0, num := 6, height := 0, tan := 1 }

def ellEdge (i : Nat) (p q d : V2 ℝ) : Edge2 ℝ :=
  { oid := i, i1 := i, i2 := (i + 1) % 6, p1 := p, p2 := q, norm := d }

def ellEdges : List (Edge2 ℝ) :=
  [ellEdge 0 ⟨0, 0⟩ ⟨4, 0⟩ ⟨1, 0⟩, ellEdge 1 ⟨4, 0⟩ ⟨4, 2⟩ ⟨0, 1⟩, ellEdge 2 ⟨4, 2⟩ ⟨2, 2⟩ ⟨-1, 0⟩,
   ellEdge 3 ⟨2, 2⟩ ⟨2, 4⟩ ⟨0, 1⟩, ellEdge 4 ⟨2, 4⟩ ⟨0, 4⟩ ⟨-1, 0⟩, ellEdge 5 ⟨0, 4⟩ ⟨0, 0⟩ ⟨0, -1⟩]

def ellSkel : List (Subtree ℝ) :=
  [⟨⟨3, 1⟩, 1, [⟨4, 0⟩, ⟨4, 2⟩]⟩, ⟨⟨1, 3⟩, 1, [⟨2, 4⟩, ⟨0, 4⟩]⟩,
   ⟨⟨1, 1⟩, 1, [⟨3, 1⟩, ⟨2, 2⟩, ⟨1, 3⟩, ⟨0, 0⟩]⟩]

def ellPoints : List (V3 ℝ) := ellVerts ++ [⟨3, 1, 1⟩, ⟨1, 3, 1⟩, ⟨1, 1, 1⟩]

def ellDarts : List Dart := [(5, 0), (0, 1), (1, 2), (2, 3), (3, 4), (4, 5),
  (6, 1), (6, 2), (7, 4), (7, 5), (8, 6), (8, 3), (8, 7), (8, 0)]

theorem ell_graph : graphDarts ellArgs ellEdges ellSkel = .ok ellDarts := by
  have h1 : contourDarts 0 6 = .ok [(5, 0), (0, 1), (1, 2), (2, 3), (3, 4), (4, 5)] := by decide
  have h2 : holeDarts [] = .ok [] := rfl
  have h3 : skelDarts ellEdges ellSkel 6 = [(6, 1), (6, 2), (7, 4), (7, 5), (8, 6), (8, 3), (8, 7), (8, 0)] := by
    simp [skelDarts, ellSkel, ellEdges, sinkIndex, ellEdge, V2.veq, List.zipIdx,
      List.findIdx?_cons]
  unfold graphDarts
  simp only [ellArgs, Option.getD_none]
  rw [h1, ok_bind, h2, ok_bind]
  show Except.ok _ = _
  rw [show ellVerts.length = 6 from rfl, h3]
  rfl

theorem ell_poly {d : Dart} : PolyEdge ellArgs d ↔ d ∈ ellDarts ∧ d.1 < 6 := by
  rw [mem_graphDarts ell_graph]
  constructor
  · intro h
    refine ⟨.inl h, ?_⟩
    obtain ⟨ij, h, rfl⟩ := h
    have := (edgeEnds_onContour h)
    simp [edgeEnds, ellArgs] at h
    obtain ⟨k, hk, rfl⟩ := h
    simp only; omega
  · rintro ⟨h | h, h'⟩
    · exact h
    · obtain ⟨j, s, -, h, -⟩ := h
      have : ellArgs.verts.length = 6 := rfl
      omega

theorem ell_conn {d : Dart} : Connection ellEdges ellSkel ellArgs.verts.length d ↔ d ∈ ellDarts ∧ 6 ≤ d.1 := by
  rw [mem_graphDarts ell_graph]
  constructor
  · intro h
    refine ⟨.inr h, ?_⟩
    obtain ⟨j, s, -, h, -⟩ := h
    have : ellArgs.verts.length = 6 := rfl
    omega
  · rintro ⟨h | h, h'⟩
    · have := (ell_poly.1 h).2
      omega
    · exact h

theorem ell_corner (p v x q : Int) (h1 : ∀ d ∈ ellDarts, d.1 < 6 → d.2 = v → d.1 = p)
    (h2 : ∀ d ∈ ellDarts, d.1 < 6 → d.1 = v → d.2 = x) (h3 : (q, v) ∈ ellDarts ∧ 6 ≤ q)
    (h4 : ∀ d ∈ ellDarts, 6 ≤ d.1 → d.2 = v → d.1 = q) {A B C Q : V3 ℝ} (hA : pyGet ellPoints p = .ok A)
    (hB : pyGet ellPoints v = .ok B) (hC : pyGet ellPoints x = .ok C) (hQ : pyGet ellPoints q = .ok Q)
    (a1 : 0 < area2 A.xy B.xy Q.xy) (a2 : 0 < area2 B.xy C.xy Q.xy) :
    InnerCorner ellArgs ellEdges ellSkel ellPoints p v x := by
  refine ⟨fun u hu => ?_, fun u hu => ?_, q, ell_conn.2 h3, fun u hu => ?_, A, B, C, Q, hA, hB, hC, hQ, a1, a2⟩
  · exact h1 _ (ell_poly.1 hu).1 (ell_poly.1 hu).2 rfl
  · exact h2 _ (ell_poly.1 hu).1 (ell_poly.1 hu).2 rfl
  · exact h4 _ (ell_conn.1 hu).1 (ell_conn.1 hu).2 rfl

theorem ell_corners (p v x : Int) (hp : PolyEdge ellArgs (p, v)) (hx : PolyEdge ellArgs (v, x)) :
    InnerCorner ellArgs ellEdges ellSkel ellPoints p v x := by
  have key : ∀ d ∈ ellDarts, d.1 < 6 → ∀ e ∈ ellDarts, e.1 < 6 → d.2 = e.1 →
      (d.1, e.1, e.2) ∈ [((5 : Int), (0 : Int), (1 : Int)), (0, 1, 2), (1, 2, 3), (2, 3, 4), (3, 4, 5),
        (4, 5, 0)] := by decide
  have := key _ (ell_poly.1 hp).1 (ell_poly.1 hp).2 _ (ell_poly.1 hx).1 (ell_poly.1 hx).2 rfl
  simp only [List.mem_cons, List.not_mem_nil, or_false, Prod.mk.injEq] at this
  rcases this with ⟨rfl, rfl, rfl⟩ | ⟨rfl, rfl, rfl⟩ | ⟨rfl, rfl, rfl⟩ | ⟨rfl, rfl, rfl⟩ | ⟨rfl, rfl, rfl⟩ |
    ⟨rfl, rfl, rfl⟩
  · exact ell_corner 5 0 1 8 (by decide) (by decide) (by decide) (by decide) rfl rfl rfl rfl
      (by norm_num [area2, V3.xy]) (by norm_num [area2, V3.xy])
  · exact ell_corner 0 1 2 6 (by decide) (by decide) (by decide) (by decide) rfl rfl rfl rfl
      (by norm_num [area2, V3.xy]) (by norm_num [area2, V3.xy])
  · exact ell_corner 1 2 3 6 (by decide) (by decide) (by decide) (by decide) rfl rfl rfl rfl
      (by norm_num [area2, V3.xy]) (by norm_num [area2, V3.xy])
  · exact ell_corner 2 3 4 8 (by decide) (by decide) (by decide) (by decide) rfl rfl rfl rfl
      (by norm_num [area2, V3.xy]) (by norm_num [area2, V3.xy])
  · exact ell_corner 3 4 5 7 (by decide) (by decide) (by decide) (by decide) rfl rfl rfl rfl
      (by norm_num [area2, V3.xy]) (by norm_num [area2, V3.xy])
  · exact ell_corner 4 5 0 7 (by decide) (by decide) (by decide) (by decide) rfl rfl rfl rfl
      (by norm_num [area2, V3.xy]) (by norm_num [area2, V3.xy])

theorem ell_embedding (rt : Rt) : ∃ emb, circularEmbedding rt (addEdges rt [] ellDarts) ellPoints = .ok emb := by
  refine embedding_exists rt ellDarts ellPoints ?_
  intro d hd _
  simp only [ellDarts, List.mem_cons, List.not_mem_nil, or_false] at hd
  rcases hd with rfl | rfl | rfl | rfl | rfl | rfl | rfl | rfl | rfl | rfl | rfl | rfl | rfl | rfl <;>
    exact ⟨_, _, rfl, rfl, by norm_num⟩

/-- the hypotheses of C66_area are met by an L-shaped polygon of area 12 -/
example (rt : Rt) : ∃ emb out, circularEmbedding rt (addEdges rt [] ellDarts) ellPoints = .ok emb ∧
    faces rt (addEdges rt [] ellDarts) emb 6 = .ok out ∧ (out.map (loopArea2 ellPoints)).sum = 24 := by
  have hsimple : ∀ v w, ellDarts.countP (Joins v w) ≤ 1 := joins_le_one (by decide)
  obtain ⟨emb, hemb⟩ := ell_embedding rt
  obtain ⟨out, hout⟩ := C12_faces_no_raise rt _ emb (C10_simple rt _ hsimple)
    (C11_embedding_perm rt _ emb _ true hemb).2 6
  refine ⟨emb, out, hemb, hout, ?_⟩
  rw [C66_area rt ellArgs ellEdges ellSkel ellPoints ellDarts emb out ?_ ell_graph hsimple ell_corners hemb hout]
  · have : contourLoops ellArgs = [[0, 1, 2, 3, 4, 5]] := by
      simp [contourLoops, ellArgs, List.range']
    rw [this]
    simp [loopArea2, ellPoints, ellVerts, List.rotate]
    norm_num
  · intro ij h
    simp [edgeEnds, ellArgs] at h
    obtain ⟨k, hk, rfl⟩ := h
    exact hk

end Polyskel
