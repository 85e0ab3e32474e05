import Verif.Proofs.RoofMerge
import Verif.Props.FirstEdge
import Verif.Props.Cleanup
import Verif.Props.Poly
import Verif.Props.ConvexSkeleton
/-
From the tree of the roof over a convex polygon to the graph that `polygonize` builds from it, and
through the last steps, which change nothing.  Used for C62.
-/
namespace Polyskel
open Scalar Real Geo Graph
set_option linter.unusedSectionVars false

/-- the index of vertex number `k` in the list of vertices -/
def numOf (first n N k : Nat) : Int :=
  if k < n then ((first + k : Nat) : Int) else ((N + (k - n) : Nat) : Int)

theorem numOf_corner {first n N k : Nat} (hk : k < n) : numOf first n N k = ((first + k : Nat) : Int) :=
  if_pos hk

theorem numOf_node {first n N j : Nat} : numOf first n N (n + j) = ((N + j : Nat) : Int) := by
  simp [numOf]

section
variable {a : PolyArgs ℝ} {z : ℝ} {ctr : V3 ℝ} {c : List (Edge2 ℝ)}

/-- one contour: there are no holes, and the edges start at the polygon's vertices -/
theorem single_contour (hb : buildContours a = .ok (z, ctr, [c])) :
    a.holes.getD [] = [] ∧ 0 < a.num ∧ c.length = a.num ∧ ctr.z = 0 ∧
      (∃ v, a.verts[a.first]? = some v ∧ v.z = z) ∧ ∀ k (hk : k < c.length),
        ∃ A, a.verts[a.first + k]? = some A ∧ c[k].i1 = a.first + k ∧
          c[k].p1 = ⟨A.x - ctr.x, A.y - ctr.y⟩ := by
  obtain ⟨v0, outer, holes, g0, gz, gc, g1, g2, g3⟩ := buildContours_ok hb
  simp only [List.cons.injEq] at g3
  obtain ⟨rfl, rfl⟩ := g3
  have hl := (C52_contours a z ctr _ hb).1.length_eq
  simp only [List.length_cons, List.length_nil] at hl
  obtain ⟨h1, h2, h3⟩ := contourEdges_ok g1
  refine ⟨List.length_eq_zero_iff.1 (by omega), h1, h2, ?_, ⟨v0, g0, gz.symm⟩, ?_⟩
  · exact (centerOf_exact gc).2.2.2.2
  · intro k hk
    obtain ⟨A, B, hA, -, -, hi, -, hp, -⟩ := h3 k _ (List.getElem?_eq_getElem hk)
    exact ⟨A, hA, hi, by rw [hp]; simp [V3.xy, V3.sub]⟩

variable {out : List (Subtree ℝ)} {ch : Nat → List Nat} {st : St ℝ}

/-- where the vertices of the graph are -/
theorem placed_of (hb : buildContours a = .ok (z, ctr, [c]))
    (hinj : ∀ i j, i < c.length + out.length → j < c.length + out.length → posOf c out i = posOf c out j →
      i = j) (ta : ℝ) :
    Placed (c.length + out.length) (posOf c out) (numOf a.first c.length a.verts.length)
      (a.verts ++ out.map (node3D ctr z ta)) ⟨ctr.x, ctr.y⟩ ∧
    ∀ k, k < c.length + out.length →
      (numOf a.first c.length a.verts.length k < (a.verts.length : Int) ↔ k < c.length) := by
  obtain ⟨-, hn, hl, -, -, hv⟩ := single_contour hb
  have hlt : ∀ k, k < c.length → a.first + k < a.verts.length := by
    intro k hk
    obtain ⟨A, hA, -⟩ := hv k hk
    exact (List.getElem?_eq_some_iff.1 hA).1
  refine ⟨⟨?_, hinj, ?_⟩, ?_⟩
  · intro i j hi hj hij
    unfold numOf at hij
    split at hij <;> split at hij
    · omega
    · have := hlt i (by assumption); omega
    · have := hlt j (by assumption); omega
    · omega
  · intro k hk
    by_cases hc : k < c.length
    · obtain ⟨A, hA, -, hp⟩ := hv k hc
      refine ⟨A, ?_, ?_, ?_⟩
      · rw [numOf_corner hc, pyGet_nat_ok, List.getElem?_append_left (hlt k hc), hA]
      · rw [posOf_corner hc, hp]; simp
      · rw [posOf_corner hc, hp]; simp
    · obtain ⟨j, rfl⟩ : ∃ j, k = c.length + j := ⟨k - c.length, by omega⟩
      have hj : j < out.length := by omega
      have hg := List.getElem?_eq_getElem hj
      refine ⟨node3D ctr z ta out[j], ?_, ?_, ?_⟩
      · rw [numOf_node, pyGet_nat_ok, List.getElem?_append_right (by omega)]
        simp [hg]
      · rw [posOf_node hg]; simp [node3D, V3.add, mkV3]
      · rw [posOf_node hg]; simp [node3D, V3.add, mkV3]
  · intro k hk
    unfold numOf
    split
    · have := hlt k (by assumption)
      omega
    · omega

theorem prevIdx_perm (n : Nat) : ((List.range n).map (prevIdx n)).Perm (List.range n) := by
  have hlt : ∀ k, k < n → prevIdx n k < n := by
    intro k hk; unfold prevIdx; split <;> omega
  rw [List.perm_ext_iff_of_nodup _ List.nodup_range]
  · intro k
    simp only [List.mem_map, List.mem_range]
    constructor
    · rintro ⟨i, hi, rfl⟩; exact hlt i hi
    · intro hk; exact ⟨nextIdx n k, nextIdx_lt' hk, prev_nextIdx hk⟩
  · refine List.Nodup.map_on ?_ List.nodup_range
    intro x hx y hy hxy
    rw [List.mem_range] at hx hy
    rw [← next_prevIdx hx, ← next_prevIdx hy, hxy]

theorem contourDarts_perm {first n N : Nat} (hn : 0 < n) :
    ∃ ds, contourDarts first n = .ok ds ∧
      ds.Perm ((sideDarts n).map (Prod.map (numOf first n N) (numOf first n N))) := by
  obtain ⟨r, hr, hl, hg⟩ := C06_iterPrevNext (List.range' first n) (by simp; omega)
  refine ⟨r.map (fun p => ((p.1 : Int), (p.2 : Int))), ?_, ?_⟩
  · unfold contourDarts; rw [hr]; rfl
  · have he : r.map (fun p => ((p.1 : Int), (p.2 : Int))) =
        ((List.range n).map (prevIdx n)).map
          (fun k => (numOf first n N k, numOf first n N (nextIdx n k))) := by
      apply List.ext_getElem?
      intro i
      simp only [List.length_range'] at hl hg
      by_cases hi : i < n
      · rw [List.getElem?_map, hg i hi, List.map_map, List.getElem?_map, List.getElem?_range hi]
        have hp : prevIdx n i < n := by unfold prevIdx; split <;> omega
        simp only [Option.map_some, Function.comp, next_prevIdx hi, numOf_corner hi, numOf_corner hp]
        simp only [List.getElem_range', one_mul, Option.some.injEq, Prod.mk.injEq, and_true]
        congr 1
        unfold prevIdx
        split
        · rename_i h0; subst h0; rw [Nat.mod_eq_of_lt (by omega)]; omega
        · rw [show i + n - 1 = (i - 1) + n by omega, Nat.add_mod_right, Nat.mod_eq_of_lt (by omega)]
      · rw [List.getElem?_eq_none (by simp; omega), List.getElem?_eq_none (by simp; omega)]
    have hs : (sideDarts n).map (Prod.map (numOf first n N) (numOf first n N)) =
        (List.range n).map (fun k => (numOf first n N k, numOf first n N (nextIdx n k))) := by
      rw [sideDarts, List.map_map]
      rfl
    rw [he, hs]
    exact (prevIdx_perm n).map _

theorem flatMap_zipIdx {α β : Type} (f : α × Nat → List β) (g : Nat → List β) :
    ∀ (l : List α) (i : Nat), (∀ j x, l[j]? = some x → f (x, i + j) = g (i + j)) →
      (l.zipIdx i).flatMap f = (List.range' i l.length).flatMap g
  | [], _, _ => rfl
  | x :: l, i, h => by
    rw [List.zipIdx_cons, List.flatMap_cons, List.length_cons, List.range'_succ, List.flatMap_cons]
    have := h 0 x rfl
    rw [Nat.add_zero] at this
    rw [this, flatMap_zipIdx f g l (i + 1) (fun j y hj => by
      have := h (j + 1) y (by simpa using hj)
      rwa [show i + (j + 1) = i + 1 + j by omega] at this)]

theorem sinkIndex_of (hb : buildContours a = .ok (z, ctr, [c]))
    (hinj : ∀ i j, i < c.length + out.length → j < c.length + out.length → posOf c out i = posOf c out j →
      i = j) {k : Nat} (hk : k < c.length + out.length) :
    sinkIndex c out a.verts.length (posOf c out k) = numOf a.first c.length a.verts.length k := by
  obtain ⟨-, hn, hl, -, -, hv⟩ := single_contour hb
  unfold sinkIndex
  by_cases hc : k < c.length
  · cases hf : c.find? (fun e => V2.veq e.p1 (posOf c out k)) with
    | none =>
      rw [List.find?_eq_none] at hf
      exact absurd (exactEq_real.veq.2 (posOf_corner hc).symm) (hf c[k] (List.getElem_mem hc))
    | some e =>
      have h0 := List.find?_some hf
      have h1 := exactEq_real.veq.1 h0
      obtain ⟨i, hi, rfl⟩ := List.getElem_of_mem (List.mem_of_find?_eq_some hf)
      rw [← posOf_corner (out := out) hi] at h1
      obtain rfl := hinj i k (by omega) hk h1
      obtain ⟨A, -, h2, -⟩ := hv i hi
      rw [numOf_corner hi]
      simp only [h2]
  · obtain ⟨j, rfl⟩ : ∃ j, k = c.length + j := ⟨k - c.length, by omega⟩
    have hj : j < out.length := by omega
    have h1 : c.find? (fun e => V2.veq e.p1 (posOf c out (c.length + j))) = none := by
      rw [List.find?_eq_none]
      intro e he hve
      obtain ⟨i, hi, rfl⟩ := List.getElem_of_mem he
      have h1 := exactEq_real.veq.1 hve
      rw [← posOf_corner (out := out) hi] at h1
      have := hinj i _ (by omega) hk h1
      omega
    have h2 : out.findIdx? (fun s => V2.veq s.source (posOf c out (c.length + j))) = some j := by
      rw [List.findIdx?_eq_some_iff_getElem]
      refine ⟨hj, exactEq_real.veq.2 (posOf_node (List.getElem?_eq_getElem hj)).symm, ?_⟩
      intro i hi hve
      have h1 := exactEq_real.veq.1 hve
      rw [← posOf_node (c := c) (List.getElem?_eq_getElem (show i < out.length by omega))] at h1
      have := hinj _ _ (by omega) hk h1
      omega
    rw [h1, h2, numOf_node]
    simp only [Nat.add_comm]

/-- the edges of the graph -/
theorem graphDarts_perm (hb : buildContours a = .ok (z, ctr, [c]))
    (hinj : ∀ i j, i < c.length + out.length → j < c.length + out.length → posOf c out i = posOf c out j →
      i = j)
    (hsink : ∀ j arc, out[j]? = some arc → arc.sinks = (ch j).map (posOf c out))
    (hlt : ∀ j, j < out.length → ∀ k ∈ ch j, k < c.length + out.length) :
    ∃ ds, graphDarts a c out = .ok ds ∧
      ds.Perm ((sideDarts c.length ++ treeDarts c.length out.length ch).map
        (Prod.map (numOf a.first c.length a.verts.length) (numOf a.first c.length a.verts.length))) := by
  obtain ⟨hh, hn, hl, -, -, hv⟩ := single_contour hb
  obtain ⟨d1, h1, hp⟩ := contourDarts_perm (first := a.first) (n := a.num) (N := a.verts.length) hn
  refine ⟨d1 ++ [] ++ skelDarts c out a.verts.length, ?_, ?_⟩
  · unfold graphDarts
    rw [h1, hh]
    rfl
  · have hs : skelDarts c out a.verts.length = (treeDarts c.length out.length ch).map
        (Prod.map (numOf a.first c.length a.verts.length) (numOf a.first c.length a.verts.length)) := by
      unfold skelDarts treeDarts
      rw [flatMap_zipIdx _ (fun j => (ch j).map (fun k =>
        (numOf a.first c.length a.verts.length (c.length + j), numOf a.first c.length a.verts.length k)))]
      · rw [← List.range_eq_range', List.map_flatMap]
        simp only [List.map_map]
        rfl
      · intro j arc hj
        have hjl := (List.getElem?_eq_some_iff.1 hj).1
        simp only [Nat.zero_add]
        rw [hsink j arc hj, List.map_map]
        apply List.map_congr_left
        intro k hk
        simp only [Function.comp]
        rw [sinkIndex_of hb hinj (hlt j hjl k hk), numOf_node, Nat.add_comm]
    rw [hs, List.append_nil, List.map_append, hl]
    exact hp.append_right _

/-- the graph of the roof can be embedded -/
theorem RoofTree.embedding {m : Nat} {pos : Nat → V2 ℝ} {hh : Nat → ℝ} {L R : Nat → Edge2 ℝ}
    {gi : Nat → Int} {ds : List Dart} {verts : List (V3 ℝ)} {o : V2 ℝ}
    (ht : RoofTree c m pos hh L R ch) (hP : Placed (c.length + m) pos gi verts o)
    (hp : ds.Perm ((sideDarts c.length ++ treeDarts c.length m ch).map (Prod.map gi gi))) (rt : Rt) :
    ∃ emb, circularEmbedding rt (addEdges rt [] ds) verts true = .ok emb := by
  have hkey : ∀ vl ∈ addEdges rt [] ds, ∃ u, u < c.length + m ∧ vl.1 = gi u ∧ ∀ w ∈ vl.2,
      ∃ x, x < c.length + m ∧ w = gi x ∧ x ≠ u := by
    intro vl hvl
    obtain ⟨-, -, hnd, hk⟩ := C10_vertices rt ds
    have hu : ∃ u, u < c.length + m ∧ vl.1 = gi u := by
      obtain ⟨e, he, -, hv⟩ := (hk vl.1).1 (List.mem_map.2 ⟨vl, hvl, rfl⟩)
      obtain ⟨x, hx, rfl⟩ := List.mem_map.1 (hp.mem_iff.1 he)
      obtain ⟨l1, l2, -⟩ := ht.dart_lt hx
      rcases hv with hv | hv
      · exact ⟨x.1, l1, hv⟩
      · exact ⟨x.2, l2, hv⟩
    obtain ⟨u, hu, hvu⟩ := hu
    refine ⟨u, hu, hvu, ?_⟩
    intro w hw
    rw [← mem_of_nodup hnd (show (vl.1, vl.2) ∈ addEdges rt [] ds from hvl), hvu,
      ht.nbrs hP.num hp hu] at hw
    obtain ⟨x, rfl, hx | hx⟩ := hw
    · obtain ⟨-, l2, l3⟩ := ht.dart_lt hx
      exact ⟨x, l2, rfl, fun h => l3 h.symm⟩
    · obtain ⟨l1, -, l3⟩ := ht.dart_lt hx
      exact ⟨x, l1, rfl, l3⟩
  have hemb := C11_embedding_raises rt (addEdges rt [] ds) verts true
    (by
      intro vl hvl
      obtain ⟨u, hu, hvu, hw⟩ := hkey vl hvl
      refine ⟨?_, fun w hw' => ?_⟩
      · obtain ⟨p, h1, -⟩ := hP.get u hu
        exact ⟨p, by rw [hvu, h1]⟩
      · obtain ⟨x, hx, rfl, -⟩ := hw w hw'
        obtain ⟨p, h1, -⟩ := hP.get x hx
        exact ⟨p, h1⟩)
  cases he : circularEmbedding rt (addEdges rt [] ds) verts true with
  | ok emb => exact ⟨emb, rfl⟩
  | error e =>
    exfalso
    obtain ⟨vl, hvl, -, w, hw, C, P, hC, hPt, ex, ey⟩ := hemb.1.1 ⟨e, he⟩
    obtain ⟨u, hu, hvu, hww⟩ := hkey vl hvl
    obtain ⟨x, hx, rfl, hne⟩ := hww w hw
    obtain ⟨p, h1, h2, h3⟩ := hP.get u hu
    obtain ⟨q, k1, k2, k3⟩ := hP.get x hx
    rw [hvu, h1] at hC
    rw [k1] at hPt
    cases hC
    cases hPt
    apply hne
    apply hP.inj x u hx hu
    have e1 : (pos x).x = (pos u).x := by linarith
    have e2 : (pos x).y = (pos u).y := by linarith
    cases hpx : pos x
    cases hpu : pos u
    rw [hpx, hpu] at e1 e2
    simp only at e1 e2
    rw [e1, e2]

/-- the graph of the roof, embedded -/
theorem roofG_of {L R : Nat → Edge2 ℝ} (hb : buildContours a = .ok (z, ctr, [c])) (hc : ConvexPolygon c)
    (ht : RoofTree c out.length (posOf c out) (hhOf c out) L R ch)
    (hsink : ∀ j arc, out[j]? = some arc → arc.sinks = (ch j).map (posOf c out))
    (hinj : ∀ i j, i < c.length + out.length → j < c.length + out.length → posOf c out i = posOf c out j →
      i = j) (rt : Rt) (ta : ℝ) :
    ∃ ds emb, graphDarts a c out = .ok ds ∧
      RoofG c out.length (posOf c out) (hhOf c out) L R ch
        (numOf a.first c.length a.verts.length) ds rt (a.verts ++ out.map (node3D ctr z ta)) ⟨ctr.x, ctr.y⟩
        emb := by
  obtain ⟨hP, -⟩ := placed_of hb hinj ta
  obtain ⟨ds, hds, hp⟩ := graphDarts_perm (ch := ch) hb hinj hsink (fun j hj k hk => (ht.child_lt hj hk).1)
  obtain ⟨emb, he⟩ := ht.embedding hP hp rt
  exact ⟨ds, emb, hds, ht, hc, hP, hp, he⟩

/-! ### Nothing is left to merge -/

theorem dot_of_notBack {pos : Nat → V2 ℝ} {x v y : Nat} (h : NotBack pos x v y) :
    ((pos x).x - (pos v).x) * ((pos y).x - (pos v).x) + ((pos x).y - (pos v).y) * ((pos y).y - (pos v).y) ≤
      99 / 100 * (eucl (pos v) (pos x) * eucl (pos v) (pos y)) := by
  have h0 : 0 ≤ eucl (pos v) (pos x) * eucl (pos v) (pos y) :=
    mul_nonneg (Real.sqrt_nonneg _) (Real.sqrt_nonneg _)
  have hsq : (eucl (pos v) (pos x) * eucl (pos v) (pos y)) ^ 2 = dist2 pos x v * dist2 pos v y := by
    rw [mul_pow]
    unfold eucl dist2
    rw [Real.sq_sqrt (by nlinarith), Real.sq_sqrt (by nlinarith)]
    ring
  have hd : ((pos x).x - (pos v).x) * ((pos y).x - (pos v).x) +
      ((pos x).y - (pos v).y) * ((pos y).y - (pos v).y) = -ahead pos x v y := by
    unfold ahead; ring
  rw [hd]
  rcases h with h | h
  · nlinarith
  · apply le_of_sq_le_sq _ (by linarith)
    rw [mul_pow, hsq]
    nlinarith [sq_nonneg (eucl (pos v) (pos x) * eucl (pos v) (pos y))]

theorem NotBack.symm {pos : Nat → V2 ℝ} {x v y : Nat} (h : NotBack pos x v y) : NotBack pos y v x := by
  have h1 : ahead pos y v x = ahead pos x v y := by unfold ahead; ring
  have h2 : dist2 pos y v * dist2 pos v x = dist2 pos x v * dist2 pos v y := by unfold dist2; ring
  unfold NotBack
  rw [h1, h2]
  exact h

/-- under a blunt polygon's roof no two ridges leave a node downwards in nearly the same direction -/
theorem RoofTree.apart {m : Nat} {pos : Nat → V2 ℝ} {hh : Nat → ℝ} {L R : Nat → Edge2 ℝ}
    (ht : RoofTree c m pos hh L R ch) (hc : ConvexPolygon c) (hbl : Blunt c)
    (hinj : ∀ i j, i < c.length + m → j < c.length + m → pos i = pos j → i = j)
    {j : Nat} (hj : j < m) {x y : Nat} (hx : x ∈ ch j) (hy : y ∈ ch j) (hxy : x ≠ y) :
    NotBack pos x (c.length + j) y := by
  obtain ⟨l, E, q, hs, -, hE, -, -, -, hlab⟩ := ht.around (gi := fun k => (k : Int)) (rt := rt0) hinj
    (fun i j _ _ h => by simpa using h) (List.Perm.refl _) hj
  obtain ⟨i, hi, -⟩ := (hlab x (L x)).2 (Lab.up x j hj hx)
  obtain ⟨i', hi', -⟩ := (hlab y (L y)).2 (Lab.up y j hj hy)
  rcases Nat.lt_trichotomy i i' with h1 | h1 | h1
  · exact hs.notBack hc hbl hE hi hi' h1
  · subst h1
    rw [hi] at hi'
    exact absurd (Option.some.inj hi') hxy
  · exact (hs.notBack hc hbl hE hi' hi h1).symm

theorem mem_pairs_map {α β : Type} (f : α → β) {l : List α} (hn : l.Nodup) {p : β × β}
    (h : p ∈ pairs (l.map f)) : ∃ x ∈ l, ∃ y ∈ l, x ≠ y ∧ p = (f x, f y) := by
  induction l with
  | nil => simp [pairs] at h
  | cons a l ih =>
    rw [List.nodup_cons] at hn
    simp only [List.map_cons, pairs, List.map_map, List.mem_append, List.mem_map, Function.comp] at h
    rcases h with ⟨b, hb, rfl⟩ | h
    · exact ⟨a, by simp, b, by simp [hb], fun hab => hn.1 (hab ▸ hb), rfl⟩
    · obtain ⟨x, hx, y, hy, hxy, rfl⟩ := ih hn.2 h
      exact ⟨x, by simp [hx], y, by simp [hy], hxy, rfl⟩

/-- On a blunt polygon with the nodes of its roof apart, `skeletonize` only merges nodes at the same
place after the main loop. -/
theorem convex_finish (hc : ConvexPolygon c) (h3 : 3 ≤ c.length) (hg : Grown c st out ch [])
    (hl : out.length + 2 = c.length) (ha : ∀ a ∈ out, RoofArc c a) (hbl : Blunt c)
    (hap : NodesApart c) : finish [c] out = .ok ((mergeSame [] out).map noLoop) := by
  obtain ⟨sk, L, R, ch', hsk, -, -, hn, ht, hinj, hs⟩ := hg.roof hl h3 hc ha
  have hne : c ≠ [] := by rintro rfl; simp at h3
  apply finish_same (hc.apses hne)
  · have hpw : sk.Pairwise (fun a b => 1 / 10 ≤ |a.source.x - b.source.x| + |a.source.y - b.source.y|) := by
      rw [List.pairwise_iff_getElem]
      intro i j hi hj hij
      refine hap _ _ _ _ (hn _ (List.getElem_mem hi)).node (hn _ (List.getElem_mem hj)).node ?_
      intro he
      rw [← posOf_node (c := c) (List.getElem?_eq_getElem hi),
        ← posOf_node (c := c) (List.getElem?_eq_getElem hj)] at he
      have := hinj _ _ (by omega) (by omega) he
      omega
    rw [hsk, List.pairwise_map] at hpw
    exact hpw
  · rw [← hsk]
    intro x hx p hp
    obtain ⟨j, hj, rfl⟩ := List.getElem_of_mem hx
    have hg' := List.getElem?_eq_getElem hj
    rw [hs j _ hg'] at hp
    obtain ⟨u, hu, v, hv, huv, rfl⟩ := mem_pairs_map _ (ht.ch_nodup hj) hp
    rw [← posOf_node (c := c) hg']
    have hd := dot_of_notBack (ht.apart hc hbl hinj hj hu hv huv)
    left
    unfold cosAt
    simp only
    rcases eq_or_lt_of_le (show 0 ≤ eucl (posOf c sk (c.length + j)) (posOf c sk u) *
        eucl (posOf c sk (c.length + j)) (posOf c sk v) from
      mul_nonneg (Real.sqrt_nonneg _) (Real.sqrt_nonneg _)) with h0 | h0
    · rw [← h0]; norm_num
    · rw [div_le_iff₀ h0]; exact hd

/-! ### Faces stay as they are -/

theorem removeSpikes_id {verts : List (V3 ℝ)} {n : Nat} {fs : List (List Int)}
    (h : ∀ f ∈ fs, 3 < f.length → ∀ i p t x, TripleAt f i p t x → isSpike verts p t x = .ok false) :
    removeSpikes verts n fs = .ok fs := by
  unfold removeSpikes spikeLoop
  rw [spikePass_of_none h]
  rfl

theorem cleanFaces_id {verts : List (V3 ℝ)} {n : Nat} {fs : List (List Int)}
    (hv : ∀ f ∈ fs, ∀ v ∈ f, ∃ a, pyGet verts v = .ok a) (hnd : ∀ f ∈ fs, f.Nodup)
    (hlen : ∀ f ∈ fs, 2 ≤ f.length)
    (hcount : ∀ f ∈ fs, ∀ v ∈ f, (n : Int) ≤ v → 3 ≤ fs.flatten.count v) :
    cleanFaces verts n fs = .ok fs := by
  classical
  have key : ∀ gs : List (List Int), (∀ f ∈ gs, cleanFace verts n (fun v => fs.flatten.count v) f = .ok f) →
      gs.mapM (cleanFace verts n (fun v => fs.flatten.count v)) = .ok gs := by
    intro gs
    induction gs with
    | nil => intro _; rfl
    | cons f gs ih =>
      intro h
      rw [List.mapM_cons, h f (by simp), ok_bind, ih (fun g hg => h g (by simp [hg]))]
      rfl
  apply key
  intro f hf
  have h := C40_cleanFace_exact verts n (fun v => fs.flatten.count v) f (hv f hf) (hnd f hf)
    (fun _ => False) (by
      intro v
      refine ⟨fun h => h.elim, ?_⟩
      rintro ⟨-, h1, h2, i, p, x, P, T, X, ht, -⟩
      have := hcount f hf v (List.mem_of_getElem? ht.2.1) h1
      omega) (by simpa using hlen f hf)
  simpa using h

end
end Polyskel
