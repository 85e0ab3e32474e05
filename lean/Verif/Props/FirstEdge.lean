import Verif.Props.Closed
import Verif.Props.Cleanup
import Verif.Props.Skeleton
/-
C41: the documentation of `polygonize` says that the first edge of every returned face is an edge of
the polygon or of a hole.  It is true of the traced faces and of what the clean-up makes of them; it is
false after spike removal.
-/
namespace Polyskel
open Graph
variable {S : Type} [Scalar S]

theorem pyGet_valid {α : Type} {l : List α} {i : Int} (h1 : -(l.length : Int) ≤ i)
    (h2 : i < l.length) : ∃ w, pyGet l i = .ok w := by
  unfold pyGet
  simp only
  have hj : ¬ ((if i < 0 then i + (l.length : Int) else i) < 0) := by split <;> omega
  rw [if_neg hj, List.getElem?_eq_getElem (by split <;> omega)]
  exact ⟨_, rfl⟩

theorem mem_steps_iff {f : List Int} {d : Dart} : d ∈ steps f ↔ HasStep f d.1 d.2 := by
  obtain ⟨p, q⟩ := d
  unfold steps HasStep
  rw [List.mem_iff_getElem?]
  constructor
  · rintro ⟨i, hi⟩
    rw [List.getElem?_zip_eq_some] at hi
    refine ⟨i, hi.1, ?_⟩
    have hlt := (List.getElem?_eq_some_iff.1 hi.1).1
    have := hi.2
    rwa [List.getElem?_rotate hlt] at this
  · rintro ⟨i, h1, h2⟩
    have hlt := (List.getElem?_eq_some_iff.1 h1).1
    exact ⟨i, by rw [List.getElem?_zip_eq_some, List.getElem?_rotate hlt]; exact ⟨h1, h2⟩⟩

/-- C41 for the traced faces: when no edge of the graph occurs twice, every face of `faces()` that
passes between two polygon vertices at all starts with an edge of the polygon or of a hole. -/
theorem C41_traced_partial (rt : Rt) (a : PolyArgs S) (edges : List (Edge2 S))
    (sk : List (Subtree S)) (V : List (V3 S)) (ds : List Dart) (emb : Graph) (out : List (List Int))
    (hds : graphDarts a edges sk = .ok ds) (hsimple : ∀ v w, ds.countP (Joins v w) ≤ 1)
    (hemb : circularEmbedding rt (addEdges rt [] ds) V = .ok emb)
    (hout : faces rt (addEdges rt [] ds) emb a.verts.length = .ok out) :
    ∀ r ∈ out, (∃ p q, HasStep r p q ∧ p < (a.verts.length : Int) ∧ q < (a.verts.length : Int)) →
      ∃ x y rest, r = x :: y :: rest ∧ (PolyEdge a (x, y) ∨ PolyEdge a (y, x)) := by
  have hs := C10_simple rt ds hsimple
  have he : Embeds emb (addEdges rt [] ds) := (C11_embedding_perm rt _ emb V true hemb).2
  obtain ⟨fs, hfs, -⟩ := C12_faces_partition rt _ emb hs he
  obtain ⟨out', h1, h2⟩ := C14_faces_filter rt _ emb hs he a.verts.length fs hfs
  rw [hout] at h1; cases h1
  have h4 := (C42_closed rt a edges sk V ds emb out hds hsimple hemb hout).2.2.2
  rintro r hr ⟨p, q, hpq, hp, hq⟩
  obtain ⟨f, hf, ⟨k, hk, rfl⟩, hstart⟩ := forall₂_mem_right h2 hr
  have hcyc := C15_face_cycle rt _ emb hs he fs hfs f (List.mem_filter.1 hf).1
  have hst : (steps ((f.drop k ++ f.take k).map (·.1))).Perm f := by
    rw [List.map_append, List.map_drop, List.map_take]
    refine (steps_rot (by simpa using hk)).trans ?_
    rw [steps_of_cycle hcyc]
  have hd : (p, q) ∈ f := hst.mem_iff.1 (mem_steps_iff.2 hpq)
  obtain ⟨x, y, hx, hy, hxn, hyn⟩ := hstart ⟨(p, q), hd, hp, hq⟩
  generalize hrr : (f.drop k ++ f.take k).map (·.1) = r at *
  have hxy : (x, y) ∈ steps r := mem_steps_iff.2 ⟨0, hx, by simpa using hy⟩
  obtain ⟨hne, hh⟩ := h4 (x, y) (List.mem_flatMap.2 ⟨r, hr, hxy⟩)
  have hpoly : PolyEdge a (x, y) ∨ PolyEdge a (y, x) := by
    rcases hh with h | h | ⟨j, _, _, h, _⟩ | ⟨j, _, _, h, _⟩
    · exact .inl h
    · exact .inr h
    · simp only at h; omega
    · simp only at h; omega
  cases r with
  | nil => simp at hx
  | cons x' r =>
    cases r with
    | nil => simp at hx hy; simp only at hne; exact absurd (hx.symm.trans hy) hne
    | cons y' r =>
      simp at hx hy
      subst hx hy
      exact ⟨_, _, _, rfl, hpoly⟩

theorem findSpike_of_none {verts : List (V3 S)} {ts : List (Int × Int × Int)}
    (h : ∀ t ∈ ts, isSpike verts t.1 t.2.1 t.2.2 = .ok false) : findSpike verts ts = .ok none := by
  induction ts with
  | nil => rfl
  | cons t ts ih =>
    unfold findSpike
    rw [h t (by simp), ok_bind]
    simpa using ih (fun t ht => h t (by simp [ht]))

theorem spikePass_of_none {verts : List (V3 S)} {n : Nat} {faces rest : List (List Int)} {fi : Nat}
    (h : ∀ f ∈ rest, 3 < f.length → ∀ i p t x, TripleAt f i p t x → isSpike verts p t x = .ok false) :
    spikePass verts n faces fi rest = .ok none := by
  induction rest generalizing fi with
  | nil => rfl
  | cons f rest ih =>
    have ih := fun fi => ih (fi := fi) (fun f hf => h f (by simp [hf]))
    unfold spikePass
    split
    · exact ih _
    · rename_i hl
      obtain ⟨ts, hts, -⟩ := C06_iterPrevThisNext f (by rintro rfl; simp at hl)
      rw [hts, ok_bind, findSpike_of_none, ok_bind]
      · exact ih _
      · rintro ⟨p, t, x⟩ ht
        obtain ⟨i, hi⟩ := (mem_triples hts p t x).1 ht
        exact h f (by simp) (by omega) i p t x hi

theorem sublist_two {x y : Int} {l o : List Int} (h : o.Sublist (x :: y :: l)) (hx : x ∈ o) (hy : y ∈ o)
    (hnd : (x :: y :: l).Nodup) : ∃ l', o = x :: y :: l' := by
  rw [List.nodup_cons, List.nodup_cons] at hnd
  cases h with
  | cons _ h =>
    exact absurd (h.subset hx) hnd.1
  | cons_cons _ h =>
    rename_i o
    cases h with
    | cons _ h =>
      rcases List.mem_cons.1 hy with rfl | hy
      · simp at hnd
      · exact absurd (h.subset hy) hnd.2.1
    | cons_cons _ h => exact ⟨_, rfl⟩

/-- C41 for whole calls, without spikes: when no edge of the graph occurs twice, no traced face
passes a vertex twice, each passes between two polygon vertices, and no corner of a traced face is a
spike, then every new face of the result starts with an edge of the polygon or of a hole.

What is missing: faces changed by spike removal (for which the claim is false, `C41_refuted`), faces
that pass a vertex twice, and a proof that every traced face contains a polygon edge. -/
theorem C41_first_edge_partial (rt : Rt) (fuel : Nat) (a : PolyArgs S) (out : PolyOut S)
    (r : List (List Int)) (h : polygonize rt fuel a = some out) (hr : out.result = .ok r)
    (z : S) (c : V3 S) (cs : List (List (Edge2 S))) (sk : List (Subtree S)) (ds : List Dart)
    (emb : Graph) (traced : List (List Int)) (hb : buildContours a = .ok (z, c, cs))
    (hsk : out.debug = some sk) (hds : graphDarts a cs.flatten sk = .ok ds)
    (hemb : circularEmbedding rt (addEdges rt [] ds) out.verts = .ok emb)
    (htr : faces rt (addEdges rt [] ds) emb a.verts.length = .ok traced)
    (hsimple : ∀ v w, ds.countP (Joins v w) ≤ 1)
    (hnd : ∀ f ∈ traced, f.Nodup)
    (hedge : ∀ f ∈ traced, ∃ p q, HasStep f p q ∧ p < (a.verts.length : Int) ∧
      q < (a.verts.length : Int))
    (hspike : ∀ f ∈ traced, 3 < f.length → ∀ i p t x, TripleAt f i p t x →
      isSpike out.verts p t x = .ok false) :
    ∃ new, r = a.faces.getD [] ++ new ∧ ∀ f ∈ new,
      ∃ x y rest, f = x :: y :: rest ∧ (PolyEdge a (x, y) ∨ PolyEdge a (y, x)) := by
  cases polygonize_ends h with
  | early e => cases hr
  | noTan => cases hr
  | late => cases hr
  | done z' c' cs' sk' ta fs hb' hs ht hf =>
    cases hr; cases hsk
    rw [hb] at hb'; cases hb'
    refine ⟨fs, rfl, ?_⟩
    simp only at hemb hspike
    have hverts : ∀ f ∈ traced, ∀ v ∈ f, GraphVert a sk.length v :=
      faces_all (addEdges_all (graphDarts_verts (contour_edge_index hb) hds))
        (C11_embedding_perm rt _ emb _ true hemb).2 htr
    unfold facesOf at hf
    simp only at hf
    rw [hds, ok_bind, hemb, ok_bind, htr, ok_bind] at hf
    obtain ⟨f2, h2, h3⟩ := bind_ok.1 hf
    have hf2 : f2 = traced := by
      unfold removeSpikes spikeLoop at h2
      rw [spikePass_of_none hspike, ok_bind] at h2
      exact (Except.ok.inj h2).symm
    subst hf2
    intro f hf
    unfold cleanFaces at h3
    obtain ⟨f0, hf0, hcl⟩ := forall₂_mem_right (mapM_ok h3) hf
    obtain ⟨x, y, rest, rfl, hxy⟩ := C41_traced_partial rt a cs.flatten sk _ ds emb f2 hds hsimple
      hemb htr f0 hf0 (hedge f0 hf0)
    have hlt : x < (a.verts.length : Int) ∧ y < (a.verts.length : Int) := by
      have key : ∀ i j, PolyEdge a (i, j) → i < (a.verts.length : Int) ∧ j < (a.verts.length : Int) := by
        rintro i j ⟨ij, hij, he⟩
        cases he
        obtain ⟨o1, o2⟩ := edgeEnds_onContour hij
        have := onContour_lt hb o1
        have := onContour_lt hb o2
        omega
      rcases hxy with hxy | hxy
      · exact key _ _ hxy
      · exact (key _ _ hxy).symm
    have hvalid : ∀ v ∈ x :: y :: rest, ∃ w,
        pyGet (a.verts ++ sk.map (node3D c z ta)) v = .ok w := by
      intro v hv
      have hlen : (a.verts ++ sk.map (node3D c z ta)).length = a.verts.length + sk.length := by simp
      rcases hverts _ hf0 v hv with ⟨k, rfl, hk⟩ | ⟨j, rfl, hj⟩ | ⟨rfl, hm⟩
      · have := onContour_lt hb hk
        exact ⟨_, pyGet_nat_ok.2 (List.getElem?_eq_getElem (by rw [hlen]; omega))⟩
      · exact ⟨_, pyGet_nat_ok.2 (List.getElem?_eq_getElem (by rw [hlen]; omega))⟩
      · exact pyGet_valid (by rw [hlen]; omega) (by omega)
    have hnd0 := hnd _ hf0
    rcases C40_cleanFace _ a.verts.length (fun v => f2.flatten.count v) _ hvalid
      ⟨x, by simp, .inl hlt.1⟩ with h' | ⟨mid, out', h', hs1, hs2, hk, hst⟩
    · rw [h'] at hcl; cases hcl
    · rw [h'] at hcl; cases hcl
      have cnt : ∀ v, v = x ∨ v = y → v ∈ mid := by
        intro v hv
        have hm : v ∈ x :: y :: rest := by rcases hv with rfl | rfl <;> simp
        have := hk v (.inl (by rcases hv with rfl | rfl; exacts [hlt.1, hlt.2]))
        rw [← List.count_pos_iff, this, List.count_pos_iff]; exact hm
      obtain ⟨l', rfl⟩ := sublist_two hs2 (cnt x (.inl rfl)) (cnt y (.inr rfl)) hnd0
      have hnd1 := hs2.nodup hnd0
      have noStep : ∀ v, ¬ HasStep (x :: y :: l') v v := by
        rintro v ⟨i, h1, h2⟩
        have hi := (List.getElem?_eq_some_iff.1 h1).1
        have := (List.getElem?_inj hi hnd1).1 (h1.trans h2.symm)
        simp only [List.length_cons] at this hi
        by_cases hlast : i + 1 = l'.length + 1 + 1
        · rw [hlast, Nat.mod_self] at this; omega
        · rw [Nat.mod_eq_of_lt (by omega)] at this; omega
      have mem : ∀ v, v = x ∨ v = y → v ∈ f := by
        intro v hv
        rw [← List.count_pos_iff, hst v (noStep v), List.count_pos_iff]
        rcases hv with rfl | rfl <;> simp
      obtain ⟨l'', rfl⟩ := sublist_two hs1 (mem x (.inl rfl)) (mem y (.inr rfl)) hnd1
      exact ⟨x, y, l'', rfl, hxy⟩

/-- the traced faces of the 8 x 4 rectangle with its ridge -/
def rectTraced : List (List Int) := [[3, 0, 4], [2, 3, 4, 5], [0, 1, 5, 4], [1, 2, 5]]

/-- case for C41: the rectangle; its faces have different vertices, each contains an edge of the
rectangle and no corner is a spike -/
example : (do
      let (_, _, cs) ← rectContours
      let ds ← graphDarts (simpleCall [(0, 0), (8, 0), (8, 4), (0, 4)] 1 2) cs.flatten
        [⟨sp2 (-2) 0, sq 2, [sp2 (-4) (-2), sp2 (-4) 2, sp2 2 0]⟩,
         ⟨sp2 2 0, sq 2, [sp2 4 (-2), sp2 4 2]⟩]
      let emb ← circularEmbedding rt0 (addEdges rt0 [] ds)
        (ground [(0, 0), (8, 0), (8, 4), (0, 4)] ++ [sp3 2 2 1, sp3 6 2 1])
      faces rt0 (addEdges rt0 [] ds) emb 4) = .ok rectTraced ∧
    (∀ f ∈ rectTraced, f.Nodup ∧ ∃ d ∈ steps f, d.1 < 4 ∧ d.2 < 4) ∧
    spikePass (ground [(0, 0), (8, 0), (8, 4), (0, 4)] ++ [sp3 2 2 1, sp3 6 2 1]) 4 rectTraced 0
      rectTraced = .ok none := by
  decide +kernel

end Polyskel
