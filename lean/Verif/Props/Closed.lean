import Verif.Props.Graph
import Verif.Props.SpikeSteps
import Verif.Props.Moves
/-
C42: the faces traced in the graph of `polygonize` form a closed surface over the polygon.
-/
namespace Polyskel
open Graph

/-- the vertex sequence of a face cycle has exactly the directed edges of the cycle -/
theorem steps_of_cycle {emb : Graph} {f : List Dart} (h : FaceCycle emb f) :
    steps (f.map (·.1)) = f := by
  apply List.ext_getElem?
  intro i
  unfold steps
  have hpos : 0 < f.length := List.length_pos_iff.2 h.1
  by_cases hi : i < f.length
  · have hm : (i + 1) % f.length < f.length := Nat.mod_lt _ hpos
    have h1 : f[i]? = some f[i] := List.getElem?_eq_getElem hi
    have h2 : f[(i + 1) % f.length]? = some f[(i + 1) % f.length] := List.getElem?_eq_getElem hm
    have ht := (h.2 i _ _ h1 h2).1
    rw [h1, List.getElem?_eq_getElem (by simp [hi])]
    simp only [List.getElem_zip, List.getElem_map, List.getElem_rotate, List.length_map, ht]
  · have hlen : ((f.map (·.1)).zip ((f.map (·.1)).rotate 1)).length = f.length := by simp
    rw [List.getElem?_eq_none (l := f) (by omega), List.getElem?_eq_none (by omega)]

/-- the directed edges of all faces returned by `faces()` are those of the traced faces with a
vertex `≥ n` -/
theorem faces_steps {rt : Rt} {g emb : Graph} (hs : Simple g) (he : Embeds emb g) {n : Int}
    {fs : List (List Dart)} (h : traceFaces rt g emb = .ok fs) {out : List (List Int)}
    (ho : faces rt g emb n = .ok out) :
    (out.flatMap steps).Perm (fs.filter (fun f => f.any (fun d => decide (n ≤ d.1)))).flatten := by
  obtain ⟨out', h1, h2⟩ := C14_faces_filter rt g emb hs he n fs h
  rw [ho] at h1; cases h1
  have hc := C15_face_cycle rt g emb hs he fs h
  have hc' : ∀ f ∈ fs.filter (fun f => f.any (fun d => decide (n ≤ d.1))), FaceCycle emb f :=
    fun f hf => hc f (List.mem_filter.1 hf).1
  generalize fs.filter (fun f => f.any (fun d => decide (n ≤ d.1))) = l at *
  clear ho hc h
  induction h2 with
  | nil => simp
  | @cons f r l out hfr _ ih =>
    rw [List.flatMap_cons, List.flatten_cons]
    refine List.Perm.append ?_ (ih (fun f hf => hc' f (by simp [hf])))
    obtain ⟨⟨k, hk, rfl⟩, _⟩ := hfr
    rw [List.map_append, List.map_drop, List.map_take]
    refine (steps_rot (by simpa using hk)).trans ?_
    rw [steps_of_cycle (hc' f (by simp))]

theorem closed_of_simple {S : Type} [Scalar S] (rt : Rt) (m : Nat) (V : List (V3 S)) (ds : List Dart)
    (emb : Graph) (out : List (List Int)) (hsimple : ∀ v w, ds.countP (Joins v w) ≤ 1)
    (hemb : circularEmbedding rt (addEdges rt [] ds) V = .ok emb)
    (hout : faces rt (addEdges rt [] ds) emb m = .ok out) :
    (∀ d, (out.flatMap steps).count d ≤ 1) ∧
    (∀ d ∈ ds, d.1 ≠ d.2 → (m : Int) ≤ d.1 ∨ (m : Int) ≤ d.2 →
      (out.flatMap steps).count d = 1 ∧ (out.flatMap steps).count (d.2, d.1) = 1) ∧
    (∃ fs, traceFaces rt (addEdges rt [] ds) emb = .ok fs ∧
      ∀ d ∈ ds, d.1 ≠ d.2 → fs.flatten.count d = 1 ∧ fs.flatten.count (d.2, d.1) = 1) ∧
    (∀ d ∈ out.flatMap steps, d.1 ≠ d.2 ∧ (d ∈ ds ∨ (d.2, d.1) ∈ ds)) := by
  have hs := C10_simple rt ds hsimple
  have he := (C11_embedding_perm rt _ emb V true hemb).2
  obtain ⟨fs, hfs, hnd, hmem⟩ := C12_faces_partition rt _ emb hs he
  have hp := faces_steps hs he hfs hout
  have hc := C15_face_cycle rt _ emb hs he fs hfs
  have hsub : (fs.filter (fun f => f.any (fun d =>
      decide ((m : Int) ≤ d.1)))).flatten.Sublist fs.flatten :=
    List.filter_sublist.flatten
  have hjoin : ∀ d : Dart, HasDart (addEdges rt [] ds) d ↔ d.1 ≠ d.2 ∧ (d ∈ ds ∨ (d.2, d.1) ∈ ds) := by
    intro d
    unfold HasDart
    rw [← List.count_pos_iff, C10_neighbour_count, List.countP_pos_iff]
    simp only [Joins, Bool.and_eq_true, bne_iff_ne, ne_eq, Bool.or_eq_true, beq_iff_eq]
    constructor
    · rintro ⟨e, hed, hne, rfl | rfl⟩
      · exact ⟨hne, .inl hed⟩
      · exact ⟨fun h => hne h.symm, .inr hed⟩
    · rintro ⟨hne, h | h⟩
      · exact ⟨d, h, hne, .inl rfl⟩
      · exact ⟨_, h, fun h => hne h.symm, .inr rfl⟩
  have hone : ∀ d, HasDart (addEdges rt [] ds) d → fs.flatten.count d = 1 := by
    intro d hd
    have h1 := List.nodup_iff_count_le_one.1 hnd d
    have h2 := List.count_pos_iff.2 ((hmem d).2 hd)
    omega
  have hswap : ∀ d ∈ ds, d.1 ≠ d.2 → HasDart (addEdges rt [] ds) d ∧
      HasDart (addEdges rt [] ds) (d.2, d.1) := by
    intro d hd hne
    exact ⟨(hjoin d).2 ⟨hne, .inl hd⟩, (hjoin _).2 ⟨fun h => hne h.symm, .inr hd⟩⟩
  have hle : ∀ d, (out.flatMap steps).count d ≤ 1 := by
    intro d
    rw [hp.count_eq]
    exact (hsub.count_le d).trans (List.nodup_iff_count_le_one.1 hnd d)
  -- a cycle through a node is kept
  have hkeep : ∀ d : Dart, HasDart (addEdges rt [] ds) d →
      (m : Int) ≤ d.1 ∨ (m : Int) ≤ d.2 →
      (out.flatMap steps).count d = 1 := by
    intro d hd hn
    have : d ∈ out.flatMap steps := by
      rw [hp.mem_iff, List.mem_flatten]
      obtain ⟨f, hf, hdf⟩ := List.mem_flatten.1 ((hmem d).2 hd)
      refine ⟨f, List.mem_filter.2 ⟨hf, ?_⟩, hdf⟩
      rw [List.any_eq_true]
      rcases hn with hn | hn
      · exact ⟨d, hdf, by simpa using hn⟩
      · obtain ⟨i, hi⟩ := List.mem_iff_getElem?.1 hdf
        have hpos : 0 < f.length := List.length_pos_iff.2 (hc f hf).1
        have hm : (i + 1) % f.length < f.length := Nat.mod_lt _ hpos
        have h2 := List.getElem?_eq_getElem hm
        have ht := ((hc f hf).2 i _ _ hi h2).1
        exact ⟨_, List.mem_of_getElem? h2, by rw [ht]; simpa using hn⟩
    have h1 := List.count_pos_iff.2 this
    have h2 := hle d
    omega
  refine ⟨hle, ?_, ⟨fs, hfs, ?_⟩, ?_⟩
  · intro d hd hne hn
    exact ⟨hkeep d (hswap d hd hne).1 hn, hkeep _ (hswap d hd hne).2 hn.symm⟩
  · intro d hd hne
    exact ⟨hone d (hswap d hd hne).1, hone _ (hswap d hd hne).2⟩
  · intro d hd
    rw [hp.mem_iff] at hd
    exact (hjoin d).1 ((hmem d).1 (hsub.mem hd))

theorem mem_contourDarts_iff {first num : Nat} {ds : List Dart}
    (h : contourDarts first num = .ok ds) (d : Dart) :
    d ∈ ds ↔ ∃ k < num, d = (((first + k : Nat) : Int), ((first + (k + 1) % num : Nat) : Int)) := by
  unfold contourDarts at h
  by_cases h0 : num = 0
  · subst h0; simp [iterPrevNext] at h
  have hpos : 0 < num := by omega
  have hne : List.range' first num ≠ [] := by simp [h0]
  obtain ⟨r, hr, hlen, hget⟩ := C06_iterPrevNext (List.range' first num) hne
  rw [hr] at h
  cases h
  rw [List.length_range'] at hlen
  simp only [List.length_range'] at hget
  constructor
  · intro hd
    obtain ⟨q, hq, rfl⟩ := List.mem_map.1 hd
    obtain ⟨i, hi⟩ := List.mem_iff_getElem?.1 hq
    have hlt : i < num := by
      have := (List.getElem?_eq_some_iff.1 hi).1; omega
    rw [hget i hlt] at hi
    simp only [List.getElem_range', Option.some.injEq] at hi
    subst hi
    refine ⟨(i + num - 1) % num, Nat.mod_lt _ hpos, ?_⟩
    have : ((i + num - 1) % num + 1) % num = i := by
      rw [Nat.mod_add_mod, show i + num - 1 + 1 = i + num by omega, Nat.add_mod_right,
        Nat.mod_eq_of_lt hlt]
    rw [this]; simp
  · rintro ⟨k, hk, rfl⟩
    refine List.mem_map.2 ⟨(first + k, first + (k + 1) % num), ?_, rfl⟩
    have hlt := Nat.mod_lt (k + 1) hpos
    have := hget ((k + 1) % num) hlt
    refine List.mem_of_getElem? (i := (k + 1) % num) ?_
    rw [this]
    have : ((k + 1) % num + num - 1) % num = k := by
      by_cases hkn : k + 1 = num
      · rw [hkn, Nat.mod_self, Nat.zero_add, Nat.mod_eq_of_lt (by omega)]; omega
      · rw [Nat.mod_eq_of_lt (show k + 1 < num by omega),
          show k + 1 + num - 1 = k + num by omega, Nat.add_mod_right, Nat.mod_eq_of_lt hk]
    simp [this]

theorem mem_holeDarts_iff {hs : List (Nat × Nat)} {ds : List Dart} (h : holeDarts hs = .ok ds)
    (d : Dart) : d ∈ ds ↔ ∃ c ∈ hs, ∃ k < c.2,
      d = (((c.1 + k : Nat) : Int), ((c.1 + (k + 1) % c.2 : Nat) : Int)) := by
  induction hs generalizing ds with
  | nil => cases h; simp
  | cons c hs ih =>
    obtain ⟨f, n⟩ := c
    unfold holeDarts at h
    obtain ⟨A, hA, h⟩ := bind_ok.1 h
    obtain ⟨B, hB, h⟩ := bind_ok.1 h
    cases h
    rw [List.mem_append, mem_contourDarts_iff hA, ih hB]
    simp

variable {S : Type} [Scalar S]

/-- a connection of the skeleton as a pair of vertex indices: from node `j` (which gets the index
`n + j`) to one of its sinks -/
def Connection (edges : List (Edge2 S)) (sk : List (Subtree S)) (n : Nat) (d : Dart) : Prop :=
  ∃ (j : Nat) (s : Subtree S), sk[j]? = some s ∧ d.1 = ((n + j : Nat) : Int) ∧
    ∃ p ∈ s.sinks, d.2 = sinkIndex edges sk n p

/-- an edge of the polygon or of a hole -/
def PolyEdge (a : PolyArgs S) (d : Dart) : Prop :=
  ∃ ij ∈ edgeEnds a, d = ((ij.1 : Int), (ij.2 : Int))

/-- the edges added to the graph are those of the contours and the connections -/
theorem mem_graphDarts {a : PolyArgs S} {edges : List (Edge2 S)} {sk : List (Subtree S)}
    {ds : List Dart} (h : graphDarts a edges sk = .ok ds) (d : Dart) :
    d ∈ ds ↔ PolyEdge a d ∨ Connection edges sk a.verts.length d := by
  unfold graphDarts at h
  obtain ⟨d1, h1, h⟩ := bind_ok.1 h
  obtain ⟨d2, h2, h⟩ := bind_ok.1 h
  cases h
  rw [List.mem_append, List.mem_append, mem_contourDarts_iff h1, mem_holeDarts_iff h2]
  apply or_congr
  · unfold PolyEdge edgeEnds
    simp only [List.mem_flatMap, List.mem_map, List.mem_range, List.mem_cons]
    constructor
    · rintro (⟨k, hk, rfl⟩ | ⟨c, hc, k, hk, rfl⟩)
      · exact ⟨_, ⟨(a.first, a.num), .inl rfl, k, hk, rfl⟩, rfl⟩
      · exact ⟨_, ⟨c, .inr hc, k, hk, rfl⟩, rfl⟩
    · rintro ⟨_, ⟨c, rfl | hc, k, hk, rfl⟩, rfl⟩
      · exact .inl ⟨k, hk, rfl⟩
      · exact .inr ⟨c, hc, k, hk, rfl⟩
  · unfold skelDarts Connection
    simp only [List.mem_flatMap, List.mem_map]
    constructor
    · rintro ⟨⟨s, j⟩, hs, p, hp, rfl⟩
      refine ⟨j, s, by simpa [List.mem_zipIdx_iff_getElem?] using hs, ?_, p, hp, rfl⟩
      simp only; omega
    · rintro ⟨j, s, hs, hd1, p, hp, hd2⟩
      refine ⟨(s, j), by simpa [List.mem_zipIdx_iff_getElem?] using hs, p, hp, ?_⟩
      obtain ⟨x, y⟩ := d
      simp only at hd1 hd2
      rw [hd1, hd2]; simp only [Prod.mk.injEq, and_true]; omega

/-- C42: when no edge of the graph `polygonize` builds occurs twice, the faces found before spike
removal satisfy: no directed edge lies on two faces or twice on one; every connection of the
skeleton is passed exactly once in each direction; every polygon edge is passed exactly once in
each direction by the traced cycles (of which `faces()` drops those without a node); and nothing
but these edges occurs. -/
theorem C42_closed (rt : Rt) (a : PolyArgs S) (edges : List (Edge2 S))
    (sk : List (Subtree S)) (V : List (V3 S)) (ds : List Dart) (emb : Graph) (out : List (List Int))
    (hds : graphDarts a edges sk = .ok ds) (hsimple : ∀ v w, ds.countP (Joins v w) ≤ 1)
    (hemb : circularEmbedding rt (addEdges rt [] ds) V = .ok emb)
    (hout : faces rt (addEdges rt [] ds) emb a.verts.length = .ok out) :
    (∀ d, (out.flatMap steps).count d ≤ 1) ∧
    (∀ d, Connection edges sk a.verts.length d → d.1 ≠ d.2 →
      (out.flatMap steps).count d = 1 ∧ (out.flatMap steps).count (d.2, d.1) = 1) ∧
    (∃ fs, traceFaces rt (addEdges rt [] ds) emb = .ok fs ∧
      ∀ d, PolyEdge a d → d.1 ≠ d.2 → fs.flatten.count d = 1 ∧ fs.flatten.count (d.2, d.1) = 1) ∧
    (∀ d ∈ out.flatMap steps, d.1 ≠ d.2 ∧ (PolyEdge a d ∨ PolyEdge a (d.2, d.1) ∨
      Connection edges sk a.verts.length d ∨ Connection edges sk a.verts.length (d.2, d.1))) := by
  obtain ⟨h1, h2, ⟨fs, hfs, h3⟩, h4⟩ :=
    closed_of_simple rt a.verts.length V ds emb out hsimple hemb hout
  refine ⟨h1, ?_, ⟨fs, hfs, ?_⟩, ?_⟩
  · intro d hd hne
    refine h2 d ((mem_graphDarts hds d).2 (.inr hd)) hne (.inl ?_)
    obtain ⟨j, _, _, hj, _⟩ := hd
    omega
  · intro d hd hne
    exact h3 d ((mem_graphDarts hds d).2 (.inl hd)) hne
  · intro d hd
    obtain ⟨hne, h⟩ := h4 d hd
    rw [mem_graphDarts hds, mem_graphDarts hds] at h
    tauto

/-- the contours of the rectangle below -/
def rectContours : Except PyErr (Soft × V3 Soft × List (List (Edge2 Soft))) :=
  buildContours (simpleCall [(0, 0), (8, 0), (8, 4), (0, 4)] 1 2)

/-- case for C42: the rectangle with its ridge; no edge of the graph occurs twice -/
example : ∃ z c cs ds, rectContours = .ok (z, c, cs) ∧
    graphDarts (simpleCall [(0, 0), (8, 0), (8, 4), (0, 4)] 1 2) cs.flatten
      [⟨sp2 (-2) 0, sq 2, [sp2 (-4) (-2), sp2 (-4) 2, sp2 2 0]⟩,
       ⟨sp2 2 0, sq 2, [sp2 4 (-2), sp2 4 2]⟩] = .ok ds ∧
    (∀ e ∈ ds, ds.countP (Joins e.1 e.2) ≤ 1) ∧ ds.length = 9 := by
  exact ⟨_, _, _, _, rfl, rfl, by decide +kernel⟩

end Polyskel
