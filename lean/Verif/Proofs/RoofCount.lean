import Verif.Proofs.RoofPoly
import Verif.Props.Closed
import Mathlib.Data.Sym.Sym2
/-
The tree of a roof has one top, and how many edges and arcs there are.  Used for C84.
-/
namespace Polyskel
open Scalar Real Geo Graph
set_option linter.unusedSectionVars false

section
variable {c : List (Edge2 ℝ)} {m : Nat} {pos : Nat → V2 ℝ} {hh : Nat → ℝ} {L R : Nat → Edge2 ℝ}
  {ch : Nat → List Nat}

/-- if all nodes but one have a parent, then all vertices but that node -/
theorem RoofTree.children (h : RoofTree c m pos hh L R ch) {t : Nat} (ht : t < m)
    (hp : ∀ j < m, j ≠ t → ∃ i < m, c.length + j ∈ ch i) :
    ((List.range m).flatMap ch).Perm ((List.range (c.length + m)).erase (c.length + t)) := by
  obtain ⟨rk, hrk⟩ := h.rank
  have htop : ∀ i < m, c.length + t ∉ ch i := by
    intro i hi hti
    obtain ⟨j, hj, hmax⟩ := Finset.exists_max_image (Finset.range m) (fun j => rk (c.length + j))
      ⟨t, Finset.mem_range.2 ht⟩
    have hj' := Finset.mem_range.1 hj
    have : ∃ i < m, c.length + j ∈ ch i := by
      by_cases hjt : j = t
      · rw [hjt]; exact ⟨i, hi, hti⟩
      · exact hp j hj' hjt
    obtain ⟨i', hi', hm⟩ := this
    have h1 := (hrk i' hi' _ hm).2
    have h2 := hmax i' (Finset.mem_range.2 hi')
    omega
  rw [List.perm_ext_iff_of_nodup h.nodup (List.nodup_range.erase _)]
  intro k
  rw [List.nodup_range.mem_erase_iff, List.mem_flatMap, List.mem_range]
  constructor
  · rintro ⟨j, hj, hk⟩
    have hj' := List.mem_range.1 hj
    refine ⟨?_, (hrk j hj' k hk).1⟩
    rintro rfl
    exact htop j hj' hk
  · rintro ⟨h1, h2⟩
    by_cases hk : k < c.length
    · obtain ⟨j, hj, hm⟩ := h.leaf k hk
      exact ⟨j, List.mem_range.2 hj, hm⟩
    · obtain ⟨j, rfl⟩ : ∃ j, k = c.length + j := ⟨k - c.length, by omega⟩
      obtain ⟨i, hi, hm⟩ := hp j (by omega) (by rintro rfl; exact h1 rfl)
      exact ⟨i, List.mem_range.2 hi, hm⟩

theorem treeDarts_snd (n m : Nat) (ch : Nat → List Nat) :
    (treeDarts n m ch).map Prod.snd = (List.range m).flatMap ch := by
  simp [treeDarts, List.map_flatMap, Function.comp_def]

end

section
variable {c : List (Edge2 ℝ)} {st : St ℝ} {out : List (Subtree ℝ)} {ch : Nat → List Nat}

/-- only the node made last is not the sink of another node -/
theorem Grown.one_top (h : Grown c st out ch []) (hl : out.length + 2 = c.length) (h3 : 3 ≤ c.length) :
    ∃ t ∈ (mergeSame [] out).map noLoop, ∀ a ∈ (mergeSame [] out).map noLoop, a.source ≠ t.source →
      ∃ b ∈ (mergeSame [] out).map noLoop, a.source ∈ b.sinks := by
  have ht := h.tree hl h3 (c[0]'(by omega))
  obtain ⟨m1, m2, m3⟩ := C30_mergeSame exactEq_real out
  have hpos : 0 < out.length := by omega
  have hlast : out.length - 1 < out.length := by omega
  obtain ⟨k, hk, hks⟩ := m2 _ (List.getElem_mem hlast)
  refine ⟨noLoop k, List.mem_map_of_mem hk, ?_⟩
  intro a ha hne
  obtain ⟨k', hk', rfl⟩ := List.mem_map.1 ha
  obtain ⟨⟨A, s, B, e, -, h1, -⟩, -⟩ := m3 k' hk'
  have hne' : k'.source ≠ (out[out.length - 1]).source := by
    rw [← hks]; exact hne
  -- the last arc from there
  have hex : ∃ j, j < out.length ∧ ∃ arc, out[j]? = some arc ∧ arc.source = k'.source :=
    ⟨A.length, by rw [e]; simp, s, by rw [e]; simp, h1.symm⟩
  obtain ⟨j, hj, hmax⟩ := Finset.exists_max_image
    ((Finset.range out.length).filter fun j => ∃ arc, out[j]? = some arc ∧ arc.source = k'.source) id
    (by
      obtain ⟨j, hj, hx⟩ := hex
      exact ⟨j, Finset.mem_filter.2 ⟨Finset.mem_range.2 hj, hx⟩⟩)
  obtain ⟨hjr, arc, harc, hsrc⟩ := Finset.mem_filter.1 hj
  have hjl := Finset.mem_range.1 hjr
  have hjm : j + 1 < out.length := by
    by_contra hcon
    obtain rfl : j = out.length - 1 := by omega
    rw [List.getElem?_eq_getElem hlast] at harc
    cases harc
    exact hne' hsrc.symm
  obtain ⟨i, hi, hci⟩ := ht.parent (show c.length + j < c.length + (out.length - 1) by omega)
  have hij := (ht.child_lt hi hci).1
  have hgi := List.getElem?_eq_getElem hi
  have hsi : (out[i]).source ≠ k'.source := by
    intro he
    have := hmax i (Finset.mem_filter.2 ⟨Finset.mem_range.2 hi, _, hgi, he⟩)
    simp only [id] at this
    omega
  have hin : k'.source ∈ (out[i]).sinks := by
    rw [h.sinks hl h3 hgi]
    exact List.mem_map.2 ⟨_, hci, by rw [posOf_node harc, hsrc]⟩
  obtain ⟨b, hb, hbs⟩ := m2 _ (List.getElem_mem hi)
  have hbin : k'.source ∈ b.sinks := ((m3 b hb).2 _).2 ⟨_, List.getElem_mem hi, hbs.symm, hin⟩
  refine ⟨noLoop b, List.mem_map_of_mem hb, ?_⟩
  show k'.source ∈ b.sinks.erase b.source
  rw [List.mem_erase_of_ne (by rw [hbs]; exact hsi.symm)]
  exact hbin

end

section
variable {c : List (Edge2 ℝ)} {sk : List (Subtree ℝ)} {L R : Nat → Edge2 ℝ} {ch : Nat → List Nat}

/-- the arcs are a tree: all corners and all nodes but one are the sink of one node -/
theorem RoofTree.arcs (h : RoofTree c sk.length (posOf c sk) (hhOf c sk) L R ch)
    (hinj : ∀ i j, i < c.length + sk.length → j < c.length + sk.length → posOf c sk i = posOf c sk j → i = j)
    (hsink : ∀ j arc, sk[j]? = some arc → arc.sinks = (ch j).map (posOf c sk))
    (htop : ∃ t ∈ sk, ∀ a ∈ sk, a.source ≠ t.source → ∃ b ∈ sk, a.source ∈ b.sinks) :
    ((List.range sk.length).flatMap ch).length + 1 = c.length + sk.length ∧
    (sk.flatMap (·.sinks)).Nodup ∧ (sk.flatMap (·.sinks)).length + 1 = c.length + sk.length ∧
    ∃ t ∈ sk, ∀ s ∈ sk, s.source ∈ sk.flatMap (·.sinks) ↔ s ≠ t := by
  obtain ⟨t, htm, hp⟩ := htop
  obtain ⟨ti, hti⟩ := List.mem_iff_getElem?.1 htm
  have htl := (List.getElem?_eq_some_iff.1 hti).1
  have hperm := h.children htl (by
    intro j hj hne
    have hgj := List.getElem?_eq_getElem hj
    obtain ⟨b, hb, hbs⟩ := hp _ (List.getElem_mem hj) (by
      intro he
      rw [← posOf_node (c := c) hgj, ← posOf_node (c := c) hti] at he
      have := hinj _ _ (by omega) (by omega) he
      omega)
    obtain ⟨i, hi⟩ := List.mem_iff_getElem?.1 hb
    have hil := (List.getElem?_eq_some_iff.1 hi).1
    rw [hsink i b hi] at hbs
    obtain ⟨k, hk, hke⟩ := List.mem_map.1 hbs
    refine ⟨i, hil, ?_⟩
    rw [← posOf_node (c := c) hgj] at hke
    obtain rfl := hinj _ _ (h.child_lt hil hk).1 (by omega) hke
    exact hk)
  have hlen : ((List.range sk.length).flatMap ch).length + 1 = c.length + sk.length := by
    rw [hperm.length_eq, List.length_erase_of_mem (List.mem_range.2 (by omega)), List.length_range]
    omega
  have hflat : sk.flatMap (·.sinks) = ((List.range sk.length).flatMap ch).map (posOf c sk) := by
    rw [List.map_flatMap]
    have : sk = (List.range sk.length).map (fun j => sk[j]?.getD t) := by
      apply List.ext_getElem?
      intro i
      rw [List.getElem?_map]
      by_cases hi : i < sk.length
      · simp [List.getElem?_range hi, List.getElem?_eq_getElem hi]
      · rw [List.getElem?_eq_none (by omega), List.getElem?_eq_none (l := List.range _) (by simpa using hi)]
        rfl
    conv_lhs => rw [this]
    rw [List.flatMap_map]
    apply List.flatMap_congr
    intro j hj
    have hj' := List.mem_range.1 hj
    rw [List.getElem?_eq_getElem hj', Option.getD_some]
    exact hsink j _ (List.getElem?_eq_getElem hj')
  have hlt : ∀ k ∈ (List.range sk.length).flatMap ch, k < c.length + sk.length := by
    intro k hk
    exact List.mem_range.1 (List.mem_of_mem_erase (hperm.mem_iff.1 hk))
  refine ⟨hlen, ?_, by rw [hflat, List.length_map, hlen], t, htm, ?_⟩
  · rw [hflat]
    exact h.nodup.map_on (fun x hx y hy hxy => hinj x y (hlt x hx) (hlt y hy) hxy)
  · intro s hs
    obtain ⟨i, hi⟩ := List.mem_iff_getElem?.1 hs
    have hil := (List.getElem?_eq_some_iff.1 hi).1
    have hst : s = t ↔ i = ti := by
      constructor
      · rintro rfl
        have := hinj (c.length + i) (c.length + ti) (by omega) (by omega)
          (by rw [posOf_node hi, posOf_node hti])
        omega
      · rintro rfl
        rw [hi] at hti
        exact Option.some.inj hti
    rw [Ne, hst, hflat, ← posOf_node (c := c) hi]
    have : posOf c sk (c.length + i) ∈ ((List.range sk.length).flatMap ch).map (posOf c sk) ↔
        c.length + i ∈ (List.range sk.length).flatMap ch := by
      constructor
      · intro hm
        obtain ⟨k, hk, hke⟩ := List.mem_map.1 hm
        rwa [← hinj _ _ (hlt k hk) (by omega) hke]
      · exact fun hm => List.mem_map_of_mem hm
    rw [this, hperm.mem_iff, List.nodup_range.mem_erase_iff, List.mem_range]
    constructor
    · rintro ⟨h1, -⟩ rfl; exact h1 rfl
    · intro hne
      exact ⟨by omega, by omega⟩

end

/-- of the directed edges of a face over a side, only the first is between two corners -/
theorem face_darts {N : Int} {f : List Int} {x y : Int} (hlen : 3 ≤ f.length) (h0 : f[0]? = some x)
    (h1 : f[1]? = some y) (hx : x < N) (hy : y < N)
    (h2 : ∀ (i : Nat) v, 2 ≤ i → f[i]? = some v → N ≤ v) :
    (f.zip (f.rotate 1)).filter (fun d => !(decide (N ≤ d.1) || decide (N ≤ d.2))) = [(x, y)] := by
  match f, hlen, h0, h1, h2 with
  | x' :: y' :: z :: r, _, h0, h1, h2 =>
    simp only [List.getElem?_cons_zero, Option.some.injEq] at h0
    simp only [List.getElem?_cons_succ, List.getElem?_cons_zero, Option.some.injEq] at h1
    subst h0 h1
    have hall : ∀ v ∈ z :: r, N ≤ v := by
      intro v hv
      obtain ⟨i, hi⟩ := List.mem_iff_getElem?.1 hv
      exact h2 (i + 2) v (by omega) (by simpa using hi)
    have hrot : (x' :: y' :: z :: r).rotate 1 = y' :: z :: (r ++ [x']) := by simp
    rw [hrot, List.zip_cons_cons, List.filter_cons_of_pos (by simp; omega)]
    congr 1
    rw [List.filter_eq_nil_iff]
    intro d hd
    rw [List.zip_cons_cons] at hd
    rcases List.mem_cons.1 hd with rfl | hd
    · simp [hall z (by simp)]
    · have := hall d.1 (List.of_mem_zip hd).1
      simp [this]

section
variable {c : List (Edge2 ℝ)} {m : Nat} {pos : Nat → V2 ℝ} {hh : Nat → ℝ} {L R : Nat → Edge2 ℝ}
  {ch : Nat → List Nat} {gi : Nat → Int} {ds : List Dart} {rt : Rt} {verts : List (V3 ℝ)} {z : V2 ℝ}
  {emb : Graph}

/-- in the traced faces no directed edge occurs twice, and all directed edges with a node at one of their ends
occur -/
theorem faces_nodes {rt : Rt} {g emb : Graph} (hs : Graph.Simple g) (he : Graph.Embeds emb g) {m : Nat}
    {out : List (List Int)} (ho : Graph.faces rt g emb m = .ok out) :
    (out.flatMap (fun f => f.zip (f.rotate 1))).Nodup ∧
    ∀ d, (m : Int) ≤ d.1 ∨ (m : Int) ≤ d.2 →
      (d ∈ out.flatMap (fun f => f.zip (f.rotate 1)) ↔ HasDart g d) := by
  obtain ⟨fs, hfs, hnd, hmem⟩ := C12_faces_partition rt _ emb hs he
  have hp : (out.flatMap (fun f => f.zip (f.rotate 1))).Perm _ := faces_steps hs he hfs ho
  have hc := C15_face_cycle rt _ emb hs he fs hfs
  have hsub : (fs.filter (fun f => f.any (fun d =>
      decide ((m : Int) ≤ d.1)))).flatten.Sublist fs.flatten :=
    List.filter_sublist.flatten
  refine ⟨hp.nodup_iff.2 (hsub.nodup hnd), ?_⟩
  intro d hn
  refine ⟨fun hd => (hmem d).1 (hsub.mem (hp.mem_iff.1 hd)), fun hdart => ?_⟩
  rw [hp.mem_iff, List.mem_flatten]
  obtain ⟨f, hf, hdf⟩ := List.mem_flatten.1 ((hmem _).2 hdart)
  refine ⟨f, List.mem_filter.2 ⟨hf, ?_⟩, hdf⟩
  rw [List.any_eq_true]
  rcases hn with hn | hn
  · exact ⟨_, hdf, by simpa using hn⟩
  · obtain ⟨i, hi⟩ := List.mem_iff_getElem?.1 hdf
    have hpos : 0 < f.length := List.length_pos_iff.2 (hc f hf).1
    have hm : (i + 1) % f.length < f.length := Nat.mod_lt _ hpos
    have h2 := List.getElem?_eq_getElem hm
    have ht := ((hc f hf).2 i _ _ hi h2).1
    exact ⟨_, List.mem_of_getElem? h2, by rw [ht]; simpa using hn⟩

/-- the directed edges of the faces with a node at one end: those of the tree, in both directions -/
theorem RoofG.node_darts (h : RoofG c m pos hh L R ch gi ds rt verts z emb) {N : Nat}
    (hN : ∀ k, k < c.length + m → (gi k < (N : Int) ↔ k < c.length)) {out : List (List Int)}
    (ho : Graph.faces rt (addEdges rt [] ds) emb N = .ok out) :
    ((out.flatMap (fun f => f.zip (f.rotate 1))).filter
        (fun d => decide ((N : Int) ≤ d.1) || decide ((N : Int) ≤ d.2))).Perm
      ((treeDarts c.length m ch ++ (treeDarts c.length m ch).map Prod.swap).map (Prod.map gi gi)) := by
  obtain ⟨hnd, hmem⟩ := faces_nodes h.simple h.embeds ho
  have hg := h.placed.num
  obtain ⟨rk, hrk⟩ := h.tree.rank
  have htree : ∀ d ∈ treeDarts c.length m ch, ∃ j < m, d.1 = c.length + j ∧ d.2 ∈ ch j := by
    intro d hd
    obtain ⟨j, hj, hd⟩ := List.mem_flatMap.1 hd
    obtain ⟨k, hk, rfl⟩ := List.mem_map.1 hd
    exact ⟨j, List.mem_range.1 hj, rfl, hk⟩
  have hlt : ∀ d ∈ treeDarts c.length m ch, d.1 < c.length + m ∧ d.2 < c.length + m := by
    intro d hd
    obtain ⟨h1, h2, -⟩ := h.tree.dart_lt (List.mem_append_right _ hd)
    exact ⟨h1, h2⟩
  have hlt' : ∀ d ∈ treeDarts c.length m ch ++ (treeDarts c.length m ch).map Prod.swap,
      d.1 < c.length + m ∧ d.2 < c.length + m := by
    intro d hd
    rcases List.mem_append.1 hd with hd | hd
    · exact hlt d hd
    · obtain ⟨d', hd', rfl⟩ := List.mem_map.1 hd
      exact (hlt d' hd').symm
  have hnode : ∀ k, k < c.length + m → ((N : Int) ≤ gi k ↔ c.length ≤ k) := by
    intro k hk
    have := hN k hk
    omega
  rw [List.perm_ext_iff_of_nodup (hnd.filter _)]
  · intro d
    rw [List.mem_filter, Bool.or_eq_true, decide_eq_true_eq, decide_eq_true_eq]
    constructor
    · rintro ⟨h1, h2⟩
      have hd := (hmem d h2).1 h1
      have hd1 : d.2 ∈ Graph.nbrs (addEdges rt [] ds) d.1 := hd
      -- the start is a vertex
      obtain ⟨u, hu, hu1⟩ : ∃ u, u < c.length + m ∧ d.1 = gi u := by
        rw [← List.count_pos_iff, C10_neighbour_count, List.countP_pos_iff] at hd1
        obtain ⟨e, he, hj⟩ := hd1
        obtain ⟨e', he', rfl⟩ := List.mem_map.1 ((h.darts).mem_iff.1 he)
        obtain ⟨e1, e2, -⟩ := h.tree.dart_lt he'
        simp only [Joins, Prod.map, Bool.and_eq_true, Bool.or_eq_true, beq_iff_eq] at hj
        rcases hj.2 with hj | hj
        · exact ⟨_, e1, by simpa using (congrArg Prod.fst hj).symm⟩
        · exact ⟨_, e2, by simpa using (congrArg Prod.snd hj).symm⟩
      rw [hu1, h.tree.nbrs hg h.darts hu] at hd1
      obtain ⟨x, hx, hd1⟩ := hd1
      have hxl : x < c.length + m := by
        rcases hd1 with hd1 | hd1
        · exact (h.tree.dart_lt hd1).2.1
        · exact (h.tree.dart_lt hd1).1
      rw [hu1, hx, hnode u hu, hnode x hxl] at h2
      have hside : ∀ e ∈ sideDarts c.length, e.1 < c.length ∧ e.2 < c.length := by
        intro e he
        obtain ⟨k, hk, rfl⟩ := List.mem_map.1 he
        exact ⟨List.mem_range.1 hk, nextIdx_lt' (List.mem_range.1 hk)⟩
      rw [List.mem_map]
      rcases hd1 with hd1 | hd1
      · refine ⟨(u, x), ?_, by rw [Prod.map, ← hu1, ← hx]⟩
        rcases List.mem_append.1 hd1 with hd1 | hd1
        · have := hside _ hd1
          simp only at this
          omega
        · exact List.mem_append_left _ hd1
      · refine ⟨(u, x), ?_, by rw [Prod.map, ← hu1, ← hx]⟩
        rcases List.mem_append.1 hd1 with hd1 | hd1
        · have := hside _ hd1
          simp only at this
          omega
        · exact List.mem_append_right _ (List.mem_map.2 ⟨(x, u), hd1, rfl⟩)
    · intro hd
      obtain ⟨e, he, rfl⟩ := List.mem_map.1 hd
      obtain ⟨l1, l2⟩ := hlt' e he
      have hn : (N : Int) ≤ gi e.1 ∨ (N : Int) ≤ gi e.2 := by
        rw [hnode _ l1, hnode _ l2]
        rcases List.mem_append.1 he with he | he
        · obtain ⟨j, -, e1, -⟩ := htree e he
          omega
        · obtain ⟨d', hd', rfl⟩ := List.mem_map.1 he
          obtain ⟨j, -, e1, -⟩ := htree d' hd'
          simp only [Prod.fst_swap, Prod.snd_swap]
          omega
      refine ⟨(hmem _ hn).2 ?_, hn⟩
      show gi e.2 ∈ Graph.nbrs (addEdges rt [] ds) (gi e.1)
      rw [h.tree.nbrs hg h.darts l1]
      refine ⟨e.2, rfl, ?_⟩
      rcases List.mem_append.1 he with he | he
      · exact .inl (List.mem_append_right _ he)
      · obtain ⟨d', hd', rfl⟩ := List.mem_map.1 he
        exact .inr (List.mem_append_right _ hd')
  · apply List.Nodup.map_on
    · intro x hx y hy hxy
      obtain ⟨x1, x2⟩ := hlt' x hx
      obtain ⟨y1, y2⟩ := hlt' y hy
      simp only [Prod.map, Prod.mk.injEq] at hxy
      exact Prod.ext (hg _ _ x1 y1 hxy.1) (hg _ _ x2 y2 hxy.2)
    · have hT : (treeDarts c.length m ch).Nodup := by
        apply List.Nodup.of_map Prod.snd
        rw [treeDarts_snd]
        exact h.tree.nodup
      rw [List.nodup_append]
      refine ⟨hT, hT.map Prod.swap_injective, ?_⟩
      rintro x hx y hy rfl
      obtain ⟨d', hd', e⟩ := List.mem_map.1 hy
      obtain ⟨j, hj, e1, e2⟩ := htree x hx
      obtain ⟨j', hj', e1', e2'⟩ := htree d' hd'
      rw [← e] at e1 e2
      simp only [Prod.fst_swap, Prod.snd_swap] at e1 e2
      have r1 := (hrk j hj _ e2).2
      have r2 := (hrk j' hj' _ e2').2
      rw [e1'] at r1
      rw [e1] at r2
      omega

/-- The edges of the faces, if each face has one edge between corners, the side under it. -/
theorem RoofG.count (h : RoofG c m pos hh L R ch gi ds rt verts z emb) {N : Nat}
    (hN : ∀ k, k < c.length + m → (gi k < (N : Int) ↔ k < c.length)) {out : List (List Int)}
    (ho : Graph.faces rt (addEdges rt [] ds) emb N = .ok out) {σ : List Nat}
    (hσ : σ.Perm (List.range c.length))
    (hF : List.Forall₂ (fun k f => (f.zip (f.rotate 1)).filter
      (fun d => !(decide ((N : Int) ≤ d.1) || decide ((N : Int) ≤ d.2))) = [(gi k, gi (nextIdx c.length k))]) σ out)
    (hlen : ((List.range m).flatMap ch).length + 1 = c.length + m) :
    ((out.flatMap (fun f => f.zip (f.rotate 1))).map (fun d => s(d.1, d.2))).toFinset.card + 1 =
      2 * c.length + m ∧
    (out.flatMap (fun f => f.zip (f.rotate 1))).length + 2 = 3 * c.length + 2 * m ∧
    out.flatten.toFinset.card = c.length + m := by
  have h1 := h.node_darts hN ho
  have hT : (treeDarts c.length m ch).length + 1 = c.length + m := by
    rw [← hlen, ← treeDarts_snd c.length m ch, List.length_map]
  have h2 : ((out.flatMap (fun f => f.zip (f.rotate 1))).filter
      (fun d => !(decide ((N : Int) ≤ d.1) || decide ((N : Int) ≤ d.2)))).Perm
      ((sideDarts c.length).map (Prod.map gi gi)) := by
    have : (out.flatMap (fun f => f.zip (f.rotate 1))).filter
        (fun d => !(decide ((N : Int) ≤ d.1) || decide ((N : Int) ≤ d.2))) =
        σ.map (fun k => (gi k, gi (nextIdx c.length k))) := by
      clear hσ ho h1
      induction hF with
      | nil => rfl
      | cons hf _ ih => rw [List.flatMap_cons, List.filter_append, hf, ih]; rfl
    rw [this, sideDarts, List.map_map]
    exact hσ.map _
  have h3 : (out.flatMap (fun f => f.zip (f.rotate 1))).Perm
      ((treeDarts c.length m ch ++ (treeDarts c.length m ch).map Prod.swap).map (Prod.map gi gi) ++
        (sideDarts c.length).map (Prod.map gi gi)) :=
    (List.filter_append_perm _ _).symm.trans (h1.append h2)
  have hS : (sideDarts c.length).length = c.length := by simp [sideDarts]
  refine ⟨?_, ?_, ?_⟩
  · have h4 : ((out.flatMap (fun f => f.zip (f.rotate 1))).map (fun d => s(d.1, d.2))).toFinset =
        (((sideDarts c.length ++ treeDarts c.length m ch).map (Prod.map gi gi)).map
          (fun d => s(d.1, d.2))).toFinset := by
      ext q
      rw [List.mem_toFinset, List.mem_toFinset, (h3.map _).mem_iff]
      simp only [List.map_append, List.mem_append, List.map_map]
      have hsw : ((treeDarts c.length m ch).map
          ((fun d : Int × Int => s(d.1, d.2)) ∘ Prod.map gi gi ∘ Prod.swap)) =
          (treeDarts c.length m ch).map ((fun d : Int × Int => s(d.1, d.2)) ∘ Prod.map gi gi) := by
        apply List.map_congr_left
        intro d _
        simp [Sym2.eq_swap]
      rw [hsw]
      tauto
    rw [h4, List.toFinset_card_of_nodup]
    · simp only [List.length_map, List.length_append, hS]
      omega
    · rw [List.Nodup, List.pairwise_map, List.pairwise_map]
      refine (List.Pairwise.and_mem.1 h.tree.darts_pairwise).imp ?_
      rintro x y ⟨hx, hy, n1, n2⟩ he
      obtain ⟨x1, x2, -⟩ := h.tree.dart_lt hx
      obtain ⟨y1, y2, -⟩ := h.tree.dart_lt hy
      have hg := h.placed.num
      rw [Sym2.eq_iff] at he
      simp only [Prod.map] at he
      rcases he with ⟨e1, e2⟩ | ⟨e1, e2⟩
      · exact n1 (Prod.ext (hg _ _ x1 y1 e1) (hg _ _ x2 y2 e2))
      · exact n2 (Prod.ext (hg _ _ x1 y2 e1) (hg _ _ x2 y1 e2))
  · rw [h3.length_eq]
    simp only [List.length_map, List.length_append, hS]
    omega
  · have hg := h.placed.num
    have hfl : out.flatten = (out.flatMap (fun f => f.zip (f.rotate 1))).map Prod.fst := by
      rw [List.map_flatMap]
      have : ∀ f : List Int, (f.zip (f.rotate 1)).map Prod.fst = f := fun f => by
        rw [List.map_fst_zip]; simp
      simp [this, ← List.flatten_eq_flatMap]
    have himg : out.flatten.toFinset = (Finset.range (c.length + m)).image gi := by
      ext v
      rw [List.mem_toFinset, hfl, (h3.map _).mem_iff, Finset.mem_image, ← List.map_append, List.map_map,
        List.mem_map]
      constructor
      · rintro ⟨d, hd, rfl⟩
        refine ⟨d.1, Finset.mem_range.2 ?_, rfl⟩
        rcases List.mem_append.1 hd with hd | hd
        · rcases List.mem_append.1 hd with hd | hd
          · exact (h.tree.dart_lt (List.mem_append_right _ hd)).1
          · obtain ⟨d', hd', rfl⟩ := List.mem_map.1 hd
            exact (h.tree.dart_lt (List.mem_append_right _ hd')).2.1
        · exact (h.tree.dart_lt (List.mem_append_left _ hd)).1
      · rintro ⟨k, hk, rfl⟩
        have hk := Finset.mem_range.1 hk
        by_cases hkc : k < c.length
        · exact ⟨(k, nextIdx c.length k), List.mem_append_right _
            (List.mem_map.2 ⟨k, List.mem_range.2 hkc, rfl⟩), rfl⟩
        · obtain ⟨j, rfl⟩ : ∃ j, k = c.length + j := ⟨k - c.length, by omega⟩
          obtain ⟨l, e, f, θ, hl, -, hcase⟩ := h.tree.node j (by omega)
          have hne : 0 < (ch j).length := by
            rw [hl.length_eq]
            rcases hcase with ⟨h2, -⟩ | ⟨h2, -⟩ <;> omega
          refine ⟨(c.length + j, (ch j)[0]), List.mem_append_left _ (List.mem_append_left _ ?_), rfl⟩
          exact List.mem_flatMap.2 ⟨j, List.mem_range.2 (by omega), List.mem_map.2 ⟨_, List.getElem_mem hne, rfl⟩⟩
    rw [himg, Finset.card_image_of_injOn, Finset.card_range]
    intro x hx y hy hxy
    exact hg x y (by simpa using hx) (by simpa using hy) hxy

end
end Polyskel
