import Verif.Props.Poly
import Verif.Props.Graph
import Verif.Props.Spikes
/-
The computation of the faces reads the vertices only through differences of vertices of the graph.
-/
namespace Polyskel
open Scalar Graph
variable {S : Type} [Scalar S]

/-- on the indices in `P` the two lists agree in what exists and in all differences -/
structure SameDiff (P : Int → Prop) (V W : List (V3 S)) : Prop where
  reads : ∀ i, P i → (∃ e, pyGet V i = .error e ∧ pyGet W i = .error e) ∨
    ∃ a b, pyGet V i = .ok a ∧ pyGet W i = .ok b
  diff : ∀ i j a a' b b', P i → P j → pyGet V i = .ok a → pyGet W i = .ok a' →
    pyGet V j = .ok b → pyGet W j = .ok b' → V3.sub a b = V3.sub a' b'

theorem SameDiff.mono {P Q : Int → Prop} {V W : List (V3 S)} (h : SameDiff P V W)
    (hq : ∀ i, Q i → P i) : SameDiff Q V W :=
  ⟨fun i hi => h.reads i (hq i hi), fun i j a a' b b' hi hj => h.diff i j a a' b b' (hq i hi) (hq j hj)⟩

theorem isSpike_congr {P : Int → Prop} {V W : List (V3 S)} (h : SameDiff P V W) {p t x : Int}
    (hp : P p) (ht : P t) (hx : P x) : isSpike V p t x = isSpike W p t x := by
  unfold isSpike
  rcases h.reads t ht with ⟨e, h1, h2⟩ | ⟨T, T', hT, hT'⟩
  · rw [h1, h2]; rfl
  rcases h.reads p hp with ⟨e, h1, h2⟩ | ⟨A, A', hA, hA'⟩
  · rw [hT, hT', h1, h2]; rfl
  rcases h.reads x hx with ⟨e, h1, h2⟩ | ⟨X, X', hX, hX'⟩
  · rw [hT, hT', hA, hA', h1, h2]; rfl
  rw [hT, hT', hA, hA', hX, hX']
  simp only [ok_bind]
  rw [h.diff t p T T' A A' ht hp hT hT' hA hA', h.diff x t X X' T T' hx ht hX hX' hT hT']

theorem findSpike_congr {P : Int → Prop} {V W : List (V3 S)} (h : SameDiff P V W)
    {ts : List (Int × Int × Int)} (hts : ∀ t ∈ ts, P t.1 ∧ P t.2.1 ∧ P t.2.2) :
    findSpike V ts = findSpike W ts := by
  induction ts with
  | nil => rfl
  | cons t ts ih =>
    unfold findSpike
    obtain ⟨h1, h2, h3⟩ := hts t (by simp)
    rw [isSpike_congr h h1 h2 h3, ih (fun t ht => hts t (by simp [ht]))]

theorem triples_all {P : Int → Prop} {f : List Int} {ts : List (Int × Int × Int)}
    (h : iterPrevThisNext f = .ok ts) (hf : ∀ v ∈ f, P v) : ∀ t ∈ ts, P t.1 ∧ P t.2.1 ∧ P t.2.2 := by
  rintro ⟨p, t, x⟩ ht
  obtain ⟨i, h1, h2, h3⟩ := (mem_triples h p t x).1 ht
  exact ⟨hf _ (List.mem_of_getElem? h1), hf _ (List.mem_of_getElem? h2), hf _ (List.mem_of_getElem? h3)⟩

theorem spikePass_congr {P : Int → Prop} {V W : List (V3 S)} (h : SameDiff P V W) {n : Nat}
    {faces : List (List Int)} {fi : Nat} {rest : List (List Int)}
    (hr : ∀ f ∈ rest, ∀ v ∈ f, P v) :
    spikePass V n faces fi rest = spikePass W n faces fi rest := by
  induction rest generalizing fi with
  | nil => rfl
  | cons f rest ih =>
    have ih := fun fi => ih (fi := fi) (fun f hf => hr f (by simp [hf]))
    unfold spikePass
    split
    · exact ih _
    · cases hts : iterPrevThisNext f with
      | error e => rfl
      | ok ts =>
        simp only [ok_bind]
        rw [findSpike_congr h (triples_all hts (hr f (by simp))), ih]

theorem spikeLoop_congr {P : Int → Prop} {V W : List (V3 S)} (h : SameDiff P V W) {n k : Nat}
    {faces : List (List Int)} (hf : ∀ f ∈ faces, ∀ v ∈ f, P v) :
    spikeLoop V n k faces = spikeLoop W n k faces := by
  induction k generalizing faces with
  | zero => rfl
  | succ k ih =>
    unfold spikeLoop
    rw [spikePass_congr h hf]
    cases hp : spikePass W n faces 0 faces with
    | error e => rfl
    | ok o =>
      cases o with
      | none => rfl
      | some faces' =>
        simp only [ok_bind]
        apply ih
        obtain ⟨gone, _, hperm⟩ := C39_pass_removes hp
        intro f hf' v hv
        have : v ∈ faces.flatten := hperm.mem_iff.1
          (List.mem_append_right _ (List.mem_flatten.2 ⟨f, hf', hv⟩))
        obtain ⟨f₀, h1, h2⟩ := List.mem_flatten.1 this
        exact hf f₀ h1 v h2

theorem parallelVerts_congr {P : Int → Prop} {V W : List (V3 S)} (h : SameDiff P V W) {n : Nat}
    {count : Int → Nat} {acc : List Int} {ts : List (Int × Int × Int)}
    (hts : ∀ t ∈ ts, P t.1 ∧ P t.2.1 ∧ P t.2.2) :
    parallelVerts V n count acc ts = parallelVerts W n count acc ts := by
  induction ts generalizing acc with
  | nil => rfl
  | cons t ts ih =>
    obtain ⟨p, t, x⟩ := t
    have ih := fun acc => ih (acc := acc) (fun t ht => hts t (by simp [ht]))
    obtain ⟨hp, ht, hx⟩ := hts (p, t, x) (by simp)
    simp only at hp ht hx
    unfold parallelVerts
    split
    · rcases h.reads t ht with ⟨e, h1, h2⟩ | ⟨T, T', hT, hT'⟩
      · rw [h1, h2]; rfl
      rcases h.reads p hp with ⟨e, h1, h2⟩ | ⟨A, A', hA, hA'⟩
      · rw [hT, hT', h1, h2]; rfl
      rcases h.reads x hx with ⟨e, h1, h2⟩ | ⟨X, X', hX, hX'⟩
      · rw [hT, hT', hA, hA', h1, h2]; rfl
      rw [hT, hT', hA, hA', hX, hX']
      simp only [ok_bind]
      rw [h.diff t p T T' A A' ht hp hT hT' hA hA', h.diff x t X X' T T' hx ht hX hX' hT hT']
      simp only [ih]
    · exact ih _

theorem cleanFaces_congr {P : Int → Prop} {V W : List (V3 S)} (h : SameDiff P V W) {n : Nat}
    {faces : List (List Int)} (hf : ∀ f ∈ faces, ∀ v ∈ f, P v) :
    cleanFaces V n faces = cleanFaces W n faces := by
  unfold cleanFaces
  apply mapM_congr
  intro f hff
  unfold cleanFace
  split
  · cases hts : iterPrevThisNext f with
    | error e => rfl
    | ok ts =>
      simp only [ok_bind]
      rw [parallelVerts_congr h (triples_all hts (hf f hff))]
  · rfl

theorem orderNbrs_congr {P : Int → Prop} {V W : List (V3 S)} (h : SameDiff P V W) {rt : Rt} {v : Int}
    {ns : List Int} (hv : P v) (hn : ∀ w ∈ ns, P w) : orderNbrs rt V v ns = orderNbrs rt W v ns := by
  unfold orderNbrs
  split
  · rfl
  · rcases h.reads v hv with ⟨e, h1, h2⟩ | ⟨c, c', hc, hc'⟩
    · rw [h1, h2]; rfl
    rw [hc, hc']
    simp only [ok_bind]
    rw [mapM_congr (g := fun n => do
      let p ← pyGet W n
      let d := V3.sub p c'
      let a ← pseudoangle d.x d.y
      return (n, a))]
    intro w hw
    rcases h.reads w (hn w hw) with ⟨e, h1, h2⟩ | ⟨p, p', hp, hp'⟩
    · rw [h1, h2]; rfl
    rw [hp, hp']
    simp only [ok_bind]
    rw [h.diff w v p p' c c' (hn w hw) hv hp hp' hc hc']

theorem circularEmbedding_congr {P : Int → Prop} {V W : List (V3 S)} (h : SameDiff P V W) {rt : Rt}
    {g : Graph} {b : Bool} (hg : ∀ vl ∈ g, P vl.1 ∧ ∀ w ∈ vl.2, P w) :
    circularEmbedding rt g V b = circularEmbedding rt g W b := by
  unfold circularEmbedding
  apply mapM_congr
  intro vl hvl
  rw [orderNbrs_congr h (hg vl hvl).1 (hg vl hvl).2]

/-- every traced face stays within the vertices of the graph -/
theorem traceLoop_all {P : Int → Prop} {rt : Rt} {emb : Graph} (he : ∀ v, ∀ w ∈ nbrs emb v, P w)
    {k : Nat} {es path : List Dart} {faces out : List (List Dart)}
    (hes : ∀ d ∈ es, P d.1 ∧ P d.2) (hp : ∀ d ∈ path, P d.1 ∧ P d.2)
    (hf : ∀ f ∈ faces, ∀ d ∈ f, P d.1 ∧ P d.2) (h : traceLoop rt emb k es path faces = .ok out) :
    ∀ f ∈ out, ∀ d ∈ f, P d.1 ∧ P d.2 := by
  induction k generalizing es path faces with
  | zero => cases h
  | succ k ih =>
    unfold traceLoop at h
    have hf' : ∀ f ∈ faces ++ [path], ∀ d ∈ f, P d.1 ∧ P d.2 := by
      intro f hff
      rcases List.mem_append.1 hff with hff | hff
      · exact hf f hff
      · rw [List.mem_singleton] at hff; subst hff; exact hp
    split at h
    · cases h
      split
      · exact hf
      · exact hf'
    · split at h
      · cases h
      · rename_i u v hl
        obtain ⟨nxt, hn, h⟩ := bind_ok.1 h
        have hnx : P nxt := by
          unfold nextNode at hn
          split at hn
          · cases hn
          · exact he v nxt (pyGet_mem hn)
        have hv : P v := (hp (u, v) (List.mem_of_getLast? hl)).2
        simp only at h
        split at h
        · split at h
          · cases h
          · rename_i e hpick
            have hpe : e ∈ es := List.mem_of_getElem? hpick
            refine ih (fun d hd => hes d (List.mem_of_mem_erase hd)) ?_ hf' h
            intro d hd; rw [List.mem_singleton] at hd; subst hd; exact hes _ hpe
        · split at h
          · cases h
          · refine ih (fun d hd => hes d (List.mem_of_mem_erase hd)) ?_ hf h
            intro d hd
            rcases List.mem_append.1 hd with hd | hd
            · exact hp d hd
            · rw [List.mem_singleton] at hd; subst hd; exact ⟨hv, hnx⟩

theorem faces_all {P : Int → Prop} {rt : Rt} {g emb : Graph} {n : Int} {out : List (List Int)}
    (hg : ∀ vl ∈ g, P vl.1 ∧ ∀ w ∈ vl.2, P w) (he : Embeds emb g)
    (h : faces rt g emb n = .ok out) : ∀ f ∈ out, ∀ v ∈ f, P v := by
  unfold faces at h
  obtain ⟨fs, hfs, h⟩ := bind_ok.1 h
  cases h
  have hedge : ∀ d ∈ edgeSet g, P d.1 ∧ P d.2 := by
    have : ∀ d ∈ edges g, P d.1 ∧ P d.2 := by
      intro d hd
      unfold edges at hd
      obtain ⟨vl, h1, h2⟩ := List.mem_flatMap.1 hd
      obtain ⟨w, h3, rfl⟩ := List.mem_map.1 h2
      exact ⟨(hg vl h1).1, (hg vl h1).2 w h3⟩
    intro d hd
    rcases (mem_edgeSet g d).1 hd with hd | hd
    · exact this d hd
    · exact (this _ hd).symm
  have hn : ∀ v, ∀ w ∈ nbrs emb v, P w := by
    intro v w hw
    obtain ⟨l, h1, h2⟩ := mem_nbrs_entry ((he v).mem_iff.1 hw)
    exact (hg _ h1).2 w h2
  have hall : ∀ f ∈ fs, ∀ d ∈ f, P d.1 ∧ P d.2 := by
    unfold traceFaces at hfs
    simp only at hfs
    split at hfs
    · exact traceLoop_all hn hedge (by simp) (by simp) hfs
    · rename_i e hpick
      have hpe : e ∈ edgeSet g := List.mem_of_getElem? hpick
      refine traceLoop_all hn (fun d hd => hedge d (List.mem_of_mem_erase hd)) ?_ (by simp) hfs
      intro d hd; rw [List.mem_singleton] at hd; subst hd; exact hedge _ hpe
  intro f hf v hv
  unfold finalFaces at hf
  obtain ⟨hf, _⟩ := List.mem_filter.1 hf
  obtain ⟨f0, h0, rfl⟩ := List.mem_map.1 hf
  obtain ⟨d, hd, rfl⟩ := List.mem_map.1 hv
  obtain ⟨k, _, hk, _⟩ := rotateFace_spec n f0
  rw [hk] at hd
  rcases List.mem_append.1 hd with hd | hd
  · exact (hall f0 h0 d (List.mem_of_mem_drop hd)).1
  · exact (hall f0 h0 d (List.mem_of_mem_take hd)).1

theorem addEdges_all {P : Int → Prop} {rt : Rt} {ds : List Dart} (hd : ∀ d ∈ ds, P d.1 ∧ P d.2) :
    ∀ vl ∈ addEdges rt [] ds, P vl.1 ∧ ∀ w ∈ vl.2, P w := by
  intro vl hvl
  obtain ⟨v, l⟩ := vl
  have hk : v ∈ keys (addEdges rt [] ds) := List.mem_map.2 ⟨_, hvl, rfl⟩
  have hnd := (C10_vertices rt ds).2.2.1
  refine ⟨?_, ?_⟩
  · obtain ⟨e, he, _, h | h⟩ := ((C10_vertices rt ds).2.2.2 v).1 hk
    · rw [h]; exact (hd e he).1
    · rw [h]; exact (hd e he).2
  · intro w hw
    have hl : nbrs (addEdges rt [] ds) v = l := by
      generalize addEdges rt [] ds = g at hvl hnd
      clear hk hw
      induction g with
      | nil => simp at hvl
      | cons p g ih =>
        obtain ⟨u, m⟩ := p
        simp only [keys, List.map_cons, List.nodup_cons] at hnd
        rcases List.mem_cons.1 hvl with h | h
        · cases h; simp [nbrs]
        · have : u ≠ v := by
            rintro rfl
            exact hnd.1 (List.mem_map.2 ⟨_, h, rfl⟩)
          simp only [nbrs, if_neg this]
          exact ih h hnd.2
    simp only at hw
    rw [← hl, C10_neighbours] at hw
    obtain ⟨e, he, rfl⟩ := List.mem_map.1 hw
    have := hd e (List.mem_filter.1 he).1
    split
    · exact this.2
    · exact this.1

/-- the faces depend on the vertices only through the differences of the graph's vertices -/
theorem facesOf_congr {P : Int → Prop} {V W : List (V3 S)} (h : SameDiff P V W) {rt : Rt}
    {a a' : PolyArgs S} {edges : List (Edge2 S)} {sk : List (Subtree S)}
    (hlen : a'.verts.length = a.verts.length) (hfirst : a'.first = a.first) (hnum : a'.num = a.num)
    (hholes : a'.holes = a.holes)
    (hd : ∀ ds, graphDarts a edges sk = .ok ds → ∀ d ∈ ds, P d.1 ∧ P d.2) :
    facesOf rt a edges sk V = facesOf rt a' edges sk W := by
  have hg : graphDarts a' edges sk = graphDarts a edges sk := by
    unfold graphDarts; rw [hlen, hfirst, hnum, hholes]
  unfold facesOf
  rw [hg, hlen]
  cases hds : graphDarts a edges sk with
  | error e => rfl
  | ok ds =>
    simp only [ok_bind]
    have hall := addEdges_all (rt := rt) (hd ds hds)
    rw [circularEmbedding_congr h hall]
    cases hemb : circularEmbedding rt (addEdges rt [] ds) W with
    | error e => rfl
    | ok emb =>
      simp only [ok_bind]
      cases hfs : faces rt (addEdges rt [] ds) emb a.verts.length with
      | error e => rfl
      | ok fs =>
        simp only [ok_bind]
        have hf := faces_all hall (C11_embedding_perm rt _ emb W true hemb).2 hfs
        unfold removeSpikes
        rw [spikeLoop_congr h hf]
        cases hsp : spikeLoop W a.verts.length (totalLen fs + 1) fs with
        | error e => rfl
        | ok out =>
          simp only [ok_bind]
          apply cleanFaces_congr h
          intro f hff v hv
          obtain ⟨f₀, h1, h2⟩ := (C39_spikes_subset W a.verts.length fs out hsp).2 f hff v hv
          exact hf f₀ h1 v h2

end Polyskel
