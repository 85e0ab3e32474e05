import Mathlib.Tactic.IntervalCases
import Verif.Props.Runtimes
/-
C93: the faces traced in the graph, for any set of connections.
-/
namespace Polyskel
open Scalar Geo Graph

/-- seen from `c`, the points `p` and `q` lie in the same direction -/
def SameDirection (c p q : V3 ℝ) : Prop :=
  (p.x - c.x) * (q.y - c.y) - (p.y - c.y) * (q.x - c.x) = 0 ∧
    0 < (p.x - c.x) * (q.x - c.x) + (p.y - c.y) * (q.y - c.y)

/-- two lists with the same entries in the same strict order are equal -/
private theorem eq_of_sorted_perm {l l' : List Int} (ang : Int → ℝ) (h : l.Perm l')
    (h1 : l.Pairwise fun a b => ang b < ang a) (h2 : l'.Pairwise fun a b => ang b < ang a) : l = l' :=
  h.eq_of_pairwise (fun _ _ _ _ a b => absurd a (not_lt.2 b.le)) h1 h2

private theorem joins_mem {ds : List Dart} {rt : Rt} {v w : Int} (h : w ∈ nbrs (addEdges rt [] ds) v) :
    v ≠ w ∧ ((v, w) ∈ ds ∨ (w, v) ∈ ds) := by
  have h1 := List.count_pos_iff.2 h
  rw [C10_neighbour_count, List.countP_pos_iff] at h1
  obtain ⟨⟨a, b⟩, hm, hj⟩ := h1
  simp only [Joins, bne_iff_ne, Bool.and_eq_true, Bool.or_eq_true, beq_iff_eq, Prod.mk.injEq, ne_eq] at hj
  obtain ⟨hne, ⟨rfl, rfl⟩ | ⟨rfl, rfl⟩⟩ := hj
  · exact ⟨hne, .inl hm⟩
  · exact ⟨fun h => hne h.symm, .inr hm⟩

/-- C93, the traced faces, in exact arithmetic: connections that are added to the graph at most once, join vertices
at different places and leave each vertex in different directions give, under any two runtimes, the same faces up to
their order and their first vertices; a face with exactly one polygon edge is the same list. -/
theorem C93_traced (rt rt' : Rt) (ds : List Dart) (vList : List (V3 ℝ)) (n : Int)
    (hone : ∀ v w, ds.countP (Joins v w) ≤ 1)
    (hval : ∀ e ∈ ds, ∃ p q, pyGet vList e.1 = .ok p ∧ pyGet vList e.2 = .ok q ∧
      (e.1 ≠ e.2 → ¬ (p.x = q.x ∧ p.y = q.y)))
    (hdir : ∀ v m k c p q, ((v, m) ∈ ds ∨ (m, v) ∈ ds) → ((v, k) ∈ ds ∨ (k, v) ∈ ds) → v ≠ m → v ≠ k → m ≠ k →
      pyGet vList v = .ok c → pyGet vList m = .ok p → pyGet vList k = .ok q → ¬ SameDirection c p q) :
    ∃ emb emb' A B, circularEmbedding rt (addEdges rt [] ds) vList = .ok emb ∧
      circularEmbedding rt' (addEdges rt' [] ds) vList = .ok emb' ∧
      faces rt (addEdges rt [] ds) emb n = .ok A ∧ faces rt' (addEdges rt' [] ds) emb' n = .ok B ∧
      SameCycles A B ∧ ∀ a ∈ A, OneOrigEdge n a → a ∈ B := by
  have ends : ∀ v w, ((v, w) ∈ ds ∨ (w, v) ∈ ds) → v ≠ w →
      ∃ c p, pyGet vList v = .ok c ∧ pyGet vList w = .ok p ∧ ¬ (p.x - c.x = 0 ∧ p.y - c.y = 0) := by
    rintro v w (h | h) hne
    · obtain ⟨p, q, h1, h2, h3⟩ := hval _ h
      exact ⟨p, q, h1, h2, fun h => h3 hne ⟨by linarith [h.1], by linarith [h.2]⟩⟩
    · obtain ⟨p, q, h1, h2, h3⟩ := hval _ h
      exact ⟨q, p, h2, h1, fun h => h3 (Ne.symm hne) ⟨by linarith [h.1], by linarith [h.2]⟩⟩
  have mem_nbrs : ∀ (rt : Rt), ∀ vl ∈ addEdges rt [] ds, nbrs (addEdges rt [] ds) vl.1 = vl.2 := by
    intro rt
    have hk := (C10_vertices rt ds).2.2.1
    generalize addEdges rt [] ds = g at hk
    induction g with
    | nil => intro vl h; cases h
    | cons x g ih =>
      obtain ⟨w, l⟩ := x
      simp only [keys, List.map_cons, List.nodup_cons] at hk
      intro vl h
      rcases List.mem_cons.1 h with rfl | h
      · simp [nbrs]
      · have : w ≠ vl.1 := fun e => hk.1 (e ▸ List.mem_map_of_mem h)
        simp only [nbrs, if_neg this]
        exact ih hk.2 vl h
  have embeds : ∀ (rt : Rt), ∃ emb, circularEmbedding rt (addEdges rt [] ds) vList = .ok emb := by
    intro rt
    cases h : circularEmbedding rt (addEdges rt [] ds) vList with
    | ok emb => exact ⟨emb, rfl⟩
    | error e =>
      exfalso
      obtain ⟨vl, hvl, -, k, hk, c, p, hc, hp, hx, hy⟩ := (C11_embedding_raises rt (addEdges rt [] ds) vList true (by
        intro vl hvl
        have hkey : vl.1 ∈ keys (addEdges rt [] ds) := List.mem_map_of_mem hvl
        obtain ⟨e, he, hne, hv⟩ := ((C10_vertices rt ds).2.2.2 vl.1).1 hkey
        obtain ⟨p, q, h1, h2, -⟩ := hval e he
        refine ⟨?_, fun k hk => ?_⟩
        · rcases hv with hv | hv
          · exact ⟨p, by rw [hv]; exact h1⟩
          · exact ⟨q, by rw [hv]; exact h2⟩
        · rw [← mem_nbrs rt vl hvl] at hk
          obtain ⟨h3, h4⟩ := joins_mem hk
          obtain ⟨-, p, -, h5, -⟩ := ends _ _ h4 h3
          exact ⟨p, h5⟩)).1.1 ⟨e, h⟩
      rw [← mem_nbrs rt vl hvl] at hk
      obtain ⟨h3, h4⟩ := joins_mem hk
      obtain ⟨c', p', h5, h6, h7⟩ := ends _ _ h4 h3
      cases hc.symm.trans h5
      cases hp.symm.trans h6
      exact h7 ⟨by linarith, by linarith⟩
  obtain ⟨emb, he⟩ := embeds rt
  obtain ⟨emb', he'⟩ := embeds rt'
  have hs := C10_simple rt ds hone
  have hs' := C10_simple rt' ds hone
  have hE := (C11_embedding_perm rt _ _ _ _ he).2
  have hE' := (C11_embedding_perm rt' _ _ _ _ he').2
  obtain ⟨A, hA⟩ := C12_faces_no_raise rt _ emb hs hE n
  obtain ⟨B, hB⟩ := C12_faces_no_raise rt' _ emb' hs' hE' n
  refine ⟨emb, emb', A, B, he, he', hA, hB, ?_⟩
  refine C13_faces_runtime_independent rt rt' _ _ _ _ hs hs' hE hE' (fun v => ?_) n A B hA hB
  have hperm : (nbrs emb v).Perm (nbrs emb' v) := by
    refine (hE v).trans ?_
    rw [C10_runtime_independent rt rt' ds v]
    exact (hE' v).symm
  by_cases hnil : nbrs (addEdges rt [] ds) v = []
  · have h1 := hE v
    rw [hnil] at h1
    have h2 := h1.eq_nil
    rw [h2] at hperm ⊢
    exact hperm.nil_eq
  obtain ⟨w0, hw0⟩ := List.exists_mem_of_ne_nil _ hnil
  obtain ⟨c, -, hc, -⟩ := ends v w0 (joins_mem hw0).2 (joins_mem hw0).1
  have polar : ∀ k : Int, ∃ r t : ℝ, k ∈ nbrs (addEdges rt [] ds) v → ∃ p, pyGet vList k = .ok p ∧ 0 < r ∧ 0 ≤ t ∧
      t < 2 * Real.pi ∧ p.x - c.x = r * Real.cos t ∧ p.y - c.y = r * Real.sin t := by
    intro k
    by_cases hk : k ∈ nbrs (addEdges rt [] ds) v
    · obtain ⟨c', p, h1, h2, h3⟩ := ends v k (joins_mem hk).2 (joins_mem hk).1
      cases hc.symm.trans h1
      obtain ⟨r, t, a1, a2, a3, a4, a5⟩ := C05_polar_form _ _ h3
      exact ⟨r, t, fun _ => ⟨p, h2, a1, a2, a3, a4, a5⟩⟩
    · exact ⟨0, 0, fun h => absurd h hk⟩
  choose rad ang hpol using polar
  have hd : ∀ m ∈ nbrs (addEdges rt [] ds) v, ∀ k ∈ nbrs (addEdges rt [] ds) v, m ≠ k → ang m ≠ ang k := by
    intro m hm k hk hne heq
    obtain ⟨p, p1, p2, -, -, p3, p4⟩ := hpol m hm
    obtain ⟨q, q1, q2, -, -, q3, q4⟩ := hpol k hk
    refine hdir v m k c p q (joins_mem hm).2 (joins_mem hk).2 (joins_mem hm).1 (joins_mem hk).1 hne hc p1 q1 ?_
    unfold SameDirection
    rw [p3, p4, q3, q4, heq]
    refine ⟨by ring, ?_⟩
    have : rad m * Real.cos (ang k) * (rad k * Real.cos (ang k)) + rad m * Real.sin (ang k) * (rad k * Real.sin (ang k))
        = rad m * rad k * (Real.sin (ang k) ^ 2 + Real.cos (ang k) ^ 2) := by ring
    rw [this, Real.sin_sq_add_cos_sq, mul_one]
    exact mul_pos p2 q2
  have s1 := C11_embedding_sorted rt _ emb vList true he v c hc (hs.nodup v) rad ang hpol hd
  have hn := C10_runtime_independent rt rt' ds v
  rw [hn] at hd
  have s2 := C11_embedding_sorted rt' _ emb' vList true he' v c hc (hs'.nodup v) rad ang
    (fun k hk => hpol k (hn ▸ hk)) hd
  exact eq_of_sorted_perm ang hperm (by simpa using s1) (by simpa using s2)

/-- the connections of a triangle with one node within -/
def tripod : List Dart := [(0, 1), (1, 2), (2, 0), (0, 3), (1, 3), (2, 3)]

/-- its vertices -/
def tripodVerts : List (V3 ℝ) := [⟨-3, -1, 0⟩, ⟨3, -1, 0⟩, ⟨0, 4, 0⟩, ⟨0, 0, 1⟩]

/-- case for the hypotheses of `C93_traced` -/
example (rt rt' : Rt) : ∃ emb emb' A B, circularEmbedding rt (addEdges rt [] tripod) tripodVerts = .ok emb ∧
    circularEmbedding rt' (addEdges rt' [] tripod) tripodVerts = .ok emb' ∧
    faces rt (addEdges rt [] tripod) emb 3 = .ok A ∧ faces rt' (addEdges rt' [] tripod) emb' 3 = .ok B ∧
    SameCycles A B ∧ ∀ a ∈ A, OneOrigEdge 3 a → a ∈ B := by
  refine C93_traced rt rt' tripod tripodVerts 3 (joins_le_one (by decide)) ?_ ?_
  · intro e he
    simp only [tripod, List.mem_cons, List.not_mem_nil, or_false] at he
    rcases he with rfl | rfl | rfl | rfl | rfl | rfl <;>
      exact ⟨_, _, rfl, rfl, fun _ => by norm_num⟩
  · intro v m k c p q hm hk h1 h2 h3 hc hp hq
    have hv : ∀ {v m : Int}, ((v, m) ∈ tripod ∨ (m, v) ∈ tripod) → v = 0 ∨ v = 1 ∨ v = 2 ∨ v = 3 := by
      intro v m h
      simp only [tripod, List.mem_cons, List.not_mem_nil, or_false, Prod.mk.injEq] at h
      omega
    have a1 := hv hm
    have a2 := hv hm.symm
    have a3 := hv hk.symm
    rcases a1 with rfl | rfl | rfl | rfl <;> rcases a2 with rfl | rfl | rfl | rfl <;>
      rcases a3 with rfl | rfl | rfl | rfl <;> first | exact absurd rfl h1 | exact absurd rfl h2 | exact absurd rfl h3 |
        (cases hc; cases hp; cases hq; unfold SameDirection; norm_num)

/-- a returned face begins with the two ends of a traced dart -/
private theorem first_dart {emb : Graph} {f : List Dart} (h : FaceCycle emb f) (n : Int) :
    ∃ d ∈ f, ((rotateFace n f).map (·.1))[0]? = some d.1 ∧
      ((rotateFace n f).map (·.1))[1 % ((rotateFace n f).map (·.1)).length]? = some d.2 := by
  obtain ⟨k, hk, hr, -⟩ := rotateFace_spec n f
  have hpos : 0 < f.length := List.length_pos_iff.2 h.1
  have hlen : ((rotateFace n f).map (·.1)).length = f.length := by rw [hr]; simp; omega
  rw [hlen, hr]
  have h0 : k % f.length < f.length := Nat.mod_lt _ hpos
  have h1 : (k % f.length + 1) % f.length < f.length := Nat.mod_lt _ hpos
  have ht := h.2 _ _ _ (List.getElem?_eq_getElem h0) (List.getElem?_eq_getElem h1)
  refine ⟨f[k % f.length], List.getElem_mem _, ?_, ?_⟩
  · rw [List.getElem?_map, rot_getElem? f k _ hk hpos, Nat.zero_add, List.getElem?_eq_getElem h0]; rfl
  · rw [List.getElem?_map, rot_getElem? f k _ hk (Nat.mod_lt _ hpos), Nat.mod_add_mod, Nat.add_comm 1 k,
      ← Nat.mod_add_mod, List.getElem?_eq_getElem h1, ← ht.1]; rfl

/-- no face is returned twice -/
private theorem faces_nodup {rt : Rt} {g emb : Graph} (hs : Simple g) (he : Embeds emb g) {n : Int}
    {A : List (List Int)} (hA : faces rt g emb n = .ok A) : A.Nodup := by
  obtain ⟨fs, hfs, hnd, -⟩ := C12_faces_partition rt g emb hs he
  have hc := C15_face_cycle rt g emb hs he fs hfs
  unfold faces at hA
  rw [hfs] at hA
  cases hA
  unfold finalFaces
  refine List.Pairwise.filter _ (List.pairwise_map.2 ?_)
  refine (List.Pairwise.and_mem.1 (List.nodup_flatten.1 hnd).2).imp ?_
  rintro f f' ⟨hf, hf', hdis⟩ heq
  obtain ⟨d, hd, d1, d2⟩ := first_dart (hc f hf) n
  obtain ⟨d', hd', d1', d2'⟩ := first_dart (hc f' hf') n
  rw [heq] at d1 d2
  have e1 := Option.some.inj (d1.symm.trans d1')
  have e2 := Option.some.inj (d2.symm.trans d2')
  exact hdis hd ((Prod.ext e1 e2 : d = d') ▸ hd')

/-- cleaning the same faces in another order -/
private theorem cleanFaces_perm {verts : List (V3 ℝ)} {n : Nat} {A B R : List (List Int)} (h : A.Perm B)
    (hR : cleanFaces verts n A = .ok R) : ∃ R', cleanFaces verts n B = .ok R' ∧ R.Perm R' := by
  unfold cleanFaces at hR ⊢
  dsimp only at hR ⊢
  have hcount : (fun v => B.flatten.count v) = fun v => A.flatten.count v := by
    funext v; exact (h.flatten.count_eq v).symm
  rw [hcount]
  obtain ⟨R', h1, h2⟩ := List.perm_comp_forall₂ h.symm (mapM_ok_iff.1 hR)
  exact ⟨R', mapM_ok_iff.2 h1, h2.symm⟩

/-- C93, the faces without spikes, in exact arithmetic: when the connections meet the conditions of `C93_traced`, each
traced face has exactly one polygon edge and none has a spike, the code after the skeleton returns under any two
runtimes the same lists of indices, at most in another order; if it raises under one of them, so it does under the
other.  (Missing: faces with spikes, for which it is false by `C93_spikes_refuted`, and with several polygon edges.) -/
theorem C93_spikeless_partial (rt rt' : Rt) (a : PolyArgs ℝ) (edges : List (Edge2 ℝ)) (sk : List (Subtree ℝ))
    (verts : List (V3 ℝ)) (ds : List Dart) (hds : graphDarts a edges sk = .ok ds)
    (hone : ∀ v w, ds.countP (Joins v w) ≤ 1)
    (hval : ∀ e ∈ ds, ∃ p q, pyGet verts e.1 = .ok p ∧ pyGet verts e.2 = .ok q ∧
      (e.1 ≠ e.2 → ¬ (p.x = q.x ∧ p.y = q.y)))
    (hdir : ∀ v m k c p q, ((v, m) ∈ ds ∨ (m, v) ∈ ds) → ((v, k) ∈ ds ∨ (k, v) ∈ ds) → v ≠ m → v ≠ k → m ≠ k →
      pyGet verts v = .ok c → pyGet verts m = .ok p → pyGet verts k = .ok q → ¬ SameDirection c p q)
    (emb : Graph) (A : List (List Int))
    (hemb : circularEmbedding rt (addEdges rt [] ds) verts = .ok emb)
    (hA : faces rt (addEdges rt [] ds) emb a.verts.length = .ok A)
    (hside : ∀ f ∈ A, OneOrigEdge a.verts.length f)
    (hspike : ∀ f ∈ A, 3 < f.length → ∀ i p t x, TripleAt f i p t x → isSpike verts p t x = .ok false) :
    (∀ R, facesOf rt a edges sk verts = .ok R → ∃ R', facesOf rt' a edges sk verts = .ok R' ∧ R.Perm R') ∧
      ∀ e, facesOf rt a edges sk verts = .error e → ∃ e', facesOf rt' a edges sk verts = .error e' := by
  obtain ⟨emb1, emb', A1, B, h1, h2, h3, h4, ⟨l, hl, hlen, -⟩, h5⟩ :=
    C93_traced rt rt' ds verts a.verts.length hone hval hdir
  cases hemb.symm.trans h1
  cases hA.symm.trans h3
  have hs := C10_simple rt ds hone
  have hnd := faces_nodup hs (C11_embedding_perm rt _ _ _ _ h1).2 h3
  have hsub : A ⊆ B := fun f hf => h5 f hf (hside f hf)
  have hperm : A.Perm B :=
    (List.subperm_of_subset hnd hsub).perm_of_length_le (by rw [← hl.length_eq, hlen])
  have r1 : removeSpikes verts a.verts.length A = .ok A := removeSpikes_id hspike
  have r2 : removeSpikes verts a.verts.length B = .ok B :=
    removeSpikes_id fun f hf => hspike f (hperm.mem_iff.2 hf)
  unfold facesOf
  rw [hds, ok_bind, ok_bind]
  dsimp only
  rw [h1, ok_bind, h3, ok_bind, r1, ok_bind, h2, ok_bind, h4, ok_bind, r2, ok_bind]
  refine ⟨fun R hR => cleanFaces_perm hperm hR, fun e he => ?_⟩
  cases h : cleanFaces verts a.verts.length B with
  | error e' => exact ⟨e', rfl⟩
  | ok R' =>
    obtain ⟨R, hR, -⟩ := cleanFaces_perm hperm.symm h
    cases he.symm.trans hR

/-- the connections of a hip roof over a rectangle -/
def hipDarts : List Dart := [(3, 0), (0, 1), (1, 2), (2, 3), (4, 0), (4, 3), (4, 5), (5, 1), (5, 2)]

/-- its vertices -/
def hipVerts : List (V3 ℝ) := [⟨0, 0, 0⟩, ⟨6, 0, 0⟩, ⟨6, 2, 0⟩, ⟨0, 2, 0⟩, ⟨1, 1, 1⟩, ⟨5, 1, 1⟩]

/-- the call -/
noncomputable def hipArgs : PolyArgs ℝ := { verts := hipVerts.take 4, first := 0, num := 4, height := 1, tan := 0 }

/-- its sides -/
noncomputable def hipEdges : List (Edge2 ℝ) :=
  [⟨0, 0, 1, ⟨0, 0⟩, ⟨6, 0⟩, ⟨1, 0⟩⟩, ⟨1, 1, 2, ⟨6, 0⟩, ⟨6, 2⟩, ⟨0, 1⟩⟩, ⟨2, 2, 3, ⟨6, 2⟩, ⟨0, 2⟩, ⟨-1, 0⟩⟩,
    ⟨3, 3, 0, ⟨0, 2⟩, ⟨0, 0⟩, ⟨0, -1⟩⟩]

/-- its skeleton -/
noncomputable def hipSkeleton : List (Subtree ℝ) :=
  [⟨⟨1, 1⟩, 1, [⟨0, 0⟩, ⟨0, 2⟩, ⟨5, 1⟩]⟩, ⟨⟨5, 1⟩, 1, [⟨6, 0⟩, ⟨6, 2⟩]⟩]

private theorem hip_darts : graphDarts hipArgs hipEdges hipSkeleton = .ok hipDarts := by
  have veq_iff : ∀ a b : V2 ℝ, V2.veq a b = decide (a.x = b.x ∧ a.y = b.y) := by
    intro a b
    rw [Bool.eq_iff_iff, ex_veq, decide_eq_true_iff]
    exact ⟨fun h => h ▸ ⟨rfl, rfl⟩, fun h => by cases a; cases b; cases h.1; cases h.2; rfl⟩
  simp [graphDarts, contourDarts, holeDarts, iterPrevNext, skelDarts, hipArgs, hipEdges, hipSkeleton, sinkIndex, veq_iff,
    hipVerts, hipDarts, pure, Except.pure, bind, Except.bind, List.range', List.zipIdx, List.find?, List.findIdx?,
    List.findIdx?.go]

private theorem hip_embedding : circularEmbedding rt0 (addEdges rt0 [] hipDarts) hipVerts =
    .ok [(3, [4, 0, 2]), (0, [3, 4, 1]), (1, [0, 5, 2]), (2, [1, 5, 3]), (4, [0, 3, 5]), (5, [1, 4, 2])] := by
  rw [show addEdges rt0 [] hipDarts =
    [(3, [0, 2, 4]), (0, [3, 1, 4]), (1, [0, 2, 5]), (2, [1, 3, 5]), (4, [0, 3, 5]), (5, [4, 1, 2])] by decide]
  have lt_iff : ∀ a b : ℝ, Scalar.lt a b = decide (a < b) := by
    intro a b
    rw [Bool.eq_iff_iff, ex_lt, decide_eq_true_iff]
  have eq_iff : ∀ a b : ℝ, Scalar.eq a b = decide (a = b) := by
    intro a b
    rw [Bool.eq_iff_iff, ex_eq, decide_eq_true_iff]
  have fd : ∀ (q : Int × ℝ) (l : List (Int × ℝ)) (n : Int), (q :: l).find? (fun r => r.1 == n) =
      if q.1 = n then some q else l.find? (fun r => r.1 == n) := by
    intro q l n
    by_cases h : q.1 = n <;> simp [h]
  have g0 : pyGet hipVerts 0 = .ok ⟨0, 0, 0⟩ := rfl
  have g1 : pyGet hipVerts 1 = .ok ⟨6, 0, 0⟩ := rfl
  have g2 : pyGet hipVerts 2 = .ok ⟨6, 2, 0⟩ := rfl
  have g3 : pyGet hipVerts 3 = .ok ⟨0, 2, 0⟩ := rfl
  have g4 : pyGet hipVerts 4 = .ok ⟨1, 1, 1⟩ := rfl
  have g5 : pyGet hipVerts 5 = .ok ⟨5, 1, 1⟩ := rfl
  norm_num [circularEmbedding, orderNbrs, g0, g1, g2, g3, g4, g5, pseudoangle, pydiv, V3.sub, rt0, insertionSort, insertSorted,
    pure, Except.pure, bind, Except.bind, lt_iff, eq_iff, List.mapM_cons, fd]

private theorem hip_faces : faces rt0 (addEdges rt0 [] hipDarts)
    [(3, [4, 0, 2]), (0, [3, 4, 1]), (1, [0, 5, 2]), (2, [1, 5, 3]), (4, [0, 3, 5]), (5, [1, 4, 2])] 4 =
    .ok [[3, 0, 4], [2, 3, 4, 5], [0, 1, 5, 4], [1, 2, 5]] := by decide

private theorem no_spike {verts : List (V3 ℝ)} {p t x : Int} (P T X : V3 ℝ)
    (hp : pyGet verts p = .ok P) (ht : pyGet verts t = .ok T) (hx : pyGet verts x = .ok X)
    (h : (P.x - T.x) * (X.x - T.x) + (P.y - T.y) * (X.y - T.y) ≤ 0 ∨
      ((P.x - T.x) * (X.x - T.x) + (P.y - T.y) * (X.y - T.y)) ^ 2 ≤
        (99 / 100) ^ 2 * (((P.x - T.x) ^ 2 + (P.y - T.y) ^ 2) * ((X.x - T.x) ^ 2 + (X.y - T.y) ^ 2))) :
    isSpike verts p t x = .ok false := by
  obtain ⟨b, hb1, hb2⟩ := C39_isSpike_iff verts p t x P T X hp ht hx
  rw [hb1]
  cases b with
  | false => rfl
  | true =>
    exfalso
    obtain ⟨-, -, hlt, -⟩ := hb2.1 rfl
    have e1 : 0 ≤ eucl P.xy T.xy := Real.sqrt_nonneg _
    have e2 : 0 ≤ eucl X.xy T.xy := Real.sqrt_nonneg _
    have s1 : eucl P.xy T.xy ^ 2 = (P.x - T.x) ^ 2 + (P.y - T.y) ^ 2 := by
      unfold eucl
      rw [Real.sq_sqrt (by positivity)]
      simp only [V3.xy]
    have s2 : eucl X.xy T.xy ^ 2 = (X.x - T.x) ^ 2 + (X.y - T.y) ^ 2 := by
      unfold eucl
      rw [Real.sq_sqrt (by positivity)]
      simp only [V3.xy]
    have e3 := mul_nonneg e1 e2
    rcases h with h | h
    · linarith
    · rw [← s1, ← s2, ← mul_pow, ← mul_pow] at h
      have := abs_le_of_sq_le_sq h (by positivity)
      linarith [le_abs_self ((P.x - T.x) * (X.x - T.x) + (P.y - T.y) * (X.y - T.y)), this]

/-- case for the hypotheses of `C93_spikeless_partial`: a hip roof, with two faces of four corners -/
example (rt' : Rt) : ∃ R', facesOf rt' hipArgs hipEdges hipSkeleton hipVerts = .ok R' ∧
    [[3, 0, 4], [2, 3, 4, 5], [0, 1, 5, 4], [1, 2, 5]].Perm R' := by
  have g : ∀ v : Int, 0 ≤ v → v < 6 → ∃ p, pyGet hipVerts v = .ok p := by
    intro v h0 h1
    interval_cases v <;> exact ⟨_, rfl⟩
  have hspike : ∀ f ∈ ([[3, 0, 4], [2, 3, 4, 5], [0, 1, 5, 4], [1, 2, 5]] : List (List Int)), 3 < f.length →
      ∀ i p t x, TripleAt f i p t x → isSpike hipVerts p t x = .ok false := by
    intro f hf h3 i p t x ht
    have hi := (List.getElem?_eq_some_iff.1 ht.2.1).1
    simp only [List.mem_cons, List.not_mem_nil, or_false] at hf
    rcases hf with rfl | rfl | rfl | rfl
    · simp at h3
    · simp only [List.length_cons, List.length_nil] at hi
      interval_cases i <;> obtain ⟨h1, h2, h4⟩ := ht <;> cases h1 <;> cases h2 <;> cases h4 <;>
        exact no_spike _ _ _ rfl rfl rfl (by norm_num)
    · simp only [List.length_cons, List.length_nil] at hi
      interval_cases i <;> obtain ⟨h1, h2, h4⟩ := ht <;> cases h1 <;> cases h2 <;> cases h4 <;>
        exact no_spike _ _ _ rfl rfl rfl (by norm_num)
    · simp at h3
  refine (C93_spikeless_partial rt0 rt' hipArgs hipEdges hipSkeleton hipVerts hipDarts hip_darts
    (joins_le_one (by decide)) ?_ ?_ _ _ hip_embedding hip_faces ?_ hspike).1 _ ?_
  · intro e he
    simp only [hipDarts, List.mem_cons, List.not_mem_nil, or_false] at he
    rcases he with rfl | rfl | rfl | rfl | rfl | rfl | rfl | rfl | rfl <;>
      exact ⟨_, _, rfl, rfl, fun _ => by norm_num⟩
  · intro v m k c p q hm hk h1 h2 h3 hc hp hq
    simp only [hipDarts, List.mem_cons, List.not_mem_nil, or_false, Prod.mk.injEq] at hm hk
    have a1 : 0 ≤ v ∧ v < 6 := by omega
    obtain ⟨a1, a1'⟩ := a1
    interval_cases v <;> simp [or_assoc] at hm hk <;> rcases hm with rfl | rfl | rfl <;> rcases hk with rfl | rfl | rfl <;>
      first | exact absurd rfl h3 | (cases hc; cases hp; cases hq; unfold SameDirection; norm_num)
  · intro f hf
    simp only [List.mem_cons, List.not_mem_nil, or_false] at hf
    rcases hf with rfl | rfl | rfl | rfl <;>
      refine ⟨0, by simp, fun j hj => ?_⟩ <;> simp only [List.length_cons, List.length_nil] at hj <;>
      interval_cases j <;> simp [hipArgs, hipVerts]
  · unfold facesOf
    rw [hip_darts, ok_bind]
    dsimp only
    rw [hip_embedding, ok_bind, show ((hipArgs.verts.length : Nat) : Int) = 4 from rfl, hip_faces, ok_bind,
      removeSpikes_id hspike, ok_bind]
    refine cleanFaces_id ?_ (by decide) (by decide) ?_
    · intro f hf v hv
      refine g v ?_ ?_ <;> revert v <;> revert f <;> decide
    · rw [show ((hipArgs.verts.length : Nat) : Int) = 4 from rfl]
      decide

end Polyskel
