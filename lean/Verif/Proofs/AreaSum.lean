import Mathlib.Algebra.BigOperators.Group.Finset.Basic
import Mathlib.Algebra.BigOperators.Group.Finset.Piecewise
import Verif.Props.Closed
import Verif.Proofs.Cyclic
import Verif.Spec.Geometry
/-
The directed edges of the faces that the tracing returns, summed up.  Used for C66.
-/
namespace Polyskel
open Graph Geo

/-- going along a face cycle -/
theorem FaceCycle.forall {emb : Graph} {f : List Dart} (h : FaceCycle emb f) {R : Dart → Prop} {d : Dart}
    (hd : d ∈ f) (h0 : R d) (hs : ∀ a b, a ∈ f → b ∈ f → R a → TurnsTo emb a b → R b) :
    ∀ b ∈ f, R b := by
  obtain ⟨i, hi⟩ := List.mem_iff_getElem?.1 hd
  have hpos : 0 < f.length := List.length_pos_iff.2 h.1
  have key : ∀ k, ∀ b, f[(i + k) % f.length]? = some b → R b := by
    intro k
    induction k with
    | zero =>
      intro b hb
      have hi' := (List.getElem?_eq_some_iff.1 hi).1
      rw [Nat.add_zero, Nat.mod_eq_of_lt hi', hi] at hb
      cases hb; exact h0
    | succ k ih =>
      intro b hb
      have h1 := List.getElem?_eq_getElem (Nat.mod_lt (i + k) hpos)
      rw [← Nat.add_assoc, ← Nat.mod_add_mod] at hb
      exact hs _ b (List.mem_of_getElem? h1) (List.mem_of_getElem? hb) (ih _ h1) (h.2 _ _ _ h1 hb)
  intro b hb
  obtain ⟨j, hj⟩ := List.mem_iff_getElem?.1 hb
  have hj' := (List.getElem?_eq_some_iff.1 hj).1
  have hi' := (List.getElem?_eq_some_iff.1 hi).1
  refine key (j + f.length - i) b ?_
  rw [show i + (j + f.length - i) = j + f.length by omega, Nat.add_mod_right, Nat.mod_eq_of_lt hj', hj]

/-- the next directed edge of a face cycle -/
theorem FaceCycle.next {emb : Graph} {f : List Dart} (h : FaceCycle emb f) {d : Dart} (hd : d ∈ f) :
    ∃ b ∈ f, TurnsTo emb d b := by
  obtain ⟨i, hi⟩ := List.mem_iff_getElem?.1 hd
  have hpos : 0 < f.length := List.length_pos_iff.2 h.1
  have h1 := List.getElem?_eq_getElem (Nat.mod_lt (i + 1) hpos)
  exact ⟨_, List.mem_of_getElem? h1, h.2 _ _ _ hi h1⟩

/-- what a corner of the polygon looks like: it has one edge before it, one after it and one connection
to a node, which lies on the inner side of both -/
def GoodCorner (V : List (V3 ℝ)) (P K : List Dart) (d e : Dart) : Prop :=
  ∃ q, (q, d.2) ∈ K ∧ (∀ k ∈ K, k.2 = d.2 → k.1 = q) ∧
    (∀ d' ∈ P, (d'.2 = d.2 → d' = d) ∧ (d'.1 = d.2 → d' = e)) ∧
    ∃ A B C Q, pyGet V d.1 = .ok A ∧ pyGet V d.2 = .ok B ∧ pyGet V e.2 = .ok C ∧ pyGet V q = .ok Q ∧
      0 < area2 A.xy B.xy Q.xy ∧ 0 < area2 B.xy C.xy Q.xy

/-- tracing at such a corner -/
theorem GoodCorner.turns {V : List (V3 ℝ)} {P K : List Dart} {d e : Dart} (h : GoodCorner V P K d e)
    {rt : Rt} {m : Nat} {emb : Graph} (hsimple : ∀ v w, (P ++ K).countP (Joins v w) ≤ 1)
    (hemb : circularEmbedding rt (addEdges rt [] (P ++ K)) V = .ok emb)
    (hP : ∀ d ∈ P, d.1 < (m : Int) ∧ d.2 < (m : Int)) (hK : ∀ d ∈ K, (m : Int) ≤ d.1)
    (hd : d ∈ P) (he : e ∈ P) (hde : d.2 = e.1) :
    (∀ b, TurnsTo emb d b → ∃ q : Int, b = (d.2, q) ∧ (m : Int) ≤ q) ∧
    (∀ b, TurnsTo emb (e.2, e.1) b → b = (d.2, d.1)) := by
  obtain ⟨q, hq, hq1, hP1, A, B, C, Q, hA, hB, hC, hQ, a1, a2⟩ := h
  have hqm := hK _ hq
  simp only at hqm
  obtain ⟨hp, hv⟩ := hP d hd
  obtain ⟨-, hx⟩ := hP e he
  have hpx : d.1 ≠ e.2 := by
    intro h
    rw [h, hC] at hA; cases hA
    simp only [area2] at a1 a2
    nlinarith
  have hpv : d.1 ≠ d.2 := by
    intro h
    rw [h, hB] at hA; cases hA
    simp only [area2] at a1
    nlinarith
  have hvx : d.2 ≠ e.2 := by
    intro h
    rw [← h, hB] at hC; cases hC
    simp only [area2] at a2
    nlinarith
  have hs := C10_simple rt _ hsimple
  have hnd : [d.1, q, e.2].Nodup := by
    simp only [List.nodup_cons, List.mem_cons, List.not_mem_nil, or_false, not_or, not_false_eq_true,
      List.nodup_nil, and_true]
    exact ⟨⟨by omega, hpx⟩, by omega⟩
  have hn : (nbrs (addEdges rt [] (P ++ K)) d.2).Perm [d.1, q, e.2] := by
    rw [List.perm_ext_iff_of_nodup (hs.nodup _) hnd]
    intro w
    rw [← List.count_pos_iff, C10_neighbour_count, List.countP_pos_iff]
    simp only [Joins, Bool.and_eq_true, bne_iff_ne, ne_eq, Bool.or_eq_true, beq_iff_eq, List.mem_append,
      List.mem_cons, List.not_mem_nil, or_false]
    constructor
    · rintro ⟨f, hf | hf, hne, rfl | rfl⟩
      · rw [← (hP1 _ hf).2 rfl]; simp
      · rw [← (hP1 _ hf).1 rfl]; simp
      · have := hK _ hf; simp only at this; omega
      · have := hq1 _ hf rfl
        simp only at this; simp [this]
    · rintro (rfl | rfl | rfl)
      · exact ⟨d, .inl hd, hpv, .inr rfl⟩
      · exact ⟨_, .inr hq, by simp only; omega, .inr rfl⟩
      · refine ⟨e, .inl he, by rw [← hde]; exact hvx, .inl ?_⟩
        rw [hde]
  obtain ⟨f1, f2, f3⟩ := embedding_three hemb hn hnd hB hA hQ hC
    (by simp only [area2, V3.xy] at a1; linarith) (by simp only [area2, V3.xy] at a2; linarith)
  have hnd' : (nbrs emb d.2).Nodup :=
    ((C11_embedding_perm rt _ emb V true hemb).2 d.2).nodup_iff.2 (hs.nodup _)
  constructor
  · rintro ⟨b1, b2⟩ hb
    obtain ⟨h1, h2⟩ := hb
    simp only at h1 h2
    rw [h1]
    exact ⟨q, by rw [Follows.unique hnd' h2 f1], hqm⟩
  · rintro ⟨b1, b2⟩ hb
    obtain ⟨h1, h2⟩ := hb
    simp only [← hde] at h1 h2
    rw [h1, Follows.unique hnd' h2 f3]

/-- when every corner is like this, the inner side of every polygon edge belongs to a returned face, and
the outer side to none -/
theorem sides_of_corners {V : List (V3 ℝ)} {P K : List Dart} {rt : Rt} {m : Nat} {emb : Graph}
    {out : List (List Int)} (hsimple : ∀ v w, (P ++ K).countP (Joins v w) ≤ 1)
    (hemb : circularEmbedding rt (addEdges rt [] (P ++ K)) V = .ok emb)
    (hout : faces rt (addEdges rt [] (P ++ K)) emb m = .ok out)
    (hP : ∀ d ∈ P, d.1 < (m : Int) ∧ d.2 < (m : Int)) (hK : ∀ d ∈ K, (m : Int) ≤ d.1)
    (hprev : ∀ e ∈ P, ∃ d ∈ P, d.2 = e.1) (hnext : ∀ d ∈ P, ∃ e ∈ P, d.2 = e.1)
    (hg : ∀ d ∈ P, ∀ e ∈ P, d.2 = e.1 → GoodCorner V P K d e) :
    ∀ d ∈ P, d ∈ out.flatMap steps ∧ (d.2, d.1) ∉ out.flatMap steps := by
  have hs := C10_simple rt _ hsimple
  have hem := (C11_embedding_perm rt _ emb V true hemb).2
  obtain ⟨fs, hfs, hnd, hmem⟩ := C12_faces_partition rt _ emb hs hem
  have hp := faces_steps hs hem hfs hout
  have hc := C15_face_cycle rt _ emb hs hem fs hfs
  intro d hd
  obtain ⟨e, he, hde⟩ := hnext d hd
  have hne : d.1 ≠ d.2 := by
    intro h
    obtain ⟨q, -, -, -, A, B, C, Q, hA, hB, -, -, a1, -⟩ := hg d hd e he hde
    rw [h, hB] at hA; cases hA
    simp only [area2] at a1
    nlinarith
  constructor
  · have hdart : HasDart (addEdges rt [] (P ++ K)) d := by
      unfold HasDart
      rw [← List.count_pos_iff, C10_neighbour_count, List.countP_pos_iff]
      exact ⟨d, by simp [hd], by simp [Joins, hne]⟩
    obtain ⟨f, hf, hdf⟩ := List.mem_flatten.1 ((hmem d).2 hdart)
    rw [hp.mem_iff, List.mem_flatten]
    refine ⟨f, List.mem_filter.2 ⟨hf, ?_⟩, hdf⟩
    obtain ⟨b, hb, htb⟩ := (hc f hf).next hdf
    obtain ⟨q, rfl, hq⟩ := ((hg d hd e he hde).turns hsimple hemb hP hK hd he hde).1 b htb
    obtain ⟨b', hb', htb'⟩ := (hc f hf).next hb
    rw [List.any_eq_true]
    exact ⟨b', hb', by rw [htb'.1]; simpa using hq⟩
  · intro hin
    rw [hp.mem_iff, List.mem_flatten] at hin
    obtain ⟨f, hf, hdf⟩ := hin
    obtain ⟨hf, hany⟩ := List.mem_filter.1 hf
    obtain ⟨b, hb, hbm⟩ := List.any_eq_true.1 hany
    have hR := (hc f hf).forall (R := fun b => (b.2, b.1) ∈ P) hdf hd (by
      intro a b _ _ ha hab
      obtain ⟨d', hd', hda⟩ := hprev _ ha
      have := ((hg d' hd' _ ha hda).turns hsimple hemb hP hK hd' ha hda).2 b hab
      rw [this]; exact hd')
    have := (hP _ (hR b hb)).2
    simp only [decide_eq_true_eq] at hbm this
    omega

/-- the sum over the directed edges of the faces of something that changes sign with the direction -/
theorem sum_of_sides {S : Type} [Scalar S] {V : List (V3 S)} {P K : List Dart} {rt : Rt} {m : Nat}
    {emb : Graph} {out : List (List Int)} (hsimple : ∀ v w, (P ++ K).countP (Joins v w) ≤ 1)
    (hemb : circularEmbedding rt (addEdges rt [] (P ++ K)) V = .ok emb)
    (hout : faces rt (addEdges rt [] (P ++ K)) emb m = .ok out) (hK : ∀ d ∈ K, (m : Int) ≤ d.1)
    (hin : ∀ d ∈ P, d ∈ out.flatMap steps ∧ (d.2, d.1) ∉ out.flatMap steps)
    (w : Dart → ℝ) (hw : ∀ a b, w (b, a) = - w (a, b)) :
    ((out.flatMap steps).map w).sum = (P.map w).sum := by
  obtain ⟨h1, h2, -, h4⟩ := closed_of_simple rt m V _ emb out hsimple hemb hout
  have hnd : (out.flatMap steps).Nodup := List.nodup_iff_count_le_one.2 h1
  have hPn : P.Nodup := by
    rw [List.nodup_iff_count_le_one]
    intro d
    by_cases hd : d ∈ P
    · have hne : d.1 ≠ d.2 := by
        intro h
        have := hin d hd
        have e : (d.2, d.1) = d := by rw [Prod.ext_iff]; exact ⟨h.symm, h⟩
        rw [e] at this
        exact this.2 this.1
      have := hsimple d.1 d.2
      rw [List.countP_append] at this
      have h' : P.count d ≤ P.countP (Joins d.1 d.2) := by
        rw [List.count]
        refine List.countP_mono_left (fun x _ hx => ?_)
        simp only [beq_iff_eq] at hx
        subst hx
        simp [Joins, hne]
      omega
    · rw [List.count_eq_zero_of_not_mem hd]; omega
  rw [← List.sum_toFinset w hnd, ← List.sum_toFinset w hPn]
  rw [← Finset.sum_filter_add_sum_filter_not (out.flatMap steps).toFinset (fun d => d ∈ P)]
  have e1 : (out.flatMap steps).toFinset.filter (fun d => d ∈ P) = P.toFinset := by
    ext d
    simp only [Finset.mem_filter, List.mem_toFinset]
    exact ⟨fun h => h.2, fun h => ⟨(hin d h).1, h⟩⟩
  rw [e1, add_eq_left]
  refine Finset.sum_involution (fun d _ => (d.2, d.1)) ?_ ?_ ?_ ?_
  · intro d _
    rw [hw d.1 d.2]; ring
  · intro d _ h0 he
    apply h0
    have := hw d.1 d.2
    rw [he] at this
    linarith
  · intro d hd
    simp only [Finset.mem_filter, List.mem_toFinset] at hd ⊢
    obtain ⟨hd, hdP⟩ := hd
    have hsP : (d.2, d.1) ∉ P := fun h => (hin _ h).2 hd
    refine ⟨?_, hsP⟩
    obtain ⟨hne, h | h⟩ := h4 d hd
    · rcases List.mem_append.1 h with h' | h'
      · exact absurd h' hdP
      · have := (h2 d h hne (.inl (hK _ h'))).2
        exact List.count_pos_iff.1 (by omega)
    · rcases List.mem_append.1 h with h' | h'
      · exact absurd h' hsP
      · have := (h2 _ h (Ne.symm hne) (.inl (hK _ h'))).1
        exact List.count_pos_iff.1 (by omega)
  · intro d _
    rfl

end Polyskel
