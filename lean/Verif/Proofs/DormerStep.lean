import Verif.Proofs.Strays
import Verif.Proofs.SplitStep
import Verif.Proofs.SplitWave
/-
What a dormer event does to closed doubly linked lists.
-/
namespace Polyskel
open Scalar
set_option linter.unusedSectionVars false
variable {S : Type} [Scalar S]

/-- a dormer event on four vertices in a row, on a list with three others at least -/
theorem handleDormer_loops {st : St S} {R : Nat → List Nat} (h : Loops st R) {e0 e1 : SplitEv S}
    {e2 : EdgeEv S} {l x y : Nat} (hl : l ∈ st.slav) (hi : e0.vertex ∈ R l)
    (hs : Seg st e0.vertex [x, y] e1.vertex) (h7 : 7 ≤ (R l).length)
    (ha : e2.a < st.vs.length) (hb : e2.b < st.vs.length) :
    ∃ vp vn, st.vs[e0.vertex]? = some vp ∧ st.vs[e1.vertex]? = some vn ∧
      ((vp.bisector.intersect vn.bisector = none ∧ handleDormer st e0 e1 e2 = .error .typeError) ∨
       (vp.bisector.intersect vn.bisector ≠ none ∧
        ∃ Q U st' arcs, handleDormer st e0 e1 e2 = .ok (st', arcs, []) ∧
        (e0.vertex :: x :: y :: e1.vertex :: Q).Perm (R l) ∧ U.Perm Q ∧
        Loops st' (fun k => if k = st.lavs.length then U else R k) ∧
        st'.slav = st.slav.erase l ++ [st.lavs.length] ∧
        st'.vs.length = st.vs.length ∧ st'.co = st.co ∧
        (∀ k, st'.vd k = if k ∈ [e0.vertex, x, e1.vertex, y] then some false else st.vd k))) := by
  have hcl := h.closed l hl
  obtain ⟨T, hsT, hperm, hd⟩ := hcl.rotate hi
  have h7' : 6 ≤ T.length := by
    have := hperm.length_eq
    simp at this
    omega
  -- the list is the four vertices and the rest
  obtain ⟨Q, rfl⟩ : ∃ Q, T = x :: y :: e1.vertex :: Q := by
    simp only [seg_cons, seg_nil, link_iff] at hs
    obtain ⟨⟨a1, -⟩, ⟨a2, -⟩, a3, -⟩ := hs
    match T, h7' with
    | a :: b :: c :: Q, _ =>
      simp only [seg_cons, link_iff] at hsT
      obtain ⟨⟨b1, -⟩, ⟨b2, -⟩, ⟨b3, -⟩, -⟩ := hsT
      rw [a1] at b1
      simp only [Option.some.injEq] at b1
      subst b1
      rw [a2] at b2
      simp only [Option.some.injEq] at b2
      subst b2
      rw [a3] at b3
      simp only [Option.some.injEq] at b3
      subst b3
      exact ⟨Q, rfl⟩
  have hQlen : 3 ≤ Q.length := by simp at h7'; omega
  have hQ : Q ≠ [] := by rintro rfl; simp at hQlen
  obtain ⟨n, hn⟩ : ∃ n, Q.head? = some n := ⟨_, List.head?_eq_some_head hQ⟩
  obtain ⟨p, hp⟩ : ∃ p, Q.getLast? = some p := ⟨_, List.getLast?_eq_some_getLast hQ⟩
  have hnQ : n ∈ Q := List.mem_of_mem_head? hn
  have hpQ : p ∈ Q := List.mem_of_getLast? hp
  have hmem : ∀ k, k ∈ R l ↔ k = e0.vertex ∨ k = x ∨ k = y ∨ k = e1.vertex ∨ k ∈ Q := by
    intro k
    rw [← hperm.mem_iff]
    simp
  have hs4 : Seg st e1.vertex Q e0.vertex := by
    simp only [seg_cons] at hsT
    exact hsT.2.2.2
  have hyn : Link st y e1.vertex := by
    simp only [seg_cons] at hsT
    exact hsT.2.2.1
  have hpx : Link st e0.vertex x := by
    simp only [seg_cons] at hsT
    exact hsT.1
  have hpv : st.pv e0.vertex = some p := by
    obtain ⟨a, Q', rfl⟩ := List.exists_cons_of_ne_nil hQ
    rw [seg_last hs4, List.getLast?_cons_cons, hp]
  have hnx : st.nx e1.vertex = some n := by rw [seg_first hs4, List.head?_append, hn]; rfl
  have hlt : ∀ k ∈ R l, k < st.vs.length := hcl.lt
  have hi1 : e1.vertex ∈ R l := by simp [hmem]
  obtain ⟨vp, hvp, hvp'⟩ := getV_total (hlt _ hi)
  obtain ⟨vn, hvn, hvn'⟩ := getV_total (hlt _ hi1)
  obtain ⟨fp1, fp2, fp3, -, -⟩ := vs_fields hvp'
  obtain ⟨fn1, fn2, -, -, -⟩ := vs_fields hvn'
  have e1' : vp.prev = p := by rw [hpv] at fp2; simpa using fp2.symm
  have e2' : vp.next = x := by rw [(link_iff.1 hpx).1] at fp1; simpa using fp1.symm
  have e3' : vn.next = n := by rw [hnx] at fn1; simpa using fn1.symm
  have e4' : vn.prev = y := by rw [(link_iff.1 hyn).2] at fn2; simpa using fn2.symm
  have hvl : vp.lav = some l := by
    have := (h.mem l hl _).1 hi
    rw [fp3] at this
    simpa using this
  simp only [List.nodup_cons, List.mem_cons, not_or] at hd
  obtain ⟨⟨d1, d2, d3, d4⟩, ⟨d5, d6, d7⟩, ⟨d8, d9⟩, d10, hdQ⟩ := hd
  have hpl := hlt p (by simp [hmem, hpQ])
  have hnl := hlt n (by simp [hmem, hnQ])
  refine ⟨vp, vn, hvp', hvn', ?_⟩
  -- the pointer assignments
  generalize hs0 : (st.setHead l p).setNext p n = s0
  generalize hs1 : s0.setPrev n p = s1
  have n1 : ∀ k, s1.nx k = if k = p then some n else st.nx k := by
    intro k
    rw [← hs1, ← hs0]
    simp only [St.nx_setPrev, St.nx_setNext, St.nx_setHead]
    obtain ⟨j, hj⟩ := nx_some hpl
    split
    · rename_i e; subst e; simp [hj]
    · rfl
  have p1 : ∀ k, s1.pv k = if k = n then some p else st.pv k := by
    intro k
    rw [← hs1, ← hs0]
    simp only [St.pv_setPrev, St.pv_setNext, St.pv_setHead]
    obtain ⟨w, hw⟩ := getElem?_of_lt hnl
    split
    · rename_i e; subst e; simp [(vs_fields hw).2.1]
    · rfl
  have l1 : s1.lv = st.lv := by
    rw [← hs1, ← hs0]; funext k
    simp only [St.lv_setPrev, St.lv_setNext, St.lv_setHead]
  have v1 : s1.vd = st.vd := by
    rw [← hs1, ← hs0]; funext k
    simp only [St.vd_setPrev, St.vd_setNext, St.vd_setHead]
  have co1 : s1.co = st.co := by
    rw [← hs1, ← hs0]; funext k
    simp only [St.co_setPrev, St.co_setNext, St.co_setHead]
  have len1 : s1.vs.length = st.vs.length := by rw [← hs1, ← hs0]; simp
  have sl1 : s1.slav = st.slav := by rw [← hs1, ← hs0]; rfl
  have la0 : s1.lavs = (st.setHead l p).lavs := by rw [← hs1, ← hs0]; rfl
  have la1 : ∀ k : Nat, k ≠ l → s1.lavs[k]? = st.lavs[k]? := by
    intro k hk
    rw [la0]
    unfold St.setHead
    rw [getElem?_modL]
    simp [hk]
  have lal : s1.lavs.length = st.lavs.length := by
    rw [la0]
    simp [St.setHead, St.modL]
  obtain ⟨o, ho, hoh⟩ : ∃ o, s1.lavs[l]? = some o ∧ o.head = p := by
    obtain ⟨o, ho, -⟩ := h.lav l hl
    rw [la0]
    unfold St.setHead
    rw [getElem?_modL]
    exact ⟨{ o with head := p }, by simp [ho], rfl⟩
  have hr := (h.rings.drop hl).relink (st' := s1) (W' := fun v => False ∨ v ∈ R l) (fun _ h => h)
    (by
      intro k hk _
      rw [n1, if_neg]
      rintro rfl
      exact hk (Or.inr (by simp [hmem, hpQ])))
    (by
      intro k hk _
      rw [p1, if_neg]
      rintro rfl
      exact hk (Or.inr (by simp [hmem, hnQ])))
    (by intro k _; rw [l1]) (by intro k _; rw [v1])
    (by
      intro k hk
      exact la1 k ((h.nodup.mem_erase_iff).1 hk).1)
    lal.ge
    (by
      intro k hk
      rw [len1]
      constructor
      · intro h; omega
      · rintro (h | h)
        · exact h.elim
        · exact hlt k h)
    (fun _ _ h => h) (by intro k h1 h2; omega) (by intro k h1 h2; omega)
  have sQ : Seg s1 p Q.dropLast p := by
    have := List.dropLast_append_getLast? p (by simpa using hp)
    have hsd : Seg s1 p Q n := by
      refine seg_splice hs4 hdQ hn hp ?_ ?_ ?_ ?_ ?_ ?_
      · rw [n1, if_pos rfl]
      · rw [p1, if_pos rfl]
      · rw [n1, if_pos rfl]
      · rw [p1, if_pos rfl]
      · intro k _ hk; rw [n1, if_neg hk]
      · intro k _ hk; rw [p1, if_neg hk]
    rw [← this, seg_snoc] at hsd
    exact hsd.1
  have hdl := List.dropLast_append_getLast? p (by simpa using hp)
  have hpQ' : (p :: Q.dropLast).Perm Q := by
    conv_rhs => rw [← hdl]
    exact (List.perm_append_singleton p Q.dropLast).symm
  obtain ⟨t, U, ht, hU, hr1, n2, p2, d2', c2, l2, la2, sl2, len2, og2⟩ := hr.chain
    (hd := p) (vs := p :: Q.dropLast) (.of_seg sQ (hpQ'.nodup_iff.2 hdQ)) (by simp)
    (by
      intro k hk
      have := hpQ'.mem_iff.1 hk
      simp [hmem, this])
  have hlt' : l < st.lavs.length := h.lavs_lt hl
  have hvnn : s0.vs[e1.vertex]? = some vn := by
    rw [← hs0]
    unfold St.setNext St.modV
    simp only [List.getElem?_modify]
    have : p ≠ e1.vertex := by rintro rfl; exact d10 hpQ
    show _ <$> st.vs[e1.vertex]? = _
    simp [hvn', this]
  have hvpp : s0.vs[e0.vertex]? = some vp := by
    rw [← hs0]
    unfold St.setNext St.modV
    simp only [List.getElem?_modify]
    have : p ≠ e0.vertex := by rintro rfl; exact d4 hpQ
    show _ <$> st.vs[e0.vertex]? = _
    simp [hvp', this]
  have hrem : removeLav t (some l) = .ok { t with slav := st.slav.erase l } := by
    rw [removeLav_ok (by rw [sl2, sl1]; exact hl), sl2, sl1]
  have hr2 := hr1.slav (st.slav.erase l ++ [s1.lavs.length])
  obtain ⟨t', ht', hr3, n3, p3, c3, d3, ll3, sl3, len3, og3, -⟩ := hr2.kill
    (vs := [e0.vertex, x, e1.vertex, y]) (by
      intro k hk
      simp only [hpQ'.mem_iff, hmem, false_or]
      simp only [List.mem_cons, List.not_mem_nil, or_false] at hk
      rcases hk with rfl | rfl | rfl | rfl <;> simp_all)
  obtain ⟨pa, hpa, -⟩ := getV_total (st := { t with slav := st.slav.erase l ++ [s1.lavs.length] })
    (i := e2.a) (by show e2.a < t.vs.length; omega)
  obtain ⟨pb, hpb, -⟩ := getV_total (st := { t with slav := st.slav.erase l ++ [s1.lavs.length] })
    (i := e2.b) (by show e2.b < t.vs.length; omega)
  have hrun : handleDormer st e0 e1 e2 = (match vp.bisector.intersect vn.bisector with
      | none => .error .typeError
      | some q => .ok (t', [{ source := e2.pt, height := e2.dist, sinks := [pa.point, pb.point, q] },
         { source := q, height := (e0.dist +. e1.dist) /. lit 2 1,
           sinks := [vp.point, vn.point] }], [])) := by
    unfold handleDormer
    rw [hvp, ok_bind, hvl]
    simp only
    rw [hvn, ok_bind, e1', e2', e3', e4', hs0, getV_ok.2 hvnn, ok_bind, getV_ok.2 hvpp, ok_bind,
      e3', e1', hs1, getL_ok.2 ho, ok_bind, hoh, ht, ok_bind]
    simp only
    rw [hrem, ok_bind]
    simp only
    cases vp.bisector.intersect vn.bisector with
    | none => rfl
    | some q =>
      simp only
      rw [hpa, ok_bind, hpb, ok_bind, ht', ok_bind]
      rfl
  rw [hrun]
  cases vp.bisector.intersect vn.bisector with
  | none => exact Or.inl ⟨rfl, rfl⟩
  | some q =>
    refine Or.inr ⟨by simp, Q, U, t', _, rfl, hperm, hU.trans hpQ', ?_, by rw [sl3, lal],
      by rw [len3]; exact len2.trans len1, by rw [c3]; exact c2.trans co1, fun k => by
        rw [d3]
        congr 1
        show t.vd k = _
        rw [d2', v1]⟩
    rw [lal] at hr3 sl3
    have e : t'.slav = st.slav.erase l ++ [st.lavs.length] := sl3
    rw [← e] at hr3
    refine hr3.loops ?_ ?_
    · rintro k ⟨⟨hk, hk1⟩, hk2⟩
      simp only [hmem, false_or] at hk
      rw [hpQ'.mem_iff] at hk1
      simp only [List.mem_cons, List.not_mem_nil, or_false, not_or] at hk2
      tauto
    · intro m hm
      rw [sl3] at hm
      rcases List.mem_append.1 hm with hm | hm
      · have hm := List.mem_of_mem_erase hm
        have := h.lavs_lt hm
        rw [if_neg (by omega)]
        exact h.three m hm
      · simp only [List.mem_singleton] at hm
        simp only [hm, if_true]
        rw [(hU.trans hpQ').length_eq]
        exact hQlen

end Polyskel
