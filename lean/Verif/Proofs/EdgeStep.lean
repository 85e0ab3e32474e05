import Verif.Proofs.Loops
/-
What an edge event does to closed doubly linked lists.
-/
namespace Polyskel
open Scalar
set_option linter.unusedSectionVars false
variable {S : Type} [Scalar S]

theorem getElem?_modL (st : St S) (l : Nat) (f : LavObj → LavObj) (k : Nat) :
    (st.modL l f).lavs[k]? = if k = l then (st.lavs[k]?).map f else st.lavs[k]? := by
  simp only [St.modL, List.getElem?_modify]
  by_cases h : l = k
  · subst h; simp
  · simp [h, Ne.symm h]

theorem unify_ok {st : St S} {l a b : Nat} {pt : V2 S} {va vb : Vtx S} {o : LavObj}
    (ha : st.vs[a]? = some va) (hb : st.vs[b]? = some vb) (ho : st.lavs[l]? = some o)
    (hab : a ≠ b) (hla : va.lav = some l) (hlb : vb.lav = some l)
    (hpa : va.prev ≠ a) (hpb : va.prev ≠ b) (hna : vb.next ≠ a) (hnb : vb.next ≠ b)
    (hp : va.prev < st.vs.length) (hn : vb.next < st.vs.length) :
    ∃ st', unify st l a b pt = .ok (st', st.vs.length) ∧
      (∀ k, st'.nx k = if k = st.vs.length then some vb.next
        else if k = va.prev then some st.vs.length else st.nx k) ∧
      (∀ k, st'.pv k = if k = st.vs.length then some va.prev
        else if k = vb.next then some st.vs.length else st.pv k) ∧
      (∀ k, st'.lv k = if k = st.vs.length then some (some l)
        else if k = a ∨ k = b then some none else st.lv k) ∧
      (∀ k, st'.vd k = if k = st.vs.length then some true
        else if k = a ∨ k = b then some false else st.vd k) ∧
      (∀ k, st'.co k = if k = st.vs.length then some (unifyCore va vb pt) else st.co k) ∧
      (∀ k, st'.lavs[k]? = if k = l then
          some { head := if o.head = a ∨ o.head = b then st.vs.length else o.head,
                 len := o.len - 1 }
        else st.lavs[k]?) ∧
      st'.slav = st.slav ∧ st'.vs.length = st.vs.length + 1 ∧ st'.orig = st.orig := by
  have hal := (List.getElem?_eq_some_iff.1 ha).1
  have hbl := (List.getElem?_eq_some_iff.1 hb).1
  obtain ⟨hna', hpa', hla', hvda, -⟩ := vs_fields ha
  obtain ⟨hnb', hpb', hlb', hvdb, -⟩ := vs_fields hb
  have hNa : a ≠ st.vs.length := by omega
  have hNb : b ≠ st.vs.length := by omega
  have hNp : va.prev ≠ st.vs.length := by omega
  have hNn : vb.next ≠ st.vs.length := by omega
  unfold unify
  rw [getV_ok.2 ha, ok_bind, getV_ok.2 hb, ok_bind]
  simp only
  -- the state before the invalidations, step by step
  generalize hw : mkVtx st.vs.length pt va.edgePrev vb.edgeNext
      (some (V2.normalized vb.bisector.v, V2.normalized va.bisector.v)) false = w
  have hwv : w.valid = true := by rw [← hw]; rfl
  have hwc : w.core = unifyCore va vb pt := by rw [← hw]; rfl
  have ho1 : ((st.newV w).1.setLav (st.newV w).2 (some l)).getL l = .ok o := getL_ok.2 ho
  rw [ho1, ok_bind]
  generalize hs1 : (if o.head = a ∨ o.head = b then
    ((st.newV w).1.setLav (st.newV w).2 (some l)).setHead l (st.newV w).2
    else (st.newV w).1.setLav (st.newV w).2 (some l)) = s1
  have n1 : ∀ k, s1.nx k = if k = st.vs.length then some w.next else st.nx k := by
    intro k; rw [← hs1]; split <;> simp
  have p1 : ∀ k, s1.pv k = if k = st.vs.length then some w.prev else st.pv k := by
    intro k; rw [← hs1]; split <;> simp
  have l1 : ∀ k, s1.lv k = if k = st.vs.length then some (some l) else st.lv k := by
    intro k; rw [← hs1]; split <;> (simp; split <;> simp)
  have v1 : ∀ k, s1.vd k = if k = st.vs.length then some true else st.vd k := by
    intro k; rw [← hs1]; split <;> simp [hwv]
  have c1 : ∀ k, s1.co k = if k = st.vs.length then some (unifyCore va vb pt) else st.co k := by
    intro k; rw [← hs1]; split <;> simp [hwc]
  have len1 : s1.vs.length = st.vs.length + 1 := by rw [← hs1]; split <;> simp
  have sl1 : s1.slav = st.slav := by rw [← hs1]; split <;> rfl
  have or1 : s1.orig = st.orig := by rw [← hs1]; split <;> rfl
  have la1 : ∀ k, s1.lavs[k]? = if k = l then
      some { o with head := if o.head = a ∨ o.head = b then st.vs.length else o.head }
      else st.lavs[k]? := by
    intro k
    rw [← hs1]
    split
    · rename_i hh
      unfold St.setHead
      rw [getElem?_modL]
      split
      · rename_i hk; subst hk
        show ((st.lavs[k]?).map _) = _
        rw [ho]; simp
      · rfl
    · rename_i hh
      by_cases hk : k = l
      · subst hk
        show st.lavs[k]? = _
        rw [ho]; simp
      · rw [if_neg hk]; rfl
  clear hs1
  rw [St.newV_snd]
  obtain ⟨va1, hva1⟩ := getElem?_of_lt (st := s1) (i := a) (by omega)
  have e1 : va1.prev = va.prev := by
    have := (vs_fields hva1).2.1
    rw [p1, if_neg hNa, hpa'] at this
    simpa using this.symm
  rw [getV_ok.2 hva1, ok_bind, e1]
  obtain ⟨vb1, hvb1⟩ := getElem?_of_lt (st := s1.setNext va.prev st.vs.length) (i := b)
    (by simp; omega)
  have e2 : vb1.next = vb.next := by
    have := (vs_fields hvb1).1
    rw [St.nx_setNext, if_neg (Ne.symm hpb), n1, if_neg hNb, hnb'] at this
    simpa using this.symm
  rw [getV_ok.2 hvb1, ok_bind, e2]
  obtain ⟨va2, hva2⟩ := getElem?_of_lt
    (st := (s1.setNext va.prev st.vs.length).setPrev vb.next st.vs.length) (i := a)
    (by simp; omega)
  have e3 : va2.prev = va.prev := by
    have := (vs_fields hva2).2.1
    rw [St.pv_setPrev, if_neg (Ne.symm hna), St.pv_setNext, p1, if_neg hNa, hpa'] at this
    simpa using this.symm
  rw [getV_ok.2 hva2, ok_bind, e3]
  obtain ⟨vb2, hvb2⟩ := getElem?_of_lt
    (st := ((s1.setNext va.prev st.vs.length).setPrev vb.next st.vs.length).setPrev st.vs.length
      va.prev) (i := b) (by simp; omega)
  have e4 : vb2.next = vb.next := by
    have := (vs_fields hvb2).1
    rw [St.nx_setPrev, St.nx_setPrev, St.nx_setNext, if_neg (Ne.symm hpb), n1, if_neg hNb, hnb']
      at this
    simpa using this.symm
  rw [getV_ok.2 hvb2, ok_bind, e4]
  generalize hs2 : (((s1.setNext va.prev st.vs.length).setPrev vb.next st.vs.length).setPrev
      st.vs.length va.prev).setNext st.vs.length vb.next = s2
  have nN : st.nx st.vs.length = none := nx_none.2 (le_refl _)
  have n2 : ∀ k, s2.nx k = if k = st.vs.length then some vb.next
        else if k = va.prev then some st.vs.length else st.nx k := by
    intro k
    rw [← hs2]
    simp only [St.nx_setNext, St.nx_setPrev, n1]
    by_cases h1 : k = st.vs.length
    · subst h1; simp [Ne.symm hNp]
    · rw [if_neg h1, if_neg h1, if_neg h1]
      by_cases h2 : k = va.prev
      · subst h2
        obtain ⟨j, hj⟩ := nx_some (st := st) hp
        simp [hj]
      · simp [h2]
  have p2 : ∀ k, s2.pv k = if k = st.vs.length then some va.prev
        else if k = vb.next then some st.vs.length else st.pv k := by
    intro k
    rw [← hs2]
    simp only [St.pv_setNext, St.pv_setPrev, p1]
    by_cases h1 : k = st.vs.length
    · subst h1; simp [Ne.symm hNn]
    · rw [if_neg h1, if_neg h1, if_neg h1]
      by_cases h2 : k = vb.next
      · subst h2
        have : ∃ j, st.pv vb.next = some j := ⟨st.vs[vb.next].prev, by simp [St.pv, hn]⟩
        obtain ⟨j, hj⟩ := this
        simp [hj]
      · simp [h2]
  have l2 : ∀ k, s2.lv k = if k = st.vs.length then some (some l) else st.lv k := by
    intro k; rw [← hs2]; simp [l1]
  have v2 : ∀ k, s2.vd k = if k = st.vs.length then some true else st.vd k := by
    intro k; rw [← hs2]; simp [v1]
  have c2 : ∀ k, s2.co k = if k = st.vs.length then some (unifyCore va vb pt) else st.co k := by
    intro k; rw [← hs2]; simp [c1]
  have len2 : s2.vs.length = st.vs.length + 1 := by rw [← hs2]; simp [len1]
  have sl2 : s2.slav = st.slav := by rw [← hs2]; exact sl1
  have or2 : s2.orig = st.orig := by rw [← hs2]; exact or1
  have la2 : ∀ k, s2.lavs[k]? = if k = l then
      some { o with head := if o.head = a ∨ o.head = b then st.vs.length else o.head }
      else st.lavs[k]? := by
    intro k; rw [← hs2]; exact la1 k
  clear hs2 hva1 hvb1 hva2 hvb2
  -- the two invalidations
  obtain ⟨wa, hwa⟩ := getElem?_of_lt (st := s2) (i := a) (by omega)
  have hwal : wa.lav = some l := by
    have := (vs_fields hwa).2.2.1
    rw [l2, if_neg hNa, hla', hla] at this
    simpa using this.symm
  obtain ⟨s3, h3, n3, p3, c3, v3, l3, la3, sl3, len3, or3⟩ := invalidate_ok hwa (fun l' hl' => by
    rw [hwal] at hl'; simp only [Option.some.injEq] at hl'
    exact ⟨_, by rw [la2, if_pos hl'.symm]⟩)
  rw [h3, ok_bind]
  obtain ⟨wb, hwb⟩ := getElem?_of_lt (st := s3) (i := b) (by omega)
  have hwbl : wb.lav = some l := by
    have := (vs_fields hwb).2.2.1
    rw [l3, if_neg (Ne.symm hab), l2, if_neg hNb, hlb', hlb] at this
    simpa using this.symm
  have la3' : ∀ k : Nat, s3.lavs[k]? = s2.lavs[k]? := by
    intro k
    rw [la3, hwal]
    by_cases hk : k = l
    · subst hk
      rw [if_pos rfl, la2, if_pos rfl]
      rw [Option.map_some, if_neg]
      intro hh
      simp only at hh
      split at hh
      · omega
      · rename_i hh'; exact hh' (Or.inl hh)
    · rw [if_neg (by simpa using Ne.symm hk)]
  obtain ⟨s4, h4, n4, p4, c4, v4, l4, la4, sl4, len4, or4⟩ := invalidate_ok hwb (fun l' hl' => by
    rw [hwbl] at hl'; simp only [Option.some.injEq] at hl'
    exact ⟨_, by rw [la3', la2, if_pos hl'.symm]⟩)
  rw [h4, ok_bind]
  refine ⟨_, rfl, ?_, ?_, ?_, ?_, ?_, ?_, ?_, ?_, ?_⟩
  · intro k; rw [St.nx_modL, n4, n3, n2]
  · intro k; rw [St.pv_modL, p4, p3, p2]
  · intro k
    rw [St.lv_modL, l4, l3, l2]
    by_cases h1 : k = st.vs.length
    · subst h1; simp [Ne.symm hNa, Ne.symm hNb]
    · by_cases h2 : k = b
      · simp [h2, hNb]
      · by_cases h3 : k = a
        · simp [h3, hNa]
        · simp [h1, h2, h3]
  · intro k
    rw [St.vd_modL, v4, v3, v2]
    by_cases h1 : k = st.vs.length
    · subst h1; simp [Ne.symm hNa, Ne.symm hNb]
    · by_cases h2 : k = b
      · simp [h2, hNb]
      · by_cases h3 : k = a
        · simp [h3, hNa]
        · simp [h1, h2, h3]
  · intro k; rw [St.co_modL, c4, c3, c2]
  · intro k
    rw [getElem?_modL]
    have : s4.lavs[k]? = s2.lavs[k]? := by
      rw [la4, hwbl]
      by_cases hk : k = l
      · subst hk
        rw [if_pos rfl, la3', la2, if_pos rfl]
        rw [Option.map_some, if_neg]
        intro hh
        simp only at hh
        split at hh
        · omega
        · rename_i hh'; exact hh' (Or.inr hh)
      · rw [if_neg (by simpa using Ne.symm hk), la3']
    rw [this, la2]
    by_cases hk : k = l
    · simp [hk]
    · simp [hk]
  · rw [show (s4.modL l _).slav = s4.slav from rfl, sl4, sl3, sl2]
  · rw [St.len_modL, len4, len3, len2]
  · rw [show (s4.modL l _).orig = s4.orig from rfl, or4, or3, or2]

theorem invalidateAll_ok {st : St S} {vs : List Nat} (hlt : ∀ v ∈ vs, v < st.vs.length)
    (hl : ∀ v ∈ vs, ∀ l, st.lv v = some (some l) → l < st.lavs.length) :
    ∃ st', invalidateAll st vs = .ok st' ∧ st'.nx = st.nx ∧ st'.pv = st.pv ∧ st'.co = st.co ∧
      (∀ k, st'.vd k = if k ∈ vs then some false else st.vd k) ∧
      (∀ k, st'.lv k = if k ∈ vs then some none else st.lv k) ∧
      (∀ l, (∀ v ∈ vs, st.lv v ≠ some (some l)) → st'.lavs[l]? = st.lavs[l]?) ∧
      st'.lavs.length = st.lavs.length ∧
      st'.slav = st.slav ∧ st'.vs.length = st.vs.length ∧ st'.orig = st.orig := by
  induction vs generalizing st with
  | nil => exact ⟨st, rfl, rfl, rfl, rfl, by simp, by simp, by simp, rfl, rfl, rfl, rfl⟩
  | cons v vs ih =>
    obtain ⟨w, hw⟩ := getElem?_of_lt (hlt v (by simp))
    have hwl := (vs_fields hw).2.2.1
    obtain ⟨s, hs, n, p, c, d, lvv, la, sl, len, og⟩ := invalidate_ok hw (fun l e => by
      have := hl v (by simp) l (by rw [hwl, e])
      exact ⟨_, List.getElem?_eq_getElem this⟩)
    have lalen : s.lavs.length = st.lavs.length := by
      have hk : ∀ k : Nat, s.lavs[k]? = none ↔ st.lavs[k]? = none := by
        intro k
        rw [la]
        split <;> simp
      apply le_antisymm
      · have := (hk st.lavs.length).2 (by simp)
        simpa using this
      · have := (hk s.lavs.length).1 (by simp)
        simpa using this
    have hlt' : ∀ x ∈ vs, x < s.vs.length := by
      intro x hx; rw [len]; exact hlt x (List.mem_cons_of_mem _ hx)
    have hl' : ∀ x ∈ vs, ∀ l, s.lv x = some (some l) → l < s.lavs.length := by
      intro x hx l e
      rw [lvv] at e
      rw [lalen]
      split at e
      · simp at e
      · exact hl x (List.mem_cons_of_mem _ hx) l e
    obtain ⟨t, ht, n', p', c', d', lv', la', ll', sl', len', og'⟩ := ih hlt' hl'
    refine ⟨t, ?_, n'.trans n, p'.trans p, c'.trans c, ?_, ?_, ?_, ll'.trans lalen, sl'.trans sl,
      len'.trans len, og'.trans og⟩
    · unfold invalidateAll
      rw [hs, ok_bind, ht]
    · intro k
      rw [d', d]
      by_cases h1 : k ∈ vs
      · simp [h1]
      · by_cases h2 : k = v <;> simp [h1, h2]
    · intro k
      rw [lv', lvv]
      by_cases h1 : k ∈ vs
      · simp [h1]
      · by_cases h2 : k = v <;> simp [h1, h2]
    · intro l h
      rw [la' l, la, if_neg]
      · intro e
        exact h v (by simp) (by rw [hwl, e])
      · intro x hx e
        rw [lvv] at e
        split at e
        · simp at e
        · exact h x (List.mem_cons_of_mem _ hx) e

theorem nextEvent_total {st : St S} {i : Nat} {v : Vtx S} (hv : st.vs[i]? = some v)
    (hl : v.lav ≠ none) (hp : v.prev < st.vs.length) (hn : v.next < st.vs.length) :
    ∃ e, nextEvent st i = .ok e := by
  obtain ⟨p, hp⟩ := getElem?_of_lt hp
  obtain ⟨n, hn⟩ := getElem?_of_lt hn
  unfold nextEvent
  rw [getV_ok.2 hv, ok_bind]
  have : ∃ s, splitsOf st i v = .ok s := by
    unfold splitsOf
    split
    · cases h : v.lav with
      | none => exact absurd h hl
      | some l => exact ⟨_, rfl⟩
    · exact ⟨_, rfl⟩
  obtain ⟨s, hs⟩ := this
  rw [hs, ok_bind, getV_ok.2 hp, ok_bind, getV_ok.2 hn, ok_bind]
  exact ⟨_, rfl⟩

/-- on the wavefront, `next_event` never raises -/
theorem Loops.nextEvent {st : St S} {R : Nat → List Nat} (h : Loops st R) {i l : Nat}
    (hl : l ∈ st.slav) (hi : i ∈ R l) : ∃ e, Polyskel.nextEvent st i = .ok e := by
  have hc := h.closed l hl
  obtain ⟨v, hv⟩ := getElem?_of_lt (hc.lt i hi)
  obtain ⟨hn, hp, hlv, -, -⟩ := vs_fields hv
  refine nextEvent_total hv ?_ (hc.lt _ (hc.pv_mem hi hp).1) (hc.lt _ (hc.nx_mem hi hn).1)
  have := (h.mem l hl i).1 hi
  rw [hlv] at this
  intro e
  rw [e] at this
  simp at this

theorem pointsOf_total {st : St S} {vs : List Nat} (h : ∀ v ∈ vs, v < st.vs.length) :
    ∃ ps, pointsOf st vs = .ok ps := by
  unfold pointsOf
  apply mapM_total
  intro v hv
  obtain ⟨w, hw⟩ := getElem?_of_lt (h v hv)
  exact ⟨w.point, by rw [getV_ok.2 hw]; rfl⟩

/-- two neighbours of a list of the wavefront: the rest of the list -/
theorem Loops.pair {st : St S} {R : Nat → List Nat} (h : Loops st R) {l a b : Nat}
    (hl : l ∈ st.slav) (ha : a ∈ R l) (hab : st.nx a = some b) :
    ∃ P, P ≠ [] ∧ Link st a b ∧ Seg st b P a ∧ (a :: b :: P).Perm (R l) ∧
      (a :: b :: P).Nodup := by
  obtain ⟨T, hs, hp, hd⟩ := (h.closed l hl).rotate ha
  have h3 := h.three l hl
  have hlen := hp.length_eq
  cases T with
  | nil => simp at hlen; omega
  | cons c P =>
    rw [seg_cons] at hs
    have : c = b := by
      have := (link_iff.1 hs.1).1
      rw [hab] at this
      simpa using this.symm
    subst this
    refine ⟨P, ?_, hs.1, hs.2, hp, hd⟩
    rintro rfl
    simp at hlen; omega

/-- an edge event of two neighbours in a list of three -/
theorem handleEdge_peak {st : St S} {R : Nat → List Nat} (h : Loops st R) {ev : EdgeEv S}
    {l : Nat} {va vb : Vtx S} (hl : l ∈ st.slav) (ha : ev.a ∈ R l) (hab : st.nx ev.a = some ev.b)
    (hva : st.vs[ev.a]? = some va) (hvb : st.vs[ev.b]? = some vb) (hpk : va.prev = vb.next) :
    ∃ st' sinks, handleEdge st ev =
        .ok (st', [{ source := ev.pt, height := ev.dist, sinks }], []) ∧
      Loops st' R ∧ (R l).length = 3 ∧ sinks.length = 3 ∧
      st'.slav = st.slav.erase l ∧ st'.vs.length = st.vs.length ∧ st'.co = st.co ∧
      st'.nx = st.nx ∧ st'.pv = st.pv ∧ st'.orig = st.orig ∧
      (∀ k, st'.vd k = if k ∈ R l then some false else st.vd k) := by
  obtain ⟨P, hP, hlk, hs, hperm, hd⟩ := h.pair hl ha hab
  obtain ⟨hna, hpa, hla, -, -⟩ := vs_fields hva
  obtain ⟨hnb, hpb, hlb, -, -⟩ := vs_fields hvb
  -- the list has three vertices
  have hP1 : ∃ c, P = [c] := by
    cases P with
    | nil => exact absurd rfl hP
    | cons c Q =>
      have h1 := (link_iff.1 (seg_cons.1 hs).1).1
      have h2 := seg_last hs
      rw [hnb] at h1
      rw [hpa, hpk] at h2
      simp only [Option.some.injEq] at h1
      rw [h1] at h2
      rcases List.eq_nil_or_concat Q with rfl | ⟨Q', d, rfl⟩
      · exact ⟨c, rfl⟩
      · exfalso
        have : c = d := by
          have h3 : (ev.b :: c :: Q'.concat d).getLast? = some d := by
            simp [List.getLast?_cons]
          rw [h3] at h2
          simpa using h2
        subst this
        simp at hd
  obtain ⟨c, rfl⟩ := hP1
  have h3 : (R l).length = 3 := by rw [← hperm.length_eq]; rfl
  have hlav : va.lav = some l := by
    have := (h.mem l hl _).1 ha
    rw [hla] at this
    simpa using this
  obtain ⟨vs, hvs, hvp, hvc⟩ := h.listLav hl
  unfold handleEdge
  rw [getV_ok.2 hva, ok_bind, getV_ok.2 hvb, ok_bind, if_pos hpk, hlav, removeLav_ok hl, ok_bind]
  simp only
  have hvs' : Polyskel.listLav { st with slav := st.slav.erase l } l = .ok vs := by
    rw [listLav_ok] at hvs ⊢
    exact hvs
  rw [hvs', ok_bind]
  obtain ⟨sinks, hsi⟩ := pointsOf_total (st := { st with slav := st.slav.erase l }) (vs := vs)
    (fun v hv => hvc.lt v hv)
  rw [hsi, ok_bind]
  have hslen : sinks.length = 3 := by
    have := (mapM_ok hsi).length_eq
    rw [← this, hvp.length_eq, h3]
  obtain ⟨t, ht, n', p', c', d', lv', la', ll', sl', len', og'⟩ := invalidateAll_ok
    (st := { st with slav := st.slav.erase l }) (vs := vs) (fun v hv => hvc.lt v hv)
    (fun v hv l' e => by
      have := (h.mem l hl v).1 (hvp.mem_iff.1 hv)
      rw [St.lv_slav, this] at e
      simp only [Option.some.injEq] at e
      exact e ▸ h.lavs_lt hl)
  rw [ht, ok_bind]
  have hmem : ∀ l', l' ∈ t.slav ↔ l' ∈ st.slav ∧ l' ≠ l := by
    intro l'
    rw [sl', h.nodup.mem_erase_iff, and_comm]
  have hlvo : ∀ l' ≠ l, ∀ v, t.lv v = some (some l') ↔ st.lv v = some (some l') := by
    intro l' hne v
    rw [lv']
    by_cases hv : v ∈ vs
    · have := (h.mem l hl v).1 (hvp.mem_iff.1 hv)
      simp [hv, this, Ne.symm hne]
    · simp [hv]
  refine ⟨t, sinks, rfl, ⟨?_, ?_, ?_, ?_, ?_, ?_, ?_⟩, h3, hslen, sl', len', c', n', p', og', ?_⟩
  · rw [sl']; exact h.nodup.erase _
  · intro l' hl'
    obtain ⟨hl', hne⟩ := (hmem l').1 hl'
    obtain ⟨o, ho, hh, hlen⟩ := h.lav l' hl'
    refine ⟨o, ?_, hh, hlen⟩
    rw [la' l' (fun v hv e => ?_)]
    · exact ho
    · have := (h.mem l hl v).1 (hvp.mem_iff.1 hv)
      rw [St.lv_slav, this] at e
      simp only [Option.some.injEq] at e
      exact hne e.symm
  · intro l' hl'; exact h.three l' ((hmem l').1 hl').1
  · intro l' hl'
    refine closed_congr ?_ ?_ (h.closed l' ((hmem l').1 hl').1)
    · intro k _; rw [n']; rfl
    · intro k _; rw [p']; rfl
  · intro l' hl' v
    obtain ⟨hl', hne⟩ := (hmem l').1 hl'
    rw [h.mem l' hl' v, hlvo l' hne v]
  · intro v
    rw [d']
    by_cases hv : v ∈ vs
    · simp only [hv, if_true, Option.some.injEq, Bool.false_eq_true, false_iff]
      rintro ⟨l', hl', e⟩
      rw [lv', if_pos hv] at e
      simp at e
    · rw [if_neg hv]
      refine (h.valid v).trans ?_
      constructor
      · rintro ⟨l', hl', e⟩
        have hne : l' ≠ l := by
          rintro rfl
          exact hv (hvp.mem_iff.2 ((h.mem l' hl' v).2 e))
        exact ⟨l', (hmem l').2 ⟨hl', hne⟩, (hlvo l' hne v).2 e⟩
      · rintro ⟨l', hl', e⟩
        obtain ⟨hl', hne⟩ := (hmem l').1 hl'
        exact ⟨l', hl', (hlvo l' hne v).1 e⟩
  · intro v e
    rw [d'] at e
    rw [lv']
    by_cases hv : v ∈ vs
    · simp [hv]
    · rw [if_neg hv] at e ⊢
      exact h.invalid v e
  · intro k
    rw [d']
    simp [hvp.mem_iff]

/-- an edge event of two neighbours in a longer list -/
theorem handleEdge_unify {st : St S} {R : Nat → List Nat} (h : Loops st R) {ev : EdgeEv S}
    {l : Nat} {va vb : Vtx S} (hl : l ∈ st.slav) (ha : ev.a ∈ R l) (hab : st.nx ev.a = some ev.b)
    (hva : st.vs[ev.a]? = some va) (hvb : st.vs[ev.b]? = some vb) (hpk : va.prev ≠ vb.next) :
    ∃ st' es P, handleEdge st ev =
        .ok (st', [{ source := ev.pt, height := ev.dist, sinks := [va.point, vb.point] }], es) ∧
      (ev.a :: ev.b :: P).Perm (R l) ∧
      Loops st' (fun l' => if l' = l then st.vs.length :: P else R l') ∧
      st'.slav = st.slav ∧ st'.vs.length = st.vs.length + 1 ∧ es.length ≤ 1 ∧
      st'.orig = st.orig ∧
      (∀ k, st'.nx k = if k = st.vs.length then some vb.next
        else if k = va.prev then some st.vs.length else st.nx k) ∧
      (∀ k, st'.pv k = if k = st.vs.length then some va.prev
        else if k = vb.next then some st.vs.length else st.pv k) ∧
      (∀ k, st'.vd k = if k = st.vs.length then some true
        else if k = ev.a ∨ k = ev.b then some false else st.vd k) ∧
      (∀ k, st'.co k = if k = st.vs.length then some (unifyCore va vb ev.pt) else st.co k) := by
  obtain ⟨P, hP, hlk, hs, hperm, hd⟩ := h.pair hl ha hab
  obtain ⟨hna, hpa, hla, -, -⟩ := vs_fields hva
  obtain ⟨hnb, hpb, hlb, -, -⟩ := vs_fields hvb
  have hlen := hperm.length_eq
  -- the rest of the list is `c … d`
  obtain ⟨c, Q, rfl⟩ : ∃ c Q, P = c :: Q := by
    cases P with
    | nil => exact absurd rfl hP
    | cons c Q => exact ⟨c, Q, rfl⟩
  have hbc := (seg_cons.1 hs).1
  have hs' := (seg_cons.1 hs).2
  have hnc : vb.next = c := by
    have := (link_iff.1 hbc).1
    rw [hnb] at this
    simpa using this
  have hQ : Q ≠ [] := by
    rintro rfl
    rw [seg_nil, link_iff] at hs'
    rw [hpa] at hs'
    simp only [Option.some.injEq] at hs'
    exact hpk (hs'.2.trans hnc.symm)
  obtain ⟨Q', d, rfl⟩ : ∃ Q' d, Q = Q' ++ [d] := by
    rcases List.eq_nil_or_concat Q with e | ⟨Q', d, e⟩
    · exact absurd e hQ
    · exact ⟨Q', d, by simpa using e⟩
  have hs'' := (seg_snoc.1 hs').1
  have hda := (seg_snoc.1 hs').2
  have hpd : va.prev = d := by
    have := (link_iff.1 hda).2
    rw [hpa] at this
    simpa using this
  have hbR : ev.b ∈ R l := hperm.mem_iff.1 (by simp)
  have hcR : c ∈ R l := hperm.mem_iff.1 (by simp)
  have hdR : d ∈ R l := hperm.mem_iff.1 (by simp)
  have hlava : va.lav = some l := by
    have := (h.mem l hl _).1 ha
    rw [hla] at this; simpa using this
  have hlavb : vb.lav = some l := by
    have := (h.mem l hl _).1 hbR
    rw [hlb] at this; simpa using this
  obtain ⟨o, ho, hh, holen⟩ := h.lav l hl
  have hlt := (h.closed l hl).lt
  simp only [List.nodup_cons, List.mem_cons, List.mem_append, not_or,
    List.not_mem_nil, or_false, List.nodup_append] at hd
  obtain ⟨t, ht, n1, p1, l1, v1, c1, la1, sl1, len1, or1⟩ := unify_ok (pt := ev.pt) hva hvb ho
    (hd.1.1) hlava hlavb (by rw [hpd]; exact fun e => hd.1.2.2.2 e.symm)
    (by rw [hpd]; exact fun e => hd.2.1.2.2 e.symm)
    (by rw [hnc]; exact fun e => hd.1.2.1 e.symm) (by rw [hnc]; exact fun e => hd.2.1.1 e.symm)
    (by rw [hpd]; exact hlt d hdR) (by rw [hnc]; exact hlt c hcR)
  unfold handleEdge
  rw [getV_ok.2 hva, ok_bind, getV_ok.2 hvb, ok_bind, if_neg hpk, hlava]
  simp only
  rw [ht, ok_bind]
  simp only
  rw [getL_ok.2 (show t.lavs[l]? = _ by rw [la1, if_pos rfl]), ok_bind]
  have hnohead : ¬ ((if o.head = ev.a ∨ o.head = ev.b then st.vs.length else o.head) = ev.a ∨
      (if o.head = ev.a ∨ o.head = ev.b then st.vs.length else o.head) = ev.b) := by
    have h1 := hlt _ ha
    have h2 := hlt _ hbR
    split
    · omega
    · assumption
  simp only [if_neg hnohead]
  -- the list of the new vertex
  have hmemP : ∀ k, k ∈ c :: (Q' ++ [d]) ↔ k ∈ R l ∧ k ≠ ev.a ∧ k ≠ ev.b := by
    intro k
    rw [← hperm.mem_iff]
    simp only [List.mem_cons, List.mem_append, List.not_mem_nil, or_false]
    constructor
    · intro hk
      refine ⟨Or.inr (Or.inr hk), ?_, ?_⟩
      · rintro rfl; exact absurd hk (by tauto)
      · rintro rfl; exact absurd hk (by tauto)
    · rintro ⟨hk, h1, h2⟩; tauto
  have hltP : ∀ k ∈ c :: (Q' ++ [d]), k < st.vs.length := fun k hk => hlt k ((hmemP k).1 hk).1
  have hndP : (c :: (Q' ++ [d])).Nodup := by
    have : (ev.a :: ev.b :: c :: (Q' ++ [d])).Nodup := hperm.nodup_iff.2 (h.closed l hl).1
    exact this.tail.tail
  have hNl : st.vs.length ∉ c :: (Q' ++ [d]) := fun hk => absurd (hltP _ hk) (lt_irrefl _)
  have hring : Closed t (st.vs.length :: c :: (Q' ++ [d])) := by
    refine .of_seg ?_ (List.nodup_cons.2 ⟨hNl, hndP⟩)
    rw [seg_cons]
    have hcd : c ≠ d := by
      intro e; rw [List.nodup_cons] at hndP; exact hndP.1 (by simp [e])
    refine ⟨?_, seg_snoc.2 ⟨seg_congr ?_ ?_ hs'', ?_⟩⟩
    · rw [link_iff, n1, p1, if_pos rfl, if_neg, if_pos hnc.symm, hnc]
      · exact ⟨rfl, rfl⟩
      · intro e; exact hNl (by simp [← e])
    · intro k hk
      have hkP : k ∈ c :: (Q' ++ [d]) := by simp at hk ⊢; tauto
      rw [n1, if_neg, if_neg]
      · rw [hpd]; rintro rfl
        rw [← List.cons_append, List.nodup_append] at hndP
        exact hndP.2.2 k hk k (by simp) rfl
      · exact ne_of_lt (hltP k hkP)
    · intro k hk
      have hkP : k ∈ c :: (Q' ++ [d]) := List.mem_cons_of_mem _ hk
      rw [p1, if_neg, if_neg]
      · rw [hnc]; rintro rfl
        rw [List.nodup_cons] at hndP
        exact hndP.1 hk
      · exact ne_of_lt (hltP k hkP)
    · rw [link_iff, n1, p1, if_pos rfl, if_neg, if_pos hpd.symm, hpd]
      · exact ⟨rfl, rfl⟩
      · intro e; exact hNl (by simp [← e])
  have hloops : Loops t (fun l' => if l' = l then st.vs.length :: c :: (Q' ++ [d]) else R l') := by
    have hother : ∀ l' ∈ st.slav, l' ≠ l → ∀ k ∈ R l', k ∉ R l := by
      intro l' hl' hne k hk hk'
      exact hne (h.disjoint hl' hl hk hk')
    refine ⟨?_, ?_, ?_, ?_, ?_, ?_, ?_⟩
    · rw [sl1]; exact h.nodup
    · intro l' hl'
      rw [sl1] at hl'
      by_cases hll : l' = l
      · subst hll
        refine ⟨_, by rw [la1, if_pos rfl], ?_, ?_⟩
        · simp only [if_true]
          split
          · simp
          · rename_i hno
            rw [not_or] at hno
            exact List.mem_cons_of_mem _ ((hmemP _).2 ⟨hh, hno.1, hno.2⟩)
        · simp only [if_true]
          rw [holen, ← hlen]
          simp
      · simp only [if_neg hll]
        rw [la1, if_neg hll]
        exact h.lav l' hl'
    · intro l' hl'
      rw [sl1] at hl'
      by_cases hll : l' = l
      · simp [hll]
      · simp only [if_neg hll]; exact h.three l' hl'
    · intro l' hl'
      rw [sl1] at hl'
      by_cases hll : l' = l
      · simp only [hll, if_true]; exact hring
      · simp only [if_neg hll]
        refine closed_congr ?_ ?_ (h.closed l' hl')
        · intro k hk
          rw [n1, if_neg, if_neg]
          · rintro rfl; exact hother l' hl' hll _ hk (hpd ▸ hdR)
          · exact ne_of_lt ((h.closed l' hl').lt k hk)
        · intro k hk
          rw [p1, if_neg, if_neg]
          · rintro rfl; exact hother l' hl' hll _ hk (hnc ▸ hcR)
          · exact ne_of_lt ((h.closed l' hl').lt k hk)
    · intro l' hl' k
      rw [sl1] at hl'
      rw [l1]
      by_cases hll : l' = l
      · simp only [hll, if_true]
        by_cases hk : k = st.vs.length
        · simp [hk]
        · rw [if_neg hk, List.mem_cons, hmemP, h.mem l hl]
          by_cases hk' : k = ev.a ∨ k = ev.b
          · rw [if_pos hk']
            simp only [hk, false_or, reduceCtorEq, Option.some.injEq, iff_false]
            rintro ⟨-, h1, h2⟩
            exact hk'.elim h1 h2
          · rw [if_neg hk']
            rw [not_or] at hk'
            simp [hk, hk']
      · simp only [if_neg hll]
        rw [h.mem l' hl']
        by_cases hk : k = st.vs.length
        · rw [if_pos hk]
          constructor
          · intro e; exact absurd (lv_lt e) (by omega)
          · intro e; simp at e; exact absurd e.symm hll
        · rw [if_neg hk]
          by_cases hk' : k = ev.a ∨ k = ev.b
          · rw [if_pos hk']
            have : k ∈ R l := by rcases hk' with rfl | rfl <;> assumption
            rw [(h.mem l hl k).1 this]
            simp [Ne.symm hll]
          · rw [if_neg hk']
    · intro k
      rw [v1, sl1, l1]
      by_cases hk : k = st.vs.length
      · simp [hk, hl]
      · rw [if_neg hk, if_neg hk]
        by_cases hk' : k = ev.a ∨ k = ev.b
        · simp [hk']
        · rw [if_neg hk', if_neg hk']; exact h.valid k
    · intro k
      rw [v1, l1]
      by_cases hk : k = st.vs.length
      · simp [hk]
      · rw [if_neg hk, if_neg hk]
        by_cases hk' : k = ev.a ∨ k = ev.b
        · simp [hk']
        · rw [if_neg hk', if_neg hk']; exact h.invalid k
  obtain ⟨e, he⟩ := hloops.nextEvent (i := st.vs.length) (l := l) (by rw [sl1]; exact hl) (by simp)
  rw [he, ok_bind]
  refine ⟨t, e.toList, _, rfl, hperm, hloops, sl1, len1, ?_, or1, n1, p1, v1, c1⟩
  cases e <;> simp

end Polyskel
