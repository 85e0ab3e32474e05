import Verif.Proofs.Strays
import Verif.Props.Wavefront
/-
What a split event does to closed doubly linked lists.
-/
namespace Polyskel
open Scalar
set_option linter.unusedSectionVars false
variable {S : Type} [Scalar S]

/-- the pointer assignments of a split event -/
theorem splitLink_ok {st : St S} {ev : SplitEv S} {v : Vtx S} {x y : Nat}
    (hv : st.vs[ev.vertex]? = some v) (hx : x < st.vs.length) (hy : y < st.vs.length)
    (hp : v.prev < st.vs.length) (hn : v.next < st.vs.length) (hpv : v.prev ≠ ev.vertex) :
    ∃ st', splitLink st ev v x y = .ok (st', st.vs.length, st.vs.length + 1) ∧
      (∀ k, st'.nx k = if k = y then some (st.vs.length + 1)
        else if k = st.vs.length + 1 then some v.next
        else if k = v.prev then some st.vs.length
        else if k = st.vs.length then some x else st.nx k) ∧
      (∀ k, st'.pv k = if k = v.next then some (st.vs.length + 1)
        else if k = st.vs.length + 1 then some y
        else if k = x then some st.vs.length
        else if k = st.vs.length then some v.prev else st.pv k) ∧
      (∀ k, st'.lv k = if k = st.vs.length + 1 then some none
        else if k = st.vs.length then some none else st.lv k) ∧
      (∀ k, st'.vd k = if k = st.vs.length + 1 then some true
        else if k = st.vs.length then some true else st.vd k) ∧
      (∀ k, st'.co k = if k = st.vs.length + 1 then some (splitCore v ev false)
        else if k = st.vs.length then some (splitCore v ev true) else st.co k) ∧
      st'.lavs = st.lavs ∧ st'.slav = st.slav ∧ st'.vs.length = st.vs.length + 2 ∧
      st'.orig = st.orig := by
  obtain ⟨hnv, hpv', -, -, -⟩ := vs_fields hv
  have hvl := (List.getElem?_eq_some_iff.1 hv).1
  unfold splitLink
  simp only
  generalize hw1 : mkVtx st.vs.length ev.pt v.edgePrev ev.opp none true = w1
  generalize hw2 : mkVtx (st.newV w1).1.vs.length ev.pt ev.opp v.edgeNext none true = w2
  have c1 : w1.core = splitCore v ev true := by rw [← hw1]; rfl
  have c2 : w2.core = splitCore v ev false := by rw [← hw2]; rfl
  have a1 : w1.valid = true ∧ w1.lav = none := by rw [← hw1]; exact ⟨rfl, rfl⟩
  have a2 : w2.valid = true ∧ w2.lav = none := by rw [← hw2]; exact ⟨rfl, rfl⟩
  clear hw1 hw2
  simp only [St.newV_snd, St.len_newV]
  generalize hs : ((((((st.newV w1).1.newV w2).1.setPrev st.vs.length v.prev).setNext st.vs.length
    x).setNext v.prev st.vs.length).setPrev x st.vs.length).setPrev (st.vs.length + 1) y = s
  have n1 : ∀ k, s.nx k = if k = v.prev then some st.vs.length
        else if k = st.vs.length then some x
        else if k = st.vs.length + 1 then some w2.next else st.nx k := by
    intro k
    rw [← hs]
    simp only [St.nx_setPrev, St.nx_setNext, St.nx_newV, St.len_newV]
    obtain ⟨j, hj⟩ := nx_some (st := st) hp
    by_cases h1 : k = v.prev
    · subst h1
      have : v.prev ≠ st.vs.length := by omega
      have : v.prev ≠ st.vs.length + 1 := by omega
      simp [*]
    · by_cases h2 : k = st.vs.length
      · subst h2
        simp [h1]
      · simp [h1, h2]
  have p1 : ∀ k, s.pv k = if k = st.vs.length + 1 then some y
        else if k = x then some st.vs.length
        else if k = st.vs.length then some v.prev else st.pv k := by
    intro k
    rw [← hs]
    simp only [St.pv_setPrev, St.pv_setNext, St.pv_newV, St.len_newV]
    have : ∃ j, st.pv x = some j := ⟨st.vs[x].prev, by simp [St.pv, hx]⟩
    obtain ⟨j, hj⟩ := this
    by_cases h1 : k = st.vs.length + 1
    · subst h1
      have : st.vs.length + 1 ≠ x := by omega
      simp [this]
    · by_cases h2 : k = x
      · subst h2
        have : k ≠ st.vs.length := by omega
        simp [*]
      · by_cases h3 : k = st.vs.length
        · subst h3; simp [h2]
        · simp [h1, h2, h3]
  have l1 : ∀ k, s.lv k = if k = st.vs.length + 1 then some none
        else if k = st.vs.length then some none else st.lv k := by
    intro k; rw [← hs]; simp [a1, a2]
  have v1 : ∀ k, s.vd k = if k = st.vs.length + 1 then some true
        else if k = st.vs.length then some true else st.vd k := by
    intro k; rw [← hs]; simp [a1, a2]
  have co1 : ∀ k, s.co k = if k = st.vs.length + 1 then some (splitCore v ev false)
        else if k = st.vs.length then some (splitCore v ev true) else st.co k := by
    intro k; rw [← hs]; simp [c1, c2]
  have len1 : s.vs.length = st.vs.length + 2 := by rw [← hs]; simp
  have la1 : s.lavs = st.lavs := by rw [← hs]; rfl
  have sl1 : s.slav = st.slav := by rw [← hs]; rfl
  have or1 : s.orig = st.orig := by rw [← hs]; rfl
  clear hs
  obtain ⟨v', hv'⟩ := getElem?_of_lt (st := s) (i := ev.vertex) (by omega)
  have e : v'.next = v.next := by
    have := (vs_fields hv').1
    have h1 : ev.vertex ≠ st.vs.length := by omega
    have h2 : ev.vertex ≠ st.vs.length + 1 := by omega
    rw [n1, if_neg (Ne.symm hpv), if_neg h1, if_neg h2, hnv] at this
    simpa using this.symm
  rw [getV_ok.2 hv', ok_bind, e]
  refine ⟨_, rfl, ?_, ?_, ?_, ?_, ?_, la1, sl1, by simp [len1], or1⟩
  · intro k
    simp only [St.nx_setNext, St.nx_setPrev, n1]
    by_cases h1 : k = y
    · subst h1
      obtain ⟨j, hj⟩ := nx_some (st := st) hy
      have e1 : k ≠ st.vs.length := by omega
      have e2 : k ≠ st.vs.length + 1 := by omega
      by_cases h2 : k = v.prev
      · subst h2; simp [*]
      · simp [*]
    · by_cases h2 : k = st.vs.length + 1
      · subst h2
        have e1 : st.vs.length + 1 ≠ v.prev := by omega
        simp [h1, e1]
      · simp [h1, h2]
  · intro k
    simp only [St.pv_setNext, St.pv_setPrev, p1]
    by_cases h1 : k = v.next
    · subst h1
      have : ∃ j, st.pv v.next = some j := ⟨st.vs[v.next].prev, by simp [St.pv, hn]⟩
      obtain ⟨j, hj⟩ := this
      have e1 : v.next ≠ st.vs.length := by omega
      have e2 : v.next ≠ st.vs.length + 1 := by omega
      by_cases h2 : v.next = x
      · rw [if_pos rfl, if_pos rfl, if_neg e2, if_pos h2]; rfl
      · simp [*]
    · simp [h1]
  · intro k; simp [l1]
  · intro k; simp [v1]
  · intro k; simp [co1]

theorem getV_total {st : St S} {i : Nat} (h : i < st.vs.length) :
    ∃ v, st.getV i = .ok v ∧ st.vs[i]? = some v := by
  obtain ⟨v, hv⟩ := getElem?_of_lt h
  exact ⟨v, getV_ok.2 hv, hv⟩

/-- what a new list contributes to the node of the split: nothing when it is kept, else the point
of the vertex after its head -/
def SinkOf (st : St S) (R : Nat → List Nat) (l : Nat) (s : List (V2 S)) : Prop :=
  (2 < (R l).length ∧ s = []) ∨ ((R l).length ≤ 2 ∧ ∃ o n c, st.lavs[l]? = some o ∧
    st.nx o.head = some n ∧ st.co n = some c ∧ s = [c.point])

/-- new lists with more than two vertices are kept, the others vanish -/
theorem keepOrCollapse_ok {R : Nat → List Nat} {W : Nat → Prop} (X : List Nat) {st : St S}
    (h : Rings st R (st.slav ++ X) W) (sinks : List (V2 S)) (heads : List Nat)
    (hh : ∀ i ∈ heads, ∃ l ∈ st.slav, i ∈ R l) :
    ∃ st' sinks' heads', keepOrCollapse st sinks heads X = .ok (st', sinks', heads') ∧
      Rings st' R st'.slav W ∧
      st'.slav = st.slav ++ X.filter (fun l => decide (2 < (R l).length)) ∧
      (∀ i ∈ heads', ∃ l ∈ st'.slav, i ∈ R l) ∧
      heads' = heads ++ (X.filter (fun l => decide (2 < (R l).length))).filterMap
        (fun l => (st.lavs[l]?).map LavObj.head) ∧
      st'.nx = st.nx ∧ st'.pv = st.pv ∧ st'.co = st.co ∧
      (∀ k, st'.vd k = if ∃ l ∈ X, (R l).length ≤ 2 ∧ k ∈ R l then some false else st.vd k) ∧
      st'.vs.length = st.vs.length ∧ st'.lavs.length = st.lavs.length ∧ st'.orig = st.orig ∧
      ∃ E, sinks' = sinks ++ E.flatten ∧ List.Forall₂ (SinkOf st R) X E := by
  induction X generalizing st sinks heads with
  | nil =>
    refine ⟨st, sinks, heads, rfl, by simpa using h, by simp, hh, by simp, rfl, rfl, rfl, ?_, rfl,
      rfl, rfl, [], by simp, .nil⟩
    simp
  | cons l X ih =>
    have hl : l ∈ st.slav ++ l :: X := by simp
    obtain ⟨o, ho, hoh, hol⟩ := h.lav l hl
    unfold keepOrCollapse
    rw [getL_ok.2 ho, ok_bind]
    by_cases h3 : o.len > 2
    · rw [if_pos h3]
      have hR : Rings { st with slav := st.slav ++ [l] } R
          (({ st with slav := st.slav ++ [l] } : St S).slav ++ X) W := by
        have := h.slav (st.slav ++ [l])
        simpa using this
      obtain ⟨t, s', hd', ht, hr, hsl, hheads, hlen, n, p, c, d, len, ll, og, E, hE, hF⟩ := ih hR sinks
        (heads ++ [o.head]) (by
          intro i hi
          rcases List.mem_append.1 hi with hi | hi
          · obtain ⟨l', hl', hm⟩ := hh i hi
            exact ⟨l', by simp [hl'], hm⟩
          · simp only [List.mem_singleton] at hi
            exact ⟨l, by simp, hi ▸ hoh⟩)
      have hdec : decide (2 < (R l).length) = true := by simp; omega
      refine ⟨t, s', hd', ht, hr, ?_, hheads, ?_, n, p, c, ?_, len, ll, og,
        [] :: E, by simpa using hE, .cons (Or.inl ⟨by omega, rfl⟩) hF⟩
      · rw [hsl, List.filter_cons, if_pos hdec]; simp
      · rw [hlen, List.filter_cons, if_pos hdec]
        simp [ho]
      · intro k
        rw [d]
        have : (∃ l_1 ∈ X, (R l_1).length ≤ 2 ∧ k ∈ R l_1) ↔
            ∃ l_1 ∈ l :: X, (R l_1).length ≤ 2 ∧ k ∈ R l_1 := by
          constructor
          · rintro ⟨a, ha, hb⟩; exact ⟨a, List.mem_cons_of_mem _ ha, hb⟩
          · rintro ⟨a, ha, hb⟩
            rcases List.mem_cons.1 ha with rfl | ha
            · omega
            · exact ⟨a, ha, hb⟩
        simp only [this]
        rfl
    · rw [if_neg h3]
      obtain ⟨vs, hvs, hvp, hvc⟩ := h.listLav hl
      have hc := h.closed l hl
      obtain ⟨w, hw, hw'⟩ := getV_total (hc.lt _ hoh)
      obtain ⟨u, hu, hu'⟩ := getV_total (hc.lt _ (hc.nx_mem hoh (vs_fields hw').1).1)
      rw [hw, ok_bind, hu, ok_bind, hvs, ok_bind]
      have hd := h.drop hl
      obtain ⟨t, ht, hr, n, p, c, d, ll, sl, len, og, la⟩ := hd.kill (vs := vs)
        (fun v hv => Or.inr (hvp.mem_iff.1 hv))
      rw [ht, ok_bind]
      have hndA := h.nodup
      have her : (st.slav ++ l :: X).erase l = st.slav ++ X := by
        have hnm : l ∉ st.slav := by
          intro hm
          rw [List.nodup_append] at hndA
          exact hndA.2.2 l hm l (by simp) rfl
        rw [List.erase_append_right _ hnm]
        simp
      rw [her] at hr la
      have hr' : Rings t R (t.slav ++ X) W := by
        rw [sl]
        refine hr.congrW (fun v => ?_)
        rw [hvp.mem_iff]
        constructor
        · rintro ⟨hw | hw, hn⟩
          · exact hw
          · exact absurd hw hn
        · intro hw
          exact ⟨Or.inl hw, h.stray_notMem hl hw⟩
      obtain ⟨t', s', hd', ht', hr', hsl, hheads, hlen, n', p', c', d', len', ll', og', E, hE, hF⟩ := ih hr'
        (sinks ++ [u.point]) heads (by
          intro i hi
          obtain ⟨l', hl', hm⟩ := hh i hi
          exact ⟨l', by rw [sl]; exact hl', hm⟩)
      have hdec : ¬ (decide (2 < (R l).length) = true) := by simp; omega
      have hF' : List.Forall₂ (SinkOf st R) X E := by
        have : ∀ X' E', (∀ m ∈ X', m ∈ X) → List.Forall₂ (SinkOf t R) X' E' →
            List.Forall₂ (SinkOf st R) X' E' := by
          intro X' E' hX' hF'
          induction hF' with
          | nil => exact .nil
          | cons h1 _ ih =>
            refine .cons ?_ (ih (fun m hm => hX' m (by simp [hm])))
            unfold SinkOf at h1 ⊢
            rwa [la _ (by have := hX' _ (List.mem_cons_self); simp [this]), n, c] at h1
        exact this X E (fun _ h => h) hF
      refine ⟨t', s', hd', ht', hr', ?_, hheads, ?_, n'.trans n, p'.trans p, c'.trans c, ?_,
        len'.trans len, ll'.trans ll, og'.trans og, [u.point] :: E, by simpa using hE,
        .cons (Or.inr ⟨by omega, o, w.next, u.core, ho, (vs_fields hw').1,
          (vs_fields hu').2.2.2.2, rfl⟩) hF'⟩
      · rw [hsl, sl, List.filter_cons, if_neg hdec]
      · rw [hlen, List.filter_cons, if_neg hdec]
        congr 1
        refine List.filterMap_congr (fun m hm => ?_)
        rw [la _ (by have := List.mem_of_mem_filter hm; simp [this])]
      · intro k
        rw [d', d]
        by_cases h1 : ∃ l_1 ∈ X, (R l_1).length ≤ 2 ∧ k ∈ R l_1
        · obtain ⟨a, ha, hb⟩ := h1
          rw [if_pos ⟨a, ha, hb⟩, if_pos ⟨a, List.mem_cons_of_mem _ ha, hb⟩]
        · rw [if_neg h1]
          by_cases h2 : k ∈ vs
          · rw [if_pos h2, if_pos ⟨l, by simp, by omega, hvp.mem_iff.1 h2⟩]
          · rw [if_neg h2, if_neg]
            rintro ⟨a, ha, hb⟩
            rcases List.mem_cons.1 ha with rfl | ha
            · exact h2 (hvp.mem_iff.2 hb.2)
            · exact h1 ⟨a, ha, hb⟩

theorem nextEvents_total {R : Nat → List Nat} {A : List Nat} {W : Nat → Prop} {st : St S}
    (h : Rings st R A W) (heads : List Nat) (hh : ∀ i ∈ heads, ∃ l ∈ A, i ∈ R l) :
    ∃ es, nextEvents st heads = .ok es := by
  induction heads with
  | nil => exact ⟨[], rfl⟩
  | cons i is ih =>
    obtain ⟨l, hl, hi⟩ := hh i (by simp)
    obtain ⟨e, he⟩ := h.nextEvent hl hi
    obtain ⟨es, hes⟩ := ih (fun j hj => hh j (List.mem_cons_of_mem _ hj))
    unfold nextEvents
    rw [he, ok_bind, hes, ok_bind]
    exact ⟨_, rfl⟩

/-- what `next_event` reads -/
theorem nextEvent_congr {st st' : St S} {i : Nat} (hn : st'.nx i = st.nx i) (hp : st'.pv i = st.pv i)
    (hl : st'.lv i = st.lv i) (hc : st'.co = st.co) (ho : st'.orig = st.orig)
    : nextEvent st' i = nextEvent st i := by
  have hget : ∀ j, (st'.getV j).map Vtx.core = (st.getV j).map Vtx.core := by
    intro j
    have := congrFun hc j
    unfold St.co at this
    unfold St.getV
    cases h1 : st.vs[j]? <;> cases h2 : st'.vs[j]? <;> simp_all [Except.map]
  unfold nextEvent
  cases h1 : st.vs[i]? with
  | none =>
    have := congrFun hc i
    unfold St.co at this
    have h2 : st'.vs[i]? = none := by simpa [h1] using this
    simp [St.getV, h1, h2]
  | some v =>
    obtain ⟨n1, p1, l1, -, c1⟩ := vs_fields h1
    cases h2 : st'.vs[i]? with
    | none =>
      have := congrFun hc i
      simp [St.co, h1, h2] at this
    | some v' =>
      obtain ⟨n2, p2, l2, -, c2⟩ := vs_fields h2
      have en : v'.next = v.next := by rw [hn, n1] at n2; simpa using n2.symm
      have ep : v'.prev = v.prev := by rw [hp, p1] at p2; simpa using p2.symm
      have el : v'.lav = v.lav := by rw [hl, l1] at l2; simpa using l2.symm
      have ec : v'.core = v.core := by rw [hc, c1] at c2; simpa using c2.symm
      rw [getV_ok.2 h1, getV_ok.2 h2, ok_bind, ok_bind, en, ep]
      have ev : v' = { v with valid := v'.valid } := by
        cases v; cases v'; simp_all [Vtx.core]
      have es : splitsOf st' i v' = splitsOf st i v := by
        rw [ev]
        unfold splitsOf
        rw [ho]
        rfl
      rw [es]
      congr 1
      funext sp
      have h3 := hget v.prev
      have h4 := hget v.next
      have key : ∀ {a b : Vtx S} {e : Edge2 S} {x y : Nat}, a.core = b.core →
          edgeOf v' a e x y = edgeOf v b e x y := by
        intro a b e x y h
        have hb : a.bisector = b.bisector := congrArg Core.bisector h
        have hb' : v'.bisector = v.bisector := congrArg Core.bisector ec
        unfold edgeOf
        rw [hb, hb']
      have ke1 : v'.edgePrev = v.edgePrev := congrArg Core.edgePrev ec
      have ke2 : v'.edgeNext = v.edgeNext := congrArg Core.edgeNext ec
      have kp : v'.point = v.point := congrArg Core.point ec
      cases h5 : st.getV v.prev <;> cases h6 : st'.getV v.prev <;>
        rw [h5, h6] at h3 <;> simp only [Except.map, reduceCtorEq, Except.error.injEq,
          Except.ok.injEq] at h3
      · subst h3; rfl
      · cases h7 : st.getV v.next <;> cases h8 : st'.getV v.next <;>
          rw [h7, h8] at h4 <;> simp only [Except.map, reduceCtorEq, Except.error.injEq,
            Except.ok.injEq] at h4
        · subst h4; rfl
        · simp only [ok_bind]
          unfold edgesOf nearest
          rw [ke1, ke2, kp, key h3, key h4, en, ep]

theorem nextEvents_congr {st st' : St S} {vs : List Nat}
    (h : ∀ i ∈ vs, nextEvent st' i = nextEvent st i) : nextEvents st' vs = nextEvents st vs := by
  induction vs with
  | nil => rfl
  | cons v vs ih =>
    unfold nextEvents
    rw [h v (by simp), ih (fun i hi => h i (by simp [hi]))]

end Polyskel
