import Verif.Proofs.Moments
/-
What one event does to the loops of the wavefront, together with the node that it produces.
-/
namespace Polyskel
open Scalar
set_option linter.unusedSectionVars false
variable {S : Type} [Scalar S]

/-- the point of a vertex -/
def St.pt (st : St S) (i : Nat) : Option (V2 S) := (st.co i).map Core.point

theorem pt_of {st : St S} {i : Nat} {v : Vtx S} (h : st.vs[i]? = some v) :
    st.pt i = some v.point := by
  simp only [St.pt, (vs_fields h).2.2.2.2, Option.map_some]
  rfl

theorem pt_congr {st st' : St S} (h : st'.co = st.co) : st'.pt = st.pt := by
  funext k; rw [St.pt, h]; rfl

/-- One event: the loops `R` of the heap `st` become `R'` of `st'`, and the nodes are `arcs`. -/
inductive Tally (st : St S) (R : Nat → List Nat) (ev : Event S) :
    St S → (Nat → List Nat) → List (Subtree S) → Prop where
  /-- nothing happens -/
  | idle (hnj : ¬ JoinsLoops st ev) (hnd : ¬ Dormers st ev) : Tally st R ev st R []
  /-- two neighbours become one vertex -/
  | unify {e : EdgeEv S} {l : Nat} {P : List Nat} {st' : St S} {pa pb : V2 S} (hev : ev = .edge e)
      (hl : l ∈ st.slav) (hp : (e.a :: e.b :: P).Perm (R l)) (hsl : st'.slav = st.slav)
      (hlen : st'.vs.length = st.vs.length + 1)
      (ha : st.pt e.a = some pa) (hb : st.pt e.b = some pb)
      (hpt : ∀ k, st'.pt k = if k = st.vs.length then some e.pt else st.pt k)
      (hvd : ∀ k, st'.vd k = if k = st.vs.length then some true
        else if k = e.a ∨ k = e.b then some false else st.vd k) :
      Tally st R ev st' (fun l' => if l' = l then st.vs.length :: P else R l')
        [{ source := e.pt, height := e.dist, sinks := [pa, pb] }]
  /-- the last three vertices of a loop meet -/
  | peak {e : EdgeEv S} {l : Nat} {st' : St S} {vs : List Nat} {sinks : List (V2 S)}
      (hev : ev = .edge e) (hl : l ∈ st.slav) (h3 : (R l).length = 3) (hp : vs.Perm (R l))
      (hs : List.Forall₂ (fun i p => st.pt i = some p) vs sinks)
      (hsl : st'.slav = st.slav.erase l) (hlen : st'.vs.length = st.vs.length)
      (hpt : st'.pt = st.pt)
      (hvd : ∀ k, st'.vd k = if k ∈ R l then some false else st.vd k) :
      Tally st R ev st' R [{ source := e.pt, height := e.dist, sinks }]
  /-- a loop is cut in two -/
  | cut {e : SplitEv S} {l : Nat} {P Q U V : List Nat} {st' : St S} {pv : V2 S}
      {sQ sP : List (V2 S)} (hev : ev = .split e)
      (hnj : ¬ JoinsLoops st ev)
      (hl : l ∈ st.slav) (hp : (e.vertex :: (P ++ Q)).Perm (R l))
      (hP : P ≠ []) (hQ : Q ≠ [])
      (hU : U.Perm (st.vs.length :: Q)) (hV : V.Perm ((st.vs.length + 1) :: P))
      (hv : st.pt e.vertex = some pv) (hsQ : Lone st Q sQ) (hsP : Lone st P sP)
      (hsl : st'.slav = st.slav.erase l ++ ((if 2 ≤ Q.length then [st.lavs.length] else []) ++
        if 2 ≤ P.length then [st.lavs.length + 1] else []))
      (hlen : st'.vs.length = st.vs.length + 2)
      (hpt : ∀ k, st'.pt k = if k = st.vs.length ∨ k = st.vs.length + 1 then some e.pt
        else st.pt k)
      (hvd : ∀ k, st'.vd k = if k = e.vertex ∨ (Q.length = 1 ∧ (k = st.vs.length ∨ k ∈ Q)) ∨
          (P.length = 1 ∧ (k = st.vs.length + 1 ∨ k ∈ P)) then some false
        else if k = st.vs.length + 1 then some true
        else if k = st.vs.length then some true else st.vd k) :
      Tally st R ev st' (fun k => if k = st.lavs.length + 1 then V else if k = st.lavs.length then U
        else R k) [{ source := e.pt, height := e.dist, sinks := pv :: (sQ ++ sP) }]
  /-- two loops become one -/
  | join {e : SplitEv S} {l m : Nat} {T Q U : List Nat} {st' : St S} {pv : V2 S}
      (hev : ev = .split e) (hj : JoinsLoops st ev)
      (hl : l ∈ st.slav) (hm : m ∈ st.slav) (hml : m ≠ l)
      (hp : (e.vertex :: T).Perm (R l)) (hQ : Q.Perm (R m))
      (hU : U.Perm (st.vs.length :: (Q ++ (st.vs.length + 1) :: T)))
      (hv : st.pt e.vertex = some pv)
      (hsl : st'.slav = (st.slav.erase l).erase m ++ [st.lavs.length])
      (hlen : st'.vs.length = st.vs.length + 2)
      (hpt : ∀ k, st'.pt k = if k = st.vs.length ∨ k = st.vs.length + 1 then some e.pt
        else st.pt k)
      (hvd : ∀ k, st'.vd k = if k = e.vertex then some false
        else if k = st.vs.length + 1 then some true
        else if k = st.vs.length then some true else st.vd k) :
      Tally st R ev st' (fun k => if k = st.lavs.length then U else R k)
        [{ source := e.pt, height := e.dist, sinks := [pv] }]
  /-- four vertices in a row leave -/
  | dormer {d : S} {q : Option (V2 S)} {e0 e1 : SplitEv S} {e2 : EdgeEv S} {l x y : Nat}
      {Q U : List Nat} {st' : St S} {p0 p1 pa pb p : V2 S} (hev : ev = .dormer d q e0 e1 e2)
      (hv0 : st.vd e0.vertex = some true) (hv1 : st.vd e1.vertex = some true)
      (hl : l ∈ st.slav) (hlk : Link st e0.vertex x ∧ Link st x y ∧ Link st y e1.vertex)
      (hp : (e0.vertex :: x :: y :: e1.vertex :: Q).Perm (R l)) (hU : U.Perm Q)
      (h0 : st.pt e0.vertex = some p0) (h1 : st.pt e1.vertex = some p1)
      (ha : st.pt e2.a = some pa) (hb : st.pt e2.b = some pb)
      (hsl : st'.slav = st.slav.erase l ++ [st.lavs.length])
      (hlen : st'.vs.length = st.vs.length) (hpt : st'.pt = st.pt)
      (hvd : ∀ k, st'.vd k = if k ∈ [e0.vertex, x, e1.vertex, y] then some false else st.vd k) :
      Tally st R ev st' (fun k => if k = st.lavs.length then U else R k)
        [{ source := e2.pt, height := e2.dist, sinks := [pa, pb, p] },
         { source := p, height := (e0.dist +. e1.dist) /. lit 2 1, sinks := [p0, p1] }]

theorem pt_splitCore {st st' : St S} {v : Vtx S} {ev : SplitEv S}
    (c : ∀ k, st'.co k = if k = st.vs.length + 1 then some (splitCore v ev false)
        else if k = st.vs.length then some (splitCore v ev true) else st.co k) (k : Nat) :
    st'.pt k = if k = st.vs.length ∨ k = st.vs.length + 1 then some ev.pt else st.pt k := by
  unfold St.pt
  rw [c]
  by_cases h1 : k = st.vs.length + 1
  · rw [if_pos h1, if_pos (Or.inr h1)]; rfl
  · by_cases h2 : k = st.vs.length
    · rw [if_neg h1, if_pos h2, if_pos (Or.inl h2)]; rfl
    · rw [if_neg h1, if_neg h2, if_neg (by tauto)]

/-- every apt event that is handled has such a description -/
theorem handleEvent_tally {st : St S} {R : Nat → List Nat} (h : Loops st R) {ev : Event S}
    (hk : Known st ev) (hap : Apt st ev) {st' : St S} {arcs : List (Subtree S)}
    {es : List (Event S)} (he : handleEvent st ev = .ok (some (st', arcs, es))) :
    ∃ R', Loops st' R' ∧ Tally st R ev st' R' arcs := by
  cases ev with
  | edge e =>
    obtain ⟨va, hva, hva'⟩ := getV_total hk.1
    obtain ⟨vb, hvb, hvb'⟩ := getV_total hk.2
    unfold handleEvent at he
    simp only at he
    rw [hva, ok_bind, hvb, ok_bind] at he
    by_cases hc : va.valid = true ∧ vb.valid = true
    · have hlk := hap va vb hva' hvb' hc.1 hc.2
      obtain ⟨l, hl, hlv, hm⟩ := h.lavOf hva' hc.1
      have : (!va.valid || !vb.valid) = false := by simp [hc.1, hc.2]
      rw [this] at he
      simp only [Bool.false_eq_true, if_false] at he
      obtain ⟨out, ho, he⟩ := bind_ok.1 he
      simp only [pure_ok, Except.ok.injEq, Option.some.injEq] at he
      subst he
      by_cases hpk : va.prev = vb.next
      · obtain ⟨t, sinks, e1, hL, h3, -, hsl, hlen, hco, -, -, -, hvd⟩ :=
          handleEdge_peak h hl hm (link_iff.1 hlk).1 hva' hvb' hpk
        obtain ⟨va', vb', sinks', g1, g2, g3, g4⟩ := C47_edge ho
        rw [e1] at ho
        simp only [Except.ok.injEq, Prod.mk.injEq] at ho
        obtain ⟨rfl, rfl, rfl⟩ := ho
        rw [hva'] at g1
        rw [hvb'] at g2
        simp only [Option.some.injEq] at g1 g2
        subst g1 g2
        rcases g4 with ⟨g4, -⟩ | ⟨-, -, l', o, vs, g5, -, -, g6, g7, g8, -⟩
        · exact absurd hpk g4
        · have : l' = l := by rw [hlv] at g5; simpa using g5.symm
          subst this
          simp only [List.cons.injEq, Subtree.mk.injEq, true_and, and_true] at g3
          subst g3
          obtain ⟨us, hus, husp, -⟩ := h.listLav hl
          have : us = vs := by
            have := listLav_ok.2 ⟨o, g6, g7⟩
            rw [hus] at this
            simpa using this
          subst this
          refine ⟨R, hL, .peak rfl hl h3 husp (g8.imp ?_) hsl hlen (pt_congr hco) hvd⟩
          rintro i p ⟨w, hw, rfl⟩
          exact pt_of hw
      · obtain ⟨t, es', P, e1, hp, hL, hsl, hlen, -, -, -, -, hvd, hco⟩ :=
          handleEdge_unify h hl hm (link_iff.1 hlk).1 hva' hvb' hpk
        rw [e1] at ho
        simp only [Except.ok.injEq, Prod.mk.injEq] at ho
        obtain ⟨rfl, rfl, rfl⟩ := ho
        refine ⟨_, hL, .unify rfl hl hp hsl hlen (pt_of hva') (pt_of hvb') ?_ hvd⟩
        intro k
        unfold St.pt
        rw [hco]
        split
        · rfl
        · rfl
    · have : (!va.valid || !vb.valid) = true := by
        cases h1 : va.valid <;> cases h2 : vb.valid <;> simp_all
      rw [this] at he
      simp at he
  | split e =>
    obtain ⟨v, hv, hv'⟩ := getV_total hk
    unfold handleEvent at he
    simp only at he
    rw [hv, ok_bind] at he
    cases hc : v.valid with
    | false => rw [hc] at he; simp at he
    | true =>
      obtain ⟨l, hl, hlv, hi⟩ := h.lavOf hv' hc
      rw [hc] at he
      simp only [Bool.not_true, Bool.false_eq_true, if_false] at he
      obtain ⟨out, ho, he⟩ := bind_ok.1 he
      simp only [pure_ok, Except.ok.injEq, Option.some.injEq] at he
      subst he
      obtain ⟨r, hr⟩ := h.splitSearch e
      unfold handleSplit at ho
      rw [hr, ok_bind] at ho
      cases r with
      | none =>
        simp only [pure_ok, Except.ok.injEq, Prod.mk.injEq] at ho
        obtain ⟨rfl, rfl, rfl⟩ := ho
        refine ⟨R, h, .idle ?_ ?_⟩
        · rintro ⟨e', w, x', y', wx, h1, h2, h3, h4, h5, h6⟩
          simp only [Event.split.injEq] at h1
          subst h1
          rw [hr] at h4
          cases h4
        · rintro ⟨d, p, e0, e1, e2, v0, v1, h1, -⟩
          cases h1
      | some xy =>
        obtain ⟨x, y⟩ := xy
        simp only at ho
        obtain ⟨m, hm, hx, hy, hlk⟩ := h.splitPair hr
        have hlx : ∀ vx, st.vs[x]? = some vx → vx.lav = some m := by
          intro vx hvx
          have := (h.mem m hm x).1 hx
          rw [(vs_fields hvx).2.2.1] at this
          simpa using this
        have hxl := (h.closed m hm).lt _ hx
        obtain ⟨vx, -, hvx⟩ := getV_total hxl
        by_cases hml : m = l
        · subst hml
          have hs : ¬ (x = e.vertex ∨ y = e.vertex) := fun hs =>
            splitAt_self h hl hi hx hlk hs _ ho
          simp only [not_or] at hs
          obtain ⟨P, Q, U, V, t, arcs', es', e1, hp, -, hPy, hQx, hU, hV, hL, hsl, v', hv'', -, hco,
            hlen, hvd, sQ, sP, hsQ, hsP, harcs, -⟩ := splitAt_same h hl hi hx hlk hs.1 hs.2
          rw [e1] at ho
          simp only [Except.ok.injEq, Prod.mk.injEq] at ho
          obtain ⟨rfl, rfl, rfl⟩ := ho
          subst harcs
          rw [hv'] at hv''
          simp only [Option.some.injEq] at hv''
          subst hv''
          refine ⟨_, hL, .cut rfl ?_ hl hp ?_ ?_ hU hV (pt_of hv') hsQ hsP hsl hlen
            (pt_splitCore hco) hvd⟩
          · rintro ⟨e', w, x', y', wx, h1, h2, h3, h4, h5, h6⟩
            simp only [Event.split.injEq] at h1
            subst h1
            rw [hr] at h4
            simp only [Except.ok.injEq, Option.some.injEq, Prod.mk.injEq] at h4
            obtain ⟨rfl, rfl⟩ := h4
            rw [hv'] at h2
            simp only [Option.some.injEq] at h2
            subst h2
            exact h6 (by rw [hlx wx h5, hlv])
          · rintro rfl; simp at hPy
          · rintro rfl; simp at hQx
        · obtain ⟨T, Q, U, t, arcs', es', e1, hp, -, hQ, -, -, -, hU, hL, hsl, v', hv'', -, hco,
            hlen, hvd, harcs, -⟩ := splitAt_other h hl hi hm hml hx hlk
          rw [e1] at ho
          simp only [Except.ok.injEq, Prod.mk.injEq] at ho
          obtain ⟨rfl, rfl, rfl⟩ := ho
          subst harcs
          rw [hv'] at hv''
          simp only [Option.some.injEq] at hv''
          subst hv''
          refine ⟨_, hL, .join rfl ?_ hl hm hml hp hQ hU (pt_of hv') hsl hlen
            (pt_splitCore hco) hvd⟩
          refine ⟨e, v, x, y, vx, rfl, hv', hc, hr, hvx, ?_⟩
          rw [hlx vx hvx, hlv]
          simpa using hml
  | dormer d p e0 e1 e2 =>
    obtain ⟨v0, hv0, hv0'⟩ := getV_total hk.1
    obtain ⟨v1, hv1, hv1'⟩ := getV_total hk.2.1
    unfold handleEvent at he
    simp only at he
    rw [hv0, ok_bind, hv1, ok_bind] at he
    by_cases hc : v0.valid = true ∧ v1.valid = true
    · obtain ⟨⟨x, y, a1, a2, a3⟩, l', o, hl', ho', h7⟩ := hap v0 v1 hv0' hv1' hc.1 hc.2
      obtain ⟨l, hl, hlv, hm⟩ := h.lavOf hv0' hc.1
      have : l' = l := by rw [hlv] at hl'; simpa using hl'.symm
      subst this
      obtain ⟨o', ho'', -, hlen⟩ := h.lav l' hl
      rw [ho'] at ho''
      simp only [Option.some.injEq] at ho''
      subst ho''
      have : (!v0.valid || !v1.valid) = false := by simp [hc.1, hc.2]
      rw [this] at he
      simp only [Bool.false_eq_true, if_false] at he
      obtain ⟨out, ho, he⟩ := bind_ok.1 he
      simp only [pure_ok, Except.ok.injEq, Option.some.injEq] at he
      subst he
      obtain ⟨w0, w1, hw0, hw1, hcase⟩ := handleDormer_loops (e2 := e2) h hl hm
        (by rw [seg_cons, seg_cons, seg_nil]; exact ⟨a1, a2, a3⟩) (by omega) hk.2.2.1 hk.2.2.2
      rcases hcase with ⟨hn, he'⟩ | ⟨-, Q, U, t, arcs', he', hp, hU, hL, hsl, hlen, hco, hvd⟩
      · rw [he'] at ho; cases ho
      · obtain ⟨-, h47⟩ := C47_dormer ho
        rw [he'] at ho
        simp only [Except.ok.injEq, Prod.mk.injEq] at ho
        obtain ⟨rfl, rfl, rfl⟩ := ho
        rcases h47 with ⟨-, -, v, g1, g2⟩ | ⟨vp, vn, pa, pb, q, g1, g2, g3, g4, -, g6, -⟩
        · rw [hv0'] at g1
          simp only [Option.some.injEq] at g1
          subst g1
          rw [hlv] at g2; cases g2
        · subst g6
          exact ⟨_, hL, .dormer rfl (by rw [(vs_fields hv0').2.2.2.1, hc.1])
            (by rw [(vs_fields hv1').2.2.2.1, hc.2]) hl ⟨a1, a2, a3⟩ hp hU (pt_of g1) (pt_of g2)
            (pt_of g3) (pt_of g4) hsl hlen (pt_congr hco) hvd⟩
    · have : (!v0.valid || !v1.valid) = true := by
        cases h1 : v0.valid <;> cases h2 : v1.valid <;> simp_all
      rw [this] at he
      simp at he

/-- … and so has an event that is ignored -/
theorem handleEvent_none_tally {st : St S} {R : Nat → List Nat} {ev : Event S}
    (he : handleEvent st ev = .ok none) : Tally st R ev st R [] := by
  refine .idle ?_ ?_
  · rintro ⟨e, v, x, y, vx, rfl, hv, hval, -⟩
    unfold handleEvent at he
    simp only at he
    rw [getV_ok.2 hv, ok_bind, hval] at he
    simp only [Bool.not_true, Bool.false_eq_true, if_false] at he
    obtain ⟨out, -, he⟩ := bind_ok.1 he
    simp at he
  · rintro ⟨d, p, e0, e1, e2, v0, v1, rfl, h0, h1, hv0, hv1⟩
    unfold handleEvent at he
    simp only at he
    rw [getV_ok.2 h0, ok_bind, getV_ok.2 h1, ok_bind, hv0, hv1] at he
    simp only [Bool.not_true, Bool.or_self, Bool.false_eq_true, if_false] at he
    obtain ⟨out, -, he⟩ := bind_ok.1 he
    simp at he

/-- induction over the events of a run, with the list of the moments so far -/
theorem mainLoop_trace (I : List (St S × Event S) → Loop S → List (Event S) → Prop)
    (Q : St S → Event S → Prop)
    (hstep : ∀ tr lp e es lp', I tr lp (e :: es) → Q lp.st e → stepEvent lp e = .ok lp' →
      I (tr ++ [(lp.st, e)]) lp' es)
    (htake : ∀ tr lp batch q, I tr lp [] → getAllEqualDistance lp.queue = some (batch, q) →
      I tr { lp with queue := q } batch) (k : Nat) (tr : List (St S × Event S)) (lp lp' : Loop S)
    (h : I tr lp []) (hQ : ∀ a ∈ moments k lp, Q a.1 a.2)
    (hr : mainLoop k lp = some (.ok lp')) : I (tr ++ moments k lp) lp' [] := by
  have hbatch : ∀ (es : List (Event S)) (tr : List (St S × Event S)) (lp lp' : Loop S),
      I tr lp es → (∀ a ∈ batchMoments lp es, Q a.1 a.2) → stepBatch lp es = .ok lp' →
      I (tr ++ batchMoments lp es) lp' [] := by
    intro es
    induction es with
    | nil =>
      intro tr lp lp' h _ hr
      simp only [stepBatch, Except.ok.injEq] at hr
      subst hr
      simpa [batchMoments] using h
    | cons e es ih =>
      intro tr lp lp' h hQ hr
      unfold stepBatch at hr
      obtain ⟨lp1, h1, hr⟩ := bind_ok.1 hr
      unfold batchMoments at hQ ⊢
      rw [h1] at hQ ⊢
      simp only at hQ ⊢
      have := ih (tr ++ [(lp.st, e)]) lp1 lp' (hstep tr lp e es lp1 h (hQ (lp.st, e) (by simp)) h1)
        (fun a ha => hQ a (by simp [ha])) hr
      simpa using this
  induction k generalizing lp tr with
  | zero =>
    unfold mainLoop at hr
    split at hr
    · simp only [Option.some.injEq, Except.ok.injEq] at hr
      subst hr
      simpa [moments] using h
    · cases hr
  | succ k ih =>
    unfold mainLoop at hr
    unfold moments at hQ ⊢
    by_cases hfin : (lp.queue.isEmpty || lp.st.slav.isEmpty) = true
    · rw [if_pos hfin] at hr ⊢
      simp only [Option.some.injEq, Except.ok.injEq] at hr
      subst hr
      simpa using h
    · rw [if_neg hfin] at hr hQ ⊢
      cases hq : getAllEqualDistance lp.queue with
      | none =>
        exfalso
        rw [(C09_getAllEqualDistance_perm lp.queue).1] at hq
        simp [hq] at hfin
      | some bq =>
        obtain ⟨batch, q⟩ := bq
        rw [hq] at hr hQ
        simp only at hr hQ ⊢
        cases hb : stepBatch { lp with queue := q } batch with
        | error e => rw [hb] at hr; simp at hr
        | ok lp1 =>
          rw [hb] at hr hQ
          simp only at hr hQ ⊢
          have h1 := hbatch batch tr _ lp1 (htake tr lp batch q h hq)
            (fun a ha => hQ a (by simp [ha])) hb
          have := ih _ lp1 h1 (fun a ha => hQ a (by simp [ha])) hr
          simpa using this

/-- induction over the events of a run, all of them apt -/
theorem mainLoop_tally
    (J : List (St S × Event S) → St S → (Nat → List Nat) → List (Subtree S) → Prop)
    (Q : St S → Event S → Prop)
    (hstep : ∀ tr st R out ev st' R' arcs, J tr st R out → Loops st R → Q st ev →
      Tally st R ev st' R' arcs → Loops st' R' → J (tr ++ [(st, ev)]) st' R' (out ++ arcs))
    (k : Nat) (lp lp' : Loop S) (hS : Sound lp.st lp.queue)
    (h : ∃ R, Loops lp.st R ∧ J [] lp.st R lp.out)
    (hQ : ∀ a ∈ moments k lp, Apt a.1 a.2 ∧ Q a.1 a.2)
    (hr : mainLoop k lp = some (.ok lp')) :
    ∃ R, Loops lp'.st R ∧ J (moments k lp) lp'.st R lp'.out := by
  have := mainLoop_trace (fun tr lp es => (∃ R, Loops lp.st R ∧ J tr lp.st R lp.out) ∧
      ∀ e ∈ es ++ lp.queue, Pending lp.st e) (fun st ev => Apt st ev ∧ Q st ev) ?_ ?_ k [] lp lp'
    ⟨h, by simpa using hS.2⟩ hQ hr
  · simpa using this.1
  · rintro tr lp e es lp' ⟨⟨R, hL, hJ⟩, hp⟩ ⟨hap, hq⟩ hst
    have hs : Sound lp.st (e :: es ++ lp.queue) := ⟨⟨R, hL⟩, hp⟩
    rcases stepEvent_sound hs hap with ⟨err, h1, -⟩ | ⟨lp'', h1, h2⟩
    · rw [h1] at hst; cases hst
    · rw [h1] at hst
      simp only [Except.ok.injEq] at hst
      subst hst
      refine ⟨?_, h2.2⟩
      unfold stepEvent at h1
      obtain ⟨r, hr, h1⟩ := bind_ok.1 h1
      cases r with
      | none =>
        simp only [pure_ok, Except.ok.injEq] at h1
        subst h1
        have := hstep tr lp.st R lp.out e lp.st R [] hJ hL hq (handleEvent_none_tally hr) hL
        exact ⟨R, hL, by simpa using this⟩
      | some r =>
        obtain ⟨st', arcs, evs⟩ := r
        simp only [pure_ok, Except.ok.injEq] at h1
        subst h1
        obtain ⟨R', hL', ht⟩ := handleEvent_tally hL (hp e (by simp)).known hap hr
        exact ⟨R', hL', hstep tr lp.st R lp.out e st' R' arcs hJ hL hq ht hL'⟩
  · rintro tr lp batch q ⟨hJ, hp⟩ hq
    exact ⟨hJ, (take_sound ⟨⟨_, hJ.choose_spec.1⟩, by simpa using hp⟩ hq).2⟩

end Polyskel
