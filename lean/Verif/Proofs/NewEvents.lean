import Verif.Spec.NewEvents
import Verif.Proofs.SweepRun
import Verif.Proofs.Tally
/-
Lemmas for C72.
-/
namespace Polyskel
open Scalar
variable {S : Type} [Scalar S]

theorem nextEvents_asked {st : St S} {vs : List Nat} {es : List (Event S)}
    (h : nextEvents st vs = .ok es) : ∀ i ∈ vs, Asked st es i := by
  induction vs generalizing es with
  | nil => simp
  | cons v vs ih =>
    unfold nextEvents at h
    obtain ⟨e1, h1, h⟩ := bind_ok.1 h
    obtain ⟨es1, h2, h⟩ := bind_ok.1 h
    simp only [pure_ok, Except.ok.injEq] at h
    subst h
    intro i hi
    rcases List.mem_cons.1 hi with rfl | hi
    · exact ⟨e1, h1, fun e he => by simp [he]⟩
    · obtain ⟨o, ho, hm⟩ := ih h2 i hi
      exact ⟨o, ho, fun e he => by simp [hm e he]⟩

/-- a vertex whose successor is not changed by an event, and which is still valid, was linked to it
before -/
theorem old_link {st st' : St S} {R : Nat → List Nat} (h : Loops st R) {N : Core S → Prop}
    (hf : Frame N st st') {i j : Nat} {v : Vtx S} (hlt : i < st.vs.length)
    (hv : st'.vs[i]? = some v) (hval : v.valid = true) (hn : st.nx i = some j) : Link st i j := by
  obtain ⟨w, hw⟩ := getElem?_of_lt hlt
  obtain ⟨w', hw', -, himp⟩ := hf.keep i w hw
  rw [hv] at hw'
  simp only [Option.some.injEq] at hw'
  subst hw'
  obtain ⟨l, hl, -, hi⟩ := h.lavOf hw (himp hval)
  exact link_iff.2 ⟨hn, ((h.closed l hl).nx_mem hi hn).2⟩

/-- what one event contributes -/
theorem handleEvent_asked {st st' : St S} {ev : Event S} (h : ClosedLoops st) (hap : Apt st ev)
    (hj : ¬ JoinsLoops st ev) (hd : ¬ Dormers st ev) {arcs : List (Subtree S)}
    {es : List (Event S)} (hr : handleEvent st ev = .ok (some (st', arcs, es))) {i j : Nat}
    (hn : Neighbours st' i j) (ho : ¬ Link st i j) : Asked st' es i ∨ Asked st' es j := by
  obtain ⟨R, hL⟩ := closedLoops_iff.1 h
  have hf := handleEvent_frame hr
  obtain ⟨hlk, ⟨vi, hvi, hvali⟩, vj, hvj, hvalj⟩ := hn
  obtain ⟨hnx, hpv⟩ := link_iff.1 hlk
  have hold : i < st.vs.length → st.nx i = some j → False := fun h1 h2 =>
    ho (old_link hL hf h1 hvi hvali h2)
  have hlti : i < st'.vs.length := (List.getElem?_eq_some_iff.1 hvi).1
  have hltj : j < st'.vs.length := (List.getElem?_eq_some_iff.1 hvj).1
  rcases handleEvent_cases hr with ⟨e, va, vb, rfl, hva, hvb, h1, h2, he⟩ |
    ⟨e, v, rfl, hv, h1, he⟩ | ⟨d, p, e0, e1, e2, v0, v1, rfl, h0, h1, h2, h3, -⟩
  · have hab := hap va vb hva hvb h1 h2
    obtain ⟨l, hl, -, ha⟩ := hL.lavOf hva h1
    by_cases hpk : va.prev = vb.next
    · obtain ⟨t, sinks, h4, -, -, -, -, -, -, n, -⟩ := handleEdge_peak hL hl ha
        (link_iff.1 hab).1 hva hvb hpk
      rw [h4] at he
      simp only [Except.ok.injEq, Prod.mk.injEq] at he
      obtain ⟨rfl, -, -⟩ := he
      rw [n] at hnx
      exact (hold (by
        by_contra hc
        unfold St.nx at hnx
        rw [List.getElem?_eq_none (by omega)] at hnx
        simp at hnx) hnx).elim
    · obtain ⟨r, hr1, hr2⟩ := handleEdge_unify_event hva hvb hpk he
      obtain ⟨t, es', P, h4, -, -, -, hlen, -, -, n, -⟩ := handleEdge_unify hL hl ha
        (link_iff.1 hab).1 hva hvb hpk
      rw [h4] at he
      simp only [Except.ok.injEq, Prod.mk.injEq] at he
      obtain ⟨rfl, -, rfl⟩ := he
      have hask : Asked t es' st.vs.length := ⟨r, hr1, fun e he => by rw [hr2, he]; simp⟩
      by_cases e1 : i = st.vs.length
      · subst e1; exact Or.inl hask
      by_cases e2 : j = st.vs.length
      · subst e2; exact Or.inr hask
      rw [n, if_neg e1] at hnx
      split at hnx
      · simp only [Option.some.injEq] at hnx; exact (e2 hnx.symm).elim
      · exact (hold (by omega) hnx).elim
  · obtain ⟨l, hl, hlv, hi⟩ := hL.lavOf hv h1
    unfold handleSplit at he
    obtain ⟨o, hs, he⟩ := bind_ok.1 he
    cases o with
    | none =>
      simp only [pure_ok, Except.ok.injEq, Prod.mk.injEq] at he
      obtain ⟨rfl, -⟩ := he
      exact (ho hlk).elim
    | some xy =>
      obtain ⟨x, y⟩ := xy
      simp only at he
      obtain ⟨m, hm, hx, hy, hyx⟩ := hL.splitPair hs
      have hxl := (hL.closed m hm).lt _ hx
      obtain ⟨vx, -, hvx⟩ := getV_total hxl
      have hlx : vx.lav = some m := by
        have := (hL.mem m hm x).1 hx
        rw [(vs_fields hvx).2.2.1] at this
        simpa using this
      have hml : m = l := by
        by_contra hne
        exact hj ⟨e, v, x, y, vx, rfl, hv, h1, hs, hvx, by
          rw [hlx, hlv]; simpa using hne⟩
      subst hml
      have hse : ¬ (x = e.vertex ∨ y = e.vertex) := fun hc => splitAt_self hL hl hi hx hyx hc _ he
      simp only [not_or] at hse
      obtain ⟨P, Q, U, V, t, arcs', es', e1, hp, -, hPy, hQx, hU, hV, -, -, v', hv'', n, -,
        hlen, hvd, sQ, sP, -, -, -, hes⟩ := splitAt_same hL hl hi hx hyx hse.1 hse.2
      rw [e1] at he
      simp only [Except.ok.injEq, Prod.mk.injEq] at he
      obtain ⟨rfl, -, rfl⟩ := he
      have hQ0 : 0 < Q.length := List.length_pos_of_mem (List.mem_of_mem_head? hQx)
      have hP0 : 0 < P.length := List.length_pos_of_mem (List.mem_of_getLast? hPy)
      have ask1 : t.vd st.vs.length = some true → Asked t es' st.vs.length := by
        intro hval
        refine nextEvents_asked hes _ ?_
        by_cases hq : 2 ≤ Q.length
        · simp [hq]
        · exfalso
          rw [hvd, if_pos (Or.inr (Or.inl ⟨by omega, Or.inl rfl⟩))] at hval
          simp at hval
      have ask2 : t.vd (st.vs.length + 1) = some true → Asked t es' (st.vs.length + 1) := by
        intro hval
        refine nextEvents_asked hes _ ?_
        by_cases hq : 2 ≤ P.length
        · simp [hq]
        · exfalso
          rw [hvd, if_pos (Or.inr (Or.inr ⟨by omega, Or.inl rfl⟩))] at hval
          simp at hval
      have vdi : t.vd i = some true := by rw [(vs_fields hvi).2.2.2.1, hvali]
      have vdj : t.vd j = some true := by rw [(vs_fields hvj).2.2.2.1, hvalj]
      by_cases i1 : i = st.vs.length
      · subst i1; exact Or.inl (ask1 vdi)
      by_cases i2 : i = st.vs.length + 1
      · subst i2; exact Or.inl (ask2 vdi)
      by_cases j1 : j = st.vs.length
      · subst j1; exact Or.inr (ask1 vdj)
      by_cases j2 : j = st.vs.length + 1
      · subst j2; exact Or.inr (ask2 vdj)
      rw [n] at hnx
      simp only [if_neg i1, if_neg i2] at hnx
      split at hnx
      · simp only [Option.some.injEq] at hnx
        first
          | exact (j1 hnx.symm).elim
          | exact (j2 hnx.symm).elim
      · split at hnx
        · simp only [Option.some.injEq] at hnx
          first
            | exact (j1 hnx.symm).elim
            | exact (j2 hnx.symm).elim
        · exact (hold (by omega) hnx).elim
  · exact (hd ⟨d, p, e0, e1, e2, v0, v1, rfl, h0, h1, h2, h3⟩).elim

/-! ### The states of a run -/

/-- the heap after an event -/
def After (st : St S) (ev : Event S) (st' : St S) : Prop :=
  (handleEvent st ev = .ok none ∧ st' = st) ∨
    ∃ arcs es, handleEvent st ev = .ok (some (st', arcs, es))

/-- the moments lead from the one heap to the other -/
inductive Path : St S → List (St S × Event S) → St S → Prop
  | nil (st : St S) : Path st [] st
  | cons {st st' st'' : St S} {ev : Event S} {A : List (St S × Event S)} :
      After st ev st' → Path st' A st'' → Path st ((st, ev) :: A) st''

theorem Path.append {st st' st'' : St S} {A B : List (St S × Event S)} (h : Path st A st')
    (h' : Path st' B st'') : Path st (A ++ B) st'' := by
  induction h with
  | nil => exact h'
  | cons h1 _ ih => exact .cons h1 (ih h')

theorem stepEvent_after {lp lp' : Loop S} {e : Event S} (h : stepEvent lp e = .ok lp') :
    After lp.st e lp'.st := by
  unfold stepEvent at h
  obtain ⟨r, hr, h⟩ := bind_ok.1 h
  cases r with
  | none =>
    simp only [pure_ok, Except.ok.injEq] at h
    subst h
    exact Or.inl ⟨hr, rfl⟩
  | some r =>
    obtain ⟨st', arcs, evs⟩ := r
    simp only [pure_ok, Except.ok.injEq] at h
    subst h
    exact Or.inr ⟨arcs, evs, hr⟩

theorem stepBatch_path {es : List (Event S)} {lp lp' : Loop S} (h : stepBatch lp es = .ok lp') :
    Path lp.st (batchMoments lp es) lp'.st := by
  induction es generalizing lp with
  | nil => cases h; exact .nil _
  | cons e es ih =>
    unfold stepBatch at h
    obtain ⟨lp1, h1, h⟩ := bind_ok.1 h
    unfold batchMoments
    rw [h1]
    exact .cons (stepEvent_after h1) (ih h)

theorem batchMoments_path {es : List (Event S)} {lp : Loop S} {A B : List (St S × Event S)}
    {p : St S × Event S} (he : batchMoments lp es = A ++ p :: B) : Path lp.st A p.1 := by
  induction es generalizing lp A with
  | nil => simp [batchMoments] at he
  | cons e es ih =>
    unfold batchMoments at he
    cases A with
    | nil =>
      simp only [List.nil_append, List.cons.injEq] at he
      rw [← he.1]
      exact .nil _
    | cons a A =>
      simp only [List.cons_append, List.cons.injEq] at he
      cases h1 : stepEvent lp e with
      | error err => rw [h1] at he; simp at he
      | ok lp' =>
        rw [h1] at he
        rw [← he.1]
        exact .cons (stepEvent_after h1) (ih he.2)

theorem moments_path {k : Nat} {lp : Loop S} {A B : List (St S × Event S)} {p : St S × Event S}
    (he : moments k lp = A ++ p :: B) : Path lp.st A p.1 := by
  induction k generalizing lp A with
  | zero => simp [moments] at he
  | succ k ih =>
    unfold moments at he
    split at he
    · simp at he
    · split at he
      · simp at he
      · rename_i batch q hq
        rcases List.append_eq_append_iff.1 he with ⟨C, rfl, hC⟩ | ⟨C, hC, hC2⟩
        · cases g1 : stepBatch { lp with queue := q } batch with
          | error err => rw [g1] at hC; simp at hC
          | ok lp' =>
            rw [g1] at hC
            exact (stepBatch_path g1).append (ih hC)
        · cases C with
          | nil =>
            simp only [List.append_nil] at hC
            subst hC
            cases g1 : stepBatch { lp with queue := q } batch with
            | error err => rw [g1] at hC2; simp at hC2
            | ok lp' =>
              rw [g1] at hC2
              simp only [List.nil_append] at hC2
              have := (stepBatch_path g1).append (ih (A := []) hC2.symm)
              simpa using this
          | cons c C =>
            simp only [List.cons_append, List.cons.injEq] at hC2
            obtain ⟨rfl, -⟩ := hC2
            exact batchMoments_path (lp := { lp with queue := q }) hC

/-- the last step of a path -/
theorem Path.snoc {st st' : St S} {A : List (St S × Event S)} {a : St S × Event S}
    (h : Path st (A ++ [a]) st') : Path st A a.1 ∧ After a.1 a.2 st' := by
  induction A generalizing st with
  | nil =>
    cases h with
    | cons h1 h2 => cases h2; exact ⟨.nil _, h1⟩
  | cons b A ih =>
    cases h with
    | cons h1 h2 => exact ⟨.cons h1 (ih h2).1, (ih h2).2⟩

end Polyskel
