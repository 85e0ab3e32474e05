import Verif.Proofs.NewEvents
import Verif.Props.ClosedLoops
import Verif.Spec.Samples
import Verif.Spec.Runtime
/-
C72: when an event makes two vertices neighbours, one of them is asked for its next event.
-/
namespace Polyskel
open Scalar
variable {S : Type} [Scalar S]

/-- C72, the start: every vertex of the first wavefront is asked for its next event (if there are no
dormers). -/
theorem C72_start (cs : List (List (Edge2 S))) (h3 : ∀ c ∈ cs, 3 ≤ c.length) (lp : Loop S)
    (hs : startLoop cs = .ok lp) (hd : detectDormers cs = .ok []) :
    ∀ i < lp.st.vs.length, Asked lp.st lp.queue i := by
  obtain ⟨hst, -, ds, init, init', hd', hi, hi', hq⟩ := startLoop_ok hs
  obtain ⟨st, R, hst', -, -, -, -, hch, -⟩ := mkSlav_loops h3
  rw [hst] at hst'
  cases hst'
  rw [hd] at hd'
  cases hd'
  cases hi'
  unfold initialEvents at hi
  rw [hch, ok_bind] at hi
  intro i hlt
  have hf := mapM_ok hi
  have hlen : i < init.length := by rw [← hf.length_eq]; simpa using hlt
  have := hf.get (i := i) (by simpa using hlt) hlen
  simp only [List.get_eq_getElem, List.getElem_range] at this
  refine ⟨_, this, fun e he => ?_⟩
  rw [hq, (C08_putAll_perm _ _).mem_iff]
  simp only [List.nil_append, List.mem_filterMap, id, exists_eq_right]
  rw [← he]
  exact List.getElem_mem hlen

/-- C72, one event: when an edge event, or a split event within one loop, makes two vertices of the
wavefront neighbours, one of the two is asked for its next event, and the answer is returned.  Missing:
split events that join two loops, and dormer events (see `C72_join`, `C72_dormer`). -/
theorem C72_step_partial (st st' : St S) (ev : Event S) (h : ClosedLoops st) (hap : Apt st ev)
    (hj : ¬ JoinsLoops st ev) (hd : ¬ Dormers st ev) (arcs : List (Subtree S)) (es : List (Event S))
    (hr : handleEvent st ev = .ok (some (st', arcs, es))) (i j : Nat) (hn : Neighbours st' i j)
    (ho : ¬ Link st i j) : Asked st' es i ∨ Asked st' es j :=
  handleEvent_asked h hap hj hd hr hn ho

/-- C72, whole runs: at every moment of a run without joined loops and dormer events, two neighbours in
the wavefront have been neighbours from the start, or one of the two was asked for its next event when
they became neighbours. -/
theorem C72_run_partial (cs : List (List (Edge2 S))) (h3 : ∀ c ∈ cs, 3 ≤ c.length) (lp : Loop S)
    (hs : startLoop cs = .ok lp) (k : Nat) (A B : List (St S × Event S)) (p : St S × Event S)
    (he : moments k lp = A ++ p :: B)
    (hA : ∀ a ∈ A, Apt a.1 a.2 ∧ ¬ JoinsLoops a.1 a.2 ∧ ¬ Dormers a.1 a.2) (i j : Nat)
    (hn : Neighbours p.1 i j) :
    Link lp.st i j ∨ ∃ a ∈ A, ∃ st' arcs es, handleEvent a.1 a.2 = .ok (some (st', arcs, es)) ∧
      Link st' i j ∧ (Asked st' es i ∨ Asked st' es j) := by
  suffices h : ∀ (A B : List (St S × Event S)) (p : St S × Event S), moments k lp = A ++ p :: B →
      (∀ a ∈ A, Apt a.1 a.2 ∧ ¬ JoinsLoops a.1 a.2 ∧ ¬ Dormers a.1 a.2) → ∀ i j,
      Neighbours p.1 i j → Link lp.st i j ∨ ∃ a ∈ A, ∃ st' arcs es,
        handleEvent a.1 a.2 = .ok (some (st', arcs, es)) ∧ Link st' i j ∧
        (Asked st' es i ∨ Asked st' es j) from h A B p he hA i j hn
  intro A
  induction A using List.reverseRecOn with
  | nil =>
    intro B p he _ i j hn
    have hp := moments_path he
    generalize p.1 = q at hp hn
    cases hp
    exact Or.inl hn.1
  | append_singleton A a ih =>
    intro B p he hA i j hn
    have he' : moments k lp = A ++ a :: (p :: B) := by simpa using he
    obtain ⟨-, haft⟩ := (moments_path he).snoc
    have hA' : ∀ x ∈ A, Apt x.1 x.2 ∧ ¬ JoinsLoops x.1 x.2 ∧ ¬ Dormers x.1 x.2 :=
      fun x hx => hA x (by simp [hx])
    have hcl := C25_moments cs h3 lp hs k A (p :: B) a he' (fun x hx => (hA' x hx).1)
    obtain ⟨h1, h2, h4⟩ := hA a (by simp)
    have lift : Neighbours a.1 i j → Link lp.st i j ∨ ∃ b ∈ A ++ [a], ∃ st' arcs es,
        handleEvent b.1 b.2 = .ok (some (st', arcs, es)) ∧ Link st' i j ∧
        (Asked st' es i ∨ Asked st' es j) := by
      intro hn'
      rcases ih (p :: B) a he' hA' i j hn' with h | ⟨b, hb, h⟩
      · exact Or.inl h
      · exact Or.inr ⟨b, by simp [hb], h⟩
    rcases haft with ⟨-, hst⟩ | ⟨arcs, es, hr⟩
    · rw [hst] at hn; exact lift hn
    · by_cases ho : Link a.1 i j
      · refine lift ⟨ho, ?_⟩
        have hf := handleEvent_frame hr
        have old : ∀ {m : Nat}, m < a.1.vs.length → (∃ v, p.1.vs[m]? = some v ∧ v.valid = true) →
            ∃ v, a.1.vs[m]? = some v ∧ v.valid = true := by
          rintro m hm ⟨v, hv, hval⟩
          obtain ⟨w, hw⟩ := getElem?_of_lt hm
          obtain ⟨w', hw', -, himp⟩ := hf.keep m w hw
          rw [hv] at hw'
          cases hw'
          exact ⟨w, hw, himp hval⟩
        obtain ⟨⟨vi, hvi, -⟩, vj, hvj, -⟩ := ho
        exact ⟨old (List.getElem?_eq_some_iff.1 hvi).1 hn.2.1,
          old (List.getElem?_eq_some_iff.1 hvj).1 hn.2.2⟩
      · exact Or.inr ⟨a, by simp, p.1, arcs, es, hr, hn.1,
          C72_step_partial _ _ _ hcl h1 h2 h4 arcs es hr i j hn ho⟩

/-- C72, loops that are joined: only the first of the two new vertices is asked.  The second gets two
neighbours other than the first, and nobody asks about them. -/
theorem C72_join (st st' : St S) (ev : Event S) (h : ClosedLoops st) (hj : JoinsLoops st ev)
    (arcs : List (Subtree S)) (es : List (Event S))
    (hr : handleEvent st ev = .ok (some (st', arcs, es))) :
    (∃ o, nextEvent st' st.vs.length = .ok o ∧ es = o.toList) ∧
    ∃ y n, y ≠ st.vs.length ∧ n ≠ st.vs.length ∧ Neighbours st' y (st.vs.length + 1) ∧
      Neighbours st' (st.vs.length + 1) n := by
  obtain ⟨R, hL⟩ := closedLoops_iff.1 h
  obtain ⟨e, v, x, y, vx, rfl, hv, hval, hs, hvx, hne⟩ := hj
  rcases handleEvent_cases hr with ⟨e, va, vb, he, -⟩ | ⟨e', v', he, -, -, hh⟩ |
    ⟨d, p, e0, e1, e2, v0, v1, he, -⟩
  · cases he
  · cases he
    obtain ⟨l, hl, hlv, hi⟩ := hL.lavOf hv hval
    unfold handleSplit at hh
    rw [hs, ok_bind] at hh
    simp only at hh
    obtain ⟨m, hm, hx, hy, hyx⟩ := hL.splitPair hs
    have hlx : vx.lav = some m := by
      have := (hL.mem m hm x).1 hx
      rw [(vs_fields hvx).2.2.1] at this
      simpa using this
    have hml : m ≠ l := by
      rintro rfl
      exact hne (by rw [hlx, hlv])
    obtain ⟨T, Q, U, t, arcs', es', e1, hT, hsT, hQ, hQx, hQy, hsQ, hU, hL', hsl, w, hw, n, -, hlen, hvd, -, hes⟩ :=
      splitAt_other hL hl hi hm hml hx hyx
    rw [e1] at hh
    simp only [Except.ok.injEq, Prod.mk.injEq] at hh
    obtain ⟨rfl, -, rfl⟩ := hh
    rw [hv] at hw
    cases hw
    have hyl : y < st.vs.length := (hL.closed m hm).lt _ hy
    obtain ⟨hvn, hvp, -⟩ := vs_fields hv
    have hnl : v.next < st.vs.length :=
      (hL.closed l hl).lt _ ((hL.closed l hl).nx_mem hi hvn).1
    constructor
    · unfold nextEvents at hes
      obtain ⟨o, h1, hes⟩ := bind_ok.1 hes
      obtain ⟨es1, h2, hes⟩ := bind_ok.1 hes
      cases h2
      simp only [pure_ok, Except.ok.injEq, List.append_nil] at hes
      exact ⟨o, h1, hes.symm⟩
    · have hmem : st.lavs.length ∈ t.slav := by rw [hsl]; simp
      have hc := hL'.closed _ hmem
      simp only [if_true] at hc
      have hyQ : y ∈ Q := List.mem_of_getLast? hQy
      have hyU : y ∈ U := hU.mem_iff.2 (by simp [hyQ])
      have h2U : st.vs.length + 1 ∈ U := hU.mem_iff.2 (by simp)
      have ny : t.nx y = some (st.vs.length + 1) := by rw [n, if_pos rfl]
      have nn : t.nx (st.vs.length + 1) = some v.next := by
        rw [n, if_neg (by omega), if_pos rfl]
      have val : ∀ m ∈ U, ∃ w, t.vs[m]? = some w ∧ w.valid = true := by
        intro m hm'
        obtain ⟨w, -, hw⟩ := getV_total (hc.lt m hm')
        refine ⟨w, hw, ?_⟩
        have hlv := (hL'.mem _ hmem m).1 (by simpa using hm')
        have := (hL'.valid m).2 ⟨_, hmem, hlv⟩
        rw [(vs_fields hw).2.2.2.1] at this
        simpa using this
      exact ⟨y, v.next, by omega, by omega,
        ⟨link_iff.2 ⟨ny, (hc.nx_mem hyU ny).2⟩, val y hyU, val _ h2U⟩,
        ⟨link_iff.2 ⟨nn, (hc.nx_mem h2U nn).2⟩, val _ h2U, val _ (hc.nx_mem h2U nn).1⟩⟩
  · cases he

/-- C72, dormers: nobody is asked after a dormer event, though it makes the two vertices beside the
dormer neighbours. -/
theorem C72_dormer (st st' : St S) (ev : Event S) (hd : Dormers st ev) (arcs : List (Subtree S))
    (es : List (Event S)) (hr : handleEvent st ev = .ok (some (st', arcs, es))) : es = [] := by
  obtain ⟨d, p, e0, e1, e2, v0, v1, rfl, -⟩ := hd
  rcases handleEvent_cases hr with ⟨e, va, vb, he, -⟩ | ⟨e', v', he, -, -, hh⟩ |
    ⟨d, p, e0, e1, e2, v0, v1, he, -, -, -, -, h⟩
  · cases he
  · cases he
  · cases he
    unfold handleDormer at h
    obtain ⟨vp, hvp, h⟩ := bind_ok.1 h
    split at h
    · cases h; rfl
    · obtain ⟨vn, hvn, h⟩ := bind_ok.1 h
      obtain ⟨vn', hvn', h⟩ := bind_ok.1 h
      obtain ⟨vp', hvp', h⟩ := bind_ok.1 h
      obtain ⟨o, ho, h⟩ := bind_ok.1 h
      obtain ⟨⟨s1, nl⟩, hs1, h⟩ := bind_ok.1 h
      obtain ⟨s2, hs2, h⟩ := bind_ok.1 h
      split at h
      · cases h
      · obtain ⟨pa, hpa, h⟩ := bind_ok.1 h
        obtain ⟨pb, hpb, h⟩ := bind_ok.1 h
        obtain ⟨s3, hs3, h⟩ := bind_ok.1 h
        cases h; rfl

/-! ### Runs -/

/-- the new neighbours in the course of a run none of which has been asked, although both would have
proposed an event: the number of the event, and the two vertices -/
def missed (cs : List (List (Edge2 Soft))) (k : Nat) : Option (List (Nat × Nat × Nat)) :=
  match startLoop cs with
  | .error _ => none
  | .ok lp => some ((moments k lp).zipIdx.flatMap (fun (a, t) =>
    match handleEvent a.1 a.2 with
    | .ok (some (st', _, es)) => (List.range st'.vs.length).filterMap (fun i =>
        match st'.vs[i]? with
        | some v => match st'.vs[v.next]? with
          | some w =>
            if v.valid && w.valid && w.prev == i &&
              decide ((a.1.vs[i]?).map (fun v => v.next) ≠ some v.next) &&
              (match nextEvent st' i with | .ok (some e) => decide (e ∉ es) | _ => false) &&
              (match nextEvent st' v.next with | .ok (some e) => decide (e ∉ es) | _ => false) then
              some (t, i, v.next) else none
          | none => none
        | none => none)
    | _ => []))

/-- the edges of a hole that follow `n` others -/
def holeEdges (n : Nat) (l : List (Int × Int)) : List (Edge2 Soft) :=
  (ringEdges l).map (fun e => { e with oid := e.oid + n })

/-- a run with a split within one loop: over an L-shaped polygon, nobody is forgotten (the run makes
three new vertices and four nodes) -/
example : missed [ringEdges [(0, 0), (12, 0), (12, 8), (6, 8), (6, 14), (0, 14)]] 60 = some [] ∧
    (match startLoop [ringEdges [(0, 0), (12, 0), (12, 8), (6, 8), (6, 14), (0, 14)]] with
      | .ok lp => (moments 60 lp).all (fun a => aptB a.1 a.2 && match a.2 with
          | .split _ => true | .edge _ => true | .dormer .. => false) &&
        (moments 60 lp).any (fun a => match a.2 with | .split _ => true | _ => false) &&
        (match mainLoop 60 lp with
          | some (.ok lp') => decide (lp'.st.vs.length = 9 ∧ lp'.out.length = 4)
          | _ => false)
      | .error _ => false) = true := by
  decide +kernel

/-- the L-shaped polygon has no dormers (as in `C72_start`) -/
example : detectDormers [ringEdges [(0, 0), (12, 0), (12, 8), (6, 8), (6, 14), (0, 14)]] = .ok [] := by
  decide +kernel

end Polyskel
