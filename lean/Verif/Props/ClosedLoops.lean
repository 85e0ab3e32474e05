import Verif.Proofs.Moments
import Verif.Spec.Samples
import Verif.Spec.Runtime
/-
C25: the wavefront stays a set of disjoint closed loops.

The theorems hold for every Scalar, so also for floating point numbers.
-/
namespace Polyskel
open Scalar
set_option linter.unusedSectionVars false
variable {S : Type} [Scalar S]

/-- C25, the beginning: contours with three edges or more give a wavefront of closed loops.  The
LAV of contour number `j` has one vertex for each edge of the contour; the vertex reached from the
head by `i` steps along `next` lies at the start of edge `i`, between the edge before (the last one
for the first) and edge `i`. -/
theorem C25_initial (cs : List (List (Edge2 S))) (h3 : ∀ c ∈ cs, 3 ≤ c.length) :
    ∃ st, mkSlav cs = .ok st ∧ ClosedLoops st ∧ st.slav = List.range cs.length ∧
      st.vs.length = (cs.map List.length).sum ∧
      ∀ (j : Nat) c, cs[j]? = some c → ∃ o vs, st.lavs[j]? = some o ∧ Ring st o.head vs ∧
        vs.length = c.length ∧
        ∀ i (hi : i < c.length), ∃ k v, vs[i]? = some k ∧ st.vs[k]? = some v ∧
          v.point = c[i].p1 ∧ v.edgeNext = c[i] ∧
          c[if i = 0 then c.length - 1 else i - 1]? = some v.edgePrev := by
  obtain ⟨st, R, h1, hL, hsl, hlen, hlav, -⟩ := mkSlav_loops h3
  refine ⟨st, h1, closedLoops_iff.2 ⟨R, hL⟩, hsl, hlen, fun j c hj => ?_⟩
  obtain ⟨hR, ho, hco⟩ := hlav j c hj
  generalize ((cs.take j).map List.length).sum = b at hR ho hco
  have hjl : j ∈ st.slav := by
    rw [hsl, List.mem_range]
    exact (List.getElem?_eq_some_iff.1 hj).1
  have hc3 := h3 c (List.mem_of_getElem? hj)
  have hcl := hL.closed j hjl
  rw [hR] at hcl
  -- the list from the head is the range itself
  obtain ⟨n, hn⟩ : ∃ n, c.length = n + 1 := ⟨c.length - 1, by omega⟩
  have hcl' := hcl
  obtain ⟨hd, a, P, he, hs⟩ := hcl'
  have hab : a = b := by
    rw [hn, List.range'_succ] at he
    simp only [List.cons.injEq] at he
    exact he.1.symm
  subst hab
  refine ⟨_, List.range' a c.length, ho, ⟨hd, by rw [he]; rfl, by rw [he]; exact seg_succ hs⟩,
    by simp, fun i hi => ?_⟩
  have hlt : a + i < st.vs.length := hcl.lt _ (by rw [List.mem_range'_1]; omega)
  obtain ⟨v, hv⟩ := getElem?_of_lt hlt
  have hcv := hco i hi
  rw [(vs_fields hv).2.2.2.2] at hcv
  have hcp : (cornerPairs c)[i]? =
      some ((c.drop (c.length - 1) ++ c.take (c.length - 1))[i]'(by simp; omega), c[i]) := by
    unfold cornerPairs
    rw [List.getElem?_eq_getElem (by simp; omega), List.getElem_zip]
  rw [hcp] at hcv
  simp only [Option.map_some, Option.some.injEq] at hcv
  refine ⟨a + i, v, by simp [hi], hv, congrArg Core.point hcv, congrArg Core.edgeNext hcv, ?_⟩
  have : v.edgePrev = (c.drop (c.length - 1) ++ c.take (c.length - 1))[i]'(by simp; omega) :=
    congrArg Core.edgePrev hcv
  rw [this]
  have hdl : (c.drop (c.length - 1)).length = 1 := by simp; omega
  by_cases h0 : i = 0
  · subst h0
    rw [if_pos rfl, List.getElem_append_left (by omega), List.getElem_drop, ← List.getElem?_eq_getElem]
    simp
  · rw [if_neg h0, List.getElem_append_right (by omega), ← List.getElem?_eq_getElem,
      List.getElem?_take, if_pos (by omega), hdl]

/-- C25, one event: an event that concerns the wavefront as it is now (`Apt`) leaves a wavefront of
closed loops.  An edge event never raises.  A split event raises only if the pair of neighbours
that it finds contains its own vertex, a dormer event only if its two bisectors do not meet. -/
theorem C25_event (st : St S) (ev : Event S) (h : ClosedLoops st) (hk : Known st ev)
    (hap : Apt st ev) :
    (∀ st' arcs es, handleEvent st ev = .ok (some (st', arcs, es)) → ClosedLoops st') ∧
    (∀ err, handleEvent st ev = .error err →
      (∃ e x y v, ev = .split e ∧ SplitPair st e v x y ∧ (x = e.vertex ∨ y = e.vertex)) ∨
      ∃ d p e0 e1 e2 v0 v1, ev = .dormer d p e0 e1 e2 ∧ st.vs[e0.vertex]? = some v0 ∧
        st.vs[e1.vertex]? = some v1 ∧ v0.bisector.intersect v1.bisector = none) := by
  obtain ⟨R, hL⟩ := closedLoops_iff.1 h
  rcases handleEvent_loops hL hk hap with ⟨err, he, hm⟩ | he | ⟨st', arcs, es, R', he, hL'⟩
  · refine ⟨fun st' arcs es h => by (rw [he] at h; cases h), fun err' _ => ?_⟩
    cases ev with
    | edge e => exact hm.elim
    | split e =>
      obtain ⟨x, y, hs, hxy⟩ := hm
      obtain ⟨l, -, v, -, hp⟩ := splitSearch_some hs
      exact Or.inl ⟨e, x, y, v, rfl, hp, hxy⟩
    | dormer d p e0 e1 e2 =>
      obtain ⟨v0, v1, h0, h1, hn⟩ := hm
      exact Or.inr ⟨d, p, e0, e1, e2, v0, v1, rfl, h0, h1, hn⟩
  · exact ⟨fun st' arcs es h => by (rw [he] at h; cases h), fun err h => by (rw [he] at h; cases h)⟩
  · refine ⟨fun st'' arcs' es' h => ?_, fun err h => by (rw [he] at h; cases h)⟩
    rw [he] at h
    simp only [Except.ok.injEq, Option.some.injEq, Prod.mk.injEq] at h
    obtain ⟨rfl, -⟩ := h
    exact closedLoops_iff.2 ⟨R', hL'⟩

/-- C25, a split of one loop: the loop of the split vertex is cut before `x`; the new vertex `v1`
takes the place of the vertex in front of the part that begins with `x`, the new vertex `v2` in
front of the part that ends with `y`.  A part with only one vertex is dropped. -/
theorem C25_split_one {st : St S} {R : Nat → List Nat} (h : Loops st R) {ev : SplitEv S}
    {l x y : Nat} (hl : l ∈ st.slav) (hi : ev.vertex ∈ R l) (hx : x ∈ R l) (hlk : Link st y x)
    (hxi : x ≠ ev.vertex) (hyi : y ≠ ev.vertex) :
    ∃ P Q U V st' arcs es, splitAt st ev x y = .ok (st', arcs, es) ∧
      (ev.vertex :: (P ++ Q)).Perm (R l) ∧
      (ev.vertex :: (P ++ Q) ++ [ev.vertex]).IsChain (Link st) ∧
      P.getLast? = some y ∧ Q.head? = some x ∧
      U.Perm (st.vs.length :: Q) ∧ V.Perm ((st.vs.length + 1) :: P) ∧
      Loops st' (fun k => if k = st.lavs.length + 1 then V else if k = st.lavs.length then U
        else R k) ∧
      st'.slav = st.slav.erase l ++ ((if 2 ≤ Q.length then [st.lavs.length] else []) ++
        if 2 ≤ P.length then [st.lavs.length + 1] else []) := by
  obtain ⟨P, Q, U, V, st', arcs, es, h1, h2, h3, h4, h5, h6, h7, h8, h9, -⟩ :=
    splitAt_same h hl hi hx hlk hxi hyi
  exact ⟨P, Q, U, V, st', arcs, es, h1, h2, h3, h4, h5, h6, h7, h8, h9⟩

/-- C25, a split between two loops (the vertex of one reaches an edge of another): they become
one, in which the second loop comes between the two new vertices. -/
theorem C25_split_two {st : St S} {R : Nat → List Nat} (h : Loops st R) {ev : SplitEv S}
    {l m x y : Nat} (hl : l ∈ st.slav) (hi : ev.vertex ∈ R l) (hm : m ∈ st.slav) (hlm : m ≠ l)
    (hx : x ∈ R m) (hlk : Link st y x) :
    ∃ T Q U st' arcs es, splitAt st ev x y = .ok (st', arcs, es) ∧
      (ev.vertex :: T).Perm (R l) ∧ (ev.vertex :: T ++ [ev.vertex]).IsChain (Link st) ∧
      Q.Perm (R m) ∧ Q.head? = some x ∧ Q.getLast? = some y ∧ (y :: Q ++ [x]).IsChain (Link st) ∧
      U.Perm (st.vs.length :: (Q ++ (st.vs.length + 1) :: T)) ∧
      Loops st' (fun k => if k = st.lavs.length then U else R k) ∧
      st'.slav = (st.slav.erase l).erase m ++ [st.lavs.length] := by
  obtain ⟨T, Q, U, st', arcs, es, h1, h2, h3, h4, h5, h6, h7, h8, h9, h10, -⟩ :=
    splitAt_other h hl hi hm hlm hx hlk
  exact ⟨T, Q, U, st', arcs, es, h1, h2, h3, h4, h5, h6, h7, h8, h9, h10⟩

/-- C25, whole runs: at every moment of the main loop before which all events were apt, the
wavefront is a set of closed loops. -/
theorem C25_moments (cs : List (List (Edge2 S))) (h3 : ∀ c ∈ cs, 3 ≤ c.length) (lp : Loop S)
    (hs : startLoop cs = .ok lp) (k : Nat) (A B : List (St S × Event S)) (p : St S × Event S)
    (he : moments k lp = A ++ p :: B) (hA : ∀ a ∈ A, Apt a.1 a.2) : ClosedLoops p.1 :=
  (moments_sound (startLoop_sound h3 hs) he hA).1

/-- C25, the end of a run: if all events were apt the wavefront is a set of closed loops at the
end; the loop can only have raised at a split event that found its own vertex, or at a dormer event
whose bisectors do not meet. -/
theorem C25_run (cs : List (List (Edge2 S))) (h3 : ∀ c ∈ cs, 3 ≤ c.length) (lp : Loop S)
    (hs : startLoop cs = .ok lp) (k : Nat) (hA : ∀ a ∈ moments k lp, Apt a.1 a.2) :
    (∀ lp', mainLoop k lp = some (.ok lp') → ClosedLoops lp'.st) ∧
    (∀ err, mainLoop k lp = some (.error err) → ∃ p ∈ moments k lp,
      (∃ e x y v, p.2 = .split e ∧ SplitPair p.1 e v x y ∧ (x = e.vertex ∨ y = e.vertex)) ∨
      ∃ d q e0 e1 e2 v0 v1, p.2 = .dormer d q e0 e1 e2 ∧ p.1.vs[e0.vertex]? = some v0 ∧
        p.1.vs[e1.vertex]? = some v1 ∧ v0.bisector.intersect v1.bisector = none) := by
  rcases mainLoop_sound (startLoop_sound h3 hs) hA with h | ⟨err, h, p, hp, he, hm⟩ | ⟨lp', h, h'⟩
  · exact ⟨fun _ h' => by (rw [h] at h'; cases h'), fun _ h' => by (rw [h] at h'; cases h')⟩
  · refine ⟨fun _ h' => by (rw [h] at h'; cases h'), fun _ _ => ⟨p, hp, ?_⟩⟩
    obtain ⟨st, ev⟩ := p
    cases ev with
    | edge e => exact hm.elim
    | split e =>
      obtain ⟨x, y, hs, hxy⟩ := hm
      obtain ⟨l, -, v, -, hp⟩ := splitSearch_some hs
      exact Or.inl ⟨e, x, y, v, rfl, hp, hxy⟩
    | dormer d p e0 e1 e2 =>
      obtain ⟨v0, v1, h0, h1, hn⟩ := hm
      exact Or.inr ⟨d, p, e0, e1, e2, v0, v1, rfl, h0, h1, hn⟩
  · refine ⟨fun lp'' h'' => ?_, fun _ h'' => by (rw [h] at h''; cases h'')⟩
    rw [h] at h''
    simp only [Option.some.injEq, Except.ok.injEq] at h''
    subst h''
    exact closedLoops_iff.2 h'.1

/-- C25, runs without splits: as long as no split or dormer event changes the wavefront, every edge
event is apt - so the wavefront is a set of closed loops at every moment. -/
theorem C25_no_splits (cs : List (List (Edge2 S))) (h3 : ∀ c ∈ cs, 3 ≤ c.length) (lp : Loop S)
    (hs : startLoop cs = .ok lp) (k : Nat)
    (hq : ∀ a ∈ moments k lp, (∃ e, a.2 = .edge e) ∨
      ∀ st' arcs es, handleEvent a.1 a.2 = .ok (some (st', arcs, es)) → st' = a.1 ∧ es = []) :
    ∀ a ∈ moments k lp, ∀ e, a.2 = .edge e → Apt a.1 (.edge e) := by
  refine moments_tight (startLoop_tight h3 hs) (fun a ha => ?_)
  rcases hq a ha with ⟨e, he⟩ | h
  · rw [he]; trivial
  · cases he : a.2 with
    | edge e => trivial
    | split e => rw [he] at h; exact h
    | dormer d p e0 e1 e2 => rw [he] at h; exact h

/-- the events that are not ignored: 0 for an edge event, 1 for a split event -/
private def active (k : Nat) (cs : List (List (Edge2 Soft))) : Option (List Nat × Bool) :=
  match startLoop cs with
  | .error _ => none
  | .ok lp =>
    let ms := moments k lp
    some (ms.filterMap (fun p => match p.2, handleEvent p.1 p.2 with
      | .edge _, .ok (some _) => some 0
      | .split _, .ok (some (_, _ :: _, _)) => some 1
      | _, .error _ => some 2
      | _, _ => none), ms.all (fun p => aptB p.1 p.2))

/-- a case of C25_moments and C25_run with a split and edge events, all apt: an L shape -/
example : active 40 [ringEdges [(0, 0), (8, 0), (8, 4), (4, 4), (4, 8), (0, 8)]] =
    some ([0, 0, 1, 0], true) := by decide +kernel

/-- a rectangle with a triangular hole: the splits join the two loops -/
example : active 40 [ringEdges [(0, 0), (9, 0), (9, 8), (0, 8)],
    (ringEdges [(3, 4), (5, 5), (5, 3)]).map (fun e => { e with oid := e.oid + 4 })] =
    some ([1, 1, 1, 0, 0, 0, 0], true) := by decide +kernel

/-- a rectangle: a case of C25_no_splits -/
example : active 40 [ringEdges [(0, 0), (8, 0), (8, 4), (0, 4)]] = some ([0, 0], true) := by
  decide +kernel

end Polyskel
