import Verif.Proofs.Gone
import Verif.Props.Convex
import Verif.Props.ClosedLoops
import Verif.Props.DormerRefuted
import Verif.Spec.Samples
import Verif.Spec.Runtime
/-
The skeleton as a graph.  C55: every vertex that leaves the wavefront is the sink of exactly one
arc.  C56: the number of arcs.  C57: the arcs connect everything.

The theorems hold for every Scalar, so also for floating point numbers; only the last one is about
exact arithmetic.
-/
namespace Polyskel
open Scalar
set_option linter.unusedSectionVars false
variable {S : Type} [Scalar S]

/-- C55: take the run of the main loop for any contours, with apt events.  The vertices that have
left the wavefront at its end are `G`, each listed once, and perhaps some that never took part: new
vertices of a split that are dropped at once, which lie at the node.  The sinks of all nodes
together are the points of `G`, each once, and one more for each dormer event: the middle of the
dormer, which is a node itself. -/
theorem C55_sinks (cs : List (List (Edge2 S))) (h3 : ∀ c ∈ cs, 3 ≤ c.length) (lp lp' : Loop S)
    (hs : startLoop cs = .ok lp) (k : Nat) (hr : mainLoop k lp = some (.ok lp'))
    (hA : ∀ a ∈ moments k lp, Apt a.1 a.2 ∧ Fits a.1 a.2) :
    ∃ (G : List Nat) (P D : List (V2 S)), G.Nodup ∧
      List.Forall₂ (fun g p => ∃ v, lp'.st.vs[g]? = some v ∧ v.valid = false ∧ v.point = p) G P ∧
      (∀ (i : Nat) v, lp'.st.vs[i]? = some v → v.valid = false →
        i ∈ G ∨ (cs.map List.length).sum ≤ i ∧ ∃ a ∈ lp'.out, a.source = v.point) ∧
      (lp'.out.flatMap (·.sinks)).Perm (P ++ D) ∧
      D.length = dormers (moments k lp) ∧ ∀ d ∈ D, ∃ a ∈ lp'.out, a.source = d := by
  obtain ⟨R, hL, hsl, hlen, -, -, hval, -⟩ := startLoop_first h3 hs
  have h0 : Gone (cs.map List.length).sum (dormers ([] : List (St S × Event S))) lp.st lp.out [] []
      [] := by
    rw [(startLoop_ok hs).2.1]
    refine ⟨.nil, .nil, by simp, fun i hi => ?_, by omega, by simp [dormers], by simp, by simp⟩
    have := vd_lt hi
    rw [hval i (by omega)] at hi
    cases hi
  obtain ⟨R', hL', G, gp, D, hg⟩ := mainLoop_tally
    (fun tr st _ out => ∃ G gp D, Gone (cs.map List.length).sum (dormers tr) st out G gp D) Fits
    (fun tr st R out ev st' R' arcs ⟨G, gp, D, hg⟩ hL hf ht _ => ht.gone hL hf hg) k lp lp'
    (startLoop_sound h3 hs) ⟨R, hL, [], [], [], h0⟩ hA hr
  · refine ⟨G, gp, D, hg.nodup, ?_, ?_, hg.perm, hg.count, hg.extra⟩
    · refine Gone.step.forall₂_imp_mem hg.pts (fun i p hi hp => ?_)
      have hf := hg.gone i hi
      obtain ⟨v, hv⟩ := getElem?_of_lt (vd_lt hf)
      rw [(vs_fields hv).2.2.2.1] at hf
      rw [pt_of hv] at hp
      exact ⟨v, hv, by simpa using hf, by simpa using hp⟩
    · intro i v hv hf
      rcases hg.all i (by rw [(vs_fields hv).2.2.2.1, hf]) with h | ⟨h, p, hp, a, ha, e⟩
      · exact Or.inl h
      · rw [pt_of hv] at hp
        simp only [Option.some.injEq] at hp
        exact Or.inr ⟨h, a, ha, by rw [e, hp]⟩

/-- C55, the corners: if the wavefront is empty at the end, then every corner of the contours is
the sink of an arc of its own. -/
theorem C55_corners (cs : List (List (Edge2 S))) (h3 : ∀ c ∈ cs, 3 ≤ c.length) (lp lp' : Loop S)
    (hs : startLoop cs = .ok lp) (k : Nat) (hr : mainLoop k lp = some (.ok lp'))
    (hA : ∀ a ∈ moments k lp, Apt a.1 a.2 ∧ Fits a.1 a.2) (hend : lp'.st.slav = []) :
    (cs.flatten.map (·.p1)).Subperm (lp'.out.flatMap (·.sinks)) := by
  obtain ⟨R, hL, hsl, hlen, -, hpt, hval, -⟩ := startLoop_first h3 hs
  have h0 : Gone (cs.map List.length).sum (dormers ([] : List (St S × Event S))) lp.st lp.out [] []
      [] := by
    rw [(startLoop_ok hs).2.1]
    refine ⟨.nil, .nil, by simp, fun i hi => ?_, by omega, by simp [dormers], by simp, by simp⟩
    have := vd_lt hi
    rw [hval i (by omega)] at hi
    cases hi
  obtain ⟨R', hL', ⟨G, gp, D, hg⟩, hold⟩ := mainLoop_tally
    (fun tr st _ out => (∃ G gp D, Gone (cs.map List.length).sum (dormers tr) st out G gp D) ∧
      ∀ k < (cs.map List.length).sum, st.pt k = lp.st.pt k) Fits
    (fun tr st R out ev st' R' arcs ⟨⟨G, gp, D, hg⟩, ho⟩ hL hf ht _ => ⟨ht.gone hL hf hg,
      fun k hk => by rw [ht.pt_old.2 k (lt_of_lt_of_le hk hg.le), ho k hk]⟩) k lp lp'
    (startLoop_sound h3 hs) ⟨R, hL, ⟨[], [], [], h0⟩, fun _ _ => rfl⟩ hA hr
  · refine List.Subperm.trans ?_ (hg.perm.symm.subperm)
    refine List.Subperm.trans ?_ (List.sublist_append_left gp D).subperm
    have hsub : (List.range (cs.map List.length).sum).Subperm G := by
      refine List.subperm_of_subset List.nodup_range (fun i hi => ?_)
      have hi := List.mem_range.1 hi
      have hlt := lt_of_lt_of_le hi hg.le
      obtain ⟨v, hv⟩ := getElem?_of_lt hlt
      have hf : v.valid = false := by
        cases hval : v.valid with
        | false => rfl
        | true =>
          obtain ⟨l, hl, -⟩ := hL'.lavOf hv hval
          rw [hend] at hl
          simp at hl
      rcases hg.all i (by rw [(vs_fields hv).2.2.2.1, hf]) with h | ⟨h, -⟩
      · exact h
      · omega
    have e1 : gp.map some = G.map lp'.st.pt := by
      exact map_some_of hg.pts
    have e2 : (cs.flatten.map (·.p1)).map some =
        (List.range (cs.map List.length).sum).map lp'.st.pt := by
      apply List.ext_getElem?
      intro i
      by_cases hi : i < (cs.map List.length).sum
      · have hi' : i < cs.flatten.length := by rw [List.length_flatten]; exact hi
        rw [List.getElem?_map, List.getElem?_map, List.getElem?_map, List.getElem?_range hi,
          List.getElem?_eq_getElem hi']
        simp only [Option.map_some]
        rw [hold i hi, hpt i hi, List.getElem?_eq_getElem hi']
        rfl
      · rw [List.getElem?_eq_none (by
          rw [List.length_map, List.length_map, List.length_flatten]; omega),
          List.getElem?_eq_none (by simp; omega)]
    obtain ⟨m, hp, hm⟩ := hsub
    have hp := hp.map lp'.st.pt
    have hm := hm.map lp'.st.pt
    rw [← e2] at hp
    rw [← e1] at hm
    exact subperm_of_map_some ⟨_, hp, hm⟩
where
  map_some_of {α β : Type} {f : α → Option β} {l : List α} {l' : List β}
      (h : List.Forall₂ (fun a b => f a = some b) l l') : l'.map some = l.map f := by
    induction h with
    | nil => rfl
    | cons h _ ih => rw [List.map_cons, List.map_cons, h, ih]
  subperm_of_map_some {α : Type} {l l' : List α} (h : (l.map some).Subperm (l'.map some)) :
      l.Subperm l' := by
    obtain ⟨m, hp, hm⟩ := h
    obtain ⟨m', hm', rfl⟩ := List.sublist_map_iff.1 hm
    exact ⟨m', (List.map_perm_map_iff (Option.some_injective α)).1 hp, hm'⟩

/-- C56: the balance of a run with apt events.  Arcs, vertices left in the wavefront, contours and
executed dormer events are as many as nodes, corners, loops left in the wavefront and twice the
splits that joined two loops. -/
theorem C56_balance (cs : List (List (Edge2 S))) (h3 : ∀ c ∈ cs, 3 ≤ c.length) (lp lp' : Loop S)
    (hs : startLoop cs = .ok lp) (k : Nat) (hr : mainLoop k lp = some (.ok lp'))
    (hA : ∀ a ∈ moments k lp, Apt a.1 a.2) :
    (lp'.out.map (fun a => a.sinks.length)).sum + lp'.st.vs.countP (·.valid) + cs.length +
        dormers (moments k lp) =
      lp'.out.length + (cs.map List.length).sum + lp'.st.slav.length +
        2 * joins (moments k lp) := by
  classical
  obtain ⟨R, hL, hsl, hlen, hsum, -⟩ := startLoop_first h3 hs
  obtain ⟨R', hL', hb⟩ := mainLoop_tally
    (fun tr st R out => arcCount out + (st.slav.map (fun l => (R l).length)).sum + cs.length +
      dormers tr = out.length + (cs.map List.length).sum + st.slav.length + 2 * joins tr)
    (fun _ _ => True)
    (fun tr st R out ev st' R' arcs hb hL _ ht _ => by
      have h1 := ht.balance hL
      have h2 := dormers_snoc tr (st, ev)
      have h3 := joins_snoc tr (st, ev)
      have h4 : arcCount (out ++ arcs) = arcCount out + arcCount arcs := by simp [arcCount]
      rw [h2, h3, h4, List.length_append]
      simp only at h1 ⊢
      omega) k lp lp'
    (startLoop_sound h3 hs) ⟨R, hL, by
      rw [(startLoop_ok hs).2.1, hsum, hsl]
      simp [arcCount, dormers, joins]⟩ (fun a ha => ⟨hA a ha, trivial⟩) hr
  rw [hL'.count]
  exact hb

/-- C56, the tree count: for one contour, if no split joins two loops, no dormer event is executed
and the wavefront is empty at the end, there is one arc less than there are corners and nodes. -/
theorem C56_tree (c : List (Edge2 S)) (h3 : 3 ≤ c.length) (lp lp' : Loop S)
    (hs : startLoop [c] = .ok lp) (k : Nat) (hr : mainLoop k lp = some (.ok lp'))
    (hA : ∀ a ∈ moments k lp, Apt a.1 a.2 ∧ ¬ JoinsLoops a.1 a.2 ∧ ¬ Dormers a.1 a.2)
    (hend : lp'.st.slav = []) :
    (lp'.out.map (fun a => a.sinks.length)).sum + 1 = lp'.out.length + c.length := by
  have h3' : ∀ c' ∈ [c], 3 ≤ c'.length := by simpa using h3
  have hb := C56_balance [c] h3' lp lp' hs k hr (fun a ha => (hA a ha).1)
  have hj : joins (moments k lp) = 0 := by
    unfold joins
    rw [List.countP_eq_zero]
    intro a ha
    simp [(hA a ha).2.1]
  have hd : dormers (moments k lp) = 0 := by
    unfold dormers
    rw [List.countP_eq_zero]
    intro a ha
    simp [(hA a ha).2.2]
  have hv : lp'.st.vs.countP (·.valid) = 0 := by
    have hcl := (C25_run [c] h3' lp hs k (fun a ha => (hA a ha).1)).1 lp' hr
    rw [List.countP_eq_zero]
    intro v hv hval
    obtain ⟨i, hi⟩ := List.mem_iff_getElem?.1 hv
    obtain ⟨l, hl, -⟩ := (hcl.valid i v hi).1 hval
    rw [hend] at hl
    simp at hl
  rw [hj, hd, hv, hend] at hb
  simp at hb
  omega

/-- what is connected when no loop is left -/
theorem Conn.of_end {st : St S} {R : Nat → List Nat} {out : List (Subtree S)} (h : st.slav = [])
    {p q : V2 S} (hc : Conn st R out p q) : Connected out p q := by
  induction hc with
  | refl p => exact .refl p
  | symm _ _ _ ih => exact .symm _ _ ih
  | trans _ _ _ _ _ ih1 ih2 => exact .trans _ _ _ ih1 ih2
  | rel p q hs =>
    rcases hs with hs | ⟨l, hl, -⟩
    · exact .rel _ _ hs
    · rw [h] at hl; simp at hl

/-- C57: if the wavefront is empty at the end of a run with apt events, of which no dormer event is
executed, then the arcs connect all corners of a contour with one another, and every node and every
sink with a corner. -/
theorem C57_connected (cs : List (List (Edge2 S))) (h3 : ∀ c ∈ cs, 3 ≤ c.length) (lp lp' : Loop S)
    (hs : startLoop cs = .ok lp) (k : Nat) (hr : mainLoop k lp = some (.ok lp'))
    (hA : ∀ a ∈ moments k lp, Apt a.1 a.2 ∧ ¬ Dormers a.1 a.2) (hend : lp'.st.slav = []) :
    (∀ c ∈ cs, ∀ e ∈ c, ∀ e' ∈ c, Connected lp'.out e.p1 e'.p1) ∧
    ∀ a ∈ lp'.out, ∃ c ∈ cs, ∃ e ∈ c, Connected lp'.out a.source e.p1 ∧
      ∀ s ∈ a.sinks, Connected lp'.out s e.p1 := by
  obtain ⟨R, hL, hsl, hlen, -, -, -, hw⟩ := startLoop_first h3 hs
  obtain ⟨R', hL', hw'⟩ := mainLoop_tally (fun _ st R out => Web cs st R out)
    (fun st ev => ¬ Dormers st ev)
    (fun tr st R out ev st' R' arcs hw hL hnd ht _ => ht.web hL hnd hw) k lp lp'
    (startLoop_sound h3 hs) ⟨R, hL, by rw [(startLoop_ok hs).2.1]; exact hw⟩ hA hr
  refine ⟨fun c hc e he e' he' => Conn.of_end hend (hw'.contour c hc e he e' he'), fun a ha => ?_⟩
  obtain ⟨c, hc, e, he, h⟩ := hw'.node a ha
  have h := Conn.of_end hend h
  exact ⟨c, hc, e, he, h, fun s hs => .trans _ _ _ (.symm _ _ (.rel _ _ ⟨a, ha, rfl, hs⟩)) h⟩

/-- C57, one contour: any two points of the skeleton - corners, nodes, sinks - are connected. -/
theorem C57_single (c : List (Edge2 S)) (h3 : 3 ≤ c.length) (lp lp' : Loop S)
    (hs : startLoop [c] = .ok lp) (k : Nat) (hr : mainLoop k lp = some (.ok lp'))
    (hA : ∀ a ∈ moments k lp, Apt a.1 a.2 ∧ ¬ Dormers a.1 a.2) (hend : lp'.st.slav = []) :
    ∀ p q, (p ∈ c.map (·.p1) ∨ ∃ a ∈ lp'.out, p = a.source ∨ p ∈ a.sinks) →
      (q ∈ c.map (·.p1) ∨ ∃ a ∈ lp'.out, q = a.source ∨ q ∈ a.sinks) → Connected lp'.out p q := by
  obtain ⟨h1, h2⟩ := C57_connected [c] (by simpa using h3) lp lp' hs k hr hA hend
  simp only [List.mem_singleton, forall_eq, exists_eq_left] at h1 h2
  have key : ∀ p, (p ∈ c.map (·.p1) ∨ ∃ a ∈ lp'.out, p = a.source ∨ p ∈ a.sinks) →
      ∃ e ∈ c, Connected lp'.out p e.p1 := by
    rintro p (hp | ⟨a, ha, hp⟩)
    · obtain ⟨e, he, rfl⟩ := List.mem_map.1 hp
      exact ⟨e, he, .refl _⟩
    · obtain ⟨e, he, g1, g2⟩ := h2 a ha
      rcases hp with rfl | hp
      · exact ⟨e, he, g1⟩
      · exact ⟨e, he, g2 p hp⟩
  intro p q hp hq
  obtain ⟨e, he, g⟩ := key p hp
  obtain ⟨e', he', g'⟩ := key q hq
  exact .trans _ _ _ g (.trans _ _ _ (h1 e he e' he') (.symm _ _ g'))

/-- the numbers of a run: arcs, nodes, loops left, and whether all its events are apt (and none a
dormer event) -/
private def numbers (k : Nat) (cs : List (List (Edge2 Soft))) : Option (Nat × Nat × Nat × Bool) :=
  match startLoop cs with
  | .error _ => none
  | .ok lp => match mainLoop k lp with
    | some (.ok lp') => some ((lp'.out.map (fun a => a.sinks.length)).sum, lp'.out.length,
        lp'.st.slav.length, (moments k lp).all (fun p => aptB p.1 p.2))
    | _ => none

/-- an L shape, with a split that cuts its loop: a tree with 6 corners, 4 nodes and 9 arcs -/
example : numbers 40 [ringEdges [(0, 0), (8, 0), (8, 4), (4, 4), (4, 8), (0, 8)]] =
    some (9, 4, 0, true) := by decide +kernel

/-- a rectangle with a triangular hole: 7 corners, 7 nodes and 14 arcs, so that there is one cycle.
Of the three splits one joins the two loops: 14 + 2 = 7 + 7 + 2. -/
example : numbers 40 [ringEdges [(0, 0), (9, 0), (9, 8), (0, 8)],
    (ringEdges [(3, 4), (5, 5), (5, 3)]).map (fun e => { e with oid := e.oid + 4 })] =
    some (14, 7, 0, true) := by decide +kernel

/-- a run in which no dormer event occurs -/
private theorem quiet_of_aptB {st : St S} {ev : Event S} (h : aptB st ev = true) :
    Apt st ev ∧ Fits st ev ∧ ¬ Dormers st ev := by
  refine ⟨apt_of_aptB h, ?_, ?_⟩
  · rintro d p e0 e1 e2 v0 v1 rfl
    cases h
  · rintro ⟨d, p, e0, e1, e2, v0, v1, rfl, -⟩
    cases h

/-- the hypotheses of C55, C56_balance and C57 hold for a run whose numbers end with no loop left
and `true` -/
example (k : Nat) (cs : List (List (Edge2 Soft))) (m n : Nat)
    (h : numbers k cs = some (m, n, 0, true)) : ∃ lp lp', startLoop cs = .ok lp ∧
      mainLoop k lp = some (.ok lp') ∧ lp'.st.slav = [] ∧ lp'.out.length = n ∧
      ∀ a ∈ moments k lp, Apt a.1 a.2 ∧ Fits a.1 a.2 ∧ ¬ Dormers a.1 a.2 := by
  unfold numbers at h
  split at h
  · cases h
  · rename_i lp hs
    split at h
    · rename_i lp' hm
      simp only [Option.some.injEq, Prod.mk.injEq, List.length_eq_zero_iff, List.all_eq_true] at h
      exact ⟨lp, lp', hs, hm, h.2.2.1, h.2.1, fun a ha => quiet_of_aptB (h.2.2.2 a ha)⟩
    · cases h

/-- C56 and C57 for a convex contour in exact arithmetic: the conditions on the events hold, so if
the wavefront is empty at the end, the skeleton is connected and has one arc less than it has
corners and nodes. -/
theorem C57_convex (c : List (Edge2 ℝ)) (h : ConvexContour c) (h3 : 3 ≤ c.length) :
    ∃ lp lp', startLoop [c] = .ok lp ∧ mainLoop (4 * c.length + 1) lp = some (.ok lp') ∧
      (lp'.st.slav = [] →
        (lp'.out.map (fun a => a.sinks.length)).sum + 1 = lp'.out.length + c.length ∧
        ∀ p q, (p ∈ c.map (·.p1) ∨ ∃ a ∈ lp'.out, p = a.source ∨ p ∈ a.sinks) →
          (q ∈ c.map (·.p1) ∨ ∃ a ∈ lp'.out, q = a.source ∨ q ∈ a.sinks) →
          Connected lp'.out p q) := by
  obtain ⟨lp, lp', hs, hm, -, -⟩ := C27_loop c h h3
  obtain ⟨lp1, hs1, hev⟩ := C27_events c h h3
  rw [hs] at hs1
  simp only [Except.ok.injEq] at hs1
  subst hs1
  have hq : ∀ a ∈ moments (4 * c.length + 1) lp, Apt a.1 a.2 ∧ ¬ JoinsLoops a.1 a.2 ∧
      ¬ Dormers a.1 a.2 := by
    intro a ha
    obtain ⟨⟨e, he⟩, hap, -⟩ := (hev _).2 a ha
    exact ⟨hap, not_joins_edge he⟩
  exact ⟨lp, lp', hs, hm, fun hend => ⟨C56_tree c h3 lp lp' hs _ hm hq hend,
    C57_single c h3 lp lp' hs _ hm (fun a ha => ⟨(hq a ha).1, (hq a ha).2.2⟩) hend⟩⟩

/-- an arc-wise constant colour is constant on what is connected -/
theorem Connected.colour {out : List (Subtree S)} (f : V2 S → Bool)
    (h : ∀ a ∈ out, ∀ s ∈ a.sinks, f s = f a.source) {p q : V2 S} (hc : Connected out p q) :
    f p = f q := by
  induction hc with
  | refl p => rfl
  | symm _ _ _ ih => exact ih.symm
  | trans _ _ _ _ _ ih1 ih2 => exact ih1.trans ih2
  | rel p q hs =>
    obtain ⟨a, ha, rfl, hq⟩ := hs
    exact (h a ha q hq).symm

/-- C57 needs the condition on dormer events: the skeleton of the house with the dormer-like part
falls apart.  Its corner (0, 0) is not connected with its corner (10, 0), where the extension
begins. -/
theorem C57_dormer_refuted :
    ∃ out, skeletonize 60 [ringEdges dormerHouse] = some (.ok out) ∧
      ¬ Connected out (sp2 0 0) (sp2 10 0) := by
  -- the neighbourhood of the extension
  let f : V2 Soft → Bool := fun p => (sq 9 <. p.x) && (p.x <. sq 15) && (p.y <. sq 5)
  have h : (skeletonize 60 [ringEdges dormerHouse]).map (fun r => r.map (fun out =>
      out.all (fun a => a.sinks.all (fun s => f s == f a.source)))) = some (.ok true) := by
    decide +kernel
  have h0 : f (sp2 0 0) ≠ f (sp2 10 0) := by decide +kernel
  cases hr : skeletonize 60 [ringEdges dormerHouse] with
  | none => rw [hr] at h; cases h
  | some r =>
    rw [hr] at h
    cases r with
    | error e => simp [Except.map] at h
    | ok out =>
      refine ⟨out, rfl, fun hc => h0 (hc.colour f ?_)⟩
      simpa [Except.map] using h

end Polyskel
