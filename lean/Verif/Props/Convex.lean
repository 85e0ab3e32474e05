import Verif.Proofs.ConvexRun
import Verif.Proofs.ConvexPolygon
import Verif.Props.SharedEdges
import Verif.Props.Merge
import Verif.Props.Ghosts
/-
C27: convex polygons are always handled, in exact arithmetic.
-/
namespace Polyskel
open Scalar Real
set_option linter.unusedSectionVars false

theorem ConvexRun.induct {c : List (Edge2 ℝ)} (h : ConvexContour c) (h3 : 3 ≤ c.length)
    {lp : Loop ℝ} (hs : startLoop [c] = .ok lp) (k : Nat) :
    (∀ a ∈ moments k lp, (∃ e', a.2 = .edge e') ∧ Apt a.1 a.2 ∧ ¬ Birth a.1 a.2) ∧
    (mainLoop k lp = none ∨ ∃ lp', mainLoop k lp = some (.ok lp') ∧ ConvexRun c.length lp' []) := by
  refine mainLoop_invariant (ConvexRun c.length)
    (fun st e => (∃ e', e = .edge e') ∧ Apt st e ∧ ¬ Birth st e)
    (fun lp e es h => stepEvent_convex h) ?_ k lp (startLoop_convex h h3 hs)
  intro lp batch q h hq
  have hp := ((C09_getAllEqualDistance_perm lp.queue).2 batch q hq).1
  refine ⟨⟨take_sound (by simpa using h.tight.1) hq, fun e he => h.tight.2 e (by
    simpa using hp.mem_iff.1 he)⟩, h.shared, fun e he => h.edges e (by simpa using hp.mem_iff.1 he),
    h.wave⟩

/-- C27, the events: on a convex contour every event of the run is an edge event of two neighbours
of the wavefront, which never has a reflex vertex: no split and no dormer events; there are at most
four events per edge of the contour. -/
theorem C27_events (c : List (Edge2 ℝ)) (h : ConvexContour c) (h3 : 3 ≤ c.length) :
    ∃ lp, startLoop [c] = .ok lp ∧ ∀ k, (moments k lp).length ≤ 4 * c.length ∧
      ∀ p ∈ moments k lp, (∃ e, p.2 = .edge e) ∧ Apt p.1 p.2 ∧
        ∀ v ∈ p.1.vs, v.valid = true → v.reflex = false := by
  have h3' : ∀ c' ∈ [c], 3 ≤ c'.length := by simpa using h3
  obtain ⟨lp, hs⟩ := C53_start [c] h3' (h.no_dormers h3)
  refine ⟨lp, hs, fun k => ⟨?_, ?_⟩⟩
  · have hind := (ConvexRun.induct h h3 hs k).1
    have hsm := (C26_real [c] h3' lp hs k).1
    have hz : setbacks (moments k lp) = 0 := by
      unfold setbacks
      rw [List.countP_eq_zero]
      intro p hp
      simp [(hind p hp).2.2, hsm p hp]
    have hr : lp.st.vs.countP (·.reflex) = 0 := by
      rw [List.countP_eq_zero]
      intro v hv
      obtain ⟨i, hi⟩ := List.mem_iff_getElem?.1 hv
      obtain ⟨c', hc', e, he, hcore⟩ := mkSlav_vertices (startLoop_ok hs).1 hi
      simp only [List.mem_singleton] at hc'
      subst hc'
      obtain ⟨j, hj⟩ := List.mem_iff_getElem?.1 he
      have hjl : j < c'.length := by
        have := (List.getElem?_eq_some_iff.1 hj).1
        rwa [cornerPairs_length] at this
      obtain ⟨t, -, ht⟩ := h.corner h3
      have := (ht j hjl e hj).convex
      rw [show (cornerCore e).reflex = v.reflex from (congrArg Core.reflex hcore).symm] at this
      simp [this]
    have := C26_bound [c] h3' lp hs k
    rw [hz, hr] at this
    simpa using this
  · have := (mainLoop_invariant (ConvexRun c.length)
      (fun st e => (∃ e', e = .edge e') ∧ Apt st e ∧
        ∀ v ∈ st.vs, v.valid = true → v.reflex = false)
      (fun lp e es h => ?_) ?_ k lp (startLoop_convex h h3 hs)).1
    · exact this
    · obtain ⟨⟨h1, h2, -⟩, h4⟩ := stepEvent_convex h
      refine ⟨⟨h1, h2, fun v hv hd => ?_⟩, h4⟩
      obtain ⟨R, t, hL, hc, -⟩ := h.wave
      obtain ⟨i, hi⟩ := List.mem_iff_getElem?.1 hv
      obtain ⟨l, hl, -, hm⟩ := hL.lavOf hi hd
      exact (hc.turn l hl i hm _ (vs_fields hi).2.2.2.2).convex
    · intro lp batch q h hq
      have hp := ((C09_getAllEqualDistance_perm lp.queue).2 batch q hq).1
      refine ⟨⟨take_sound (by simpa using h.tight.1) hq, fun e he => h.tight.2 e (by
        simpa using hp.mem_iff.1 he)⟩, h.shared, fun e he => h.edges e (by
        simpa using hp.mem_iff.1 he), h.wave⟩

/-- C27, the event loop: on a convex contour with `n` edges it never raises, ends after at most
`4 n` batches of events, with at most `n - 2` nodes. -/
theorem C27_loop (c : List (Edge2 ℝ)) (h : ConvexContour c) (h3 : 3 ≤ c.length) :
    ∃ lp lp', startLoop [c] = .ok lp ∧ mainLoop (4 * c.length + 1) lp = some (.ok lp') ∧
      lp'.out.length ≤ c.length - 2 ∧ ClosedLoops lp'.st := by
  obtain ⟨lp, hs, hev⟩ := C27_events c h h3
  obtain ⟨-, hm | ⟨lp', hm, hr⟩⟩ := ConvexRun.induct h h3 hs (4 * c.length + 1)
  · have := mainLoop_none hm
    have := (hev (4 * c.length + 1)).1
    omega
  · obtain ⟨R, t, hL, -, hout, -⟩ := hr.wave
    exact ⟨lp, lp', hs, hm, by omega, closedLoops_iff.2 ⟨R, hL⟩⟩

/-- C27, `skeletonize` as a whole: on a convex contour it ends, with at most `n - 2` nodes.  It can
raise only in the last two phases: in the search for apses (C34), or with the ValueError of the
ghost removal (C33). -/
theorem C27_skeletonize (c : List (Edge2 ℝ)) (h : ConvexContour c) (h3 : 3 ≤ c.length) :
    ∃ r, skeletonize (4 * c.length + 1) [c] = some r ∧
      (∀ out, r = .ok out → out.length ≤ c.length - 2) ∧
      ∀ e, r = .error e → detectApses c = .error e ∨ e = .value := by
  obtain ⟨lp, lp', hs, hm, hout, -⟩ := C27_loop c h h3
  refine ⟨finish [c] lp'.out, ?_, ?_, ?_⟩
  · unfold skeletonize
    rw [hs]
    simp only [hm]
  · intro out ho
    unfold finish at ho
    obtain ⟨sk, h1, h2⟩ := bind_ok.1 ho
    have hlen : sk.length ≤ lp'.out.length := by
      rcases C30_mergeNodeClusters lp'.out [c] with ⟨_, _, m, out', -, h', -, -, hl⟩ | ⟨h', -⟩ |
        ⟨_, _, _, -, h', -⟩
      · rw [h1] at h'
        simp only [Except.ok.injEq] at h'
        subst h'
        omega
      · cases h'
      · rw [h1] at h'; cases h'
    rcases C33_removeGhosts sk with ⟨e, h', -⟩ | ⟨out', h', hmap, -⟩
    · rw [h2] at h'; cases h'
    · rw [h2] at h'
      simp only [Except.ok.injEq] at h'
      subst h'
      have := congrArg List.length hmap
      simp only [List.length_map] at this
      omega
  · intro e he
    unfold finish at he
    cases h1 : mergeNodeClusters lp'.out [c] with
    | error e' =>
      rw [h1] at he
      have he : (Except.error e' : Except PyErr (List (Subtree ℝ))) = .error e := he
      simp only [Except.error.injEq] at he
      subst he
      rcases C30_raises lp'.out [c] e' h1 with ⟨h', -⟩ | ⟨outer, rest, h', hd⟩
      · cases h'
      · simp only [List.cons.injEq] at h'
        rw [h'.1]
        exact Or.inl hd
    | ok sk =>
      rw [h1, ok_bind] at he
      exact Or.inr (C33_raises_only sk e he)

/-- C27, convexity by points: the contour of every strictly convex polygon, with its interior to the
left, is a convex contour, so `skeletonize` ends on it and gives at most `n - 2` nodes, or raises in
the last two phases. -/
theorem C27_polygon (c : List (Edge2 ℝ)) (h : ConvexPolygon c) (h3 : 3 ≤ c.length) :
    ConvexContour c ∧ ∃ r, skeletonize (4 * c.length + 1) [c] = some r ∧
      (∀ out, r = .ok out → out.length ≤ c.length - 2) ∧
      ∀ e, r = .error e → detectApses c = .error e ∨ e = .value :=
  ⟨convexContour_of_polygon h3 h, C27_skeletonize c (convexContour_of_polygon h3 h) h3⟩

/-- an edge with a given direction -/
private def edge (i : Nat) (a b d : V2 ℝ) : Edge2 ℝ :=
  { oid := i, i1 := i, i2 := (i + 1) % 4, p1 := a, p2 := b, norm := d }

/-- a rectangle meets the hypotheses of C27 -/
example : ConvexContour [edge 0 ⟨0, 0⟩ ⟨8, 0⟩ ⟨1, 0⟩, edge 1 ⟨8, 0⟩ ⟨8, 4⟩ ⟨0, 1⟩,
    edge 2 ⟨8, 4⟩ ⟨0, 4⟩ ⟨-1, 0⟩, edge 3 ⟨0, 4⟩ ⟨0, 0⟩ ⟨0, -1⟩] := by
  have hpi := pi_pos
  refine ⟨fun i => i * (π / 2), ?_, ?_, ?_, ?_⟩
  · intro i hi
    simp only [List.length_cons, List.length_nil] at hi
    have h3 : (3 : ℝ) * (π / 2) = π + π / 2 := by ring
    match i, hi with
    | 0, _ => simp [edge, unitDir]
    | 1, _ => simp [edge, unitDir]
    | 2, _ => simp [edge, unitDir, show 2 * (π / 2) = π by ring]
    | 3, _ => simp [edge, unitDir, h3, cos_add, sin_add]
  · intro i hi
    simp only [Nat.cast_add, Nat.cast_one]
    constructor <;> nlinarith
  · norm_num
    linarith
  · norm_num
    linarith

/-- a triangle with the sides 3, 4 and 5 meets the hypotheses of `C27_polygon` -/
example : ConvexPolygon [edge 0 ⟨0, 0⟩ ⟨4, 0⟩ ⟨1, 0⟩, edge 1 ⟨4, 0⟩ ⟨0, 3⟩ ⟨-(4 / 5), 3 / 5⟩,
    edge 2 ⟨0, 3⟩ ⟨0, 0⟩ ⟨0, -1⟩] := by
  constructor
  · intro i h
    simp only [List.length_cons, List.length_nil] at h
    match i, h with
    | 0, _ => rfl
    | 1, _ => rfl
  · intro _; rfl
  · simp only [List.mem_cons, List.not_mem_nil, or_false, forall_eq_or_imp, forall_eq, edge]
    norm_num
  · simp only [List.mem_cons, List.not_mem_nil, or_false, forall_eq_or_imp, forall_eq, edge]
    exact ⟨⟨4, by norm_num, by norm_num, by norm_num⟩, ⟨5, by norm_num, by norm_num, by norm_num⟩,
      ⟨3, by norm_num, by norm_num, by norm_num⟩⟩
  · simp only [List.mem_cons, List.not_mem_nil, or_false, forall_eq_or_imp, forall_eq, edge]
    norm_num
  · simp [edge]

end Polyskel
