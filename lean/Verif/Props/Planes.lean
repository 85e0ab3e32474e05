import Verif.Proofs.Planes
import Verif.Props.Convex
import Verif.Props.SharedEdges
import Verif.Proofs.ConvexPolygon
import Verif.Proofs.SweepStart
import Verif.Proofs.RoofHigh
import Verif.Spec.Samples
import Verif.Spec.Runtime
/-
C71: every ridge of the roof over any polygon, with or without holes, lies in two roof planes.
-/
namespace Polyskel
open Scalar

/-- C71, for polygons of any shape, with any number of holes, in exact arithmetic: every connection
that the run of the wavefront puts out lies in the planes of two edges.  Conditions: no reflex corner
has a right angle (where the code tilts a direction on purpose), there are no dormers, no two edges
coincide, edge events join neighbours, and no vertex made during the run is reflex (a wavefront that
shrinks makes none). -/
theorem C71_planes_partial (cs : List (List (Edge2 ℝ))) (h3 : ∀ c ∈ cs, 3 ≤ c.length)
    (hcs : Contours cs) (hang : NoRightAngles cs) (hd : detectDormers cs = .ok [])
    (hE : DistinctEdges cs.flatten) (lp : Loop ℝ) (hs : startLoop cs = .ok lp) (k : Nat)
    (lp' : Loop ℝ) (hm : mainLoop k lp = some (.ok lp'))
    (hA : ∀ a ∈ moments k lp, Apt a.1 a.2)
    (hmade : ∀ (i : Nat) (v : Vtx ℝ), lp'.st.vs[i]? = some v → lp.st.vs.length ≤ i →
      v.reflex = false ∧ 0 ≤ edgeTurn v.edgePrev v.edgeNext) :
    ∀ a ∈ lp'.out, ∀ s ∈ a.sinks, Ridge cs lp'.out a s :=
  (mainLoop_planar hcs hE (startLoop_joined h3 hd hs) le_rfl
    (fun _ => startLoop_planar hcs hang hs) hA hm hmade).arcs

/-! ### Parallelograms -/

section
variable {e0 e1 e2 e3 : Edge2 ℝ}

theorem vertex_of_core {st : St ℝ} {i : Nat} {c : Core ℝ} (h : st.co i = some c) :
    ∃ w, st.vs[i]? = some w ∧ w.core = c := by
  unfold St.co at h
  cases hw : st.vs[i]? with
  | none => simp [hw] at h
  | some w => exact ⟨w, rfl, by simpa [hw] using h⟩

theorem parallelogram_made {lp lp' : Loop ℝ} {k : Nat} (h : ConvexPolygon [e0, e1, e2, e3])
    (h02 : edgeTurn e0 e2 = 0) (h13 : edgeTurn e1 e3 = 0) (hs : startLoop [[e0, e1, e2, e3]] = .ok lp)
    (hm : mainLoop k lp = some (.ok lp')) : MadeConvex 4 lp'.st := by
  have hcc := convexContour_of_polygon (by simp) h
  have h20 : edgeTurn e2 e0 = 0 := by unfold edgeTurn at *; linarith
  have h31 : edgeTurn e3 e1 = 0 := by unfold edgeTurn at *; linarith
  have hne : e0 ≠ e1 ∧ e0 ≠ e2 ∧ e0 ≠ e3 ∧ e1 ≠ e2 ∧ e1 ≠ e3 ∧ e2 ≠ e3 := by
    have := h.distinct
    simp only [List.map_cons, List.map_nil, List.nodup_cons, List.mem_cons, List.not_mem_nil,
      or_false, not_or] at this
    refine ⟨?_, ?_, ?_, ?_, ?_, ?_⟩ <;> rintro rfl <;> simp_all
  have key := mainLoop_invariant
    (fun lp es => ConvexRun 4 lp es ∧ MadeConvex 4 lp.st ∧ (lp.out = [] →
      ∀ (i : Nat) (v : Vtx ℝ), lp.st.vs[i]? = some v →
        ∃ p ∈ cornerPairs [e0, e1, e2, e3], v.edgePrev = p.1 ∧ v.edgeNext = p.2))
    (fun _ _ => True) ?_ ?_ k lp ?_
  · rcases key.2 with h0 | ⟨lp2, h1, h2⟩
    · rw [hm] at h0; cases h0
    · rw [hm] at h1
      simp only [Option.some.injEq, Except.ok.injEq] at h1
      subst h1
      exact h2.2.1
  · rintro lp e es ⟨hr, hmade, hcor⟩
    obtain ⟨⟨⟨e', rfl⟩, hap, -⟩, lp2, hstep, hr2⟩ := stepEvent_convex hr
    refine ⟨trivial, lp2, hstep, hr2, ?_⟩
    unfold stepEvent at hstep
    obtain ⟨r, hh, hstep⟩ := bind_ok.1 hstep
    cases r with
    | none =>
      simp only [pure_ok, Except.ok.injEq] at hstep
      subst hstep
      exact ⟨hmade, hcor⟩
    | some r =>
      obtain ⟨st', arcs, evs⟩ := r
      simp only [pure_ok, Except.ok.injEq] at hstep
      subst hstep
      rcases handleEvent_cases hh with ⟨e2, va, vb, heq, hva, hvb, h1, h2, he⟩ |
        ⟨e, v, heq, -⟩ | ⟨d, p, e0, e1, e2, v0, v1, heq, -⟩
      · simp only [Event.edge.injEq] at heq
        subst heq
        have hlk := hap va vb hva hvb h1 h2
        obtain ⟨R, t, hL, hc, hout, hone⟩ := hr.wave
        obtain ⟨l, hl, -, hmem⟩ := hL.lavOf hva h1
        have hnab : va.next = e'.b := by
          have := (link_iff.1 hlk).1
          rw [(vs_fields hva).1] at this
          simpa using this
        have hsh : va.edgeNext = vb.edgePrev := hr.shared e'.a va vb hva h1 (by rw [hnab]; exact hvb)
        by_cases hpk : va.prev = vb.next
        · obtain ⟨st2, sinks, he2, -, -, -, -, -, hco, -⟩ :=
            handleEdge_peak hL hl hmem (link_iff.1 hlk).1 hva hvb hpk
          rw [he] at he2
          simp only [Except.ok.injEq, Prod.mk.injEq] at he2
          obtain ⟨rfl, rfl, rfl⟩ := he2
          refine ⟨?_, by simp⟩
          intro i v hv hi
          have h5 := (vs_fields hv).2.2.2.2
          rw [hco] at h5
          obtain ⟨w, hw, h5⟩ := vertex_of_core h5
          have := hmade i w hw hi
          rwa [show w.reflex = v.reflex from congrArg Core.reflex h5,
            show w.edgePrev = v.edgePrev from congrArg Core.edgePrev h5,
            show w.edgeNext = v.edgeNext from congrArg Core.edgeNext h5] at this
        · obtain ⟨st2, es2, P, he2, hperm, hL2, hsl2, -, -, -, -, -, -, hco⟩ :=
            handleEdge_unify hL hl hmem (link_iff.1 hlk).1 hva hvb hpk
          have hconv := (handleEdge_convex hL hc hr.shared hva hvb h1 hlk hl hmem).1
          rw [he] at he2
          simp only [Except.ok.injEq, Prod.mk.injEq] at he2
          obtain ⟨rfl, rfl, rfl⟩ := he2
          refine ⟨?_, by simp⟩
          intro i v hv hi
          have h5 := (vs_fields hv).2.2.2.2
          rw [hco] at h5
          by_cases hil : i = lp.st.vs.length
          · rw [if_pos hil] at h5
            simp only [Option.some.injEq] at h5
            have hR3 : 3 ≤ (lp.st.vs.length :: P).length := by
              have := hL2.three l (by rw [hsl2]; exact hl)
              simpa using this
            have ho : lp.out = [] := by
              have h4 := (hone l hl).2
              rw [← hperm.length_eq] at h4
              simp only [List.length_cons] at h4 hR3
              exact List.eq_nil_of_length_eq_zero (by omega)
            obtain ⟨p, hp, hp1, hp2⟩ := hcor ho _ _ hva
            obtain ⟨q, hq, hq1, hq2⟩ := hcor ho _ _ hvb
            have hv1 : v.edgePrev = va.edgePrev := (congrArg Core.edgePrev h5).symm
            have hv2 : v.edgeNext = vb.edgeNext := (congrArg Core.edgeNext h5).symm
            have hv3 : v.reflex = false := by
              rw [← show _ = v.reflex from congrArg Core.reflex h5]
              simpa [unifyCore, mkVtx, Vtx.core] using hconv
            refine ⟨hv3, ?_⟩
            rw [hv1, hv2, ← edgeTurn_eq, hp1, hq2]
            rw [hp2, hq1] at hsh
            simp only [cornerPairs, List.length_cons, List.length_nil, zero_add, Nat.reduceAdd,
              Nat.add_one_sub_one, List.drop_succ_cons, List.drop_zero, List.take_succ_cons,
              List.take_zero, List.cons_append, List.nil_append, List.zip_cons_cons,
              List.zip_nil_right, List.mem_cons, List.not_mem_nil, or_false] at hp hq
            obtain ⟨n1, n2, n3, n4, n5, n6⟩ := hne
            rcases hp with rfl | rfl | rfl | rfl <;> rcases hq with rfl | rfl | rfl | rfl <;>
              simp_all
          · rw [if_neg hil] at h5
            obtain ⟨w, hw, h5⟩ := vertex_of_core h5
            have := hmade i w hw hi
            rwa [show w.reflex = v.reflex from congrArg Core.reflex h5,
              show w.edgePrev = v.edgePrev from congrArg Core.edgePrev h5,
              show w.edgeNext = v.edgeNext from congrArg Core.edgeNext h5] at this
      · cases heq
      · cases heq
  · rintro lp batch q ⟨h, h1, h2⟩ hq
    have hp := ((C09_getAllEqualDistance_perm lp.queue).2 batch q hq).1
    refine ⟨⟨⟨take_sound (by simpa using h.tight.1) hq, fun e he => h.tight.2 e (by
      simpa using hp.mem_iff.1 he)⟩, h.shared, fun e he => h.edges e (by simpa using hp.mem_iff.1 he),
      h.wave⟩, h1, h2⟩
  · obtain ⟨st, R, h1, -, -, hlen, -⟩ := mkSlav_loops (cs := [[e0, e1, e2, e3]]) (by simp)
    rw [(startLoop_ok hs).1] at h1
    simp only [Except.ok.injEq] at h1
    subst h1
    refine ⟨startLoop_convex hcc (by simp) hs, ?_, ?_⟩
    · intro i v hv hi
      have := (List.getElem?_eq_some_iff.1 hv).1
      simp at hlen
      omega
    · intro _ i v hv
      obtain ⟨c, hc, p, hp, hcore⟩ := mkSlav_vertices (startLoop_ok hs).1 hv
      simp only [List.mem_singleton] at hc
      subst hc
      exact ⟨p, hp, congrArg Core.edgePrev hcore, congrArg Core.edgeNext hcore⟩

theorem polygon_contours {c : List (Edge2 ℝ)} (h : ConvexPolygon c) : Contours [c] := by
  refine ⟨?_, by simpa using h.unit, by simpa using h.along⟩
  rintro e f ⟨c', hc, i, hi, he, hf⟩
  simp only [List.mem_singleton] at hc
  subst hc
  rw [List.getElem?_eq_getElem hi, Option.some.injEq] at he
  subst he
  by_cases hl : i + 1 = c'.length
  · rw [hl, Nat.mod_self, List.getElem?_eq_getElem (by omega), Option.some.injEq] at hf
    subst hf
    have : i = c'.length - 1 := by omega
    subst this
    exact h.last (by omega)
  · rw [Nat.mod_eq_of_lt (by omega), List.getElem?_eq_getElem (by omega), Option.some.injEq] at hf
    subst hf
    exact h.ring i (by omega)

theorem polygon_angles {c : List (Edge2 ℝ)} (h : ConvexPolygon c) : NoRightAngles [c] := by
  intro e f hef ht
  exfalso
  have hp := (polygon_contours h).closed e f hef
  obtain ⟨c', hc, i, hi, he, hf⟩ := hef
  simp only [List.mem_singleton] at hc
  subst hc
  have he := List.mem_of_getElem? he
  have hf := List.mem_of_getElem? hf
  obtain ⟨g, hg, hgp⟩ := h.end_mem hf
  have hge := h.hgt_p1 he hg
  obtain ⟨r, hr, h1, h2⟩ := h.along f hf
  obtain ⟨r', hr', h1', h2'⟩ := h.along e he
  rw [hgp] at hge
  rw [hp] at h1' h2'
  have e1 : f.p2.x = e.p1.x + r' * e.norm.x + r * f.norm.x := by linarith
  have e2 : f.p2.y = e.p1.y + r' * e.norm.y + r * f.norm.y := by linarith
  simp only [hgt, Geo.height, e1, e2] at hge
  unfold edgeTurn at ht
  nlinarith

/-- C71 without conditions on the run: every connection of the roof over a parallelogram lies in the
planes of two of its edges. -/
theorem C71_parallelogram (h : ConvexPolygon [e0, e1, e2, e3]) (h02 : edgeTurn e0 e2 = 0)
    (h13 : edgeTurn e1 e3 = 0) : ∃ lp lp', startLoop [[e0, e1, e2, e3]] = .ok lp ∧
      mainLoop 17 lp = some (.ok lp') ∧
      ∀ a ∈ lp'.out, ∀ s ∈ a.sinks, Ridge [[e0, e1, e2, e3]] lp'.out a s := by
  have hcc := convexContour_of_polygon (by simp) h
  obtain ⟨lp, lp', hs, hm, -, -⟩ := C27_loop _ hcc (by simp)
  obtain ⟨lp2, hs2, hev⟩ := C27_events _ hcc (by simp)
  rw [hs] at hs2
  simp only [Except.ok.injEq] at hs2
  subst hs2
  obtain ⟨st, R, h1, -, -, hlen, -⟩ := mkSlav_loops (cs := [[e0, e1, e2, e3]]) (by simp)
  rw [(startLoop_ok hs).1] at h1
  simp only [Except.ok.injEq] at h1
  subst h1
  simp only [List.map_cons, List.map_nil, List.length_cons, List.length_nil, List.sum_cons,
    List.sum_nil] at hlen
  refine ⟨lp, lp', hs, hm, C71_planes_partial _ (by simp) (polygon_contours h) (polygon_angles h)
    (hcc.no_dormers (by simp)) ?_ lp hs _ lp' hm (fun a ha => ((hev _).2 a ha).2.1) ?_⟩
  · intro e he f hf _ hp
    exact h.same (by simpa using he) (by simpa using hf) (by simpa using hp)
  · intro i v hv hi
    rw [hlen] at hi
    exact parallelogram_made h h02 h13 hs hm i v hv hi

end

/-- an edge of the parallelogram -/
private def side (i : Nat) (a b d : V2 ℝ) : Edge2 ℝ :=
  { oid := i, i1 := i, i2 := (i + 1) % 4, p1 := a, p2 := b, norm := d }

/-- a case: a parallelogram with the sides 10 and 5 -/
example : ∃ lp lp', startLoop [[side 0 ⟨0, 0⟩ ⟨10, 0⟩ ⟨1, 0⟩, side 1 ⟨10, 0⟩ ⟨13, 4⟩ ⟨3 / 5, 4 / 5⟩,
      side 2 ⟨13, 4⟩ ⟨3, 4⟩ ⟨-1, 0⟩, side 3 ⟨3, 4⟩ ⟨0, 0⟩ ⟨-3 / 5, -4 / 5⟩]] = .ok lp ∧
    mainLoop 17 lp = some (.ok lp') ∧ ∀ a ∈ lp'.out, ∀ s ∈ a.sinks,
      Ridge [[side 0 ⟨0, 0⟩ ⟨10, 0⟩ ⟨1, 0⟩, side 1 ⟨10, 0⟩ ⟨13, 4⟩ ⟨3 / 5, 4 / 5⟩,
        side 2 ⟨13, 4⟩ ⟨3, 4⟩ ⟨-1, 0⟩, side 3 ⟨3, 4⟩ ⟨0, 0⟩ ⟨-3 / 5, -4 / 5⟩]] lp'.out a s := by
  apply C71_parallelogram
  · constructor
    · intro i hi
      simp only [List.length_cons, List.length_nil] at hi
      match i, hi with
      | 0, _ => rfl
      | 1, _ => rfl
      | 2, _ => rfl
    · intro _; rfl
    · intro e he
      simp only [List.mem_cons, List.not_mem_nil, or_false] at he
      rcases he with rfl | rfl | rfl | rfl <;> norm_num [side]
    · intro e he
      simp only [List.mem_cons, List.not_mem_nil, or_false] at he
      rcases he with rfl | rfl | rfl | rfl
      · exact ⟨10, by norm_num, by norm_num [side]⟩
      · exact ⟨5, by norm_num, by norm_num [side]⟩
      · exact ⟨10, by norm_num, by norm_num [side]⟩
      · exact ⟨5, by norm_num, by norm_num [side]⟩
    · intro e he f hf
      simp only [List.mem_cons, List.not_mem_nil, or_false] at he hf
      rcases he with rfl | rfl | rfl | rfl <;> rcases hf with rfl | rfl | rfl | rfl <;>
        norm_num [side]
    · norm_num [side]
  · norm_num [edgeTurn, side]
  · norm_num [edgeTurn, side]

/-- the conditions of C71 on the run, checked for rounded arithmetic: edge events join neighbours, and the
vertices that the run makes are not reflex; and the number of nodes and of vertices made -/
def goodRun (cs : List (List (Edge2 Soft))) (k : Nat) : Option (Nat × Nat) :=
  match startLoop cs with
  | .error _ => none
  | .ok lp => match mainLoop k lp with
    | some (.ok lp') =>
      if (moments k lp).all (fun a => aptB a.1 a.2) && distinctB cs.flatten &&
          decide (detectDormers cs = .ok []) &&
          (lp'.st.vs.drop lp.st.vs.length).all (fun v => !v.reflex &&
            (fzero <=. V2.cross v.edgePrev.norm v.edgeNext.norm)) then
        some (lp'.out.length, lp'.st.vs.length - lp.st.vs.length)
      else none
    | _ => none

/-- runs with splits: a polygon with a notch, and a rectangle with a triangular hole -/
example : goodRun [ringEdges [(-4, -3), (0, 0), (4, -3), (12, 8), (-12, 8)]] 20 = some (3, 2) ∧
    goodRun [ringEdges [(0, 0), (12, 0), (12, 8), (0, 8)],
      (ringEdges [(4, 4), (6, 5), (6, 3)]).map (fun e => { e with oid := e.oid + 4 })] 40 =
      some (7, 7) := by
  decide +kernel

/-! ### Right-angled notches -/

/-- C71 does not hold in general.  The polygon (-4,-4), (0,0), (4,-4), (12,6), (-12,10) has a right-angled
notch at its second vertex.  The face over its first edge, which lies on the line y = x, consists of the
vertices 0, 1, 5, 7.  In a plane that rises from the edge, the heights are proportional to the distances
from the line, which are proportional to y - x.  The slope towards vertex 5 is less than towards vertex 7
by more than one per mille, which is more than 10000 times the rounding error. -/
theorem C71_refuted :
    ((polygonize rt0 60 (simpleCall [(-4, -4), (0, 0), (4, -4), (12, 6), (-12, 10)] 1 1)).map (fun r =>
      (decide (r.result = .ok [[4, 0, 7], [3, 4, 7, 5, 6], [0, 1, 5, 7], [1, 2, 6, 5], [2, 3, 6]]),
        match r.verts[5]?, r.verts[7]? with
        | some p, some q =>
          decide (0 < p.z.k ∧ 0 < q.z.k ∧ 0 < p.y.k - p.x.k ∧ 0 < q.y.k - q.x.k ∧
            1001 * (p.z.k * (q.y.k - q.x.k)) < 1000 * (q.z.k * (p.y.k - p.x.k)))
        | _, _ => false))) = some (true, true) := by
  decide +kernel

end Polyskel
