import Verif.Props.ClosedLoops
/-
C25: the condition on the events is needed.
-/
namespace Polyskel
open Scalar

/-- the edges of a closed contour, with coordinates in thousandths -/
def milliEdges (l : List (Int × Int)) : List (Edge2 Soft) :=
  ((l.zip (l.drop 1 ++ l.take 1)).zipIdx).map (fun p =>
    Edge2.ofPoints p.2 (mkV2 (sq p.1.1.1 1000) (sq p.1.1.2 1000))
      (mkV2 (sq p.1.2.1 1000) (sq p.1.2.2 1000)))

/-- A polygon 84 x 56 with a notch.  Its reflex vertex (0, 30.001) reaches the short edge at the top,
from (2, 46) to (-2, 46), less than 0.001 before this edge shrinks to a point. -/
def chevron : List (Int × Int) :=
  [(-30000, -10000), (0, 30001), (30000, -10000), (42000, 16000), (2000, 46000), (-2000, 46000),
    (-42000, 16000)]

/-- some valid vertex has a predecessor that is not valid -/
def torn (st : St Soft) : Bool :=
  st.vs.any (fun v => v.valid && match st.vs[v.prev]? with
    | some w => !w.valid
    | none => false)

theorem not_closed_of_torn {st : St Soft} (h : torn st = true) : ¬ ClosedLoops st := by
  intro hc
  obtain ⟨R, hL⟩ := closedLoops_iff.1 hc
  unfold torn at h
  rw [List.any_eq_true] at h
  obtain ⟨v, hv, h⟩ := h
  rw [Bool.and_eq_true] at h
  obtain ⟨i, hi⟩ := List.mem_iff_getElem?.1 hv
  obtain ⟨l, hl, -, hm⟩ := hL.lavOf hi h.1
  have hp := ((hL.closed l hl).pv_mem hm (vs_fields hi).2.1).1
  obtain ⟨w, hw⟩ := getElem?_of_lt ((hL.closed l hl).lt _ hp)
  have h2 := h.2
  rw [hw] at h2
  have := (hc.valid _ w hw).2 ⟨l, hl, by
    have := (hL.mem l hl _).1 hp
    rw [(vs_fields hw).2.2.1] at this
    simpa using this⟩
  simp [this] at h2

/-- the first event of a run that is not apt tears the wavefront -/
def tears (ms : List (St Soft × Event Soft)) : Bool :=
  match ms.dropWhile (fun p => aptB p.1 p.2) with
  | [] => false
  | p :: _ => (match p.2 with
      | .edge e => match p.1.vs[e.a]?, p.1.vs[e.b]? with
        | some va, some vb => va.valid && vb.valid && va.next != e.b && va.lav != vb.lav
        | _, _ => false
      | _ => false) &&
    match handleEvent p.1 p.2 with
    | .ok (some (st', _, _)) => torn st'
    | _ => false

theorem chevron_tears :
    (match startLoop [milliEdges chevron] with
      | .ok lp => tears (moments 20 lp)
      | .error _ => false) = true := by
  decide +kernel

/-- C25 needs the condition on the events: in the run for this polygon there comes an edge event
that is handled although its two vertices are not neighbours - they even belong to different LAVs,
since a split has come between them less than 0.001 before.  Until then the wavefront is a set of
closed loops, afterwards it is not. -/
theorem C25_refuted : ∃ lp, startLoop [milliEdges chevron] = .ok lp ∧
    ∃ p ∈ moments 20 lp, ClosedLoops p.1 ∧ ¬ Apt p.1 p.2 ∧
      (∃ e va vb, p.2 = .edge e ∧ p.1.vs[e.a]? = some va ∧ p.1.vs[e.b]? = some vb ∧
        va.valid = true ∧ vb.valid = true ∧ va.lav ≠ vb.lav) ∧
      ∃ st' arcs es, handleEvent p.1 p.2 = .ok (some (st', arcs, es)) ∧ ¬ ClosedLoops st' := by
  have h := chevron_tears
  split at h
  · rename_i lp hs
    refine ⟨lp, hs, ?_⟩
    unfold tears at h
    split at h
    · cases h
    · rename_i p ps hd
      have he := List.takeWhile_append_dropWhile (p := fun p => aptB p.1 p.2) (l := moments 20 lp)
      rw [hd] at he
      rw [Bool.and_eq_true] at h
      refine ⟨p, by rw [← he]; simp, ?_, ?_⟩
      · refine C25_moments [milliEdges chevron] (by decide +kernel) lp hs 20 _ _ p he.symm ?_
        intro a ha
        exact apt_of_aptB (List.all_eq_true.1 List.all_takeWhile a ha)
      · obtain ⟨st, ev⟩ := p
        obtain ⟨h1, h2⟩ := h
        split at h1
        · rename_i e hev
          simp only at hev
          subst hev
          split at h1
          · rename_i va vb ha hb
            simp only [Bool.and_eq_true, bne_iff_ne, ne_eq] at h1
            refine ⟨fun hap => ?_, ⟨e, va, vb, rfl, ha, hb, h1.1.1.1, h1.1.1.2, h1.2⟩, ?_⟩
            · obtain ⟨⟨w, hw, hn⟩, -⟩ := hap va vb ha hb h1.1.1.1 h1.1.1.2
              rw [ha] at hw
              simp only [Option.some.injEq] at hw
              subst hw
              exact h1.1.2 hn
            · split at h2
              · rename_i st' arcs es hh
                exact ⟨st', arcs, es, hh, not_closed_of_torn h2⟩
              · cases h2
          · cases h1
        · cases h1
  · cases h

end Polyskel
