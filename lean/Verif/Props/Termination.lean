import Verif.Proofs.Termination
import Verif.Spec.Samples
/-
C26: the event loop terminates.
-/
namespace Polyskel
open Scalar
set_option linter.unusedSectionVars false
variable {S : Type} [Scalar S]

/-- C26, the bound: the number of events that a run of any length takes from the queue is at most
4 for each corner, 4 more for each reflex corner, and 5 for each birth of a reflex vertex from two
convex ones and each edge event of a vertex with itself. -/
theorem C26_bound (cs : List (List (Edge2 S))) (h3 : ∀ c ∈ cs, 3 ≤ c.length) (lp : Loop S)
    (hs : startLoop cs = .ok lp) (k : Nat) :
    (moments k lp).length ≤ 4 * (cs.map List.length).sum + 4 * lp.st.vs.countP (·.reflex) +
      5 * setbacks (moments k lp) := by
  obtain ⟨h1, h2, -⟩ := startLoop_queue h3 hs
  have hp : lp.AllPending [] := fun e he => startLoop_pending hs e (by simpa using he)
  have := moments_phi (k := k) hp
  have := pot_le lp.st
  unfold Loop.phi at *
  omega

/-- C26, termination: if a run of any length has at most `B` births and edge events of a vertex
with itself, the main loop ends after that many batches. -/
theorem C26_terminates (cs : List (List (Edge2 S))) (h3 : ∀ c ∈ cs, 3 ≤ c.length) (lp : Loop S)
    (hs : startLoop cs = .ok lp) (B k : Nat)
    (hk : 4 * (cs.map List.length).sum + 4 * lp.st.vs.countP (·.reflex) + 5 * B < k)
    (hB : setbacks (moments k lp) ≤ B) : ∃ r, mainLoop k lp = some r := by
  cases h : mainLoop k lp with
  | some r => exact ⟨r, rfl⟩
  | none =>
    have := mainLoop_none h
    have := C26_bound cs h3 lp hs k
    omega

/-- C26, a run without births and without edge events of a vertex with itself ends. -/
theorem C26_skeletonize (cs : List (List (Edge2 S))) (h3 : ∀ c ∈ cs, 3 ≤ c.length)
    (h0 : ∀ lp, startLoop cs = .ok lp → ∀ k, ∀ p ∈ moments k lp, ¬ Birth p.1 p.2 ∧ ¬ SelfMerge p.2) :
    ∃ r, skeletonize (8 * (cs.map List.length).sum + 1) cs = some r := by
  unfold skeletonize
  cases hs : startLoop cs with
  | error e => exact ⟨_, rfl⟩
  | ok lp =>
    have hz : setbacks (moments (8 * (cs.map List.length).sum + 1) lp) = 0 := by
      unfold setbacks
      rw [List.countP_eq_zero]
      intro p hp
      have := h0 lp hs _ p hp
      simp [this]
    have hc : lp.st.vs.countP (·.reflex) ≤ (cs.map List.length).sum := by
      rw [← (startLoop_queue h3 hs).1]
      exact List.countP_le_length
    obtain ⟨r, hr⟩ := C26_terminates cs h3 lp hs 0 (8 * (cs.map List.length).sum + 1) (by omega)
      (by omega)
    simp only [hr]
    cases r <;> exact ⟨_, rfl⟩

/-- C26 in exact arithmetic: no edge event is one of a vertex with itself, so that only births
count. -/
theorem C26_real (cs : List (List (Edge2 ℝ))) (h3 : ∀ c ∈ cs, 3 ≤ c.length) (lp : Loop ℝ)
    (hs : startLoop cs = .ok lp) (k : Nat) :
    (∀ p ∈ moments k lp, ¬ SelfMerge p.2) ∧
    ((∀ p ∈ moments k lp, ¬ Birth p.1 p.2) →
      8 * (cs.map List.length).sum < k → ∃ r, mainLoop k lp = some r) := by
  have hp : lp.AllPending [] := fun e he => startLoop_pending hs e (by simpa using he)
  have hsm : ∀ p ∈ moments k lp, ¬ SelfMerge p.2 :=
    fun p hm => (moments_pending hp p hm).not_selfMerge intersect_self
  refine ⟨hsm, fun hb hk => ?_⟩
  have hz : setbacks (moments k lp) = 0 := by
    unfold setbacks
    rw [List.countP_eq_zero]
    intro p hp
    simp [hb p hp, hsm p hp]
  have hc : lp.st.vs.countP (·.reflex) ≤ (cs.map List.length).sum := by
    rw [← (startLoop_queue h3 hs).1]
    exact List.countP_le_length
  exact C26_terminates cs h3 lp hs 0 k (by omega) (by omega)

/-- C26 with any arithmetic: an edge event of neighbours in a closed wavefront is not one of a
vertex with itself. -/
theorem C26_neighbours (st : St S) (e : EdgeEv S) (h : ClosedLoops st) (hap : Apt st (.edge e))
    (va vb : Vtx S) (ha : st.vs[e.a]? = some va) (hb : st.vs[e.b]? = some vb)
    (hva : va.valid = true) (hvb : vb.valid = true) : e.a ≠ e.b := by
  obtain ⟨R, hL⟩ := closedLoops_iff.1 h
  have hlk := hap va vb ha hb hva hvb
  obtain ⟨l, hl, -, hm⟩ := hL.lavOf ha hva
  intro hab
  rw [← hab] at hlk
  have h3 := hL.three l hl
  obtain ⟨P, hs, hp, hd⟩ := (hL.closed l hl).rotate hm
  cases P with
  | nil => have := hp.length_eq; simp at this; omega
  | cons c P =>
    rw [seg_cons, link_iff] at hs
    rw [link_iff] at hlk
    have : c = e.a := by
      have h1 := hs.1.1
      rw [hlk.1] at h1
      simpa using h1.symm
    subst this
    simp at hd

/-- all events of a run of the L shape and of a rectangle with a hole: their number is within the
bound and there are no births and no edge events of a vertex with itself -/
private def calm (k : Nat) (cs : List (List (Edge2 Soft))) : Option (Nat × Nat × Bool) :=
  match startLoop cs with
  | .error _ => none
  | .ok lp => some ((moments k lp).length, lp.st.vs.countP (·.reflex),
      (moments k lp).all (fun p => match p.2 with
        | .edge e => e.a != e.b && match p.1.vs[e.a]?, p.1.vs[e.b]? with
          | some va, some vb => va.reflex || vb.reflex ||
            !(fzero <. V2.cross (V2.normalized vb.bisector.v) (V2.normalized va.bisector.v))
          | _, _ => true
        | _ => true))

/-- a case of C26_bound: an L shape, six corners, one of them reflex, eight events -/
example : calm 40 [ringEdges [(0, 0), (8, 0), (8, 4), (4, 4), (4, 8), (0, 8)]] =
    some (8, 1, true) := by decide +kernel

/-- a rectangle with a triangular hole -/
example : calm 40 [ringEdges [(0, 0), (9, 0), (9, 8), (0, 8)],
    (ringEdges [(3, 4), (5, 5), (5, 3)]).map (fun e => { e with oid := e.oid + 4 })] =
    some (9, 3, true) := by decide +kernel

end Polyskel
