import Verif.Proofs.Moments
/-
A general induction principle for the main loop.
-/
namespace Polyskel
open Scalar
set_option linter.unusedSectionVars false
variable {S : Type} [Scalar S]

/-- `I lp es` holds when the events `es` of the batch are still to be handled. -/
theorem mainLoop_invariant (I : Loop S → List (Event S) → Prop) (Q : St S → Event S → Prop)
    (hstep : ∀ lp e es, I lp (e :: es) → Q lp.st e ∧ ∃ lp', stepEvent lp e = .ok lp' ∧ I lp' es)
    (htake : ∀ lp batch q, I lp [] → getAllEqualDistance lp.queue = some (batch, q) →
      I { lp with queue := q } batch) (k : Nat) (lp : Loop S) (h : I lp []) :
    (∀ a ∈ moments k lp, Q a.1 a.2) ∧
    (mainLoop k lp = none ∨ ∃ lp', mainLoop k lp = some (.ok lp') ∧ I lp' []) := by
  have hbatch : ∀ (es : List (Event S)) (lp : Loop S), I lp es →
      (∀ a ∈ batchMoments lp es, Q a.1 a.2) ∧ ∃ lp', stepBatch lp es = .ok lp' ∧ I lp' [] := by
    intro es
    induction es with
    | nil => exact fun lp h => ⟨by simp [batchMoments], lp, rfl, h⟩
    | cons e es ih =>
      intro lp h
      obtain ⟨h0, lp', h1, h2⟩ := hstep lp e es h
      unfold batchMoments stepBatch
      rw [h1]
      simp only
      obtain ⟨i1, i2⟩ := ih lp' h2
      refine ⟨?_, i2⟩
      intro a ha
      rcases List.mem_cons.1 ha with rfl | ha
      · exact h0
      · exact i1 a ha
  induction k generalizing lp with
  | zero =>
    refine ⟨by simp [moments], ?_⟩
    unfold mainLoop
    split
    · exact Or.inr ⟨lp, rfl, h⟩
    · exact Or.inl rfl
  | succ k ih =>
    unfold mainLoop moments
    by_cases hfin : (lp.queue.isEmpty || lp.st.slav.isEmpty) = true
    · rw [if_pos hfin, if_pos hfin]
      exact ⟨by simp, Or.inr ⟨lp, rfl, h⟩⟩
    · rw [if_neg hfin, if_neg hfin]
      cases hq : getAllEqualDistance lp.queue with
      | none =>
        exfalso
        rw [(C09_getAllEqualDistance_perm lp.queue).1] at hq
        simp [hq] at hfin
      | some bq =>
        obtain ⟨batch, q⟩ := bq
        obtain ⟨i1, lp', g1, hs'⟩ := hbatch batch _ (htake lp batch q h hq)
        simp only [g1]
        obtain ⟨j1, j2⟩ := ih lp' hs'
        refine ⟨fun a ha => ?_, j2⟩
        rcases List.mem_append.1 ha with ha | ha
        · exact i1 a ha
        · exact j1 a ha

end Polyskel
