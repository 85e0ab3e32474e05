import Verif.Proofs.Shared
import Verif.Props.Termination
/-
C53: neighbours of the wavefront share an edge, so that a split event never finds its own vertex
and the main loop never raises.

The theorems hold for every Scalar, so also for floating point numbers.
-/
namespace Polyskel
open Scalar
set_option linter.unusedSectionVars false
variable {S : Type} [Scalar S]

/-- C53, whole runs: without dormers, and with contours whose edges can be told apart, as long as
all events are apt: at every moment the edge after a valid vertex is the edge before the next one. -/
theorem C53_shared (cs : List (List (Edge2 S))) (h3 : ∀ c ∈ cs, 3 ≤ c.length)
    (hd : detectDormers cs = .ok []) (hE : DistinctEdges cs.flatten) (lp : Loop S)
    (hs : startLoop cs = .ok lp) (k : Nat) (hA : ∀ a ∈ moments k lp, Apt a.1 a.2) :
    (∀ a ∈ moments k lp, SharedEdges a.1) ∧
    ∀ lp', mainLoop k lp = some (.ok lp') → SharedEdges lp'.st := by
  obtain ⟨h1, h2⟩ := mainLoop_joined hE (startLoop_joined h3 hd hs) hA
  refine ⟨h1, fun lp' hm => ?_⟩
  rcases h2 with h2 | ⟨lp'', h2, hj⟩
  · rw [h2] at hm; cases hm
  · rw [h2] at hm
    simp only [Option.some.injEq, Except.ok.injEq] at hm
    subst hm
    exact hj.shared

/-- C53, one split: the pair of neighbours that a split event finds meets in the opposite edge, and
does not contain the vertex of the event. -/
theorem C53_pair (st : St S) (e : SplitEv S) (hc : ClosedLoops st) (hsh : SharedEdges st)
    (hE : DistinctEdges (e.opp :: st.vs.flatMap (fun v => [v.edgePrev, v.edgeNext])))
    (hv : ∀ v, st.vs[e.vertex]? = some v → e.opp ≠ v.edgePrev ∧ e.opp ≠ v.edgeNext)
    (x y : Nat) (hs : splitSearch st e st.slav = .ok (some (x, y))) :
    ∃ vx vy, st.vs[x]? = some vx ∧ st.vs[y]? = some vy ∧ vy.next = x ∧ vx.prev = y ∧
      vx.edgePrev = e.opp ∧ vy.edgeNext = e.opp ∧ x ≠ e.vertex ∧ y ≠ e.vertex := by
  obtain ⟨R, hL⟩ := closedLoops_iff.1 hc
  have hm : ∀ (i : Nat) (v : Vtx S), st.vs[i]? = some v →
      v.edgePrev ∈ e.opp :: st.vs.flatMap (fun v => [v.edgePrev, v.edgeNext]) ∧
      v.edgeNext ∈ e.opp :: st.vs.flatMap (fun v => [v.edgePrev, v.edgeNext]) := by
    intro i v h
    have := List.mem_of_getElem? h
    constructor <;> refine List.mem_cons_of_mem _ (List.mem_flatMap.2 ⟨v, this, by simp⟩)
  obtain ⟨m, -, -, -, hlk⟩ := hL.splitPair hs
  obtain ⟨⟨vy', hvy', hn⟩, vx', hvx', hp⟩ := hlk
  obtain ⟨vx, vy, hvx, hvy, h1, h2⟩ := splitPair_opp' hL hsh hm hE (by simp) hs
  rw [hvx] at hvx'
  rw [hvy] at hvy'
  simp only [Option.some.injEq] at hvx' hvy'
  subst hvx' hvy'
  refine ⟨vx, vy, hvx, hvy, hn, hp, h1, h2, ?_, ?_⟩
  · rintro rfl
    exact (hv _ hvx).1 h1.symm
  · rintro rfl
    exact (hv _ hvy).2 h2.symm

/-- C53, the main loop never raises: under the same conditions it ends normally, or has not ended
yet. -/
theorem C53_never_raises (cs : List (List (Edge2 S))) (h3 : ∀ c ∈ cs, 3 ≤ c.length)
    (hd : detectDormers cs = .ok []) (hE : DistinctEdges cs.flatten) (lp : Loop S)
    (hs : startLoop cs = .ok lp) (k : Nat) (hA : ∀ a ∈ moments k lp, Apt a.1 a.2) (err : PyErr) :
    mainLoop k lp ≠ some (.error err) := by
  obtain ⟨-, h2⟩ := mainLoop_joined hE (startLoop_joined h3 hd hs) hA
  intro hm
  rcases h2 with h2 | ⟨lp'', h2, -⟩ <;> rw [h2] at hm <;> cases hm

/-- C53, without dormers the beginning does not raise either. -/
theorem C53_start (cs : List (List (Edge2 S))) (h3 : ∀ c ∈ cs, 3 ≤ c.length)
    (hd : detectDormers cs = .ok []) : ∃ lp, startLoop cs = .ok lp := by
  obtain ⟨st, R, h1, hL, -⟩ := mkSlav_loops h3
  have hi : ∃ init, initialEvents st = .ok init := by
    obtain ⟨ids, hch, hm⟩ := hL.chainLavs st.slav (fun _ h => h)
    unfold initialEvents
    rw [hch, ok_bind]
    refine mapM_total (fun i hi => ?_)
    obtain ⟨l, hl, hi⟩ := hm i hi
    exact hL.nextEvent hl hi
  obtain ⟨init, hi⟩ := hi
  refine ⟨{ st, queue := putAll [] (init.filterMap id), out := [] }, ?_⟩
  unfold startLoop
  rw [h1, ok_bind, hd, ok_bind, hi, ok_bind]
  rfl

/-- C53, `skeletonize` altogether: if moreover the run has no births and no edge event of a vertex
with itself, the main loop ends, and the result is that of the last two phases, merging and ghost
removal - only they can raise. -/
theorem C53_skeletonize (cs : List (List (Edge2 S))) (h3 : ∀ c ∈ cs, 3 ≤ c.length)
    (hd : detectDormers cs = .ok []) (hE : DistinctEdges cs.flatten)
    (hA : ∀ lp, startLoop cs = .ok lp → ∀ k, ∀ p ∈ moments k lp,
      Apt p.1 p.2 ∧ ¬ Birth p.1 p.2 ∧ ¬ SelfMerge p.2) :
    ∃ lp lp', startLoop cs = .ok lp ∧
      mainLoop (8 * (cs.map List.length).sum + 1) lp = some (.ok lp') ∧
      skeletonize (8 * (cs.map List.length).sum + 1) cs = some (finish cs lp'.out) := by
  obtain ⟨lp, hs⟩ := C53_start cs h3 hd
  have hz : setbacks (moments (8 * (cs.map List.length).sum + 1) lp) ≤ 0 := by
    unfold setbacks
    rw [Nat.le_zero, List.countP_eq_zero]
    intro p hp
    have := hA lp hs _ p hp
    simp [this]
  have hc : lp.st.vs.countP (·.reflex) ≤ (cs.map List.length).sum := by
    rw [← (startLoop_queue h3 hs).1]
    exact List.countP_le_length
  obtain ⟨r, hr⟩ := C26_terminates cs h3 lp hs 0 _ (by omega) hz
  cases r with
  | error err =>
    exact absurd hr (C53_never_raises cs h3 hd hE lp hs _ (fun a ha => (hA lp hs _ a ha).1) err)
  | ok lp' =>
    refine ⟨lp, lp', hs, hr, ?_⟩
    unfold skeletonize
    rw [hs]
    simp only [hr]

/-- whether neighbours share an edge at every moment; the number of moments with a split that adds
a node -/
private def sharedB (st : St Soft) : Bool :=
  st.vs.all (fun v => !v.valid || match st.vs[v.next]? with
    | some w => v.edgeNext.oid == w.edgePrev.oid
    | none => true)

private def sharedRun (k : Nat) (cs : List (List (Edge2 Soft))) : Option (Bool × Bool × Nat × Bool) :=
  match startLoop cs with
  | .error _ => none
  | .ok lp =>
    let ms := moments k lp
    some ((match detectDormers cs with | .ok ds => ds.isEmpty | _ => false) && distinctB cs.flatten,
      ms.all (fun p => aptB p.1 p.2), ms.countP (fun p => match p.2, handleEvent p.1 p.2 with
        | .split _, .ok (some (_, _ :: _, _)) => true
        | _, _ => false), ms.all (fun p => sharedB p.1))

/-- a case of C53 with a split: an L shape -/
example : sharedRun 40 [ringEdges [(0, 0), (8, 0), (8, 4), (4, 4), (4, 8), (0, 8)]] =
    some (true, true, 1, true) := by decide +kernel

/-- a case with splits that join two loops: a rectangle with a triangular hole -/
example : sharedRun 40 [ringEdges [(0, 0), (9, 0), (9, 8), (0, 8)],
    (ringEdges [(3, 4), (5, 5), (5, 3)]).map (fun e => { e with oid := e.oid + 4 })] =
    some (true, true, 3, true) := by decide +kernel

end Polyskel
