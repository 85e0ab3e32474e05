import Verif.Proofs.Potential
import Verif.Props.Dormers
import Verif.Spec.Exact
/-
The number of events of a run.
-/
namespace Polyskel
open Scalar HeapQ
set_option linter.unusedSectionVars false
variable {S : Type} [Scalar S]

theorem setbacks_append (a b : List (St S × Event S)) :
    setbacks (a ++ b) = setbacks a + setbacks b := List.countP_append

theorem setbacks_cons (p : St S × Event S) (b : List (St S × Event S)) :
    setbacks (p :: b) = setbacks b + setbacks [p] := by
  rw [← List.singleton_append, setbacks_append, Nat.add_comm]

/-- the bound on what is still to come -/
def Loop.phi (lp : Loop S) : Nat := lp.queue.length + 2 * lp.st.pot

theorem Pending.split_reflex {st : St S} {e : SplitEv S} (h : Pending st (.split e)) {v : Vtx S}
    (hv : st.vs[e.vertex]? = some v) : v.reflex = true := by
  obtain ⟨st0, id, h, hf⟩ := (h : Proposed st (.split e))
  obtain ⟨w, p, n, hw, hp, hn, h⟩ := nextEvent_mem h
  rcases h with h | ⟨e', he, hr, -, oe, -, hc⟩
  · rcases mem_edgesOf h with ⟨_, _, h⟩ | ⟨_, _, h⟩ <;> cases h
  · simp only [Event.split.injEq] at he
    subst he
    rw [(splitCandidate_some hc).1] at hv
    obtain ⟨w', hw', hc', -⟩ := hf.keep id w hw
    rw [hv] at hw'
    cases hw'
    rw [show v.reflex = w.reflex from congrArg Core.reflex hc']
    exact hr

theorem stepEvent_phi {lp lp' : Loop S} {ev : Event S} (hp : Pending lp.st ev)
    (hr : stepEvent lp ev = .ok lp') : lp'.phi ≤ lp.phi + 5 * setbacks [(lp.st, ev)] := by
  unfold stepEvent at hr
  obtain ⟨r, hr1, h1⟩ := bind_ok.1 hr
  cases r with
  | none =>
    simp only [pure_ok, Except.ok.injEq] at h1
    subst h1
    omega
  | some r =>
    obtain ⟨st', arcs, evs⟩ := r
    simp only [pure_ok, Except.ok.injEq] at h1
    subst h1
    have hl : (putAll lp.queue evs).length = lp.queue.length + evs.length := by
      rw [(C08_putAll_perm lp.queue evs).length_eq]; simp
    unfold Loop.phi
    simp only [hl]
    rcases handleEvent_cases hr1 with ⟨e, va, vb, rfl, hva, hvb, ha, hb, h⟩ | ⟨e, v, rfl, hv, hvv, h⟩ |
      ⟨d, p, e0, e1, e2, v0, v1, rfl, -, -, -, -, h⟩
    · obtain ⟨-, h5, h0⟩ := handleEdge_pot h hva hvb ha hb
      by_cases hs : Birth lp.st (.edge e) ∨ SelfMerge (.edge e : Event S)
      · have : setbacks [(lp.st, Event.edge e)] = 1 := by simp [setbacks, hs]
        omega
      · have := h0 (fun ⟨hpn, hor⟩ => hs (by
          rcases hor with hab | ⟨h1, h2, h3⟩
          · exact Or.inr ⟨e, rfl, hab⟩
          · exact Or.inl ⟨e, va, vb, rfl, hva, hvb, ha, hb, hpn, h1, h2, h3⟩))
        omega
    · have := handleSplit_pot h hv hvv (hp.split_reflex hv)
      omega
    · obtain ⟨rfl, h⟩ := handleDormer_pot h
      simp
      omega

/-- all events of a loop state come from vertices -/
def Loop.AllPending (lp : Loop S) (b : List (Event S)) : Prop := ∀ e ∈ b ++ lp.queue, Pending lp.st e

theorem stepEvent_pending {lp lp' : Loop S} {ev : Event S} {b : List (Event S)}
    (hp : lp.AllPending (ev :: b)) (hr : stepEvent lp ev = .ok lp') : lp'.AllPending b := by
  unfold stepEvent at hr
  obtain ⟨r, hr1, h1⟩ := bind_ok.1 hr
  cases r with
  | none =>
    simp only [pure_ok, Except.ok.injEq] at h1
    subst h1
    exact fun e he => hp e (by simp at he ⊢; tauto)
  | some r =>
    obtain ⟨st', arcs, evs⟩ := r
    simp only [pure_ok, Except.ok.injEq] at h1
    subst h1
    intro e he
    simp only [List.mem_append, (C08_putAll_perm lp.queue evs).mem_iff] at he
    rcases he with he | he | he
    · exact (hp e (by simp [he])).later (handleEvent_frame hr1)
    · exact (hp e (by simp [he])).later (handleEvent_frame hr1)
    · exact (handleEvent_events hr1 e he).pending

theorem batchMoments_phi {b : List (Event S)} {lp : Loop S} (hp : lp.AllPending b) :
    (batchMoments lp b).length ≤ b.length ∧
    ∀ lp', stepBatch lp b = .ok lp' → lp'.AllPending [] ∧
      lp'.phi ≤ lp.phi + 5 * setbacks (batchMoments lp b) := by
  induction b generalizing lp with
  | nil =>
    refine ⟨by simp [batchMoments], fun lp' h => ?_⟩
    cases h
    exact ⟨hp, by omega⟩
  | cons e es ih =>
    unfold batchMoments stepBatch
    cases hs : stepEvent lp e with
    | error err =>
      refine ⟨by simp, fun lp' h => ?_⟩
      cases h
    | ok lp1 =>
      obtain ⟨h1, h2⟩ := ih (stepEvent_pending hp hs)
      refine ⟨by simpa using h1, fun lp' h => ?_⟩
      rw [ok_bind] at h
      obtain ⟨h3, h4⟩ := h2 lp' h
      refine ⟨h3, ?_⟩
      have := stepEvent_phi (hp e (by simp)) hs
      show _ ≤ _ + 5 * setbacks ((lp.st, e) :: batchMoments lp1 es)
      rw [setbacks_cons]
      omega

theorem moments_phi {k : Nat} {lp : Loop S} (hp : lp.AllPending []) :
    (moments k lp).length ≤ lp.phi + 5 * setbacks (moments k lp) := by
  induction k generalizing lp with
  | zero => simp [moments]
  | succ k ih =>
    unfold moments
    split
    · simp
    · split
      · simp
      · rename_i batch q hg
        have hperm := ((C09_getAllEqualDistance_perm lp.queue).2 _ _ hg).1
        have hl := hperm.length_eq
        rw [List.length_append] at hl
        have hpb : Loop.AllPending { lp with queue := q } batch :=
          fun e he => hp e (by simpa using hperm.mem_iff.1 he)
        obtain ⟨h1, h2⟩ := batchMoments_phi hpb
        have hphi : Loop.phi { lp with queue := q } + batch.length = lp.phi := by
          simp only [Loop.phi]; omega
        rw [List.length_append, setbacks_append]
        split
        · rename_i lp1 hb
          obtain ⟨h3, h4⟩ := h2 lp1 hb
          have := ih h3
          omega
        · simp
          omega

theorem mainLoop_none {k : Nat} {lp : Loop S} (h : mainLoop k lp = none) :
    k ≤ (moments k lp).length := by
  induction k generalizing lp with
  | zero => simp
  | succ k ih =>
    unfold mainLoop at h
    unfold moments
    split at h
    · cases h
    · rename_i hc
      rw [if_neg hc]
      split at h
      · cases h
      · rename_i batch q hg
        simp only [hg]
        have hne := ((C09_getAllEqualDistance_perm lp.queue).2 _ _ hg).2
        split at h
        · cases h
        · rename_i lp1 hb
          rw [hb, List.length_append]
          have := ih h
          have : 1 ≤ (batchMoments { lp with queue := q } batch).length := by
            cases batch with
            | nil => exact absurd rfl hne
            | cons e es => simp [batchMoments]
          simp only
          omega

/-- the weight of a heap, from its vertices -/
theorem pot_le (st : St S) : st.pot ≤ st.vs.length + 2 * st.vs.countP (·.reflex) := by
  obtain ⟨vs, lavs, slav, orig⟩ := st
  induction vs using List.reverseRecOn with
  | nil => simp [St.pot]
  | append_singleton vs v ih =>
    have := pot_newV (⟨vs, lavs, slav, orig⟩ : St S) v
    simp only [St.newV] at this
    rw [this, List.countP_append, List.length_append]
    simp only at ih
    have : v.wt ≤ 1 + 2 * [v].countP (·.reflex) := by
      unfold Vtx.wt
      cases v.valid <;> cases hr : v.reflex <;> simp [hr]
    simp only [List.length_singleton]
    omega

/-! ### the initial queue -/

theorem dormerStarts_length (n : Nat) (ns : Nat) (ss : List Nat) (b : Nat)
    (hp : ss.Pairwise (· < ·)) (hb : ∀ s ∈ ss, b ≤ s) :
    (dormerStarts n ns ss).length + b ≤ max n b := by
  induction ss generalizing ns b with
  | nil => simp [dormerStarts]
  | cons s ss ih =>
    rw [List.pairwise_cons] at hp
    have h1 := fun ns => ih ns (s + 1) hp.2 (fun x hx => hp.1 x hx)
    have h2 := hb s (by simp)
    unfold dormerStarts
    split
    · have := h1 (s + 3); simp only [List.length_cons]; omega
    · rename_i hc
      have h3 := h1 ns
      by_cases hsn : s < n
      · omega
      · have h0 : ∀ (ns : Nat) (l : List Nat), (∀ x ∈ l, n ≤ x) → dormerStarts n ns l = [] := by
          intro ns l hl
          induction l generalizing ns with
          | nil => rfl
          | cons x l ihl =>
            unfold dormerStarts
            rw [if_neg (by have := hl x (by simp); omega)]
            exact ihl _ (fun y hy => hl y (List.mem_cons_of_mem _ hy))
        rw [h0 ns ss (fun x hx => by have := hp.1 x hx; omega)]
        simp

theorem dropOverlaps_length (ds : List (List Nat)) : (dropOverlaps ds).length ≤ ds.length := by
  unfold dropOverlaps
  simp only
  generalize (ds.zip (ds.drop 1 ++ ds.take 1)).flatMap _ = bad
  induction bad generalizing ds with
  | nil => simp
  | cons b bad ih =>
    rw [List.foldl_cons]
    refine (ih _).trans ?_
    split
    · exact List.length_erase_le
    · exact le_refl _

theorem detectDormers_length {cs : List (List (Edge2 S))} {ds : List (List Nat × S)}
    (h : detectDormers cs = .ok ds) : ds.length ≤ (cs.map List.length).sum := by
  unfold detectDormers at h
  split at h
  · cases h
  · rename_i outer rest
    obtain ⟨seq, hseq, h⟩ := bind_ok.1 h
    have hlen : seq.length = outer.length := by
      unfold dormerSequence at hseq
      obtain ⟨ps, hps, hseq⟩ := bind_ok.1 hseq
      obtain ⟨hne, rfl⟩ := iterPrevNext_ok hps
      simp only [pure_ok, Except.ok.injEq] at hseq
      subst hseq
      rw [List.length_map, cornerPairs_length]
    have hds : (dropOverlaps (dormerStarts seq.length 0 (rllrMatches 0 (seq ++ seq)))).length ≤
        outer.length := by
      refine (dropOverlaps_length _).trans ?_
      have := dormerStarts_length seq.length 0 _ 0 (rllrMatches_spec 0 (seq ++ seq)).2 (by simp)
      omega
    have hsum : outer.length ≤ ((outer :: rest).map List.length).sum := by simp
    simp only at h
    split at h
    · simp only [pure_ok, Except.ok.injEq] at h; subst h; simp
    · split at h
      · simp only [pure_ok, Except.ok.injEq] at h; subst h; simp
      · obtain ⟨r, hr, h⟩ := bind_ok.1 h
        simp only [pure_ok, Except.ok.injEq] at h
        subst h
        have := (mapM_ok hr).length_eq
        have := List.length_filterMap_le id r
        omega

/-- there are no more initial events than vertices and dormers -/
theorem startLoop_queue {cs : List (List (Edge2 S))} (h3 : ∀ c ∈ cs, 3 ≤ c.length) {lp : Loop S}
    (hs : startLoop cs = .ok lp) :
    lp.st.vs.length = (cs.map List.length).sum ∧
    lp.queue.length ≤ 2 * (cs.map List.length).sum ∧
    (detectDormers cs = .ok [] → lp.queue.length ≤ (cs.map List.length).sum) := by
  obtain ⟨hst, -, ds, init, init', hd, hi, hi', hq⟩ := startLoop_ok hs
  obtain ⟨st, R, hst', hL, -, hlen, -, hch, -⟩ := mkSlav_loops h3
  rw [hst] at hst'
  cases hst'
  have hil : init.length = (cs.map List.length).sum := by
    unfold initialEvents at hi
    rw [hch, ok_bind] at hi
    rw [← (mapM_ok hi).length_eq, List.length_range, hlen]
  have hql : lp.queue.length ≤ init'.length := by
    rw [hq, (C08_putAll_perm [] _).length_eq]
    simpa using List.length_filterMap_le id init'
  refine ⟨hlen, ?_, fun h0 => ?_⟩
  · split at hi'
    · cases hi'; omega
    · unfold processDormers at hi'
      obtain ⟨evs, hevs, hi'⟩ := bind_ok.1 hi'
      simp only [pure_ok, Except.ok.injEq] at hi'
      have h1 := (mapM_ok hevs).length_eq
      have h2 := detectDormers_length hd
      have h3 : init'.length ≤ init.length + evs.length := by
        rw [← hi', List.length_append, List.length_map]
        refine Nat.add_le_add ((List.length_filter_le _ _).trans (by simp)) ?_
        exact (List.length_filter_le _ _).trans (by simp)
      omega
  · rw [hd] at h0
    cases h0
    simp only [List.isEmpty_nil, if_true, Except.ok.injEq] at hi'
    subst hi'
    omega

/-! ### edge events of a vertex with itself -/

theorem batchMoments_pending {b : List (Event S)} {lp : Loop S} (hp : lp.AllPending b) :
    ∀ p ∈ batchMoments lp b, Pending p.1 p.2 := by
  induction b generalizing lp with
  | nil => simp [batchMoments]
  | cons e es ih =>
    unfold batchMoments
    intro p hm
    rcases List.mem_cons.1 hm with rfl | hm
    · exact hp e (by simp)
    · cases hs : stepEvent lp e with
      | error err => rw [hs] at hm; simp at hm
      | ok lp1 => rw [hs] at hm; exact ih (stepEvent_pending hp hs) p hm

theorem moments_pending {k : Nat} {lp : Loop S} (hp : lp.AllPending []) :
    ∀ p ∈ moments k lp, Pending p.1 p.2 := by
  induction k generalizing lp with
  | zero => simp [moments]
  | succ k ih =>
    unfold moments
    split
    · simp
    · split
      · simp
      · rename_i batch q hg
        have hperm := ((C09_getAllEqualDistance_perm lp.queue).2 _ _ hg).1
        have hpb : Loop.AllPending { lp with queue := q } batch :=
          fun e he => hp e (by simpa using hperm.mem_iff.1 he)
        intro p hm
        rcases List.mem_append.1 hm with hm | hm
        · exact batchMoments_pending hpb p hm
        · split at hm
          · rename_i lp1 hb
            exact ih ((batchMoments_phi hpb).2 lp1 hb).1 p hm
          · simp at hm

theorem Pending.not_selfMerge (hself : ∀ L : Lin S, L.intersect L = none) {st : St S} {e : Event S}
    (h : Pending st e) : ¬ SelfMerge e := by
  rintro ⟨e, rfl, hab⟩
  obtain ⟨st0, id, h, hf⟩ := (h : Proposed st (.edge e))
  obtain ⟨v, p, n, hv, hp, hn, h⟩ := nextEvent_mem h
  rcases h with h | ⟨e', he, -⟩
  · rcases mem_edgesOf h with ⟨i, hi, h⟩ | ⟨i, hi, h⟩ <;> simp only [Event.edge.injEq] at h <;>
      subst h <;> simp only at hab
    · rw [hab, hv] at hp
      cases hp
      rw [hself] at hi; cases hi
    · rw [← hab, hv] at hn
      cases hn
      rw [hself] at hi; cases hi
  · cases he

theorem intersect_self (L : Lin ℝ) : L.intersect L = none := by
  unfold Lin.intersect
  simp [mul_comm]

end Polyskel
