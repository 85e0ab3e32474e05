import Verif.Proofs.Run
/-
Where the events in the queue come from.
-/
namespace Polyskel
open Scalar
set_option linter.unusedSectionVars false

section
variable {S : Type} [Scalar S]

theorem minByKey_mem (key : Event S → S) (e : Event S) (es : List (Event S)) :
    minByKey key e es ∈ e :: es := by
  induction es generalizing e with
  | nil => simp [minByKey]
  | cons x xs ih =>
    unfold minByKey
    have := ih (if key x <. key e then x else e)
    rcases List.mem_cons.1 this with h | h
    · rw [h]; split <;> simp
    · simp [h]

/-- an event proposed by a vertex -/
theorem nextEvent_mem {st : St S} {id : Nat} {e : Event S} (h : nextEvent st id = .ok (some e)) :
    ∃ v p n, st.vs[id]? = some v ∧ st.vs[v.prev]? = some p ∧ st.vs[v.next]? = some n ∧
      (e ∈ edgesOf id v p n ∨ ∃ e', e = .split e' ∧ v.reflex = true ∧ v.lav ≠ none ∧
        ∃ oe ∈ st.orig, splitCandidate id v oe = some e') := by
  unfold nextEvent at h
  obtain ⟨v, hv, h⟩ := bind_ok.1 h
  obtain ⟨splits, hs, h⟩ := bind_ok.1 h
  obtain ⟨p, hp, h⟩ := bind_ok.1 h
  obtain ⟨n, hn, h⟩ := bind_ok.1 h
  simp only [pure_ok, Except.ok.injEq] at h
  refine ⟨v, p, n, getV_ok.1 hv, getV_ok.1 hp, getV_ok.1 hn, ?_⟩
  have hm : e ∈ splits.map Event.split ++ edgesOf id v p n := by
    generalize splits.map Event.split ++ edgesOf id v p n = L at h
    cases L with
    | nil => cases h
    | cons x xs =>
      simp only [nearest, Option.some.injEq] at h
      rw [← h]; exact minByKey_mem _ _ _
  rcases List.mem_append.1 hm with hm | hm
  · right
    obtain ⟨e', he', rfl⟩ := List.mem_map.1 hm
    unfold splitsOf at hs
    by_cases hr : v.reflex = true
    · rw [if_pos hr] at hs
      split at hs
      · cases hs
      · rename_i l hl
        cases hs
        obtain ⟨oe, h1, h2⟩ := List.mem_filterMap.1 he'
        exact ⟨e', rfl, hr, by rw [hl]; simp, oe, h1, h2⟩
    · rw [if_neg hr] at hs; cases hs; simp at he'
  · exact .inl hm

/-- the two edge events a vertex may propose -/
theorem mem_edgesOf {id : Nat} {v p n : Vtx S} {e : Event S} (h : e ∈ edgesOf id v p n) :
    (∃ i, v.bisector.intersect p.bisector = some i ∧
      e = .edge ⟨(Line2.ofEdge v.edgePrev).distance i, i, v.prev, id⟩) ∨
    ∃ i, v.bisector.intersect n.bisector = some i ∧
      e = .edge ⟨(Line2.ofEdge v.edgeNext).distance i, i, id, v.next⟩ := by
  unfold edgesOf edgeOf at h
  rcases List.mem_append.1 h with h | h
  · left
    split at h
    · rename_i i hi; simp at h; exact ⟨i, hi, h⟩
    · simp at h
  · right
    split at h
    · rename_i i hi; simp at h; exact ⟨i, hi, h⟩
    · simp at h

/-- an accepted candidate -/
theorem splitCandidate_some {id : Nat} {v : Vtx S} {oe : OrigEdge S} {e : SplitEv S}
    (h : splitCandidate id v oe = some e) :
    e.vertex = id ∧ e.opp = oe.edge ∧ e.dist = (Line2.ofEdge oe.edge).distance e.pt ∧
      oe.edge.oid ≠ v.edgePrev.oid ∧ oe.edge.oid ≠ v.edgeNext.oid := by
  unfold splitCandidate at h
  split at h
  · cases h
  · rename_i hid
    simp only [not_or] at hid
    simp only at h
    repeat' split at h
    all_goals first
      | (cases h; done)
      | (cases h; exact ⟨rfl, rfl, rfl, hid.1, hid.2⟩)

/-- the event was proposed by a vertex in this heap or an earlier one -/
def Proposed (st : St S) (e : Event S) : Prop :=
  ∃ st0 id, nextEvent st0 id = .ok (some e) ∧ Frame (fun _ => True) st0 st

theorem Proposed.later {st st' : St S} {e : Event S} (h : Proposed st e)
    (hf : Frame (fun _ => True) st st') : Proposed st' e := by
  obtain ⟨st0, id, h1, h2⟩ := h
  exact ⟨st0, id, h1, h2.trans hf⟩

/-- the same for the parts of a dormer event -/
def Pending (st : St S) : Event S → Prop
  | .dormer _ _ e0 e1 e2 => Proposed st (.split e0) ∧ Proposed st (.split e1) ∧ Proposed st (.edge e2)
  | e => Proposed st e

theorem Pending.later {st st' : St S} {e : Event S} (h : Pending st e)
    (hf : Frame (fun _ => True) st st') : Pending st' e := by
  cases e with
  | dormer d p e0 e1 e2 => exact ⟨h.1.later hf, h.2.1.later hf, h.2.2.later hf⟩
  | edge e => exact Proposed.later h hf
  | split e => exact Proposed.later h hf

theorem Proposed.pending {st : St S} {e : Event S} (h : Proposed st e) : Pending st e := by
  cases e with
  | dormer d p e0 e1 e2 =>
    exfalso
    obtain ⟨st0, id, h, -⟩ := h
    obtain ⟨v, p, n, -, -, -, h | ⟨_, h, -⟩⟩ := nextEvent_mem h
    · rcases mem_edgesOf h with ⟨_, _, h⟩ | ⟨_, _, h⟩ <;> cases h
    · cases h
  | edge e => exact h
  | split e => exact h

theorem nextEvents_mem {st : St S} {vs : List Nat} {es : List (Event S)}
    (h : nextEvents st vs = .ok es) : ∀ e ∈ es, ∃ id ∈ vs, nextEvent st id = .ok (some e) := by
  induction vs generalizing es with
  | nil => cases h; simp
  | cons v vs ih =>
    unfold nextEvents at h
    obtain ⟨e1, h1, h⟩ := bind_ok.1 h
    obtain ⟨es1, h2, h⟩ := bind_ok.1 h
    cases h
    intro e he
    rcases List.mem_append.1 he with he | he
    · rw [Option.mem_toList] at he
      cases he
      exact ⟨v, by simp, h1⟩
    · obtain ⟨id, h3, h4⟩ := ih h2 e he
      exact ⟨id, by simp [h3], h4⟩

/-- the events added while handling one -/
theorem handleEvent_events {st st' : St S} {ev : Event S} {arcs : List (Subtree S)}
    {es : List (Event S)} (hr : handleEvent st ev = .ok (some (st', arcs, es))) :
    ∀ e ∈ es, Proposed st' e := by
  rcases handleEvent_cases hr with ⟨ev, va, vb, -, -, -, -, -, h⟩ | ⟨ev, v, -, -, -, h⟩ |
    ⟨d, p, e0, e1, e2, v0, v1, -, -, -, -, -, h⟩
  · unfold handleEdge at h
    obtain ⟨va, hva, h⟩ := bind_ok.1 h
    obtain ⟨vb, hvb, h⟩ := bind_ok.1 h
    split at h
    · obtain ⟨s, hs, h⟩ := bind_ok.1 h
      split at h
      · cases h
      · obtain ⟨vs, hvs, h⟩ := bind_ok.1 h
        obtain ⟨sinks, hsi, h⟩ := bind_ok.1 h
        obtain ⟨s2, hs2, h⟩ := bind_ok.1 h
        cases h; simp
    · split at h
      · cases h
      · obtain ⟨⟨s, r⟩, hs, h⟩ := bind_ok.1 h
        obtain ⟨o, ho, h⟩ := bind_ok.1 h
        obtain ⟨ne, hne, h⟩ := bind_ok.1 h
        simp only [pure_ok, Except.ok.injEq, Prod.mk.injEq] at h
        obtain ⟨rfl, -, rfl⟩ := h
        intro e he
        rw [Option.mem_toList] at he
        cases he
        exact ⟨_, r, hne, .refl _⟩
  · unfold handleSplit at h
    obtain ⟨r, hs, h⟩ := bind_ok.1 h
    cases r with
    | none => cases h; simp
    | some xy =>
      obtain ⟨v, s1, v1, v2, s2, nl, s3, sinks, heads, hv, h1, h2, h3, h4, h5, -⟩ :=
        splitAt_cases h
      intro e he
      obtain ⟨id, -, h6⟩ := nextEvents_mem h4 e he
      exact ⟨s3, id, h6, invalidate_frame h5⟩
  · unfold handleDormer at h
    obtain ⟨vp, hvp, h⟩ := bind_ok.1 h
    split at h
    · cases h; simp
    · obtain ⟨vn, hvn, h⟩ := bind_ok.1 h
      obtain ⟨vn', hvn', h⟩ := bind_ok.1 h
      obtain ⟨vp', hvp', h⟩ := bind_ok.1 h
      obtain ⟨o, ho, h⟩ := bind_ok.1 h
      obtain ⟨⟨s1, nl⟩, hs1, h⟩ := bind_ok.1 h
      obtain ⟨s2, hs2, h⟩ := bind_ok.1 h
      split at h
      · cases h
      · obtain ⟨pa, hpa, h⟩ := bind_ok.1 h
        obtain ⟨pb, hpb, h⟩ := bind_ok.1 h
        obtain ⟨s3, hs3, h⟩ := bind_ok.1 h
        cases h; simp

/-- all pending events were proposed by vertices -/
theorem pending_runInv :
    RunInv (fun (st : St S) (_ : List (Subtree S)) evs => ∀ e ∈ evs, Pending st e) where
  mono _ _ _ _ hsub h e he := h e (hsub e he)
  step st out evs ev st' arcs es h hev hr := by
    have hf := handleEvent_frame hr
    intro e he
    rcases List.mem_append.1 he with he | he
    · exact (h e he).later hf
    · exact (handleEvent_events hr e he).pending

/-- the events of the vertices of the initial wavefront -/
theorem initialEvents_mem {st : St S} {init : List (Option (Event S))}
    (h : initialEvents st = .ok init) : ∀ e, some e ∈ init → Proposed st e := by
  unfold initialEvents at h
  obtain ⟨ids, -, h⟩ := bind_ok.1 h
  intro e he
  obtain ⟨id, -, h1⟩ := forall₂_mem_right (mapM_ok h) he
  exact ⟨st, id, h1, .refl _⟩

/-- an accepted dormer event is made of three events of the initial wavefront -/
theorem dormerEvent_some {st : St S} {init : List (Option (Event S))} {d : List Nat × S}
    {e : Event S} (h : dormerEvent st init d = .ok (some e)) :
    ∃ e0 e1 e2 vp vn, some (.split e0) ∈ init ∧ some (.split e1) ∈ init ∧ some (.edge e2) ∈ init ∧
      st.vs[e0.vertex]? = some vp ∧ st.vs[e1.vertex]? = some vn ∧
      e = .dormer (d.2 /. lit 2 1) (vp.bisector.intersect vn.bisector) e0 e1 e2 := by
  unfold dormerEvent at h
  simp only at h
  split at h
  · have hmem : ∀ x, x ∈ (init.zipIdx.filter (fun p => d.1.contains p.2)).map (·.1) → x ∈ init := by
      intro x hx
      obtain ⟨⟨y, i⟩, hy, rfl⟩ := List.mem_map.1 hx
      have := (List.mem_filter.1 hy).1
      rw [List.mem_zipIdx_iff_getElem?] at this
      exact List.mem_of_getElem? this
    split at h
    · cases h
    · rename_i e0 h0
      split at h
      · cases h
      · rename_i e1 h1
        split at h
        · cases h
        · rename_i e3 h3
          obtain ⟨vp, hvp, h⟩ := bind_ok.1 h
          obtain ⟨vn, hvn, h⟩ := bind_ok.1 h
          cases h
          exact ⟨e0, e3, e1, vp, vn, hmem _ (List.mem_of_getElem? h0), hmem _ (List.mem_of_getElem? h3),
            hmem _ (List.mem_of_getElem? h1), getV_ok.1 hvp, getV_ok.1 hvn, rfl⟩
        · cases h
      · cases h
    · cases h
  · cases h

theorem processDormers_mem {st : St S} {ds : List (List Nat × S)} {init init' : List (Option (Event S))}
    (h : processDormers st ds init = .ok init') :
    ∀ e, some e ∈ init' → some e ∈ init ∨ ∃ d ∈ ds, dormerEvent st init d = .ok (some e) := by
  unfold processDormers at h
  obtain ⟨evs, hevs, h⟩ := bind_ok.1 h
  cases h
  intro e he
  rcases List.mem_append.1 he with he | he
  · left
    obtain ⟨⟨y, i⟩, hy, hye⟩ := List.mem_map.1 he
    have := (List.mem_filter.1 hy).1
    rw [List.mem_zipIdx_iff_getElem?] at this
    simp only at hye this
    rw [hye] at this
    exact List.mem_of_getElem? this
  · right
    obtain ⟨⟨i, e'⟩, he', hee⟩ := List.mem_map.1 (List.mem_filter.1 he).1
    obtain ⟨d, hd, h⟩ := forall₂_mem_right (mapM_ok hevs) he'
    obtain ⟨e'', h1, h⟩ := bind_ok.1 h
    cases h
    simp only at hee
    subst hee
    exact ⟨d, hd, h1⟩

theorem startLoop_pending {cs : List (List (Edge2 S))} {lp : Loop S} (hr : startLoop cs = .ok lp) :
    ∀ e ∈ lp.queue, Pending lp.st e := by
  obtain ⟨-, -, ds, init, init', -, hi, hp, hq⟩ := startLoop_ok hr
  intro e he
  rw [hq, (C08_putAll_perm _ _).mem_iff] at he
  simp only [List.nil_append, List.mem_filterMap, id, exists_eq_right] at he
  have hin := initialEvents_mem hi
  split at hp
  · cases hp; exact (hin e he).pending
  · rcases processDormers_mem hp e he with h | ⟨d, -, h⟩
    · exact (hin e h).pending
    · obtain ⟨e0, e1, e2, vp, vn, h0, h1, h2, -, -, rfl⟩ := dormerEvent_some h
      exact ⟨hin _ h0, hin _ h1, hin _ h2⟩

/-- during the whole event loop, every pending event was proposed by a vertex -/
theorem run_pending {cs : List (List (Edge2 S))} {lp lp' : Loop S} {k : Nat}
    (hs : startLoop cs = .ok lp) (hr : mainLoop k lp = some (.ok lp')) :
    ∀ e ∈ lp'.queue, Pending lp'.st e :=
  pending_runInv.mainLoop hr (startLoop_pending hs)

end
end Polyskel
