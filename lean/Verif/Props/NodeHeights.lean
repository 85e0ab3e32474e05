import Verif.Props.Wavefront
import Verif.Proofs.Events
/-
C45: what the height of a node is.  The documentation says the distance to the nearest polygon edge;
that is false (`C45_refuted`).  In every arithmetic it is the distance to the line through some polygon
edge, or the mean of two such distances.
-/
namespace Polyskel
open Scalar
set_option linter.unusedSectionVars false
variable {S : Type} [Scalar S]

/-- the edges of all vertices, and those remembered as the original ones, belong to `E` -/
def EdgesIn (E : List (Edge2 S)) (st : St S) : Prop :=
  (∀ (i : Nat) (v : Vtx S), st.vs[i]? = some v → v.edgePrev ∈ E ∧ v.edgeNext ∈ E) ∧
    ∀ oe ∈ st.orig, oe.edge ∈ E

theorem EdgesIn.frame {E : List (Edge2 S)} {st st' : St S} (h : EdgesIn E st)
    (hf : Frame (fun c => c.edgePrev ∈ E ∧ c.edgeNext ∈ E) st st') : EdgesIn E st' := by
  refine ⟨fun i v' hv' => ?_, by rw [hf.orig]; exact h.2⟩
  cases hv : st.vs[i]? with
  | none => exact hf.fresh i v' hv' hv
  | some v =>
    obtain ⟨v'', h1, h2, -⟩ := hf.keep i v hv
    rw [hv'] at h1; cases h1
    have h3 : v'.edgePrev = v.edgePrev := congrArg Core.edgePrev h2
    have h4 : v'.edgeNext = v.edgeNext := congrArg Core.edgeNext h2
    rw [h3, h4]; exact h.1 i v hv

theorem EdgesIn.earlier {E : List (Edge2 S)} {st st' : St S} (h : EdgesIn E st')
    (hf : Frame (fun _ => True) st st') : EdgesIn E st := by
  refine ⟨fun i v hv => ?_, by rw [← hf.orig]; exact h.2⟩
  obtain ⟨v', h1, h2, -⟩ := hf.keep i v hv
  have h3 : v'.edgePrev = v.edgePrev := congrArg Core.edgePrev h2
  have h4 : v'.edgeNext = v.edgeNext := congrArg Core.edgeNext h2
  rw [← h3, ← h4]; exact h.1 i v' h1

/-- the distance from `p` to the line through some edge of `E` -/
def LineDist (E : List (Edge2 S)) (p : V2 S) (d : S) : Prop :=
  ∃ g ∈ E, d = (Line2.ofEdge g).distance p

/-- the distances recorded in an event are such distances, and the opposite edge belongs to `E` -/
def EventDist (E : List (Edge2 S)) : Event S → Prop
  | .edge e => LineDist E e.pt e.dist
  | .split e => e.opp ∈ E ∧ LineDist E e.pt e.dist
  | .dormer _ _ e0 e1 e2 => LineDist E e0.pt e0.dist ∧ LineDist E e1.pt e1.dist ∧
      LineDist E e2.pt e2.dist

theorem nextEvent_eventDist {E : List (Edge2 S)} {st : St S} {id : Nat} {e : Event S}
    (hE : EdgesIn E st) (h : nextEvent st id = .ok (some e)) : EventDist E e := by
  obtain ⟨v, p, n, hv, -, -, h | ⟨e', rfl, -, -, oe, ho, h⟩⟩ := nextEvent_mem h
  · rcases mem_edgesOf h with ⟨i, -, rfl⟩ | ⟨i, -, rfl⟩
    · exact ⟨_, (hE.1 _ _ hv).1, rfl⟩
    · exact ⟨_, (hE.1 _ _ hv).2, rfl⟩
  · obtain ⟨-, h2, h3, -⟩ := splitCandidate_some h
    exact ⟨by rw [h2]; exact hE.2 _ ho, oe.edge, hE.2 _ ho, h3⟩

theorem pending_eventDist {E : List (Edge2 S)} {st : St S} {e : Event S}
    (hE : EdgesIn E st) (h : Pending st e) : EventDist E e := by
  have key : ∀ e, Proposed st e → EventDist E e := by
    rintro e ⟨st0, id, h1, h2⟩
    exact nextEvent_eventDist (hE.earlier h2) h1
  cases e with
  | edge e => exact key _ h
  | split e => exact key _ h
  | dormer d p e0 e1 e2 =>
    exact ⟨(key _ h.1).2, (key _ h.2.1).2, key _ h.2.2⟩

/-- the height of a node -/
def NodeHeight (E : List (Edge2 S)) (a : Subtree S) : Prop :=
  LineDist E a.source a.height ∨
    ∃ p d p' d', LineDist E p d ∧ LineDist E p' d' ∧ a.height = (d +. d') /. lit 2 1

theorem handleEvent_nodeHeights {E : List (Edge2 S)} {st st' : St S} {ev : Event S}
    {arcs : List (Subtree S)} {es : List (Event S)} (hE : EdgesIn E st) (he : EventDist E ev)
    (hr : handleEvent st ev = .ok (some (st', arcs, es))) :
    EdgesIn E st' ∧ ∀ a ∈ arcs, NodeHeight E a := by
  rcases handleEvent_cases hr with ⟨e, va, vb, rfl, hva, hvb, -, -, h⟩ | ⟨e, v, rfl, -, -, h⟩ |
    ⟨d, p, e0, e1, e2, v0, v1, rfl, -, -, -, -, h⟩
  · refine ⟨hE.frame (handleEdge_frame h (fun va vb ha hb _ => ?_)), ?_⟩
    · exact ⟨(hE.1 _ _ ha).1, (hE.1 _ _ hb).2⟩
    · obtain ⟨_, _, _, _, _, rfl, -⟩ := C47_edge h
      intro a ha; simp at ha; subst ha; exact .inl he
  · refine ⟨hE.frame (handleSplit_frame h (fun v hv b => ?_)), ?_⟩
    · cases b
      · exact ⟨he.1, (hE.1 _ _ hv).2⟩
      · exact ⟨(hE.1 _ _ hv).1, he.1⟩
    · rcases C47_split h with ⟨-, rfl, -⟩ | ⟨_, _, _, rfl, -⟩
      · simp
      · intro a ha; simp at ha; subst ha; exact .inl he.2
  · refine ⟨hE.frame (handleDormer_frame h), ?_⟩
    obtain ⟨-, ⟨-, rfl, -⟩ | ⟨_, _, _, _, _, -, -, -, -, -, rfl, -⟩⟩ := C47_dormer h
    · simp
    · intro a ha
      simp only [List.mem_cons, List.not_mem_nil, or_false] at ha
      rcases ha with rfl | rfl
      · exact .inl he.2.2
      · exact .inr ⟨_, _, _, _, he.1, he.2.1, rfl⟩

theorem nodeHeights_runInv (E : List (Edge2 S)) : RunInv (fun (st : St S) out evs =>
    EdgesIn E st ∧ (∀ e ∈ evs, Pending st e) ∧ ∀ a ∈ out, NodeHeight E a) where
  mono st out evs evs' hsub h := ⟨h.1, fun e he => h.2.1 e (hsub e he), h.2.2⟩
  step st out evs ev st' arcs es h hev hr := by
    obtain ⟨h1, h2⟩ := handleEvent_nodeHeights h.1 (pending_eventDist h.1 (h.2.1 ev hev)) hr
    refine ⟨h1, pending_runInv.step st out evs ev st' arcs es h.2.1 hev hr, fun a ha => ?_⟩
    rcases List.mem_append.1 ha with ha | ha
    · exact h.2.2 a ha
    · exact h2 a ha

theorem mem_cornerPairs {α : Type} {c : List α} {e : α × α} (h : e ∈ cornerPairs c) :
    e.1 ∈ c ∧ e.2 ∈ c := by
  unfold cornerPairs at h
  obtain ⟨h1, h2⟩ := List.of_mem_zip h
  refine ⟨?_, h2⟩
  rcases List.mem_append.1 h1 with h1 | h1
  · exact List.mem_of_mem_drop h1
  · exact List.mem_of_mem_take h1

theorem mkSlav_edgesIn {cs : List (List (Edge2 S))} {st : St S} (h : mkSlav cs = .ok st) :
    EdgesIn cs.flatten st := by
  have hv : ∀ (i : Nat) (v : Vtx S), st.vs[i]? = some v →
      v.edgePrev ∈ cs.flatten ∧ v.edgeNext ∈ cs.flatten := by
    intro i v hv
    obtain ⟨c, hc, e, he, hcore⟩ := mkSlav_vertices h hv
    have h3 : v.edgePrev = e.1 := congrArg Core.edgePrev hcore
    have h4 : v.edgeNext = e.2 := congrArg Core.edgeNext hcore
    obtain ⟨h1, h2⟩ := mem_cornerPairs he
    rw [h3, h4]
    exact ⟨List.mem_flatten.2 ⟨c, hc, h1⟩, List.mem_flatten.2 ⟨c, hc, h2⟩⟩
  refine ⟨hv, fun oe ho => ?_⟩
  unfold mkSlav at h
  obtain ⟨s, hs, h⟩ := bind_ok.1 h
  obtain ⟨ids, hids, h⟩ := bind_ok.1 h
  obtain ⟨oes, hoes, h⟩ := bind_ok.1 h
  cases h
  obtain ⟨id, -, h⟩ := forall₂_mem_right (mapM_ok hoes) ho
  unfold origEdgeOf at h
  obtain ⟨v, hv', h⟩ := bind_ok.1 h
  obtain ⟨p, hp, h⟩ := bind_ok.1 h
  cases h
  exact (hv id v (getV_ok.1 hv')).1

/-- C45 (partial): in every arithmetic, every node made by the event loop has as its height the
distance from its position to the line through some edge of the polygon or a hole, or (the upper node
of a dormer) the mean of two such distances of other points.  What is missing: that no edge is nearer,
which is false (`C45_refuted`), and the effect of merging nodes, which averages heights (C30). -/
theorem C45_height_partial (k : Nat) (cs : List (List (Edge2 S))) (lp lp' : Loop S)
    (hs : startLoop cs = .ok lp) (hr : mainLoop k lp = some (.ok lp')) :
    ∀ a ∈ lp'.out, (∃ g ∈ cs.flatten, a.height = (Line2.ofEdge g).distance a.source) ∨
      ∃ g ∈ cs.flatten, ∃ g' ∈ cs.flatten, ∃ p p',
        a.height = ((Line2.ofEdge g).distance p +. (Line2.ofEdge g').distance p') /. lit 2 1 := by
  have h0 := startLoop_ok hs
  intro a ha
  rcases ((nodeHeights_runInv cs.flatten).mainLoop hr ⟨mkSlav_edgesIn h0.1, startLoop_pending hs,
    by rw [h0.2.1]; simp⟩).2.2 a ha with h | ⟨p, d, p', d', ⟨g, hg, rfl⟩, ⟨g', hg', rfl⟩, h⟩
  · exact .inl h
  · exact .inr ⟨g, hg, g', hg', p, p', h⟩

/-- case for C45: the event loop ends normally for an L-shaped contour and makes nodes -/
example : (match startLoop [ringEdges [(0, 0), (8, 0), (8, 4), (4, 4), (4, 8), (0, 8)]] with
    | .error _ => none
    | .ok lp => (mainLoop 40 lp).map (fun r => r.map (fun l => l.out.length))) = some (.ok 4) := by
  decide +kernel

end Polyskel
