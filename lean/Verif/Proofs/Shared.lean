import Verif.Proofs.Moments
import Verif.Props.NodeHeights
import Verif.Props.Wavefront
/-
Neighbours of the wavefront share an edge, and what follows from it for split events.
-/
namespace Polyskel
open Scalar
set_option linter.unusedSectionVars false
variable {S : Type} [Scalar S]

theorem sharedEdges_iff {st : St S} : SharedEdges st ↔ ∀ (i j : Nat) (a b : Core S),
    st.vd i = some true → st.nx i = some j → st.co i = some a → st.co j = some b →
    a.edgeNext = b.edgePrev := by
  constructor
  · intro h i j a b hv hn ha hb
    obtain ⟨v, hv'⟩ := getElem?_of_lt (vd_lt hv)
    obtain ⟨f1, -, -, f4, f5⟩ := vs_fields hv'
    rw [f1] at hn; rw [f4] at hv; rw [f5] at ha
    simp only [Option.some.injEq] at hn hv ha
    subst hn ha
    cases hw : st.vs[v.next]? with
    | none => simp [St.co, hw] at hb
    | some w =>
      rw [(vs_fields hw).2.2.2.2] at hb
      simp only [Option.some.injEq] at hb
      subst hb
      exact h i v w hv' hv hw
  · intro h i v w hv hvd hw
    obtain ⟨f1, -, -, f4, f5⟩ := vs_fields hv
    exact h i v.next v.core w.core (by rw [f4, hvd]) f1 f5 (vs_fields hw).2.2.2.2

theorem vd_earlier {st st' : St S} {N : Core S → Prop} (hf : Frame N st st') {k : Nat}
    (hk : k < st.vs.length) (h : st'.vd k = some true) : st.vd k = some true := by
  obtain ⟨v, hv⟩ := getElem?_of_lt hk
  obtain ⟨v', hv', -, hd⟩ := hf.keep k v hv
  rw [(vs_fields hv').2.2.2.1] at h
  simp only [Option.some.injEq] at h
  rw [(vs_fields hv).2.2.2.1, hd h]

/-- the next vertex of a valid vertex exists -/
theorem Loops.nx_lt {st : St S} {R : Nat → List Nat} (h : Loops st R) {i j : Nat}
    (hv : st.vd i = some true) (hn : st.nx i = some j) : j < st.vs.length := by
  obtain ⟨l, hl, hlv⟩ := (h.valid i).1 hv
  have hi := (h.mem l hl i).2 hlv
  exact (h.closed l hl).lt _ ((h.closed l hl).nx_mem hi hn).1

theorem handleEdge_shared {st : St S} {R : Nat → List Nat} (h : Loops st R)
    (hsh : SharedEdges st) {ev : EdgeEv S} {va vb : Vtx S} (hva : st.vs[ev.a]? = some va)
    (hvb : st.vs[ev.b]? = some vb) (ha : va.valid = true) (hlk : Link st ev.a ev.b)
    {st' : St S} {arcs : List (Subtree S)} {es : List (Event S)}
    (he : handleEdge st ev = .ok (st', arcs, es)) : SharedEdges st' := by
  rw [sharedEdges_iff] at hsh ⊢
  obtain ⟨l, hl, -, hm⟩ := h.lavOf hva ha
  obtain ⟨hna, hpa, hla, hda, hca⟩ := vs_fields hva
  obtain ⟨hnb, hpb, hlb, hdb, hcb⟩ := vs_fields hvb
  have hcl := h.closed l hl
  have hf := handleEvent_frame (ev := .edge ev) (st := st) (st' := st') (arcs := arcs) (es := es)
  by_cases hpk : va.prev = vb.next
  · obtain ⟨t, sinks, e, -, -, -, -, -, c, n, p, -, d⟩ :=
      handleEdge_peak h hl hm (link_iff.1 hlk).1 hva hvb hpk
    rw [e] at he
    simp only [Except.ok.injEq, Prod.mk.injEq] at he
    obtain ⟨rfl, -, -⟩ := he
    intro i j a b hv hn hi hj
    rw [c] at hi hj
    rw [n] at hn
    rw [d] at hv
    split at hv
    · simp at hv
    · exact hsh i j a b hv hn hi hj
  · obtain ⟨t, es', P, e, hperm, -, -, -, -, -, n, p, d, c⟩ :=
      handleEdge_unify h hl hm (link_iff.1 hlk).1 hva hvb hpk
    rw [e] at he
    simp only [Except.ok.injEq, Prod.mk.injEq] at he
    obtain ⟨rfl, -, -⟩ := he
    have hbm : ev.b ∈ R l := hperm.mem_iff.1 (by simp)
    have hpm := hcl.pv_mem hm hpa
    have hnm := hcl.nx_mem hbm hnb
    have hpl := hcl.lt _ hpm.1
    have hnl := hcl.lt _ hnm.1
    have vdl : ∀ k ∈ R l, st.vd k = some true := fun k hk =>
      (h.valid k).2 ⟨l, hl, (h.mem l hl k).1 hk⟩
    intro i j a b hv hn hi hj
    rw [n] at hn
    rw [c] at hi hj
    rw [d] at hv
    by_cases q1 : i = st.vs.length
    · rw [if_pos q1] at hn hi
      simp only [Option.some.injEq] at hn hi
      subst hn hi
      rw [if_neg (by omega)] at hj
      exact hsh ev.b vb.next vb.core b (vdl _ hbm) hnb hcb hj
    · rw [if_neg q1] at hn hi hv
      by_cases q2 : i = va.prev
      · rw [if_pos q2] at hn
        simp only [Option.some.injEq] at hn
        subst hn
        rw [if_pos rfl] at hj
        simp only [Option.some.injEq] at hj
        subst hj q2
        exact hsh _ ev.a a va.core (vdl _ hpm.1) hpm.2 hi hca
      · rw [if_neg q2] at hn
        have hv' : st.vd i = some true := by
          split at hv
          · simp at hv
          · exact hv
        have := h.nx_lt hv' hn
        rw [if_neg (by omega)] at hj
        exact hsh i j a b hv' hn hi hj

/-- the heap after a split, as far as links and edges are concerned -/
theorem shared_of_split {st st' : St S} {R : Nat → List Nat} (h : Loops st R)
    (hsh : SharedEdges st) {ev : SplitEv S} {v : Vtx S} (hv : st.vs[ev.vertex]? = some v)
    {l m x y : Nat} (hl : l ∈ st.slav) (hi : ev.vertex ∈ R l) (hm : m ∈ st.slav) (hx : x ∈ R m)
    (hy : y ∈ R m) (hlk : Link st y x) (hopp : ∀ cx, st.co x = some cx → cx.edgePrev = ev.opp)
    (hf : Frame (fun _ => True) st st')
    (n : ∀ k, st'.nx k = if k = y then some (st.vs.length + 1)
        else if k = st.vs.length + 1 then some v.next
        else if k = v.prev then some st.vs.length
        else if k = st.vs.length then some x else st.nx k)
    (c : ∀ k, st'.co k = if k = st.vs.length + 1 then some (splitCore v ev false)
        else if k = st.vs.length then some (splitCore v ev true) else st.co k) :
    SharedEdges st' := by
  rw [sharedEdges_iff] at hsh ⊢
  obtain ⟨hvn, hvp, hvl, hvd, hvc⟩ := vs_fields hv
  have hcl := h.closed l hl
  have hcm := h.closed m hm
  have hxl := hcm.lt _ hx
  have hyl := hcm.lt _ hy
  have hpm := hcl.pv_mem hi hvp
  have hnm := hcl.nx_mem hi hvn
  have hpl := hcl.lt _ hpm.1
  have hnl := hcl.lt _ hnm.1
  have vdl : ∀ k ∈ R l, st.vd k = some true := fun k hk =>
    (h.valid k).2 ⟨l, hl, (h.mem l hl k).1 hk⟩
  have vdm : ∀ k ∈ R m, st.vd k = some true := fun k hk =>
    (h.valid k).2 ⟨m, hm, (h.mem m hm k).1 hk⟩
  intro i j a b hd hn ha hb
  rw [n] at hn
  rw [c] at ha hb
  by_cases q1 : i = y
  · subst q1
    rw [if_pos rfl] at hn
    simp only [Option.some.injEq] at hn
    subst hn
    rw [if_neg (by omega), if_neg (by omega)] at ha
    rw [if_pos rfl] at hb
    simp only [Option.some.injEq] at hb
    subst hb
    cases hcx : st.co x with
    | none => rw [co_none] at hcx; omega
    | some cx =>
      rw [hsh i x a cx (vdm _ hy) (link_iff.1 hlk).1 ha hcx, hopp cx hcx]
      rfl
  · rw [if_neg q1] at hn
    by_cases q2 : i = st.vs.length + 1
    · rw [if_pos q2] at hn ha
      simp only [Option.some.injEq] at hn ha
      subst hn ha
      rw [if_neg (by omega), if_neg (by omega)] at hb
      exact hsh ev.vertex v.next v.core b (vdl _ hi) hvn hvc hb
    · rw [if_neg q2] at hn ha
      by_cases q3 : i = v.prev
      · subst q3
        rw [if_pos rfl] at hn
        simp only [Option.some.injEq] at hn
        subst hn
        rw [if_neg (by omega)] at ha
        rw [if_neg (by omega), if_pos rfl] at hb
        simp only [Option.some.injEq] at hb
        subst hb
        exact hsh v.prev ev.vertex a v.core (vdl _ hpm.1) hpm.2 ha hvc
      · rw [if_neg q3] at hn
        by_cases q4 : i = st.vs.length
        · rw [if_pos q4] at hn ha
          simp only [Option.some.injEq] at hn ha
          subst hn ha
          rw [if_neg (by omega), if_neg (by omega)] at hb
          exact (hopp b hb).symm
        · rw [if_neg q4] at hn ha
          have hil := Polyskel.nx_lt hn
          have hd' := vd_earlier hf hil hd
          have := h.nx_lt hd' hn
          rw [if_neg (by omega), if_neg (by omega)] at hb
          exact hsh i j a b hd' hn ha hb

/-- the edge of the pair that a split event finds is its opposite edge -/
theorem splitPair_opp' {st : St S} {R : Nat → List Nat} (h : Loops st R) (hsh : SharedEdges st)
    {E : List (Edge2 S)}
    (hE : ∀ (i : Nat) (v : Vtx S), st.vs[i]? = some v → v.edgePrev ∈ E ∧ v.edgeNext ∈ E) (hd : DistinctEdges E) {ev : SplitEv S}
    (ho : ev.opp ∈ E) {x y : Nat} (hs : splitSearch st ev st.slav = .ok (some (x, y))) :
    ∃ vx vy, st.vs[x]? = some vx ∧ st.vs[y]? = some vy ∧ vx.edgePrev = ev.opp ∧
      vy.edgeNext = ev.opp := by
  obtain ⟨m, hm, w, hw, vv, vx, vy, hvv, hvx, hvy, hc, -⟩ := splitSearch_some hs
  obtain ⟨m', hm', hxm, hym, hlk⟩ := h.splitPair hs
  have hvd : vy.valid = true := by
    have := (h.valid y).2 ⟨m', hm', (h.mem m' hm' y).1 hym⟩
    rw [(vs_fields hvy).2.2.2.1] at this
    simpa using this
  have hyx : vy.next = x := by
    have := (link_iff.1 hlk).1
    rw [(vs_fields hvy).1] at this
    simpa using this
  have hsame := hsh y vy vx hvy hvd (by rw [hyx]; exact hvx)
  refine ⟨vx, vy, hvx, hvy, ?_⟩
  rcases hc with ⟨he, rfl, -⟩ | ⟨-, he, -, rfl⟩
  · rw [hvv] at hvx
    simp only [Option.some.injEq] at hvx
    subst hvx
    have := hd _ ho _ (hE _ _ hvv).1 he.1 he.2
    exact ⟨this.symm, by rw [hsame, ← this]⟩
  · rw [hvv] at hvy
    simp only [Option.some.injEq] at hvy
    subst hvy
    have := hd _ ho _ (hE _ _ hvv).2 he.1 he.2
    exact ⟨by rw [← hsame, ← this], this.symm⟩

theorem splitPair_opp {st : St S} {R : Nat → List Nat} (h : Loops st R) (hsh : SharedEdges st)
    {E : List (Edge2 S)} (hE : EdgesIn E st) (hd : DistinctEdges E) {ev : SplitEv S}
    (ho : ev.opp ∈ E) {x y : Nat} (hs : splitSearch st ev st.slav = .ok (some (x, y))) :
    ∃ vx vy, st.vs[x]? = some vx ∧ st.vs[y]? = some vy ∧ vx.edgePrev = ev.opp ∧
      vy.edgeNext = ev.opp :=
  splitPair_opp' h hsh hE.1 hd ho hs

/-- the opposite edge of a pending split event is none of the two edges of its vertex -/
theorem Pending.opp_ne {st : St S} {ev : SplitEv S} (h : Pending st (.split ev)) {v : Vtx S}
    (hv : st.vs[ev.vertex]? = some v) :
    ev.opp.oid ≠ v.edgePrev.oid ∧ ev.opp.oid ≠ v.edgeNext.oid := by
  obtain ⟨st0, id, h, hf⟩ := h
  obtain ⟨v0, p, n, hv0, -, -, hc⟩ := nextEvent_mem h
  rcases hc with hm | ⟨e', he', -, -, oe, -, hc⟩
  · rcases mem_edgesOf hm with ⟨_, _, he⟩ | ⟨_, _, he⟩ <;> cases he
  · simp only [Event.split.injEq] at he'
    subst he'
    obtain ⟨h1, h2, -, h3, h4⟩ := splitCandidate_some hc
    subst h1
    obtain ⟨v', hv', hcore, -⟩ := hf.keep _ _ hv0
    rw [hv] at hv'
    simp only [Option.some.injEq] at hv'
    subst hv'
    rw [h2, show v.edgePrev = v0.edgePrev from congrArg Core.edgePrev hcore,
      show v.edgeNext = v0.edgeNext from congrArg Core.edgeNext hcore]
    exact ⟨h3, h4⟩

/-- the pair that a split event finds does not contain its own vertex -/
theorem splitPair_ne {st : St S} {R : Nat → List Nat} (h : Loops st R) (hsh : SharedEdges st)
    {E : List (Edge2 S)} (hE : EdgesIn E st) (hd : DistinctEdges E) {ev : SplitEv S}
    (ho : ev.opp ∈ E) (hp : Pending st (.split ev)) {x y : Nat}
    (hs : splitSearch st ev st.slav = .ok (some (x, y))) : x ≠ ev.vertex ∧ y ≠ ev.vertex := by
  obtain ⟨vx, vy, hvx, hvy, h1, h2⟩ := splitPair_opp h hsh hE hd ho hs
  constructor
  · rintro rfl
    exact (hp.opp_ne hvx).1 (by rw [h1])
  · rintro rfl
    exact (hp.opp_ne hvy).2 (by rw [h2])

theorem handleSplit_shared {st : St S} {R : Nat → List Nat} (h : Loops st R)
    (hsh : SharedEdges st) {E : List (Edge2 S)} (hE : EdgesIn E st) (hd : DistinctEdges E)
    {ev : SplitEv S} (ho : ev.opp ∈ E) (hp : Pending st (.split ev)) {l : Nat} (hl : l ∈ st.slav)
    (hi : ev.vertex ∈ R l) {st' : St S} {arcs : List (Subtree S)} {es : List (Event S)}
    (he : handleSplit st ev = .ok (st', arcs, es)) : SharedEdges st' := by
  have hf := handleSplit_frame (N := fun _ => True) he (fun _ _ _ => trivial)
  unfold handleSplit at he
  obtain ⟨r, hr, he⟩ := bind_ok.1 he
  cases r with
  | none =>
    simp only [pure_ok, Except.ok.injEq, Prod.mk.injEq] at he
    obtain ⟨rfl, -, -⟩ := he
    exact hsh
  | some xy =>
    obtain ⟨x, y⟩ := xy
    obtain ⟨m, hm, hx, hy, hlk⟩ := h.splitPair hr
    obtain ⟨hxi, hyi⟩ := splitPair_ne h hsh hE hd ho hp hr
    have hopp : ∀ cx, st.co x = some cx → cx.edgePrev = ev.opp := by
      obtain ⟨vx, vy, hvx, -, h1, -⟩ := splitPair_opp h hsh hE hd ho hr
      intro cx hcx
      rw [(vs_fields hvx).2.2.2.2] at hcx
      simp only [Option.some.injEq] at hcx
      subst hcx
      exact h1
    simp only at he
    by_cases hml : m = l
    · subst hml
      obtain ⟨P, Q, U, V, t, arcs', es', e, -, -, -, -, -, -, -, -, v, hv, n, c, -⟩ :=
        splitAt_same h hl hi hx hlk hxi hyi
      rw [e] at he
      simp only [Except.ok.injEq, Prod.mk.injEq] at he
      obtain ⟨rfl, -, -⟩ := he
      exact shared_of_split h hsh hv hl hi hm hx hy hlk hopp hf n c
    · obtain ⟨T, Q, U, t, arcs', es', e, -, -, -, -, -, -, -, -, -, v, hv, n, c, -⟩ :=
        splitAt_other h hl hi hm hml hx hlk
      rw [e] at he
      simp only [Except.ok.injEq, Prod.mk.injEq] at he
      obtain ⟨rfl, -, -⟩ := he
      exact shared_of_split h hsh hv hl hi hm hx hy hlk hopp hf n c

/-- not a dormer event -/
def Plain : Event S → Prop
  | .dormer .. => False
  | _ => True

/-- a closed wavefront whose neighbours share their edges, all of them in `E`, and pending events
other than dormer events -/
structure Joined (E : List (Edge2 S)) (st : St S) (evs : List (Event S)) : Prop where
  sound : Sound st evs
  shared : SharedEdges st
  edges : EdgesIn E st
  plain : ∀ e ∈ evs, Plain e

theorem Proposed.plain {st : St S} {e : Event S} (h : Proposed st e) : Plain e := by
  obtain ⟨st0, id, h, -⟩ := h
  obtain ⟨v, p, n, -, -, -, hc⟩ := nextEvent_mem h
  rcases hc with hm | ⟨e', rfl, -⟩
  · rcases mem_edgesOf hm with ⟨_, _, rfl⟩ | ⟨_, _, rfl⟩ <;> trivial
  · trivial

theorem Joined.not_mayFail {E : List (Edge2 S)} (hd : DistinctEdges E) {st : St S}
    {evs : List (Event S)} (h : Joined E st evs) {e : Event S} (he : e ∈ evs) : ¬ MayFail st e := by
  obtain ⟨⟨R, hL⟩, hp⟩ := h.sound
  intro hm
  cases e with
  | edge e => exact hm
  | split e =>
    obtain ⟨x, y, hs, hxy⟩ := hm
    have := splitPair_ne hL h.shared h.edges hd (pending_eventDist h.edges (hp _ he)).1 (hp _ he) hs
    rcases hxy with h | h
    · exact this.1 h
    · exact this.2 h
  | dormer => exact h.plain _ he

theorem stepEvent_joined {E : List (Edge2 S)} (hd : DistinctEdges E) {lp : Loop S} {e : Event S}
    {es : List (Event S)} (h : Joined E lp.st (e :: es ++ lp.queue)) (hap : Apt lp.st e) :
    ∃ lp', stepEvent lp e = .ok lp' ∧ Joined E lp'.st (es ++ lp'.queue) := by
  have hmem : e ∈ e :: es ++ lp.queue := by simp
  have hpend := h.sound.2 e hmem
  rcases stepEvent_sound h.sound hap with ⟨err, -, -, hm⟩ | ⟨lp', hs, hso⟩
  · exact absurd hm (h.not_mayFail hd hmem)
  · suffices hx : SharedEdges lp'.st ∧ EdgesIn E lp'.st ∧ ∀ x ∈ es ++ lp'.queue, Plain x from
      ⟨lp', hs, hso, hx.1, hx.2.1, hx.2.2⟩
    have hsub : ∀ x ∈ es ++ lp.queue, Plain x := fun x hx => h.plain x (by
      simp only [List.cons_append, List.mem_cons]; exact Or.inr hx)
    unfold stepEvent at hs
    obtain ⟨r, hr, hs⟩ := bind_ok.1 hs
    cases r with
    | none =>
      simp only [pure_ok, Except.ok.injEq] at hs
      subst hs
      exact ⟨h.shared, h.edges, hsub⟩
    | some r =>
      obtain ⟨st', arcs, evs⟩ := r
      simp only [pure_ok, Except.ok.injEq] at hs
      subst hs
      have hdist := pending_eventDist h.edges hpend
      refine ⟨?_, (handleEvent_nodeHeights h.edges hdist hr).1, ?_⟩
      · obtain ⟨R, hL⟩ := h.sound.1
        rcases handleEvent_cases hr with ⟨e, va, vb, rfl, hva, hvb, h1, h2, he⟩ |
          ⟨e, v, rfl, hv, h1, he⟩ | ⟨d, p, e0, e1, e2, v0, v1, rfl, -⟩
        · exact handleEdge_shared hL h.shared hva hvb h1 (hap va vb hva hvb h1 h2) he
        · obtain ⟨l, hl, -, hm⟩ := hL.lavOf hv h1
          exact handleSplit_shared hL h.shared h.edges hd hdist.1 hpend hl hm he
        · exact (h.plain _ hmem).elim
      · intro x hx
        rcases List.mem_append.1 hx with hx | hx
        · exact hsub x (by simp [hx])
        · rw [(C08_putAll_perm _ _).mem_iff] at hx
          rcases List.mem_append.1 hx with hx | hx
          · exact hsub x (by simp [hx])
          · exact (handleEvent_events hr x hx).plain

theorem stepBatch_joined {E : List (Edge2 S)} (hd : DistinctEdges E) {es : List (Event S)}
    {lp : Loop S} (h : Joined E lp.st (es ++ lp.queue))
    (hA : ∀ a ∈ batchMoments lp es, Apt a.1 a.2) :
    (∀ a ∈ batchMoments lp es, SharedEdges a.1) ∧
    ∃ lp', stepBatch lp es = .ok lp' ∧ Joined E lp'.st lp'.queue := by
  induction es generalizing lp with
  | nil => exact ⟨by simp [batchMoments], lp, rfl, by simpa using h⟩
  | cons e es ih =>
    unfold batchMoments at hA ⊢
    obtain ⟨lp', h1, h2⟩ := stepEvent_joined hd h (hA (lp.st, e) (by simp))
    unfold stepBatch
    rw [h1] at hA ⊢
    simp only at hA ⊢
    obtain ⟨i1, i2⟩ := ih h2 (fun a ha => hA a (List.mem_cons_of_mem _ ha))
    refine ⟨?_, i2⟩
    intro a ha
    rcases List.mem_cons.1 ha with rfl | ha
    · exact h.shared
    · exact i1 a ha

theorem mainLoop_joined {E : List (Edge2 S)} (hd : DistinctEdges E) {k : Nat} {lp : Loop S}
    (h : Joined E lp.st lp.queue) (hA : ∀ a ∈ moments k lp, Apt a.1 a.2) :
    (∀ a ∈ moments k lp, SharedEdges a.1) ∧
    (mainLoop k lp = none ∨ ∃ lp', mainLoop k lp = some (.ok lp') ∧ Joined E lp'.st lp'.queue) := by
  induction k generalizing lp with
  | zero =>
    refine ⟨by simp [moments], ?_⟩
    unfold mainLoop
    split
    · exact Or.inr ⟨lp, rfl, h⟩
    · exact Or.inl rfl
  | succ k ih =>
    unfold mainLoop
    unfold moments at hA ⊢
    by_cases hfin : (lp.queue.isEmpty || lp.st.slav.isEmpty) = true
    · rw [if_pos hfin, if_pos hfin]
      exact ⟨by simp, Or.inr ⟨lp, rfl, h⟩⟩
    · rw [if_neg hfin] at hA
      rw [if_neg hfin, if_neg hfin]
      cases hq : getAllEqualDistance lp.queue with
      | none =>
        exfalso
        rw [(C09_getAllEqualDistance_perm lp.queue).1] at hq
        simp [hq] at hfin
      | some bq =>
        obtain ⟨batch, q⟩ := bq
        rw [hq] at hA
        simp only at hA ⊢
        have hs : Joined E ({ lp with queue := q } : Loop S).st
            (batch ++ ({ lp with queue := q } : Loop S).queue) :=
          ⟨take_sound h.sound hq, h.shared, h.edges, fun e he => h.plain e
            (((C09_getAllEqualDistance_perm lp.queue).2 batch q hq).1.mem_iff.1 he)⟩
        obtain ⟨i1, lp', g1, hs'⟩ := stepBatch_joined hd hs (fun a ha => hA a (by simp [ha]))
        rw [g1] at hA ⊢
        simp only at hA ⊢
        obtain ⟨j1, j2⟩ := ih hs' (fun a ha => hA a (by simp [ha]))
        refine ⟨fun a ha => ?_, j2⟩
        rcases List.mem_append.1 ha with ha | ha
        · exact i1 a ha
        · exact j1 a ha

theorem cornerPairs_getElem {α : Type} {c : List α} {i : Nat} (hi : i < c.length) :
    (cornerPairs c)[i]? =
      some (c[if i = 0 then c.length - 1 else i - 1]'(by split <;> omega), c[i]) := by
  have hdl : (c.drop (c.length - 1)).length = 1 := by simp; omega
  unfold cornerPairs
  rw [List.getElem?_eq_getElem (by simp; omega), List.getElem_zip]
  congr 2
  by_cases h0 : i = 0
  · subst h0
    simp only [if_true]
    rw [List.getElem_append_left (by omega), List.getElem_drop]
    simp
  · simp only [if_neg h0]
    rw [List.getElem_append_right (by omega), List.getElem_take]
    simp only [hdl]

/-- in a freshly built LAV, neighbours share an edge -/
theorem LavIs.shared {st : St S} {R : Nat → List Nat} (h : Loops st R) {l b : Nat}
    {c : List (Edge2 S)} (hl : l ∈ st.slav) (hc : LavIs st R l c b) {i j : Nat} {x y : Core S}
    (hi : i ∈ R l) (hn : st.nx i = some j) (hx : st.co i = some x) (hy : st.co j = some y) :
    x.edgeNext = y.edgePrev := by
  obtain ⟨hR, -, hco⟩ := hc
  have hcl := h.closed l hl
  have h3 := h.three l hl
  rw [hR] at hcl hi h3
  simp only [List.length_range'] at h3
  obtain ⟨hd, a, P, he, hs⟩ := hcl
  obtain ⟨n, hlen⟩ : ∃ n, c.length = n + 1 := ⟨c.length - 1, by omega⟩
  have hab : a = b := by
    rw [hlen, List.range'_succ] at he
    simp only [List.cons.injEq] at he
    exact he.1.symm
  subst hab
  rw [seg_iff_chain, ← he, List.isChain_iff_getElem] at hs
  obtain ⟨k, hk, rfl⟩ : ∃ k < c.length, i = a + k := by
    rw [List.mem_range'_1] at hi
    exact ⟨i - a, by omega, by omega⟩
  have hlk := (link_iff.1 (hs k (by simp; omega))).1
  rw [List.getElem_append_left (by simp; omega)] at hlk
  simp only [List.getElem_range', Nat.one_mul] at hlk
  rw [hn] at hlk
  simp only [Option.some.injEq] at hlk
  have hxk := hco k hk
  rw [hx, cornerPairs_getElem hk] at hxk
  simp only [Option.map_some, Option.some.injEq] at hxk
  subst hxk
  by_cases hlast : k + 1 < c.length
  · rw [List.getElem_append_left (by simp; omega)] at hlk
    simp only [List.getElem_range', Nat.one_mul] at hlk
    subst hlk
    have hyk := hco (k + 1) hlast
    rw [hy, cornerPairs_getElem hlast] at hyk
    simp only [Option.map_some, Option.some.injEq] at hyk
    subst hyk
    rfl
  · have hk' : k + 1 = c.length := by omega
    rw [List.getElem_append_right (by simp; omega)] at hlk
    simp only [List.getElem_singleton] at hlk
    subst hlk
    have hyk := hco 0 (by omega)
    rw [Nat.add_zero, hy, cornerPairs_getElem (by omega)] at hyk
    simp only [Option.map_some, Option.some.injEq] at hyk
    subst hyk
    show c[k] = c[c.length - 1]
    congr 1
    omega

theorem startLoop_joined {cs : List (List (Edge2 S))} {lp : Loop S} (h3 : ∀ c ∈ cs, 3 ≤ c.length)
    (hd : detectDormers cs = .ok []) (hr : startLoop cs = .ok lp) :
    Joined cs.flatten lp.st lp.queue := by
  refine ⟨startLoop_sound h3 hr, ?_, mkSlav_edgesIn (startLoop_ok hr).1, ?_⟩
  · obtain ⟨st, R, h1, hL, hsl, -, hlav, -⟩ := mkSlav_loops h3
    rw [(startLoop_ok hr).1] at h1
    simp only [Except.ok.injEq] at h1
    subst h1
    rw [sharedEdges_iff]
    intro i j a b hv hn ha hb
    obtain ⟨l, hl, hlv⟩ := (hL.valid i).1 hv
    have hl' := hl
    rw [hsl, List.mem_range] at hl'
    exact (hlav l _ (List.getElem?_eq_getElem hl')).shared hL hl ((hL.mem l hl i).2 hlv) hn ha hb
  · obtain ⟨-, -, ds, init, init', hd', hi, hp, hq⟩ := startLoop_ok hr
    rw [hd] at hd'
    simp only [Except.ok.injEq] at hd'
    subst hd'
    simp only [List.isEmpty_nil, if_true, Except.ok.injEq] at hp
    subst hp
    intro e he
    rw [hq, (C08_putAll_perm _ _).mem_iff] at he
    simp only [List.nil_append, List.mem_filterMap, id, exists_eq_right] at he
    exact (initialEvents_mem hi e he).plain

end Polyskel
