import Verif.Proofs.Fields
import Verif.Spec.Samples
/-
C46 (discarded vertices stay discarded), C47 (the nodes every event produces) and C49 (where a
split happens), bpypolyskel.py:123-127, 248-253, 306-432, 854-875.
-/
namespace Polyskel
open Scalar
set_option linter.unusedSectionVars false
variable {S : Type} [Scalar S]

/-! ### C46 -/

/-- What `v.invalidate()` does: the vertex becomes invalid and belongs to no LAV; nothing else
about any vertex changes; if it was the head of its LAV, the head moves to its successor. -/
theorem C46_invalidate {st st' : St S} {i : Nat} (h : invalidate st i = .ok st') :
    ∃ v, st.vs[i]? = some v ∧ st'.vs = st.vs.set i { v with valid := false, lav := none } ∧
      st'.slav = st.slav ∧ st'.orig = st.orig ∧
      ∀ l o, st.lavs[l]? = some o → st'.lavs[l]? =
        some (if v.lav = some l ∧ o.head = i then { o with head := v.next } else o) := by
  unfold invalidate at h
  obtain ⟨v, hv, h⟩ := bind_ok.1 h
  rw [getV_ok] at hv
  refine ⟨v, hv, ?_⟩
  obtain ⟨hi, hvi⟩ := List.getElem?_eq_some_iff.1 hv
  have key : ∀ (f g : Vtx S → Vtx S), (∀ w, g (f w) = { w with valid := false, lav := none }) →
      ((st.vs.modify i f).modify i g) = st.vs.set i { v with valid := false, lav := none } := by
    intro f g hfg
    apply List.ext_getElem?
    intro k
    rw [List.getElem?_modify, List.getElem?_modify, List.getElem?_set]
    by_cases hk : i = k
    · subst hk; rw [hv]; simp [hfg, hi]
    · simp [hk]
  split at h
  · rename_i hl
    simp only [pure_ok, Except.ok.injEq] at h
    subst h
    refine ⟨?_, rfl, rfl, ?_⟩
    · simp only [St.modV]
      apply List.ext_getElem?
      intro k
      rw [List.getElem?_modify, List.getElem?_set]
      by_cases hk : i = k
      · subst hk
        have : ({ v with valid := false, lav := none } : Vtx S) = { v with valid := false } := by
          cases v; simp_all
        rw [hv, this]; simp [hi]
      · simp [hk]
    · intro l o ho
      simp [hl, St.modV, ho]
  · rename_i l hl
    obtain ⟨o, ho, h⟩ := bind_ok.1 h
    rw [getL_ok] at ho
    simp only [pure_ok, Except.ok.injEq] at h
    subst h
    have ho' : st.lavs[l]? = some o := ho
    refine ⟨?_, by split <;> rfl, by split <;> rfl, ?_⟩
    · have : ∀ s : St S, s.vs = st.vs.modify i (fun v => { v with valid := false }) →
          (s.setLav i none).vs = st.vs.set i { v with valid := false, lav := none } := by
        intro s hs
        simp only [St.setLav, St.modV, hs]
        exact key _ _ (fun _ => rfl)
      split
      · exact this _ rfl
      · exact this _ rfl
    · intro l' o' ho''
      by_cases hll : l = l'
      · subst hll
        rw [ho'] at ho''; cases ho''
        by_cases hh : o.head = i
        · simp [hh, hl, St.setLav, St.setHead, St.modL, St.modV, ho']
        · simp [hh, St.setLav, St.modV, ho']
      · have : ¬ (v.lav = some l' ∧ o'.head = i) := by
          rw [hl]; rintro ⟨h1, -⟩; exact hll (Option.some.inj h1)
        rw [if_neg this]
        split
        · simp [St.setLav, St.setHead, St.modL, St.modV, ho'', hll]
        · simp [St.setLav, St.modV, ho'']

/-- C46: an invalid vertex is still there and still invalid after any event -/
theorem C46_event {lp lp' : Loop S} {ev : Event S} (hr : stepEvent lp ev = .ok lp') {i : Nat}
    {v : Vtx S} (hv : lp.st.vs[i]? = some v) (h : v.valid = false) :
    ∃ v', lp'.st.vs[i]? = some v' ∧ v'.valid = false ∧ v'.point = v.point := by
  unfold stepEvent at hr
  obtain ⟨r, hr1, hr⟩ := bind_ok.1 hr
  cases r with
  | none => simp only [pure_ok, Except.ok.injEq] at hr; subst hr; exact ⟨v, hv, h, rfl⟩
  | some r =>
    obtain ⟨st', arcs, es⟩ := r
    simp only [pure_ok, Except.ok.injEq] at hr
    subst hr
    obtain ⟨v', h1, h2, h3⟩ := (handleEvent_frame hr1).keep i v hv
    refine ⟨v', h1, ?_, congrArg Core.point h2⟩
    cases hc : v'.valid with
    | false => rfl
    | true => rw [h3 hc] at h; cases h

/-- C46: … and at the end of the event loop, from whatever moment on it is observed. -/
theorem C46_invalid_forever {k : Nat} {lp lp' : Loop S} (hr : mainLoop k lp = some (.ok lp'))
    {i : Nat} {v : Vtx S} (hv : lp.st.vs[i]? = some v) (h : v.valid = false) :
    ∃ v', lp'.st.vs[i]? = some v' ∧ v'.valid = false ∧ v'.point = v.point := by
  have hI : RunInv (S := S) (fun st _ _ =>
      ∃ v', st.vs[i]? = some v' ∧ v'.valid = false ∧ v'.point = v.point) := by
    constructor
    · intro st out evs evs' _ h; exact h
    · rintro st out evs ev st' arcs es ⟨w, hw, hw2, hw3⟩ _ hh
      obtain ⟨v', h1, h2, h3⟩ := (handleEvent_frame hh).keep i w hw
      refine ⟨v', h1, ?_, (congrArg Core.point h2).trans hw3⟩
      cases hc : v'.valid with
      | false => rfl
      | true => rw [h3 hc] at hw2; cases hw2
  exact hI.mainLoop hr ⟨v, hv, h, rfl⟩

/-- C46: an event one of whose vertices is invalid is skipped: heap, queue and output stay as
they are. -/
theorem C46_stale_edge (lp : Loop S) (e : EdgeEv S) (va vb : Vtx S)
    (ha : lp.st.vs[e.a]? = some va) (hb : lp.st.vs[e.b]? = some vb)
    (h : va.valid = false ∨ vb.valid = false) : stepEvent lp (.edge e) = .ok lp := by
  have : handleEvent lp.st (.edge e) = .ok none := by
    unfold handleEvent
    simp only
    rw [getV_ok.2 ha, ok_bind, getV_ok.2 hb, ok_bind]
    rcases h with h | h <;> simp [h]
  simp [stepEvent, this]

theorem C46_stale_split (lp : Loop S) (e : SplitEv S) (v : Vtx S)
    (ha : lp.st.vs[e.vertex]? = some v) (h : v.valid = false) :
    stepEvent lp (.split e) = .ok lp := by
  have : handleEvent lp.st (.split e) = .ok none := by
    unfold handleEvent
    simp only
    rw [getV_ok.2 ha, ok_bind]
    simp [h]
  simp [stepEvent, this]

theorem C46_stale_dormer (lp : Loop S) (d : S) (p : Option (V2 S)) (e0 e1 : SplitEv S)
    (e2 : EdgeEv S) (va vb : Vtx S)
    (ha : lp.st.vs[e0.vertex]? = some va) (hb : lp.st.vs[e1.vertex]? = some vb)
    (h : va.valid = false ∨ vb.valid = false) :
    stepEvent lp (.dormer d p e0 e1 e2) = .ok lp := by
  have : handleEvent lp.st (.dormer d p e0 e1 e2) = .ok none := by
    unfold handleEvent
    simp only
    rw [getV_ok.2 ha, ok_bind, getV_ok.2 hb, ok_bind]
    rcases h with h | h <;> simp [h]
  simp [stepEvent, this]

theorem invalidateAll_slav {vs : List Nat} {a b : St S} (h : invalidateAll a vs = .ok b) :
    b.slav = a.slav := by
  induction vs generalizing a with
  | nil => cases h; rfl
  | cons v vs ih =>
    unfold invalidateAll at h
    obtain ⟨c, hc, h⟩ := bind_ok.1 h
    obtain ⟨_, _, _, h3, _⟩ := C46_invalidate hc
    exact (ih h).trans h3

theorem invalidateAll_invalid {vs : List Nat} {a b : St S} (h : invalidateAll a vs = .ok b) :
    ∀ i ∈ vs, ∃ w, b.vs[i]? = some w ∧ w.valid = false := by
  induction vs generalizing a with
  | nil => simp
  | cons v vs ih =>
    intro i hi
    unfold invalidateAll at h
    obtain ⟨c, hc, h'⟩ := bind_ok.1 h
    by_cases him : i ∈ vs
    · exact ih h' i him
    · have hiv : i = v := by
        rcases List.mem_cons.1 hi with h | h
        · exact h
        · exact absurd h him
      subst hiv
      obtain ⟨w, hw, h2, -⟩ := C46_invalidate hc
      have hci : c.vs[i]? = some { w with valid := false, lav := none } := by
        rw [h2]
        have := (List.getElem?_eq_some_iff.1 hw).1
        simp [this]
      obtain ⟨w', hw', -, hv'⟩ :=
        (invalidateAll_frame (N := fun _ => True) h').keep i _ hci
      refine ⟨w', hw', ?_⟩
      cases hc : w'.valid with
      | false => rfl
      | true => exact absurd (hv' hc) (by simp)

/-! ### C49 -/

/-- the edge has the direction and the start point of `opp` -/
def SameEdge (opp e : Edge2 S) : Prop :=
  V2.veq opp.norm e.norm = true ∧ V2.veq opp.p1 e.p1 = true

/-- the point lies (up to the tolerance) between the bisectors of the vertices `y` and `x` -/
def InWedge (pt : V2 S) (y x : Vtx S) : Prop :=
  (V2.cross (V2.normalized y.bisector.v) (V2.normalized (V2.sub pt y.point)) <=. EPSILON) = true ∧
  (neg EPSILON <=. V2.cross (V2.normalized x.bisector.v) (V2.normalized (V2.sub pt x.point)))
    = true

/-- the pair `(y, x)` found at vertex `v`: the edge before `v` is the opposite edge, or else the
edge after it; and the event's point lies in the wedge -/
def SplitPair (st : St S) (ev : SplitEv S) (v x y : Nat) : Prop :=
  ∃ vv vx vy, st.vs[v]? = some vv ∧ st.vs[x]? = some vx ∧ st.vs[y]? = some vy ∧
    ((SameEdge ev.opp vv.edgePrev ∧ x = v ∧ y = vv.prev) ∨
     (¬ SameEdge ev.opp vv.edgePrev ∧ SameEdge ev.opp vv.edgeNext ∧ x = vv.next ∧ y = v)) ∧
    InWedge ev.pt vy vx

theorem splitTest_some {st : St S} {ev : SplitEv S} {v x y : Nat} :
    splitTest st ev v = .ok (some (x, y)) ↔ SplitPair st ev v x y := by
  unfold splitTest SplitPair
  cases hv : st.vs[v]? with
  | none =>
    have : st.getV v = .error .dangling := by simp [St.getV, hv]
    simp [this]
  | some vv =>
    rw [getV_ok.2 hv, ok_bind]
    have hs : ∀ e : Edge2 S, (V2.veq ev.opp.norm e.norm && V2.veq ev.opp.p1 e.p1) = true ↔
        SameEdge ev.opp e := by intro e; simp [SameEdge]
    have main : ∀ a b : Nat, (∃ c, some (a, b) = some c ∧
        ((do
          let vx ← st.getV c.1
          let vy ← st.getV c.2
          let xprev := V2.cross (V2.normalized vy.bisector.v)
              (V2.normalized (V2.sub ev.pt vy.point)) <=. EPSILON
          let xnext := neg EPSILON <=. V2.cross (V2.normalized vx.bisector.v)
              (V2.normalized (V2.sub ev.pt vx.point))
          return if xprev && xnext then some c else none : Except PyErr _) =
            .ok (some (x, y)))) ↔
        ∃ vx vy, st.vs[x]? = some vx ∧ st.vs[y]? = some vy ∧ x = a ∧ y = b ∧
          InWedge ev.pt vy vx := by
      intro a b
      simp only [Option.some.injEq, exists_eq_left', pure_ok, bind_ok, getV_ok, Except.ok.injEq,
        Option.ite_none_right_eq_some, Prod.mk.injEq, Bool.and_eq_true, InWedge]
      constructor
      · rintro ⟨vx, h1, vy, h2, h3, rfl, rfl⟩
        exact ⟨vx, vy, h1, h2, rfl, rfl, h3⟩
      · rintro ⟨vx, vy, h1, h2, rfl, rfl, h3⟩
        exact ⟨vx, h1, vy, h2, h3, rfl, rfl⟩
    simp only [Option.some.injEq]
    by_cases h1 : SameEdge ev.opp vv.edgePrev
    · rw [if_pos ((hs _).2 h1)]
      have := main v vv.prev
      simp only [Option.some.injEq, exists_eq_left'] at this
      refine this.trans ?_
      constructor
      · rintro ⟨vx, vy, a, b, c, d, e⟩
        exact ⟨vv, vx, vy, rfl, a, b, Or.inl ⟨h1, c, d⟩, e⟩
      · rintro ⟨_, vx, vy, rfl, a, b, ⟨_, c, d⟩ | ⟨c, _⟩, e⟩
        · exact ⟨vx, vy, a, b, c, d, e⟩
        · exact absurd h1 c
    · rw [if_neg (fun h => h1 ((hs _).1 h))]
      by_cases h2 : SameEdge ev.opp vv.edgeNext
      · rw [if_pos ((hs _).2 h2)]
        have := main vv.next v
        simp only [Option.some.injEq, exists_eq_left'] at this
        refine this.trans ?_
        constructor
        · rintro ⟨vx, vy, a, b, c, d, e⟩
          exact ⟨vv, vx, vy, rfl, a, b, Or.inr ⟨h1, h2, c, d⟩, e⟩
        · rintro ⟨_, vx, vy, rfl, a, b, ⟨c, _⟩ | ⟨_, _, c, d⟩, e⟩
          · exact absurd c h1
          · exact ⟨vx, vy, a, b, c, d, e⟩
      · rw [if_neg (fun h => h2 ((hs _).1 h))]
        constructor
        · intro h; simp at h
        · rintro ⟨_, vx, vy, rfl, a, b, ⟨c, _⟩ | ⟨_, c, d⟩, e⟩
          · exact absurd c h1
          · exact absurd c h2

theorem splitSearchList_some {st : St S} {ev : SplitEv S} {vs : List Nat} {x y : Nat}
    (h : splitSearchList st ev vs = .ok (some (x, y))) : ∃ v ∈ vs, SplitPair st ev v x y := by
  induction vs with
  | nil => simp [splitSearchList] at h
  | cons v vs ih =>
    unfold splitSearchList at h
    obtain ⟨r, hr, h⟩ := bind_ok.1 h
    cases r with
    | none =>
      obtain ⟨w, hw, hp⟩ := ih h
      exact ⟨w, List.mem_cons_of_mem _ hw, hp⟩
    | some r =>
      simp only [pure_ok, Except.ok.injEq, Option.some.injEq] at h
      subst h
      exact ⟨v, by simp, splitTest_some.1 hr⟩

theorem splitSearchList_none {st : St S} {ev : SplitEv S} {vs : List Nat}
    (h : splitSearchList st ev vs = .ok none) : ∀ v ∈ vs, ∀ x y, ¬ SplitPair st ev v x y := by
  induction vs with
  | nil => simp
  | cons v vs ih =>
    unfold splitSearchList at h
    obtain ⟨r, hr, h⟩ := bind_ok.1 h
    cases r with
    | none =>
      intro w hw x y hp
      rcases List.mem_cons.1 hw with rfl | hw
      · rw [splitTest_some.2 hp] at hr; simp at hr
      · exact ih h w hw x y hp
    | some r => simp at h

theorem splitSearch_some {st : St S} {ev : SplitEv S} {ls : List Nat} {x y : Nat}
    (h : splitSearch st ev ls = .ok (some (x, y))) :
    ∃ l ∈ ls, ∃ v ∈ (iterLav st l).1, SplitPair st ev v x y := by
  induction ls with
  | nil => simp [splitSearch] at h
  | cons l ls ih =>
    unfold splitSearch at h
    obtain ⟨r, hr, h⟩ := bind_ok.1 h
    cases r with
    | none =>
      simp only at h
      split at h
      · cases h
      · obtain ⟨l', hl', hv⟩ := ih h
        exact ⟨l', List.mem_cons_of_mem _ hl', hv⟩
    | some r =>
      simp only [pure_ok, Except.ok.injEq, Option.some.injEq] at h
      subst h
      exact ⟨l, by simp, splitSearchList_some hr⟩

theorem splitSearch_none {st : St S} {ev : SplitEv S} {ls : List Nat}
    (h : splitSearch st ev ls = .ok none) :
    ∀ l ∈ ls, ∃ vs, iterLav st l = (vs, none) ∧ ∀ v ∈ vs, ∀ x y, ¬ SplitPair st ev v x y := by
  induction ls with
  | nil => simp
  | cons l ls ih =>
    unfold splitSearch at h
    obtain ⟨r, hr, h⟩ := bind_ok.1 h
    cases r with
    | none =>
      simp only at h
      split at h
      · cases h
      · rename_i he
        intro l' hl'
        rcases List.mem_cons.1 hl' with rfl | hl'
        · exact ⟨(iterLav st l').1, Prod.ext rfl he, splitSearchList_none hr⟩
        · exact ih h l' hl'
    | some r => simp at h

/-- C49: a split event that has any effect cuts between the vertices `y` and `x`, found at a
vertex of an active LAV: the edge between them has the direction and start point of the opposite
edge and the intersection point lies in the wedge of their bisectors.  If the event has no such
pair, nothing happens: every vertex of every active LAV was looked at in vain. -/
theorem C49_handleSplit {st st' : St S} {ev : SplitEv S} {arcs : List (Subtree S)}
    {es : List (Event S)} (h : handleSplit st ev = .ok (st', arcs, es)) :
    (∃ l ∈ st.slav, ∃ o, st.lavs[l]? = some o ∧ ∃ v, Reach st o.head v ∧
      ∃ x y, SplitPair st ev v x y ∧ splitAt st ev x y = .ok (st', arcs, es)) ∨
    (st' = st ∧ arcs = [] ∧ es = [] ∧
      ∀ l ∈ st.slav, ∃ o vs, st.lavs[l]? = some o ∧ Ring st o.head vs ∧
        ∀ v ∈ vs, ∀ x y, ¬ SplitPair st ev v x y) := by
  unfold handleSplit at h
  obtain ⟨r, hr, h⟩ := bind_ok.1 h
  cases r with
  | none =>
    simp only [pure_ok, Except.ok.injEq, Prod.mk.injEq] at h
    obtain ⟨rfl, rfl, rfl⟩ := h
    refine Or.inr ⟨rfl, rfl, rfl, fun l hl => ?_⟩
    obtain ⟨vs, hvs, hn⟩ := splitSearch_none hr l hl
    obtain ⟨o, ho, hring⟩ := iterLav_ok.1 hvs
    exact ⟨o, vs, ho, hring, hn⟩
  | some xy =>
    obtain ⟨x, y⟩ := xy
    obtain ⟨l, hl, v, hv, hp⟩ := splitSearch_some hr
    obtain ⟨o, ho, hreach⟩ := iterLav_reach hv
    exact Or.inl ⟨l, hl, o, ho, v, hreach, x, y, hp, h⟩

/-- C49: the new vertices lie at the event's point, next to `x` and `y`, on the opposite edge. -/
theorem C49_newVertices {st st' : St S} {ev : SplitEv S} {v : Vtx S} {x y v1 v2 : Nat}
    (hv : st.vs[ev.vertex]? = some v) (hx : x < st.vs.length) (hy : y < st.vs.length)
    (hp : v.prev < st.vs.length) (hn : v.next < st.vs.length)
    (hself : v.prev ≠ ev.vertex)
    (h : splitLink st ev v x y = .ok (st', v1, v2)) :
    v1 = st.vs.length ∧ v2 = st.vs.length + 1 ∧
    (∃ w1 w2, st'.vs[v1]? = some w1 ∧ st'.vs[v2]? = some w2 ∧
      w1.point = ev.pt ∧ w2.point = ev.pt ∧
      w1.edgePrev = v.edgePrev ∧ w1.edgeNext = ev.opp ∧
      w2.edgePrev = ev.opp ∧ w2.edgeNext = v.edgeNext ∧
      w1.reflex = false ∧ w2.reflex = false ∧ w1.valid = true ∧ w2.valid = true ∧
      w1.next = x ∧ w1.prev = v.prev ∧ w2.prev = y ∧ w2.next = v.next) := by
  unfold splitLink at h
  simp only at h
  obtain ⟨v', hv', h⟩ := bind_ok.1 h
  have hvl : ev.vertex < st.vs.length := (List.getElem?_eq_some_iff.1 hv).1
  obtain ⟨f1, f2, f3, f4, f5⟩ := vs_fields (getV_ok.1 hv')
  obtain ⟨g1, g2, g3, g4, g5⟩ := vs_fields hv
  simp only [pure_ok, Except.ok.injEq, Prod.mk.injEq] at h
  obtain ⟨rfl, rfl, rfl⟩ := h
  refine ⟨rfl, by simp, ?_⟩
  have hnext : v'.next = v.next := by
    simp [show ev.vertex ≠ st.vs.length by omega, show ev.vertex ≠ st.vs.length + 1 by omega,
      Ne.symm hself, g1] at f1
    exact f1.symm
  simp only [hnext, St.newV_snd, St.len_newV]
  generalize hst' : St.setNext _ y (st.vs.length + 1) = st'
  have hlen : st'.vs.length = st.vs.length + 2 := by rw [← hst']; simp
  have e1 : st'.vs[st.vs.length]? = some st'.vs[st.vs.length] :=
    List.getElem?_eq_getElem (by omega)
  have e2 : st'.vs[st.vs.length + 1]? = some st'.vs[st.vs.length + 1] :=
    List.getElem?_eq_getElem (by omega)
  refine ⟨_, _, e1, e2, ?_⟩
  obtain ⟨a1, a2, a3, a4, a5⟩ := vs_fields e1
  obtain ⟨b1, b2, b3, b4, b5⟩ := vs_fields e2
  generalize st'.vs[st.vs.length] = w1 at *
  generalize st'.vs[st.vs.length + 1] = w2 at *
  have nn : ∀ k, k < st.vs.length → ¬ st.vs.length = k := by omega
  have nn1 : ∀ k, k < st.vs.length → ¬ st.vs.length + 1 = k := by omega
  rw [← hst'] at a1 a2 a4 a5 b1 b2 b4 b5
  simp [nn _ hx, nn _ hy, nn _ hp, nn _ hn, nn1 _ hx, nn1 _ hy, nn1 _ hp, nn1 _ hn]
    at a1 a2 a4 a5 b1 b2 b4 b5
  have c1 : w1.core = (mkVtx st.vs.length ev.pt v.edgePrev ev.opp none true).core := a5.symm
  have c2 : w2.core = (mkVtx (st.vs.length + 1) ev.pt ev.opp v.edgeNext none true).core := b5.symm
  exact ⟨congrArg Core.point c1, congrArg Core.point c2, congrArg Core.edgePrev c1,
    congrArg Core.edgeNext c1, congrArg Core.edgePrev c2, congrArg Core.edgeNext c2,
    congrArg Core.reflex c1, congrArg Core.reflex c2, a4.symm, b4.symm, a1.symm, a2.symm, b2.symm,
    b1.symm⟩

/-! ### C47 -/

/-- C47: an edge event produces one node at the event's point with the event's distance as
height; it is connected to the points of the two vertices or, at a peak, to the points of all
vertices of the LAV. -/
theorem C47_edge {st st' : St S} {ev : EdgeEv S} {arcs : List (Subtree S)}
    {es : List (Event S)} (h : handleEdge st ev = .ok (st', arcs, es)) :
    ∃ va vb sinks, st.vs[ev.a]? = some va ∧ st.vs[ev.b]? = some vb ∧
      arcs = [{ source := ev.pt, height := ev.dist, sinks }] ∧
      ((va.prev ≠ vb.next ∧ sinks = [va.point, vb.point] ∧ es.length ≤ 1) ∨
       (va.prev = vb.next ∧ es = [] ∧ ∃ l o vs, va.lav = some l ∧ l ∈ st.slav ∧
        st'.slav = st.slav.erase l ∧ st.lavs[l]? = some o ∧ Ring st o.head vs ∧
        List.Forall₂ (fun i p => ∃ w, st.vs[i]? = some w ∧ w.point = p) vs sinks ∧
        ∀ i ∈ vs, ∃ w, st'.vs[i]? = some w ∧ w.valid = false)) := by
  unfold handleEdge at h
  obtain ⟨va, hva, h⟩ := bind_ok.1 h
  obtain ⟨vb, hvb, h⟩ := bind_ok.1 h
  by_cases hp : va.prev = vb.next
  · rw [if_pos hp] at h
    obtain ⟨s, hs, h⟩ := bind_ok.1 h
    split at h
    · cases h
    · rename_i l hl
      obtain ⟨vs, hvs, h⟩ := bind_ok.1 h
      obtain ⟨sinks, hsi, h⟩ := bind_ok.1 h
      obtain ⟨s2, hs2, h⟩ := bind_ok.1 h
      simp only [pure_ok, Except.ok.injEq, Prod.mk.injEq] at h
      obtain ⟨rfl, rfl, rfl⟩ := h
      rw [hl] at hs
      unfold removeLav at hs
      simp only at hs
      obtain ⟨t, ht, hs⟩ := bind_ok.1 hs
      simp only [pure_ok, Except.ok.injEq] at hs
      subst hs
      have hmem : l ∈ st.slav ∧ t = st.slav.erase l := by
        unfold pyRemove at ht
        split at ht
        · exact ⟨by assumption, (Except.ok.inj ht).symm⟩
        · cases ht
      obtain ⟨o, ho, hring⟩ := listLav_ok.1 hvs
      refine ⟨va, vb, sinks, getV_ok.1 hva, getV_ok.1 hvb, rfl, Or.inr ⟨hp, rfl, l, o, vs, hl,
        hmem.1, ?_, ho, hring, ?_, ?_⟩⟩
      · rw [invalidateAll_slav hs2]; exact hmem.2
      · refine (mapM_ok hsi).imp ?_
        intro i p hip
        obtain ⟨w, hw, hip⟩ := bind_ok.1 hip
        simp only [pure_ok, Except.ok.injEq] at hip
        exact ⟨w, getV_ok.1 hw, hip⟩
      · exact invalidateAll_invalid hs2
  · rw [if_neg hp] at h
    split at h
    · cases h
    · obtain ⟨⟨s, r⟩, hs, h⟩ := bind_ok.1 h
      obtain ⟨o, ho, h⟩ := bind_ok.1 h
      obtain ⟨ne, hne, h⟩ := bind_ok.1 h
      simp only [pure_ok, Except.ok.injEq, Prod.mk.injEq] at h
      obtain ⟨rfl, rfl, rfl⟩ := h
      exact ⟨va, vb, _, getV_ok.1 hva, getV_ok.1 hvb, rfl, Or.inl ⟨hp, rfl, by
        cases ne <;> simp⟩⟩

theorem keepOrCollapse_sinks {st st' : St S} {sinks sinks' : List (V2 S)}
    {heads heads' ls : List Nat}
    (hr : keepOrCollapse st sinks heads ls = .ok (st', sinks', heads')) :
    ∃ extra more, sinks' = sinks ++ extra ∧ heads' = heads ++ more ∧
      extra.length + more.length = ls.length ∧
      ∀ s ∈ extra, ∃ (i : Nat) (w : Vtx S), st'.vs[i]? = some w ∧ w.point = s := by
  induction ls generalizing st sinks heads with
  | nil => cases hr; exact ⟨[], [], by simp, by simp, by simp, by simp⟩
  | cons l ls ih =>
    unfold keepOrCollapse at hr
    obtain ⟨o, ho, hr⟩ := bind_ok.1 hr
    split at hr
    · obtain ⟨extra, more, h1, h2, h3, h4⟩ := ih hr
      exact ⟨extra, o.head :: more, h1, by rw [h2]; simp, by simp; omega, h4⟩
    · obtain ⟨h, hh, hr⟩ := bind_ok.1 hr
      obtain ⟨n, hn, hr⟩ := bind_ok.1 hr
      obtain ⟨vs, hvs, hr⟩ := bind_ok.1 hr
      obtain ⟨s, hs, hr⟩ := bind_ok.1 hr
      obtain ⟨extra, more, h1, h2, h3, h4⟩ := ih hr
      refine ⟨n.point :: extra, more, by rw [h1]; simp, h2, by simp; omega, ?_⟩
      intro p hp
      rcases List.mem_cons.1 hp with rfl | hp
      · obtain ⟨w, hw, hc, -⟩ := ((invalidateAll_frame (N := fun _ => True) hs).trans
          (keepOrCollapse_frame hr)).keep h.next n (getV_ok.1 hn)
        exact ⟨h.next, w, hw, congrArg Core.point hc⟩
      · exact h4 p hp

theorem nextEvents_length {st : St S} {vs : List Nat} {es : List (Event S)}
    (h : nextEvents st vs = .ok es) : es.length ≤ vs.length := by
  induction vs generalizing es with
  | nil => cases h; simp
  | cons v vs ih =>
    unfold nextEvents at h
    obtain ⟨e, he, h⟩ := bind_ok.1 h
    obtain ⟨es', hes', h⟩ := bind_ok.1 h
    simp only [pure_ok, Except.ok.injEq] at h
    subst h
    have := ih hes'
    cases e <;> simp <;> omega

theorem splitLavs_length {st st' : St S} {lav : Option Nat}
    {x v1 v2 : Nat} {nl : List Nat} (hr : splitLavs st lav x v1 v2 = .ok (st', nl)) :
    nl.length = 1 ∨ nl.length = 2 := by
  unfold splitLavs at hr
  obtain ⟨s1, hs1, hr⟩ := bind_ok.1 hr
  obtain ⟨vx, hvx, hr⟩ := bind_ok.1 hr
  split at hr
  · obtain ⟨t1, ht1, hr⟩ := bind_ok.1 hr
    obtain ⟨⟨t2, l1⟩, ht2, hr⟩ := bind_ok.1 hr
    simp only [pure_ok, Except.ok.injEq, Prod.mk.injEq] at hr
    obtain ⟨-, rfl⟩ := hr; simp
  · obtain ⟨⟨t1, l1⟩, ht1, hr⟩ := bind_ok.1 hr
    obtain ⟨⟨t2, l2⟩, ht2, hr⟩ := bind_ok.1 hr
    simp only [pure_ok, Except.ok.injEq, Prod.mk.injEq] at hr
    obtain ⟨-, rfl⟩ := hr; simp

/-- C47: a split event produces no node at all, or one node at the event's point with the event's
distance as height; it is connected to the splitting vertex and to at most two more vertices (one
for each new LAV that has collapsed); it brings at most two events. -/
theorem C47_split {st st' : St S} {ev : SplitEv S} {arcs : List (Subtree S)}
    {es : List (Event S)} (h : handleSplit st ev = .ok (st', arcs, es)) :
    (st' = st ∧ arcs = [] ∧ es = []) ∨
    ∃ v extra, st.vs[ev.vertex]? = some v ∧
      arcs = [{ source := ev.pt, height := ev.dist, sinks := v.point :: extra }] ∧
      extra.length + es.length ≤ 2 ∧
      (∀ s ∈ extra, ∃ (i : Nat) (w : Vtx S), st'.vs[i]? = some w ∧ w.point = s) ∧
      ∃ w, st'.vs[ev.vertex]? = some w ∧ w.valid = false := by
  rcases C49_handleSplit h with ⟨l, hl, o, ho, v0, hv0, x, y, hp, hs⟩ | ⟨h1, h2, h3, -⟩
  · obtain ⟨v, s1, v1, v2, s2, nl, s3, sinks, heads, hv, h1, h2, h3, h4, h5, rfl⟩ :=
      splitAt_cases hs
    obtain ⟨extra, more, e1, e2, e3, e4⟩ := keepOrCollapse_sinks h3
    refine Or.inr ⟨v, extra, hv, by rw [e1]; rfl, ?_, ?_, ?_⟩
    · have := nextEvents_length h4
      have := splitLavs_length h2
      simp at e2; subst e2
      omega
    · intro s hs
      obtain ⟨i, w, hw, hws⟩ := e4 s hs
      obtain ⟨w', hw', hc, -⟩ := (invalidate_frame (N := fun _ => True) h5).keep i w hw
      exact ⟨i, w', hw', (congrArg Core.point hc).trans hws⟩
    · obtain ⟨w, hw, h2, -⟩ := C46_invalidate h5
      have := (List.getElem?_eq_some_iff.1 hw).1
      exact ⟨_, by rw [h2]; simp [this]; rfl, rfl⟩
  · exact Or.inl ⟨h1, h2, h3⟩

/-- C47: a dormer event produces no node at all (when its first vertex belongs to no LAV), or two:
one at the edge event's point, connected to the two vertices of that edge and to the second node,
and the second one where the bisectors of the outer vertices meet, connected to these. -/
theorem C47_dormer {st st' : St S} {e0 e1 : SplitEv S} {e2 : EdgeEv S}
    {arcs : List (Subtree S)} {es : List (Event S)}
    (h : handleDormer st e0 e1 e2 = .ok (st', arcs, es)) :
    es = [] ∧ ((st' = st ∧ arcs = [] ∧ ∃ v, st.vs[e0.vertex]? = some v ∧ v.lav = none) ∨
    ∃ vp vn pa pb p, st.vs[e0.vertex]? = some vp ∧ st.vs[e1.vertex]? = some vn ∧
      st.vs[e2.a]? = some pa ∧ st.vs[e2.b]? = some pb ∧
      vp.bisector.intersect vn.bisector = some p ∧
      arcs = [{ source := e2.pt, height := e2.dist, sinks := [pa.point, pb.point, p] },
              { source := p, height := (e0.dist +. e1.dist) /. lit 2 1,
                sinks := [vp.point, vn.point] }] ∧
      ∀ i ∈ [e0.vertex, vp.next, e1.vertex, vn.prev],
        ∃ w, st'.vs[i]? = some w ∧ w.valid = false) := by
  unfold handleDormer at h
  obtain ⟨vp, hvp, h⟩ := bind_ok.1 h
  split at h
  · rename_i hl
    simp only [pure_ok, Except.ok.injEq, Prod.mk.injEq] at h
    obtain ⟨rfl, rfl, rfl⟩ := h
    exact ⟨rfl, Or.inl ⟨rfl, rfl, vp, getV_ok.1 hvp, hl⟩⟩
  · rename_i l hl
    obtain ⟨vn, hvn, h⟩ := bind_ok.1 h
    obtain ⟨vn', hvn', h⟩ := bind_ok.1 h
    obtain ⟨vp', hvp', h⟩ := bind_ok.1 h
    obtain ⟨o, ho, h⟩ := bind_ok.1 h
    obtain ⟨⟨s1, nl⟩, hs1, h⟩ := bind_ok.1 h
    obtain ⟨s2, hs2, h⟩ := bind_ok.1 h
    split at h
    · cases h
    · rename_i p hint
      obtain ⟨pa, hpa, h⟩ := bind_ok.1 h
      obtain ⟨pb, hpb, h⟩ := bind_ok.1 h
      obtain ⟨s3, hs3, h⟩ := bind_ok.1 h
      simp only [pure_ok, Except.ok.injEq, Prod.mk.injEq] at h
      obtain ⟨rfl, rfl, rfl⟩ := h
      have hfr : Frame (fun _ => True) st s2 := by
        refine Frame.trans ?_ (removeLav_frame hs2)
        refine Frame.trans ?_ (fromChain_frame hs1)
        refine Frame.trans ?_ (Frame.setPrev _ _ _)
        refine Frame.trans ?_ (Frame.setNext _ _ _)
        exact Frame.setHead _ _ _
      have hlenS : s2.vs.length = st.vs.length := by
        have h1 := fromChain_len hs1
        have h2 : s2.vs = s1.vs := by
          unfold removeLav at hs2
          obtain ⟨t, ht, hs2⟩ := bind_ok.1 hs2
          simp only [pure_ok, Except.ok.injEq] at hs2
          subst hs2; rfl
        rw [h2, h1]; simp
      have back : ∀ (i : Nat) (w : Vtx S), s2.vs[i]? = some w →
          ∃ w0 : Vtx S, st.vs[i]? = some w0 ∧ w0.point = w.point := by
        intro i w hw
        have hi : i < st.vs.length := hlenS ▸ (List.getElem?_eq_some_iff.1 hw).1
        obtain ⟨w', hw', hc, -⟩ := hfr.keep i _ (List.getElem?_eq_getElem hi)
        rw [hw] at hw'; cases hw'
        exact ⟨_, List.getElem?_eq_getElem hi, (congrArg Core.point hc).symm⟩
      obtain ⟨pa0, ha0, hap⟩ := back _ _ (getV_ok.1 hpa)
      obtain ⟨pb0, hb0, hbp⟩ := back _ _ (getV_ok.1 hpb)
      refine ⟨rfl, Or.inr ⟨vp, vn, pa0, pb0, p, getV_ok.1 hvp, getV_ok.1 hvn, ha0, hb0, hint,
        by rw [hap, hbp], ?_⟩⟩
      exact invalidateAll_invalid hs3

/-- every vertex of the heap and every sink is in `P` or the source of a produced node; every node
has a sink -/
structure Grounded (P : V2 S → Prop) (st : St S) (out : List (Subtree S)) : Prop where
  vertex : ∀ (i : Nat) (v : Vtx S), st.vs[i]? = some v →
    P v.point ∨ ∃ a ∈ out, a.source = v.point
  sinks : ∀ a ∈ out, a.sinks ≠ [] ∧ ∀ s ∈ a.sinks, P s ∨ ∃ a' ∈ out, a'.source = s

theorem Grounded.step {P : V2 S → Prop} {st st' : St S} {out arcs : List (Subtree S)}
    (h : Grounded P st out)
    (hf : Frame (fun c => ∃ a ∈ arcs, a.source = c.point) st st')
    (ha : ∀ a ∈ arcs, a.sinks ≠ [] ∧ ∀ s ∈ a.sinks,
      (∃ (i : Nat) (w : Vtx S), st'.vs[i]? = some w ∧ w.point = s) ∨ ∃ a' ∈ arcs, a'.source = s) :
    Grounded P st' (out ++ arcs) := by
  have hv : ∀ (i : Nat) (v : Vtx S), st'.vs[i]? = some v →
      P v.point ∨ ∃ a ∈ out ++ arcs, a.source = v.point := by
    intro i v hv
    cases hst : st.vs[i]? with
    | none =>
      obtain ⟨a, ha, hs⟩ := hf.fresh i v hv hst
      exact Or.inr ⟨a, by simp [ha], hs⟩
    | some w =>
      obtain ⟨v', hv', hc, -⟩ := hf.keep i w hst
      rw [hv] at hv'; cases hv'
      have hp : v.point = w.point := congrArg Core.point hc
      rcases h.vertex i w hst with h | ⟨a, ha, hs⟩
      · left; rw [hp]; exact h
      · exact Or.inr ⟨a, by simp [ha], by rw [hp]; exact hs⟩
  refine ⟨hv, ?_⟩
  intro a ham
  rcases List.mem_append.1 ham with ham | ham
  · refine ⟨(h.sinks a ham).1, fun s hs => ?_⟩
    rcases (h.sinks a ham).2 s hs with h | ⟨a', ha', he⟩
    · exact Or.inl h
    · exact Or.inr ⟨a', by simp [ha'], he⟩
  · refine ⟨(ha a ham).1, fun s hs => ?_⟩
    rcases (ha a ham).2 s hs with ⟨i, w, hw, hs⟩ | ⟨a', ha', he⟩
    · rw [← hs]; exact hv i w hw
    · exact Or.inr ⟨a', by simp [ha'], he⟩

theorem grounded_runInv (P : V2 S → Prop) :
    RunInv (S := S) (fun st out _ => Grounded P st out) := by
  constructor
  · intro st out evs evs' _ h; exact h
  · intro st out evs ev st' arcs es h _ hh
    rcases handleEvent_cases hh with ⟨e, va, vb, -, hva, hvb, -, -, hr⟩ | ⟨e, v, -, hv, -, hr⟩ |
      ⟨d, p, e0, e1, e2, v0, v1, -, -, -, -, -, hr⟩
    · obtain ⟨wa, wb, sinks, hwa, hwb, rfl, hs⟩ := C47_edge hr
      have hf := handleEdge_frame (N := fun c => c.point = e.pt) hr (fun _ _ _ _ _ => rfl)
      have tr : ∀ (i : Nat) (w : Vtx S), st.vs[i]? = some w →
          ∃ (i : Nat) (w' : Vtx S), st'.vs[i]? = some w' ∧ w'.point = w.point := by
        intro i w hw
        obtain ⟨w', hw', hc, -⟩ := hf.keep i w hw
        exact ⟨i, w', hw', congrArg Core.point hc⟩
      refine h.step (hf.mono (fun c hc => ⟨_, List.mem_singleton_self _, hc.symm⟩)) ?_
      intro a ha
      simp only [List.mem_singleton] at ha
      subst ha
      rcases hs with ⟨-, rfl, -⟩ | ⟨-, -, l, o, vs, -, -, -, -, hring, hf2, -⟩
      · refine ⟨by simp, fun s hs => Or.inl ?_⟩
        simp only [List.mem_cons, List.not_mem_nil, or_false] at hs
        rcases hs with rfl | rfl
        · exact tr _ _ hwa
        · exact tr _ _ hwb
      · refine ⟨?_, fun s hs => Or.inl ?_⟩
        · rintro rfl
          have : vs = [] := by simpa using hf2.length_eq
          subst this
          simp [Ring] at hring
        · obtain ⟨i, hi, w, hw, rfl⟩ := forall₂_mem_right hf2 hs
          exact tr _ _ hw
    · rcases C47_split hr with ⟨rfl, rfl, rfl⟩ | ⟨w, extra, hw, rfl, -, hex, -⟩
      · simpa using h
      · have hf := handleSplit_frame (N := fun c => c.point = e.pt) hr (by
          intro v _ b; cases b <;> rfl)
        refine h.step (hf.mono (fun c hc => ⟨_, List.mem_singleton_self _, hc.symm⟩)) ?_
        intro a ha
        simp only [List.mem_singleton] at ha
        subst ha
        refine ⟨by simp, fun s hs => Or.inl ?_⟩
        rcases List.mem_cons.1 hs with rfl | hs
        · obtain ⟨w', hw', hc, -⟩ := hf.keep _ w hw
          exact ⟨_, w', hw', congrArg Core.point hc⟩
        · exact hex s hs
    · obtain ⟨-, ⟨rfl, rfl, -⟩ | ⟨vp, vn, pa, pb, q, h1, h2, h3, h4, h5, rfl, -⟩⟩ := C47_dormer hr
      · simpa using h
      · have hf := handleDormer_frame (N := fun _ => False) hr
        have tr : ∀ (i : Nat) (w : Vtx S), st.vs[i]? = some w →
            ∃ (i : Nat) (w' : Vtx S), st'.vs[i]? = some w' ∧ w'.point = w.point := by
          intro i w hw
          obtain ⟨w', hw', hc, -⟩ := hf.keep i w hw
          exact ⟨i, w', hw', congrArg Core.point hc⟩
        refine h.step (hf.mono (fun c hc => hc.elim)) ?_
        intro a ha
        simp only [List.mem_cons, List.not_mem_nil, or_false] at ha
        rcases ha with rfl | rfl
        · refine ⟨by simp, fun s hs => ?_⟩
          simp only [List.mem_cons, List.not_mem_nil, or_false] at hs
          rcases hs with rfl | rfl | rfl
          · exact Or.inl (tr _ _ h3)
          · exact Or.inl (tr _ _ h4)
          · exact Or.inr ⟨_, List.mem_cons_of_mem _ (List.mem_singleton_self _), rfl⟩
        · refine ⟨by simp, fun s hs => Or.inl ?_⟩
          simp only [List.mem_cons, List.not_mem_nil, or_false] at hs
          rcases hs with rfl | rfl
          · exact tr _ _ h1
          · exact tr _ _ h2

/-- `p` is a vertex of a contour -/
def ContourVertex (cs : List (List (Edge2 S))) (p : V2 S) : Prop := ∃ c ∈ cs, ∃ e ∈ c, e.p1 = p

theorem mkSlav_contour {cs : List (List (Edge2 S))} {st : St S} (hr : mkSlav cs = .ok st)
    {i : Nat} {v : Vtx S} (hv : st.vs[i]? = some v) : ContourVertex cs v.point := by
  obtain ⟨c, hc, e, he, h⟩ := mkSlav_vertices hr hv
  exact ⟨c, hc, e.2, (List.of_mem_zip he).2, (congrArg Core.point h).symm⟩

/-- C47, whole runs: every node the event loop has produced has a sink, and every sink is a contour
vertex or itself a produced node (no laws of arithmetic assumed). -/
theorem C47_run {cs : List (List (Edge2 S))} {k : Nat} {lp lp' : Loop S}
    (hs : startLoop cs = .ok lp) (hr : mainLoop k lp = some (.ok lp')) :
    ∀ a ∈ lp'.out, a.sinks ≠ [] ∧
      ∀ s ∈ a.sinks, ContourVertex cs s ∨ ∃ a' ∈ lp'.out, a'.source = s := by
  obtain ⟨hsl, hout, -⟩ := startLoop_ok hs
  refine ((grounded_runInv (ContourVertex cs)).mainLoop hr ⟨?_, ?_⟩).sinks
  · intro i v hv
    exact Or.inl (mkSlav_contour hsl hv)
  · rw [hout]; simp

/-! ### Examples -/

/-- the L-shaped contour (0,0) (4,0) (4,2) (2,2) (2,4) (0,4) -/
def lContour : List (Edge2 Soft) :=
  ringEdges [(0, 0), (4, 0), (4, 2), (2, 2), (2, 4), (0, 4)]

/-- what is left of the loop's result for comparing: the validity of the vertices and the numbers
of sinks of the nodes -/
def loopShape (r : Except PyErr (Loop Soft)) : Option (List Bool × List Nat) :=
  match r with
  | .ok lp => some (lp.st.vs.map (·.valid), lp.out.map (fun a => a.sinks.length))
  | .error _ => none

/-- the start and the end of a whole run -/
def runShape (c : List (Edge2 Soft)) : Option (List Bool × List Nat) × Option (List Bool × List Nat) :=
  match startLoop [c] with
  | .ok lp => (loopShape (.ok lp), (mainLoop 20 lp).bind loopShape)
  | .error _ => (none, none)

/-- The hypotheses of `C46_invalid_forever` and `C47_run` are met: the run for the L-shaped contour
ends normally, all ten vertices get discarded and there are four nodes. -/
example : runShape lContour =
    (some ([true, true, true, true, true, true], []),
     some ([false, false, false, false, false, false, false, false, false, false],
       [2, 2, 2, 3])) := by decide +kernel

/-- the first split event in the queue -/
def firstSplit : List (Event Soft) → Option (SplitEv Soft)
  | [] => none
  | .split e :: _ => some e
  | _ :: es => firstSplit es

/-- `handleSplit` for the first split event of a contour: sinks of its node, number of events,
remaining LAVs -/
def splitShape (c : List (Edge2 Soft)) : Option (List (V2 Soft) × Nat × List Nat) :=
  match startLoop [c] with
  | .ok lp =>
    match firstSplit lp.queue with
    | some e =>
      match handleSplit lp.st e with
      | .ok (st, [a], es) => some (a.sinks, es.length, st.slav)
      | _ => none
    | none => none
  | .error _ => none

/-- A split event that is carried out: the corner (2,2) of the L splits the contour into two LAVs
of more than two vertices, so the node has one sink. -/
example : splitShape lContour = some ([sp2 2 2], 2, [1, 2]) := by decide +kernel

end Polyskel
