import Verif.Proofs.Except
import Verif.Props.Queue
import Verif.Model.Skel
/-
How the heap of the wavefront evolves during `skeletonize`, and induction over the main loop.
-/
namespace Polyskel
open HeapQ

variable {S : Type} [Scalar S]
set_option linter.unusedSectionVars false

/-- The fields of a `_LAVertex` that are never assigned after its construction. -/
structure Core (S : Type) where
  point : V2 S
  edgePrev : Edge2 S
  edgeNext : Edge2 S
  reflex : Bool
  bisector : Lin S

/-- the constant part of a vertex -/
def Vtx.core {S : Type} (v : Vtx S) : Core S :=
  ⟨v.point, v.edgePrev, v.edgeNext, v.reflex, v.bisector⟩

/-- `st'` may follow `st`: no vertex disappears or changes its constant part, invalid vertices
stay invalid, and the constant parts of new vertices satisfy `N`. -/
structure Frame (N : Core S → Prop) (st st' : St S) : Prop where
  keep : ∀ (i : Nat) (v : Vtx S), st.vs[i]? = some v →
    ∃ v', st'.vs[i]? = some v' ∧ v'.core = v.core ∧ (v'.valid = true → v.valid = true)
  fresh : ∀ (i : Nat) (v' : Vtx S), st'.vs[i]? = some v' → st.vs[i]? = none → N v'.core
  orig : st'.orig = st.orig

theorem getV_ok {st : St S} {i : Nat} {v : Vtx S} : st.getV i = .ok v ↔ st.vs[i]? = some v := by
  unfold St.getV
  cases st.vs[i]? <;> simp

theorem getL_ok {st : St S} {i : Nat} {v : LavObj} :
    st.getL i = .ok v ↔ st.lavs[i]? = some v := by
  unfold St.getL
  cases st.lavs[i]? <;> simp

theorem getV_error {st : St S} {i : Nat} {e : PyErr} :
    st.getV i = .error e ↔ st.vs[i]? = none ∧ e = .dangling := by
  unfold St.getV
  cases st.vs[i]? <;> simp [eq_comm]

theorem getL_error {st : St S} {i : Nat} {e : PyErr} :
    st.getL i = .error e ↔ st.lavs[i]? = none ∧ e = .dangling := by
  unfold St.getL
  cases st.lavs[i]? <;> simp [eq_comm]

namespace Frame
variable {N : Core S → Prop}

theorem same {st st' : St S} (h : st'.vs = st.vs) (ho : st'.orig = st.orig) :
    Frame N st st' where
  keep i v hv := ⟨v, by rw [h]; exact hv, rfl, id⟩
  fresh i v' hv hn := by rw [h, hn] at hv; cases hv
  orig := ho

theorem refl (st : St S) : Frame N st st := same rfl rfl

theorem trans {a b c : St S} (h : Frame N a b) (h' : Frame N b c) : Frame N a c where
  keep i v hv := by
    obtain ⟨v1, h1, e1, m1⟩ := h.keep i v hv
    obtain ⟨v2, h2, e2, m2⟩ := h'.keep i v1 h1
    exact ⟨v2, h2, e2.trans e1, fun x => m1 (m2 x)⟩
  fresh i v hv hn := by
    cases hb : b.vs[i]? with
    | none => exact h'.fresh i v hv hb
    | some w =>
      obtain ⟨v2, h2, e2, _⟩ := h'.keep i w hb
      rw [hv] at h2
      cases h2
      rw [e2]
      exact h.fresh i w hb hn
  orig := h'.orig.trans h.orig

theorem mono {M : Core S → Prop} (hm : ∀ c, N c → M c) {a b : St S} (h : Frame N a b) :
    Frame M a b := ⟨h.keep, fun i v a b => hm _ (h.fresh i v a b), h.orig⟩

theorem modV (st : St S) (i : Nat) (f : Vtx S → Vtx S) (hc : ∀ v, (f v).core = v.core)
    (hv : ∀ v, (f v).valid = true → v.valid = true) : Frame N st (st.modV i f) where
  keep j v hj := by
    by_cases h : i = j
    · subst h
      exact ⟨f v, by simp [St.modV, hj], hc v, hv v⟩
    · exact ⟨v, by simp [St.modV, List.getElem?_modify, h, hj], rfl, id⟩
  fresh j v hj hn := by
    simp [St.modV, List.getElem?_modify, hn] at hj
  orig := rfl

theorem setPrev (st : St S) (i j : Nat) : Frame N st (st.setPrev i j) :=
  modV st i _ (fun _ => rfl) (fun _ => id)
theorem setNext (st : St S) (i j : Nat) : Frame N st (st.setNext i j) :=
  modV st i _ (fun _ => rfl) (fun _ => id)
theorem setLav (st : St S) (i : Nat) (l : Option Nat) : Frame N st (st.setLav i l) :=
  modV st i _ (fun _ => rfl) (fun _ => id)
theorem modL (st : St S) (i : Nat) (f : LavObj → LavObj) : Frame N st (st.modL i f) :=
  same rfl rfl
theorem setHead (st : St S) (i j : Nat) : Frame N st (st.setHead i j) := same rfl rfl
theorem newL (st : St S) (o : LavObj) : Frame N st (st.newL o).1 := same rfl rfl

theorem newV (st : St S) (v : Vtx S) (hN : N v.core) : Frame N st (st.newV v).1 where
  keep i w hw := by
    refine ⟨w, ?_, rfl, id⟩
    have := List.getElem?_eq_some_iff.1 hw
    obtain ⟨hi, _⟩ := this
    simp [St.newV, List.getElem?_append_left hi, hw]
  fresh i w hw hn := by
    have hi := List.getElem?_eq_none_iff.1 hn
    simp only [St.newV] at hw
    rw [List.getElem?_append_right hi] at hw
    have := List.mem_of_getElem? hw
    simp at this
    subst this
    exact hN
  orig := rfl

end Frame

/-! ### the operations on LAVs -/

theorem foldl_setLav_frame {N : Core S → Prop} (l : Option Nat) (vs : List Nat) (st : St S) :
    Frame N st (vs.foldl (fun st v => st.setLav v l) st) := by
  induction vs generalizing st with
  | nil => exact .refl _
  | cons v vs ih => exact (Frame.setLav st v l).trans (ih _)

theorem fromChain_frame {N : Core S → Prop} {st st' : St S} {h l : Nat}
    (hr : fromChain st h = .ok (st', l)) : Frame N st st' := by
  unfold fromChain at hr
  simp only at hr
  split at hr
  · rename_i vs hi
    simp only [Except.ok.injEq, Prod.mk.injEq] at hr
    obtain ⟨rfl, rfl⟩ := hr
    exact ((Frame.newL st _).trans (foldl_setLav_frame _ vs _)).trans (Frame.modL _ _ _)
  · cases hr

theorem invalidate_frame {N : Core S → Prop} {st st' : St S} {i : Nat}
    (hr : invalidate st i = .ok st') : Frame N st st' := by
  unfold invalidate at hr
  obtain ⟨v, hv, hr⟩ := bind_ok.1 hr
  have hf : Frame N st (st.modV i (fun v => { v with valid := false })) :=
    Frame.modV st i _ (fun _ => rfl) (fun _ h => by simp at h)
  split at hr
  · simp only [pure_ok, Except.ok.injEq] at hr; subst hr; exact hf
  · obtain ⟨o, ho, hr⟩ := bind_ok.1 hr
    simp only [pure_ok, Except.ok.injEq] at hr
    subst hr
    refine hf.trans ?_
    split
    · exact (Frame.setHead _ _ _).trans (Frame.setLav _ _ _)
    · exact Frame.setLav _ _ _

theorem invalidateAll_frame {N : Core S → Prop} {st st' : St S} {vs : List Nat}
    (hr : invalidateAll st vs = .ok st') : Frame N st st' := by
  induction vs generalizing st with
  | nil => cases hr; exact .refl _
  | cons v vs ih =>
    unfold invalidateAll at hr
    obtain ⟨s, hs, hr⟩ := bind_ok.1 hr
    exact (invalidate_frame hs).trans (ih hr)

theorem removeLav_frame {N : Core S → Prop} {st st' : St S} {l : Option Nat}
    (hr : removeLav st l = .ok st') : Frame N st st' := by
  unfold removeLav at hr
  split at hr
  · cases hr
  · obtain ⟨s, hs, hr⟩ := bind_ok.1 hr
    simp only [pure_ok, Except.ok.injEq] at hr
    subst hr
    exact .same rfl rfl

/-- the vertex an edge event creates -/
def unifyCore (va vb : Vtx S) (p : V2 S) : Core S :=
  (mkVtx 0 p va.edgePrev vb.edgeNext
    (some (V2.normalized vb.bisector.v, V2.normalized va.bisector.v)) false).core

theorem mkVtx_core (i j : Nat) (p : V2 S) (e e' : Edge2 S) (d : Option (V2 S × V2 S)) (f : Bool) :
    (mkVtx i p e e' d f).core = (mkVtx j p e e' d f).core := rfl

theorem unify_frame {N : Core S → Prop} {st st' : St S} {l a b r : Nat} {p : V2 S}
    (hr : unify st l a b p = .ok (st', r))
    (hN : ∀ va vb, st.vs[a]? = some va → st.vs[b]? = some vb → N (unifyCore va vb p)) :
    Frame N st st' := by
  unfold unify at hr
  obtain ⟨va, hva, hr⟩ := bind_ok.1 hr
  obtain ⟨vb, hvb, hr⟩ := bind_ok.1 hr
  simp only at hr
  obtain ⟨o, ho, hr⟩ := bind_ok.1 hr
  have h0 := Frame.newV (N := N) st (mkVtx st.vs.length p va.edgePrev vb.edgeNext
      (some (V2.normalized vb.bisector.v, V2.normalized va.bisector.v)) false)
      (hN va vb (getV_ok.1 hva) (getV_ok.1 hvb))
  obtain ⟨va', hva', hr⟩ := bind_ok.1 hr
  obtain ⟨vb', hvb', hr⟩ := bind_ok.1 hr
  obtain ⟨va'', hva'', hr⟩ := bind_ok.1 hr
  obtain ⟨vb'', hvb'', hr⟩ := bind_ok.1 hr
  obtain ⟨s1, hs1, hr⟩ := bind_ok.1 hr
  obtain ⟨s2, hs2, hr⟩ := bind_ok.1 hr
  simp only [pure_ok, Except.ok.injEq, Prod.mk.injEq] at hr
  obtain ⟨rfl, -⟩ := hr
  refine Frame.trans ?_ (Frame.modL _ _ _)
  refine Frame.trans ?_ (invalidate_frame hs2)
  refine Frame.trans ?_ (invalidate_frame hs1)
  refine Frame.trans ?_ (Frame.setNext _ _ _)
  refine Frame.trans ?_ (Frame.setPrev _ _ _)
  refine Frame.trans ?_ (Frame.setPrev _ _ _)
  refine Frame.trans ?_ (Frame.setNext _ _ _)
  refine h0.trans (Frame.trans (Frame.setLav _ st.vs.length (some l)) ?_)
  split
  · exact Frame.setHead _ _ _
  · exact .refl _

theorem handleEdge_frame {N : Core S → Prop} {st st' : St S} {ev : EdgeEv S}
    {arcs : List (Subtree S)} {es : List (Event S)}
    (hr : handleEdge st ev = .ok (st', arcs, es))
    (hN : ∀ va vb, st.vs[ev.a]? = some va → st.vs[ev.b]? = some vb → va.prev ≠ vb.next →
      N (unifyCore va vb ev.pt)) :
    Frame N st st' := by
  unfold handleEdge at hr
  obtain ⟨va, hva, hr⟩ := bind_ok.1 hr
  obtain ⟨vb, hvb, hr⟩ := bind_ok.1 hr
  by_cases hp : va.prev = vb.next
  · rw [if_pos hp] at hr
    obtain ⟨s, hs, hr⟩ := bind_ok.1 hr
    split at hr
    · cases hr
    · obtain ⟨vs, hvs, hr⟩ := bind_ok.1 hr
      obtain ⟨sinks, hsi, hr⟩ := bind_ok.1 hr
      obtain ⟨s2, hs2, hr⟩ := bind_ok.1 hr
      simp only [pure_ok, Except.ok.injEq, Prod.mk.injEq] at hr
      obtain ⟨rfl, -⟩ := hr
      exact (removeLav_frame hs).trans (invalidateAll_frame hs2)
  · rw [if_neg hp] at hr
    split at hr
    · cases hr
    · obtain ⟨⟨s, r⟩, hs, hr⟩ := bind_ok.1 hr
      obtain ⟨o, ho, hr⟩ := bind_ok.1 hr
      obtain ⟨ne, hne, hr⟩ := bind_ok.1 hr
      simp only [pure_ok, Except.ok.injEq, Prod.mk.injEq] at hr
      obtain ⟨rfl, -⟩ := hr
      have h1 := unify_frame (N := N) hs (fun wa wb h1 h2 => by
        rw [getV_ok.1 hva] at h1; rw [getV_ok.1 hvb] at h2; cases h1; cases h2
        exact hN _ _ (getV_ok.1 hva) (getV_ok.1 hvb) hp)
      refine h1.trans ?_
      split
      · exact Frame.setHead _ _ _
      · exact .refl _

theorem keepOrCollapse_frame {N : Core S → Prop} {st st' : St S} {sinks sinks' : List (V2 S)}
    {heads heads' ls : List Nat}
    (hr : keepOrCollapse st sinks heads ls = .ok (st', sinks', heads')) : Frame N st st' := by
  induction ls generalizing st sinks heads with
  | nil => cases hr; exact .refl _
  | cons l ls ih =>
    unfold keepOrCollapse at hr
    obtain ⟨o, ho, hr⟩ := bind_ok.1 hr
    split at hr
    · exact Frame.trans (b := { st with slav := st.slav ++ [l] }) (.same rfl rfl) (ih hr)
    · obtain ⟨h, hh, hr⟩ := bind_ok.1 hr
      obtain ⟨n, hn, hr⟩ := bind_ok.1 hr
      obtain ⟨vs, hvs, hr⟩ := bind_ok.1 hr
      obtain ⟨s, hs, hr⟩ := bind_ok.1 hr
      exact (invalidateAll_frame hs).trans (ih hr)

/-- the two vertices a split event creates -/
def splitCore (v : Vtx S) (ev : SplitEv S) (first : Bool) : Core S :=
  if first then (mkVtx 0 ev.pt v.edgePrev ev.opp none true).core
  else (mkVtx 0 ev.pt ev.opp v.edgeNext none true).core

theorem splitLink_frame {N : Core S → Prop} {st st' : St S} {ev : SplitEv S} {v : Vtx S}
    {x y v1 v2 : Nat} (hr : splitLink st ev v x y = .ok (st', v1, v2))
    (hN : ∀ b, N (splitCore v ev b)) : Frame N st st' := by
  unfold splitLink at hr
  obtain ⟨v', hv', hr⟩ := bind_ok.1 hr
  simp only [pure_ok, Except.ok.injEq, Prod.mk.injEq] at hr
  obtain ⟨rfl, -⟩ := hr
  refine Frame.trans ?_ (Frame.setNext _ _ _)
  refine Frame.trans ?_ (Frame.setPrev _ _ _)
  refine Frame.trans ?_ (Frame.setNext _ _ _)
  refine Frame.trans ?_ (Frame.setPrev _ _ _)
  refine Frame.trans ?_ (Frame.setPrev _ _ _)
  refine Frame.trans ?_ (Frame.setNext _ _ _)
  refine Frame.trans ?_ (Frame.setNext _ _ _)
  refine Frame.trans ?_ (Frame.setPrev _ _ _)
  refine Frame.trans (Frame.newV _ _ ?_) (Frame.newV _ _ ?_)
  · exact hN true
  · exact hN false

theorem splitLavs_frame {N : Core S → Prop} {st st' : St S} {lav : Option Nat}
    {x v1 v2 : Nat} {nl : List Nat} (hr : splitLavs st lav x v1 v2 = .ok (st', nl)) :
    Frame N st st' := by
  unfold splitLavs at hr
  obtain ⟨s1, hs1, hr⟩ := bind_ok.1 hr
  obtain ⟨vx, hvx, hr⟩ := bind_ok.1 hr
  refine (removeLav_frame hs1).trans ?_
  split at hr
  · obtain ⟨t1, ht1, hr⟩ := bind_ok.1 hr
    obtain ⟨⟨t2, l1⟩, ht2, hr⟩ := bind_ok.1 hr
    simp only [pure_ok, Except.ok.injEq, Prod.mk.injEq] at hr
    obtain ⟨rfl, -⟩ := hr
    exact (removeLav_frame ht1).trans (fromChain_frame ht2)
  · obtain ⟨⟨t1, l1⟩, ht1, hr⟩ := bind_ok.1 hr
    obtain ⟨⟨t2, l2⟩, ht2, hr⟩ := bind_ok.1 hr
    simp only [pure_ok, Except.ok.injEq, Prod.mk.injEq] at hr
    obtain ⟨rfl, -⟩ := hr
    exact (fromChain_frame ht1).trans (fromChain_frame ht2)

theorem splitAt_cases {st st' : St S} {ev : SplitEv S} {x y : Nat}
    {arcs : List (Subtree S)} {es : List (Event S)}
    (hr : splitAt st ev x y = .ok (st', arcs, es)) :
    ∃ v s1 v1 v2 s2 nl s3 sinks heads, st.vs[ev.vertex]? = some v ∧
      splitLink st ev v x y = .ok (s1, v1, v2) ∧
      splitLavs s1 v.lav x v1 v2 = .ok (s2, nl) ∧
      keepOrCollapse s2 [v.point] [] nl = .ok (s3, sinks, heads) ∧
      nextEvents s3 heads = .ok es ∧ invalidate s3 ev.vertex = .ok st' ∧
      arcs = [{ source := ev.pt, height := ev.dist, sinks }] := by
  unfold splitAt at hr
  obtain ⟨v, hv, hr⟩ := bind_ok.1 hr
  obtain ⟨⟨s1, v1, v2⟩, h1, hr⟩ := bind_ok.1 hr
  obtain ⟨⟨s2, nl⟩, h2, hr⟩ := bind_ok.1 hr
  obtain ⟨⟨s3, sinks, heads⟩, h3, hr⟩ := bind_ok.1 hr
  obtain ⟨evs, h4, hr⟩ := bind_ok.1 hr
  obtain ⟨s4, h5, hr⟩ := bind_ok.1 hr
  simp only [pure_ok, Except.ok.injEq, Prod.mk.injEq] at hr
  obtain ⟨rfl, rfl, rfl⟩ := hr
  exact ⟨v, s1, v1, v2, s2, nl, s3, sinks, heads, getV_ok.1 hv, h1, h2, h3, h4, h5, rfl⟩

theorem splitAt_frame {N : Core S → Prop} {st st' : St S} {ev : SplitEv S} {x y : Nat}
    {arcs : List (Subtree S)} {es : List (Event S)}
    (hr : splitAt st ev x y = .ok (st', arcs, es))
    (hN : ∀ v, st.vs[ev.vertex]? = some v → ∀ b, N (splitCore v ev b)) : Frame N st st' := by
  obtain ⟨v, s1, v1, v2, s2, nl, s3, sinks, heads, hv, h1, h2, h3, h4, h5, -⟩ :=
    splitAt_cases hr
  exact (((splitLink_frame h1 (hN v hv)).trans (splitLavs_frame h2)).trans
    (keepOrCollapse_frame h3)).trans (invalidate_frame h5)

theorem handleSplit_frame {N : Core S → Prop} {st st' : St S} {ev : SplitEv S}
    {arcs : List (Subtree S)} {es : List (Event S)}
    (hr : handleSplit st ev = .ok (st', arcs, es))
    (hN : ∀ v, st.vs[ev.vertex]? = some v → ∀ b, N (splitCore v ev b)) : Frame N st st' := by
  unfold handleSplit at hr
  obtain ⟨r, hs, hr⟩ := bind_ok.1 hr
  cases r with
  | none =>
    simp only [pure_ok, Except.ok.injEq, Prod.mk.injEq] at hr
    obtain ⟨rfl, -⟩ := hr
    exact .refl _
  | some xy => exact splitAt_frame hr hN

theorem handleDormer_frame {N : Core S → Prop} {st st' : St S} {e0 e1 : SplitEv S}
    {e2 : EdgeEv S} {arcs : List (Subtree S)} {es : List (Event S)}
    (hr : handleDormer st e0 e1 e2 = .ok (st', arcs, es)) : Frame N st st' := by
  unfold handleDormer at hr
  obtain ⟨vp, hvp, hr⟩ := bind_ok.1 hr
  split at hr
  · simp only [pure_ok, Except.ok.injEq, Prod.mk.injEq] at hr
    obtain ⟨rfl, -⟩ := hr
    exact .refl _
  · rename_i l hl
    obtain ⟨vn, hvn, hr⟩ := bind_ok.1 hr
    obtain ⟨vn', hvn', hr⟩ := bind_ok.1 hr
    obtain ⟨vp', hvp', hr⟩ := bind_ok.1 hr
    obtain ⟨o, ho, hr⟩ := bind_ok.1 hr
    obtain ⟨⟨s1, nl⟩, hs1, hr⟩ := bind_ok.1 hr
    obtain ⟨s2, hs2, hr⟩ := bind_ok.1 hr
    split at hr
    · cases hr
    · obtain ⟨pa, hpa, hr⟩ := bind_ok.1 hr
      obtain ⟨pb, hpb, hr⟩ := bind_ok.1 hr
      obtain ⟨s3, hs3, hr⟩ := bind_ok.1 hr
      simp only [pure_ok, Except.ok.injEq, Prod.mk.injEq] at hr
      obtain ⟨rfl, -⟩ := hr
      refine Frame.trans ?_ (invalidateAll_frame hs3)
      refine Frame.trans (b := s2) ?_ (.same rfl rfl)
      refine Frame.trans ?_ (removeLav_frame hs2)
      refine Frame.trans ?_ (fromChain_frame hs1)
      refine Frame.trans ?_ (Frame.setPrev _ _ _)
      refine Frame.trans ?_ (Frame.setNext _ _ _)
      exact Frame.setHead _ _ _

/-! ### one event, a batch, the main loop -/

/-- What handling one event amounts to, when it is not skipped. -/
theorem handleEvent_cases {st st' : St S} {ev : Event S} {arcs : List (Subtree S)}
    {es : List (Event S)} (hr : handleEvent st ev = .ok (some (st', arcs, es))) :
    (∃ e va vb, ev = .edge e ∧ st.vs[e.a]? = some va ∧ st.vs[e.b]? = some vb ∧
      va.valid = true ∧ vb.valid = true ∧ handleEdge st e = .ok (st', arcs, es)) ∨
    (∃ e v, ev = .split e ∧ st.vs[e.vertex]? = some v ∧ v.valid = true ∧
      handleSplit st e = .ok (st', arcs, es)) ∨
    (∃ d p e0 e1 e2 v0 v1, ev = .dormer d p e0 e1 e2 ∧ st.vs[e0.vertex]? = some v0 ∧
      st.vs[e1.vertex]? = some v1 ∧ v0.valid = true ∧ v1.valid = true ∧
      handleDormer st e0 e1 e2 = .ok (st', arcs, es)) := by
  unfold handleEvent at hr
  split at hr
  · rename_i e
    obtain ⟨va, hva, hr⟩ := bind_ok.1 hr
    obtain ⟨vb, hvb, hr⟩ := bind_ok.1 hr
    by_cases hc : va.valid = true ∧ vb.valid = true
    · have : (!va.valid || !vb.valid) = false := by simp [hc.1, hc.2]
      rw [this] at hr
      obtain ⟨o, ho, hr⟩ := bind_ok.1 hr
      simp only [pure_ok, Except.ok.injEq, Option.some.injEq] at hr
      subst hr
      exact Or.inl ⟨e, va, vb, rfl, getV_ok.1 hva, getV_ok.1 hvb, hc.1, hc.2, ho⟩
    · have : (!va.valid || !vb.valid) = true := by
        cases h1 : va.valid <;> cases h2 : vb.valid <;> simp_all
      rw [this] at hr
      simp at hr
  · rename_i e
    obtain ⟨v, hv, hr⟩ := bind_ok.1 hr
    cases hc : v.valid with
    | false => rw [hc] at hr; simp at hr
    | true =>
      rw [hc] at hr
      obtain ⟨o, ho, hr⟩ := bind_ok.1 hr
      simp only [pure_ok, Except.ok.injEq, Option.some.injEq] at hr
      subst hr
      exact Or.inr (Or.inl ⟨e, v, rfl, getV_ok.1 hv, hc, ho⟩)
  · rename_i d p e0 e1 e2
    obtain ⟨va, hva, hr⟩ := bind_ok.1 hr
    obtain ⟨vb, hvb, hr⟩ := bind_ok.1 hr
    by_cases hc : va.valid = true ∧ vb.valid = true
    · have : (!va.valid || !vb.valid) = false := by simp [hc.1, hc.2]
      rw [this] at hr
      obtain ⟨o, ho, hr⟩ := bind_ok.1 hr
      simp only [pure_ok, Except.ok.injEq, Option.some.injEq] at hr
      subst hr
      exact Or.inr (Or.inr ⟨d, p, e0, e1, e2, va, vb, rfl, getV_ok.1 hva, getV_ok.1 hvb, hc.1,
        hc.2, ho⟩)
    · have : (!va.valid || !vb.valid) = true := by
        cases h1 : va.valid <;> cases h2 : vb.valid <;> simp_all
      rw [this] at hr
      simp at hr

theorem handleEvent_frame {st st' : St S} {ev : Event S} {arcs : List (Subtree S)}
    {es : List (Event S)} (hr : handleEvent st ev = .ok (some (st', arcs, es))) :
    Frame (fun _ => True) st st' := by
  rcases handleEvent_cases hr with ⟨e, va, vb, -, -, -, -, -, h⟩ | ⟨e, v, -, -, -, h⟩ |
    ⟨d, p, e0, e1, e2, v0, v1, -, -, -, -, -, h⟩
  · exact handleEdge_frame h (fun _ _ _ _ _ => trivial)
  · exact handleSplit_frame h (fun _ _ _ => trivial)
  · exact handleDormer_frame h

/-- A property of heap, output and pending events that survives forgetting events and handling
one of them. -/
structure RunInv (I : St S → List (Subtree S) → List (Event S) → Prop) : Prop where
  mono : ∀ st out evs evs', (∀ e ∈ evs', e ∈ evs) → I st out evs → I st out evs'
  step : ∀ st out evs ev st' arcs es, I st out evs → ev ∈ evs →
    handleEvent st ev = .ok (some (st', arcs, es)) → I st' (out ++ arcs) (evs ++ es)

theorem RunInv.stepBatch {I : St S → List (Subtree S) → List (Event S) → Prop} (hI : RunInv I)
    {lp lp' : Loop S} {batch : List (Event S)} (hr : stepBatch lp batch = .ok lp')
    (h : I lp.st lp.out (batch ++ lp.queue)) : I lp'.st lp'.out lp'.queue := by
  induction batch generalizing lp with
  | nil => cases hr; exact h
  | cons e es ih =>
    unfold Polyskel.stepBatch at hr
    obtain ⟨lp1, h1, hr⟩ := bind_ok.1 hr
    unfold stepEvent at h1
    obtain ⟨r, hr1, h1⟩ := bind_ok.1 h1
    cases r with
    | none =>
      simp only [pure_ok, Except.ok.injEq] at h1
      subst h1
      exact ih hr (hI.mono _ _ _ _ (fun x hx => by simpa using Or.inr (by simpa using hx)) h)
    | some r =>
      obtain ⟨st', arcs, evs⟩ := r
      simp only [pure_ok, Except.ok.injEq] at h1
      subst h1
      refine ih hr ?_
      have h2 := hI.step _ _ _ e _ _ _ h (by simp) hr1
      refine hI.mono _ _ _ _ (fun x hx => ?_) h2
      simp only [List.mem_append, (C08_putAll_perm lp.queue evs).mem_iff] at hx
      simp only [List.mem_append, List.mem_cons]
      tauto

theorem RunInv.mainLoop {I : St S → List (Subtree S) → List (Event S) → Prop} (hI : RunInv I)
    {k : Nat} {lp lp' : Loop S} (hr : mainLoop k lp = some (.ok lp'))
    (h : I lp.st lp.out lp.queue) : I lp'.st lp'.out lp'.queue := by
  induction k generalizing lp with
  | zero =>
    unfold Polyskel.mainLoop at hr
    split at hr
    · cases hr; exact h
    · cases hr
  | succ k ih =>
    unfold Polyskel.mainLoop at hr
    split at hr
    · cases hr; exact h
    · have hp := C09_getAllEqualDistance_perm lp.queue
      split at hr
      · cases hr
      · rename_i batch q hg
        split at hr
        · cases hr
        · rename_i lp1 hb
          refine ih hr (hI.stepBatch hb ?_)
          refine hI.mono _ _ _ _ (fun x hx => ?_) h
          rw [hg] at hp
          exact (hp.2 _ _ rfl).1.mem_iff.1 hx

/-! ### the initial wavefront -/

theorem addVertexToLav_frame {N : Core S → Prop} {l : Nat} {st st' : St S} {first : Bool}
    {p n : Edge2 S} (hr : addVertexToLav l st first p n = .ok st')
    (hN : N (mkVtx 0 n.p1 p n none false).core) : Frame N st st' := by
  unfold addVertexToLav at hr
  simp only at hr
  have h0 : Frame N st (((st.modL l (fun o => { o with len := o.len + 1 })).newV
      (mkVtx (st.modL l (fun o => { o with len := o.len + 1 })).vs.length n.p1 p n none
        false)).1.setLav (st.modL l (fun o => { o with len := o.len + 1 })).vs.length (some l)) :=
    Frame.trans (Frame.trans (Frame.modL _ _ _) (Frame.newV _ _ (by exact hN)))
      (Frame.setLav _ _ _)
  split at hr
  · simp only [pure_ok, Except.ok.injEq] at hr
    subst hr
    exact h0.trans (((Frame.setHead _ _ _).trans (Frame.setPrev _ _ _)).trans
      (Frame.setNext _ _ _))
  · obtain ⟨o, ho, hr⟩ := bind_ok.1 hr
    obtain ⟨hd, hh, hr⟩ := bind_ok.1 hr
    simp only [pure_ok, Except.ok.injEq] at hr
    subst hr
    exact h0.trans ((((Frame.setNext _ _ _).trans (Frame.setPrev _ _ _)).trans
      (Frame.setNext _ _ _)).trans (Frame.setPrev _ _ _))

theorem fromPolygonLoop_frame {N : Core S → Prop} {l : Nat} {ps : List (Edge2 S × Edge2 S)}
    {st st' : St S} {first : Bool} (hr : fromPolygonLoop l st first ps = .ok st')
    (hN : ∀ e ∈ ps, N (mkVtx 0 e.2.p1 e.1 e.2 none false).core) : Frame N st st' := by
  induction ps generalizing st first with
  | nil => cases hr; exact .refl _
  | cons e ps ih =>
    unfold fromPolygonLoop at hr
    obtain ⟨s, hs, hr⟩ := bind_ok.1 hr
    exact (addVertexToLav_frame hs (hN e (by simp))).trans
      (ih hr (fun e' he' => hN e' (List.mem_cons_of_mem _ he')))

/-- the pairs of consecutive edges of a contour, last with first -/
def cornerPairs {α : Type} (c : List α) : List (α × α) :=
  (c.drop (c.length - 1) ++ c.take (c.length - 1)).zip c

theorem iterPrevNext_ok {α : Type} {c : List α} {ps : List (α × α)}
    (h : iterPrevNext c = .ok ps) : c ≠ [] ∧ ps = cornerPairs c := by
  unfold iterPrevNext at h
  split at h
  · cases h
  · rename_i hc
    simp only [Except.ok.injEq] at h
    exact ⟨by rintro rfl; simp at hc, h.symm⟩

theorem fromPolygon_frame {N : Core S → Prop} {c : List (Edge2 S)} {st st' : St S} {l : Nat}
    (hr : fromPolygon st c = .ok (st', l))
    (hN : ∀ e ∈ cornerPairs c, N (mkVtx 0 e.2.p1 e.1 e.2 none false).core) :
    Frame N st st' := by
  unfold fromPolygon at hr
  obtain ⟨ps, hps, hr⟩ := bind_ok.1 hr
  obtain ⟨s, hs, hr⟩ := bind_ok.1 hr
  simp only [pure_ok, Except.ok.injEq, Prod.mk.injEq] at hr
  obtain ⟨rfl, -⟩ := hr
  rw [(iterPrevNext_ok hps).2] at hs
  exact (Frame.newL st _).trans (fromPolygonLoop_frame hs hN)

theorem fromContours_frame {N : Core S → Prop} {cs : List (List (Edge2 S))} {st st' : St S}
    (hr : fromContours st cs = .ok st')
    (hN : ∀ c ∈ cs, ∀ e ∈ cornerPairs c, N (mkVtx 0 e.2.p1 e.1 e.2 none false).core) :
    Frame N st st' := by
  induction cs generalizing st with
  | nil => cases hr; exact .refl _
  | cons c cs ih =>
    unfold fromContours at hr
    obtain ⟨⟨s, l⟩, hs, hr⟩ := bind_ok.1 hr
    have h1 := fromPolygon_frame hs (hN c (by simp))
    have h2 := ih hr (fun c' hc' => hN c' (List.mem_cons_of_mem _ hc'))
    exact h1.trans (Frame.trans (b := { s with slav := s.slav ++ [l] }) (.same rfl rfl) h2)

/-- Every vertex of the initial wavefront is a corner of a contour. -/
theorem mkSlav_vertices {cs : List (List (Edge2 S))} {st : St S} (hr : mkSlav cs = .ok st)
    {i : Nat} {v : Vtx S} (hv : st.vs[i]? = some v) :
    ∃ c ∈ cs, ∃ e ∈ cornerPairs c, v.core = (mkVtx 0 e.2.p1 e.1 e.2 none false).core := by
  unfold mkSlav at hr
  obtain ⟨s, hs, hr⟩ := bind_ok.1 hr
  obtain ⟨ids, hids, hr⟩ := bind_ok.1 hr
  obtain ⟨oes, hoes, hr⟩ := bind_ok.1 hr
  simp only [pure_ok, Except.ok.injEq] at hr
  subst hr
  exact (fromContours_frame (N := fun co => ∃ c ∈ cs, ∃ e ∈ cornerPairs c,
    co = (mkVtx 0 e.2.p1 e.1 e.2 none false).core) hs
    (fun c hc e he => ⟨c, hc, e, he, rfl⟩)).fresh i v hv (by simp)

theorem startLoop_ok {cs : List (List (Edge2 S))} {lp : Loop S} (hr : startLoop cs = .ok lp) :
    mkSlav cs = .ok lp.st ∧ lp.out = [] ∧ ∃ dormers init init', detectDormers cs = .ok dormers ∧
      initialEvents lp.st = .ok init ∧
      (if dormers.isEmpty then .ok init else processDormers lp.st dormers init) = .ok init' ∧
      lp.queue = putAll [] (init'.filterMap id) := by
  unfold startLoop at hr
  obtain ⟨s, hs, hr⟩ := bind_ok.1 hr
  obtain ⟨ds, hds, hr⟩ := bind_ok.1 hr
  obtain ⟨init, hinit, hr⟩ := bind_ok.1 hr
  have : ∃ init', (if ds.isEmpty then .ok init else processDormers s ds init) = .ok init' ∧
      lp = { st := s, queue := putAll [] (init'.filterMap id), out := [] } := by
    split at hr
    · simp only [ok_bind, pure_ok, Except.ok.injEq] at hr
      exact ⟨init, by simp_all, hr.symm⟩
    · obtain ⟨i', hi', hr⟩ := bind_ok.1 hr
      simp only [pure_ok, Except.ok.injEq] at hr
      exact ⟨i', by simp_all, hr.symm⟩
  obtain ⟨i', hi', rfl⟩ := this
  exact ⟨hs, rfl, ds, init, i', hds, hinit, hi', rfl⟩

theorem skeletonize_ok {fuel : Nat} {cs : List (List (Edge2 S))} {sk : List (Subtree S)}
    (hr : skeletonize fuel cs = some (.ok sk)) :
    ∃ lp lp', startLoop cs = .ok lp ∧ mainLoop fuel lp = some (.ok lp') ∧
      finish cs lp'.out = .ok sk := by
  unfold skeletonize at hr
  split at hr
  · simp at hr
  · rename_i lp hlp
    split at hr
    · cases hr
    · simp at hr
    · rename_i lp' hlp'
      simp only [Option.some.injEq] at hr
      exact ⟨lp, lp', hlp, hlp', hr⟩

end Polyskel
