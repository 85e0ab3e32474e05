import Mathlib.Algebra.BigOperators.Group.Finset.Basic
import Mathlib.Algebra.Order.BigOperators.Group.Finset
import Mathlib.Algebra.BigOperators.Group.Finset.Piecewise
import Verif.Proofs.Moments
/-
A number that bounds the events still to come: every valid vertex counts 1, every valid reflex
vertex 2 more.
-/
namespace Polyskel
open Scalar HeapQ
set_option linter.unusedSectionVars false
variable {S : Type} [Scalar S]

/-- the weight of a vertex -/
def Vtx.wt (v : Vtx S) : Nat := if v.valid then (if v.reflex then 3 else 1) else 0

/-- the weight of vertex number `i` -/
def St.wtAt (st : St S) (i : Nat) : Nat := (st.vs[i]?.map Vtx.wt).getD 0

/-- the weight of all vertices -/
def St.pot (st : St S) : Nat := ∑ i ∈ Finset.range st.vs.length, st.wtAt i

theorem pot_newV (st : St S) (v : Vtx S) : (st.newV v).1.pot = st.pot + v.wt := by
  unfold St.pot
  rw [St.len_newV, Finset.sum_range_succ]
  congr 1
  · refine Finset.sum_congr rfl (fun i hi => ?_)
    rw [Finset.mem_range] at hi
    simp [St.wtAt, St.newV, List.getElem?_append_left hi]
  · simp [St.wtAt, St.newV]

theorem Vtx.wt_le {v v' : Vtx S} (h : v'.core = v.core) (hv : v'.valid = true → v.valid = true) :
    v'.wt ≤ v.wt := by
  have hr : v'.reflex = v.reflex := congrArg Core.reflex h
  unfold Vtx.wt
  rw [hr]
  cases h1 : v'.valid
  · simp
  · rw [hv h1]

theorem Frame.len {st st' : St S} (h : Frame (fun _ => False) st st') :
    st'.vs.length = st.vs.length := by
  apply Nat.le_antisymm
  · rcases Nat.lt_or_ge st.vs.length st'.vs.length with hl | hl
    · exact (h.fresh _ _ (List.getElem?_eq_getElem hl) (List.getElem?_eq_none (le_refl _))).elim
    · exact hl
  · rcases Nat.lt_or_ge st'.vs.length st.vs.length with hl | hl
    · obtain ⟨v', hv', -⟩ := h.keep _ _ (List.getElem?_eq_getElem hl)
      rw [List.getElem?_eq_none (le_refl _)] at hv'
      cases hv'
    · exact hl

theorem Frame.wtAt_le {st st' : St S} (h : Frame (fun _ => False) st st') (i : Nat) :
    st'.wtAt i ≤ st.wtAt i := by
  unfold St.wtAt
  cases hi : st.vs[i]? with
  | none =>
    have : st'.vs[i]? = none := by
      rw [List.getElem?_eq_none_iff] at hi ⊢
      rw [h.len]; exact hi
    simp [this]
  | some v =>
    obtain ⟨v', hv', hc, hm⟩ := h.keep i v hi
    simp only [hv', Option.map_some, Option.getD_some]
    exact Vtx.wt_le hc hm

/-- no new vertices, and two vertices have become invalid -/
theorem Frame.pot_two {st st' : St S} (h : Frame (fun _ => False) st st') {a b : Nat}
    (hab : a ≠ b) (ha : st'.wtAt a = 0) (hb : st'.wtAt b = 0) :
    st'.pot + st.wtAt a + st.wtAt b ≤ st.pot := by
  have key : ∀ c, (if c < st.vs.length then st.wtAt c else 0) = st.wtAt c := by
    intro c
    split
    · rfl
    · rename_i hc
      simp [St.wtAt, List.getElem?_eq_none (Nat.le_of_not_lt hc)]
  have e1 : ∀ c, ∑ i ∈ Finset.range st.vs.length, (if i = c then st.wtAt c else 0) = st.wtAt c := by
    intro c
    rw [Finset.sum_ite_eq' (Finset.range st.vs.length) c (fun _ => st.wtAt c)]
    simpa using key c
  have : st'.pot + st.wtAt a + st.wtAt b = ∑ i ∈ Finset.range st.vs.length,
      (st'.wtAt i + (if i = a then st.wtAt a else 0) + (if i = b then st.wtAt b else 0)) := by
    rw [Finset.sum_add_distrib, Finset.sum_add_distrib, e1, e1]
    unfold St.pot
    rw [h.len]
  rw [this]
  refine Finset.sum_le_sum (fun i _ => ?_)
  by_cases hia : i = a
  · subst hia
    rw [ha, if_pos rfl, if_neg hab]; omega
  · by_cases hib : i = b
    · subst hib
      rw [hb, if_pos rfl, if_neg hia]; omega
    · rw [if_neg hia, if_neg hib]
      exact h.wtAt_le i

theorem Frame.pot_one {st st' : St S} (h : Frame (fun _ => False) st st') {a : Nat}
    (ha : st'.wtAt a = 0) : st'.pot + st.wtAt a ≤ st.pot := by
  have hn : st'.wtAt (max st.vs.length (a + 1)) = 0 := by
    have h1 := h.wtAt_le (max st.vs.length (a + 1))
    have : st.wtAt (max st.vs.length (a + 1)) = 0 := by
      simp [St.wtAt, List.getElem?_eq_none (Nat.le_max_left st.vs.length (a + 1))]
    omega
  have := h.pot_two (by omega) ha hn
  omega

theorem Frame.pot_le {st st' : St S} (h : Frame (fun _ => False) st st') : st'.pot ≤ st.pot := by
  have hn : st.wtAt st.vs.length = 0 := by
    simp [St.wtAt, List.getElem?_eq_none (le_refl _)]
  have hn' : st'.wtAt st.vs.length = 0 := by have := h.wtAt_le st.vs.length; omega
  have := h.pot_one hn'
  omega

theorem invalidate_wt {st st' : St S} {i : Nat} (hr : invalidate st i = .ok st') :
    st'.wtAt i = 0 := by
  have key : ∀ s : St S, (s.modV i (fun v => { v with valid := false })).wtAt i = 0 := by
    intro s
    unfold St.wtAt St.modV
    rw [List.getElem?_modify]
    cases s.vs[i]? <;> simp [Vtx.wt]
  have key' : ∀ (s : St S) l, (s.setLav i l).wtAt i = s.wtAt i := by
    intro s l
    unfold St.wtAt St.setLav St.modV
    rw [List.getElem?_modify]
    cases s.vs[i]? <;> simp [Vtx.wt]
  unfold invalidate at hr
  obtain ⟨v, hv, hr⟩ := bind_ok.1 hr
  split at hr
  · simp only [pure_ok, Except.ok.injEq] at hr; subst hr; exact key st
  · obtain ⟨o, ho, hr⟩ := bind_ok.1 hr
    simp only [pure_ok, Except.ok.injEq] at hr
    subst hr
    rw [key']
    split
    · exact key st
    · exact key st

/-- the weights after `unify` -/
theorem unify_pot {st st' : St S} {l a b r : Nat} {p : V2 S} {va vb : Vtx S}
    (hr : unify st l a b p = .ok (st', r)) (hva : st.vs[a]? = some va) (hvb : st.vs[b]? = some vb) :
    (a ≠ b → st'.pot + va.wt + vb.wt ≤ st.pot + if (unifyCore va vb p).reflex then 3 else 1) ∧
    st'.pot + va.wt ≤ st.pot + 3 := by
  unfold unify at hr
  obtain ⟨va', hva', hr⟩ := bind_ok.1 hr
  obtain ⟨vb', hvb', hr⟩ := bind_ok.1 hr
  rw [getV_ok, hva] at hva'
  rw [getV_ok, hvb] at hvb'
  simp only [Option.some.injEq] at hva' hvb'
  subst hva' hvb'
  simp only at hr
  generalize hs0 : (st.newV (mkVtx st.vs.length p va.edgePrev vb.edgeNext
      (some (V2.normalized vb.bisector.v, V2.normalized va.bisector.v)) false)).1 = s0 at hr
  obtain ⟨o, ho, hr⟩ := bind_ok.1 hr
  obtain ⟨va', hva', hr⟩ := bind_ok.1 hr
  obtain ⟨vb', hvb', hr⟩ := bind_ok.1 hr
  obtain ⟨va'', hva'', hr⟩ := bind_ok.1 hr
  obtain ⟨vb'', hvb'', hr⟩ := bind_ok.1 hr
  obtain ⟨s1, hs1, hr⟩ := bind_ok.1 hr
  obtain ⟨s2, hs2, hr⟩ := bind_ok.1 hr
  simp only [pure_ok, Except.ok.injEq, Prod.mk.injEq] at hr
  obtain ⟨hst', -⟩ := hr
  have hf : Frame (fun _ => False) s0 s2 := by
    refine Frame.trans ?_ (invalidate_frame hs2)
    refine Frame.trans ?_ (invalidate_frame hs1)
    refine Frame.trans ?_ (Frame.setNext _ _ _)
    refine Frame.trans ?_ (Frame.setPrev _ _ _)
    refine Frame.trans ?_ (Frame.setPrev _ _ _)
    refine Frame.trans ?_ (Frame.setNext _ _ _)
    refine Frame.trans (Frame.setLav _ st.vs.length (some l)) ?_
    split
    · exact Frame.setHead _ _ _
    · exact .refl _
  have hb0 : s2.wtAt b = 0 := invalidate_wt hs2
  have ha0 : s2.wtAt a = 0 := by
    have h1 : s1.wtAt a = 0 := invalidate_wt hs1
    have := (invalidate_frame (N := fun _ => False) hs2).wtAt_le a
    omega
  have hp0 : s0.pot = st.pot + if (unifyCore va vb p).reflex then 3 else 1 := by
    rw [← hs0, pot_newV]; rfl
  have hw : ∀ (i : Nat) v, st.vs[i]? = some v → s0.wtAt i = v.wt := by
    intro i v hv
    have hi := (List.getElem?_eq_some_iff.1 hv).1
    rw [← hs0]
    simp [St.wtAt, St.newV, List.getElem?_append_left hi, hv]
  have e : st'.pot = s2.pot := by rw [← hst']; rfl
  rw [e]
  constructor
  · intro hab
    have := hf.pot_two hab ha0 hb0
    rw [hw a va hva, hw b vb hvb, hp0] at this
    exact this
  · have := hf.pot_one ha0
    rw [hw a va hva, hp0] at this
    split at this <;> omega

theorem handleEdge_pot {st st' : St S} {ev : EdgeEv S} {arcs : List (Subtree S)}
    {es : List (Event S)} {va vb : Vtx S} (hr : handleEdge st ev = .ok (st', arcs, es))
    (hva : st.vs[ev.a]? = some va) (hvb : st.vs[ev.b]? = some vb) (ha : va.valid = true)
    (hb : vb.valid = true) :
    es.length ≤ 1 ∧ es.length + 2 * st'.pot ≤ 2 * st.pot + 5 ∧
    (¬(va.prev ≠ vb.next ∧ (ev.a = ev.b ∨ (va.reflex = false ∧ vb.reflex = false ∧
        (unifyCore va vb ev.pt).reflex = true))) → es.length + 2 * st'.pot ≤ 2 * st.pot) := by
  have hwa : 1 ≤ va.wt ∧ va.wt = if va.reflex then 3 else 1 := by
    unfold Vtx.wt; rw [ha]; simp; split <;> omega
  have hwb : 1 ≤ vb.wt ∧ vb.wt = if vb.reflex then 3 else 1 := by
    unfold Vtx.wt; rw [hb]; simp; split <;> omega
  unfold handleEdge at hr
  rw [getV_ok.2 hva, ok_bind, getV_ok.2 hvb, ok_bind] at hr
  by_cases hp : va.prev = vb.next
  · rw [if_pos hp] at hr
    obtain ⟨s, hs, hr⟩ := bind_ok.1 hr
    split at hr
    · cases hr
    · obtain ⟨vs, hvs, hr⟩ := bind_ok.1 hr
      obtain ⟨sinks, hsi, hr⟩ := bind_ok.1 hr
      obtain ⟨s2, hs2, hr⟩ := bind_ok.1 hr
      simp only [pure_ok, Except.ok.injEq, Prod.mk.injEq] at hr
      obtain ⟨rfl, -, rfl⟩ := hr
      have hf : Frame (fun _ => False) st s2 :=
        (removeLav_frame hs).trans (invalidateAll_frame hs2)
      have := hf.pot_le
      simp
      omega
  · rw [if_neg hp] at hr
    split at hr
    · cases hr
    · obtain ⟨⟨s, r⟩, hs, hr⟩ := bind_ok.1 hr
      obtain ⟨o, ho, hr⟩ := bind_ok.1 hr
      obtain ⟨ne, hne, hr⟩ := bind_ok.1 hr
      simp only [pure_ok, Except.ok.injEq, Prod.mk.injEq] at hr
      obtain ⟨hst', -, rfl⟩ := hr
      have e : st'.pot = s.pot := by rw [← hst']; split <;> rfl
      obtain ⟨h1, h2⟩ := unify_pot hs hva hvb
      have hl : ne.toList.length ≤ 1 := by cases ne <;> simp
      refine ⟨hl, by omega, fun hn => ?_⟩
      by_cases hab : ev.a = ev.b
      · exact absurd ⟨hp, Or.inl hab⟩ hn
      · have h1 := h1 hab
        cases hra : va.reflex <;> cases hrb : vb.reflex <;>
          cases hrr : (unifyCore va vb ev.pt).reflex
        all_goals simp only [hra, hrb, hrr, if_true, if_false, Bool.false_eq_true] at hwa hwb h1
        all_goals first | (rw [e]; omega) | exact absurd ⟨hp, Or.inr ⟨hra, hrb, hrr⟩⟩ hn

theorem keepOrCollapse_heads {st st' : St S} {sinks sinks' : List (V2 S)} {heads heads' ls : List Nat}
    (hr : keepOrCollapse st sinks heads ls = .ok (st', sinks', heads')) :
    heads'.length ≤ heads.length + ls.length := by
  induction ls generalizing st sinks heads with
  | nil => cases hr; simp
  | cons l ls ih =>
    unfold keepOrCollapse at hr
    obtain ⟨o, ho, hr⟩ := bind_ok.1 hr
    split at hr
    · have := ih hr; simp at this ⊢; omega
    · obtain ⟨h, hh, hr⟩ := bind_ok.1 hr
      obtain ⟨n, hn, hr⟩ := bind_ok.1 hr
      obtain ⟨vs, hvs, hr⟩ := bind_ok.1 hr
      obtain ⟨s, hs, hr⟩ := bind_ok.1 hr
      have := ih hr; simp at this ⊢; omega

theorem splitLavs_two {st st' : St S} {lav : Option Nat} {x v1 v2 : Nat} {nl : List Nat}
    (hr : splitLavs st lav x v1 v2 = .ok (st', nl)) : nl.length ≤ 2 := by
  unfold splitLavs at hr
  obtain ⟨s1, hs1, hr⟩ := bind_ok.1 hr
  obtain ⟨vx, hvx, hr⟩ := bind_ok.1 hr
  split at hr
  · obtain ⟨t1, ht1, hr⟩ := bind_ok.1 hr
    obtain ⟨⟨t2, l1⟩, ht2, hr⟩ := bind_ok.1 hr
    simp only [pure_ok, Except.ok.injEq, Prod.mk.injEq] at hr
    obtain ⟨-, rfl⟩ := hr
    simp
  · obtain ⟨⟨t1, l1⟩, ht1, hr⟩ := bind_ok.1 hr
    obtain ⟨⟨t2, l2⟩, ht2, hr⟩ := bind_ok.1 hr
    simp only [pure_ok, Except.ok.injEq, Prod.mk.injEq] at hr
    obtain ⟨-, rfl⟩ := hr
    simp

theorem handleSplit_pot {st st' : St S} {ev : SplitEv S} {arcs : List (Subtree S)}
    {es : List (Event S)} {v : Vtx S} (hr : handleSplit st ev = .ok (st', arcs, es))
    (hv : st.vs[ev.vertex]? = some v) (hvv : v.valid = true) (hvr : v.reflex = true) :
    es.length + 2 * st'.pot ≤ 2 * st.pot := by
  unfold handleSplit at hr
  obtain ⟨r, hs, hr⟩ := bind_ok.1 hr
  cases r with
  | none =>
    simp only [pure_ok, Except.ok.injEq, Prod.mk.injEq] at hr
    obtain ⟨rfl, -, rfl⟩ := hr
    simp
  | some xy =>
    obtain ⟨v', s1, v1, v2, s2, nl, s3, sinks, heads, hv', h1, h2, h3, h4, h5, -⟩ :=
      splitAt_cases hr
    rw [hv] at hv'
    simp only [Option.some.injEq] at hv'
    subst hv'
    have l1 := nextEvents_length h4
    have l2 := keepOrCollapse_heads h3
    have l3 := splitLavs_two h2
    simp only [List.length_nil, Nat.zero_add] at l2
    unfold splitLink at h1
    simp only at h1
    generalize hs0 : ((st.newV (mkVtx st.vs.length ev.pt v.edgePrev ev.opp none true)).1.newV
      (mkVtx (st.newV (mkVtx st.vs.length ev.pt v.edgePrev ev.opp none true)).1.vs.length
        ev.pt ev.opp v.edgeNext none true)).1 = s0 at h1
    obtain ⟨w, hw, h1⟩ := bind_ok.1 h1
    simp only [pure_ok, Except.ok.injEq, Prod.mk.injEq] at h1
    obtain ⟨h1, -⟩ := h1
    have hf : Frame (fun _ => False) s0 st' := by
      refine Frame.trans ?_ (invalidate_frame h5)
      refine Frame.trans ?_ (keepOrCollapse_frame h3)
      refine Frame.trans ?_ (splitLavs_frame h2)
      rw [← h1]
      refine Frame.trans ?_ (Frame.setNext _ _ _)
      refine Frame.trans ?_ (Frame.setPrev _ _ _)
      refine Frame.trans ?_ (Frame.setNext _ _ _)
      refine Frame.trans ?_ (Frame.setPrev _ _ _)
      refine Frame.trans ?_ (Frame.setPrev _ _ _)
      refine Frame.trans ?_ (Frame.setNext _ _ _)
      refine Frame.trans ?_ (Frame.setNext _ _ _)
      exact Frame.setPrev _ _ _
    have hp := hf.pot_one (invalidate_wt h5)
    have hp0 : s0.pot = st.pot + 1 + 1 := by
      rw [← hs0, pot_newV, pot_newV]; rfl
    have hw0 : s0.wtAt ev.vertex = 3 := by
      have hi := (List.getElem?_eq_some_iff.1 hv).1
      rw [← hs0]
      simp only [St.wtAt, St.newV]
      rw [List.getElem?_append_left (by simp; omega), List.getElem?_append_left hi, hv]
      simp [Vtx.wt, hvv, hvr]
    omega

theorem handleDormer_pot {st st' : St S} {e0 e1 : SplitEv S}
    {e2 : EdgeEv S} {arcs : List (Subtree S)} {es : List (Event S)}
    (hr : handleDormer st e0 e1 e2 = .ok (st', arcs, es)) : es = [] ∧ st'.pot ≤ st.pot := by
  refine ⟨?_, (handleDormer_frame hr).pot_le⟩
  unfold handleDormer at hr
  obtain ⟨vp, hvp, hr⟩ := bind_ok.1 hr
  split at hr
  · simp only [pure_ok, Except.ok.injEq, Prod.mk.injEq] at hr
    exact hr.2.2.symm
  · obtain ⟨vn, hvn, hr⟩ := bind_ok.1 hr
    obtain ⟨vn', hvn', hr⟩ := bind_ok.1 hr
    obtain ⟨vp', hvp', hr⟩ := bind_ok.1 hr
    obtain ⟨o, ho, hr⟩ := bind_ok.1 hr
    obtain ⟨⟨s1, nl⟩, hs1, hr⟩ := bind_ok.1 hr
    obtain ⟨s2, hs2, hr⟩ := bind_ok.1 hr
    split at hr
    · cases hr
    · obtain ⟨pa, hpa, hr⟩ := bind_ok.1 hr
      obtain ⟨pb, hpb, hr⟩ := bind_ok.1 hr
      obtain ⟨s3, hs3, hr⟩ := bind_ok.1 hr
      simp only [pure_ok, Except.ok.injEq, Prod.mk.injEq] at hr
      exact hr.2.2.symm

end Polyskel
