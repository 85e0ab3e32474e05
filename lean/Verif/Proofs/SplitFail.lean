import Verif.Proofs.SplitWave
/-
When a split event is handled, and when it cannot be.
-/
namespace Polyskel
open Scalar
set_option linter.unusedSectionVars false
variable {S : Type} [Scalar S]

/-- no way leads back to `h` -/
theorem no_ring {st : St S} {h : Nat} {I : Nat → Prop} (h0 : I h)
    (hI : ∀ a b, I a → st.nx a = some b → I b ∧ b ≠ h) {us : List Nat} : ¬ Ring st h us := by
  rintro ⟨-, hh, hc⟩
  obtain ⟨us', rfl⟩ : ∃ us', us = h :: us' := by
    cases us with
    | nil => simp at hh
    | cons a us => simp at hh; exact ⟨us, by rw [hh]⟩
  have key : ∀ (L : List Nat) (a : Nat), I a → (a :: L).IsChain (Succ st) → ∀ b ∈ L, b ≠ h := by
    intro L
    induction L with
    | nil => simp
    | cons b L ih =>
      intro a ha hc
      rw [List.isChain_cons_cons] at hc
      obtain ⟨hb, hne⟩ := hI a b ha (succ_iff.1 hc.1)
      intro c hcm
      rcases List.mem_cons.1 hcm with rfl | hcm
      · exact hne
      · exact ih b hb hc.2 c hcm
  exact key (us' ++ [h]) h h0 (by simpa using hc) h (by simp) rfl

theorem splitAt_self {st : St S} {R : Nat → List Nat} (h : Loops st R) {ev : SplitEv S}
    {l x y : Nat} (hl : l ∈ st.slav) (hi : ev.vertex ∈ R l) (hx : x ∈ R l) (hlk : Link st y x)
    (hs : x = ev.vertex ∨ y = ev.vertex) (out : HandlerOut S) : splitAt st ev x y ≠ .ok out := by
  intro hok
  have hcl := h.closed l hl
  obtain ⟨v, hv, hv'⟩ := getV_total (hcl.lt _ hi)
  obtain ⟨hvn, hvp, hvl, -, -⟩ := vs_fields hv'
  have hyx := link_iff.1 hlk
  have hyR : y ∈ R l := (hcl.pv_mem hx hyx.2).1
  have hpR := hcl.pv_mem hi hvp
  have hnR := hcl.nx_mem hi hvn
  -- neighbours of a vertex of a list of three or more
  have hne : ∀ a b, Link st a b → a ∈ R l → a ≠ b := by
    rintro a b hab ha rfl
    obtain ⟨P, hs, hperm, hd⟩ := hcl.rotate ha
    have h3 := h.three l hl
    rw [← hperm.length_eq] at h3
    cases P with
    | nil => simp at h3
    | cons c P =>
      have := seg_first hs
      rw [(link_iff.1 hab).1] at this
      simp only [List.cons_append, List.head?_cons, Option.some.injEq] at this
      exact (List.nodup_cons.1 hd).1 (by simp [this])
  have hpi : v.prev ≠ ev.vertex := hne _ _ (link_iff.2 ⟨hpR.2, hvp⟩) hpR.1
  have hni : v.next ≠ ev.vertex := fun e => hne _ _ (link_iff.2 ⟨hvn, hnR.2⟩) hi e.symm
  obtain ⟨t, ht, n', p', l', d', c', la, sl, len, og⟩ := splitLink_ok (ev := ev) hv'
    (hcl.lt _ hx) (hcl.lt _ hyR) (hcl.lt _ hpR.1) (hcl.lt _ hnR.1) hpi
  have hil := hcl.lt _ hi
  have hxl := hcl.lt _ hx
  have hyl := hcl.lt _ hyR
  have hpl := hcl.lt _ hpR.1
  have hnl := hcl.lt _ hnR.1
  have hxl' : (({ t with slav := st.slav.erase l } : St S)).lv x = some (some l) := by
    show t.lv x = _
    rw [l', if_neg (by omega), if_neg (by omega), ← h.mem l hl]
    exact hx
  obtain ⟨wx, hwx, hwx'⟩ := getV_total (st := { t with slav := st.slav.erase l }) (i := x) (by
    show x < t.vs.length
    omega)
  have hwl : wx.lav = some l := by
    have := (vs_fields hwx').2.2.1
    rw [hxl'] at this
    simpa using this.symm
  have hvl' : v.lav = some l := by
    have := (h.mem l hl ev.vertex).1 hi
    rw [hvl] at this
    simpa using this
  unfold splitAt splitLavs at hok
  rw [hv, ok_bind, ht, ok_bind] at hok
  simp only at hok
  rw [hvl', removeLav_ok (by rw [sl]; exact hl), sl, ok_bind, hwx, ok_bind,
    if_neg (by rw [hwl]; simp)] at hok
  obtain ⟨⟨s, ls⟩, h1, -⟩ := bind_ok.1 hok
  obtain ⟨⟨s1, l1⟩, hf1, h1⟩ := bind_ok.1 h1
  obtain ⟨⟨s2, l2⟩, hf2, -⟩ := bind_ok.1 h1
  obtain ⟨us, hus⟩ := fromChain_ring hf1
  obtain ⟨s1', e1, n1, -⟩ := fromChain_ok hus
  rw [e1] at hf1
  simp only [Except.ok.injEq, Prod.mk.injEq] at hf1
  obtain ⟨rfl, rfl⟩ := hf1
  rcases hs with rfl | rfl
  · refine no_ring (I := fun k => k = st.vs.length ∨ k = st.vs.length + 1 ∨ k ∈ R l) (by simp)
      ?_ hus
    intro a b ha hab
    have hab : t.nx a = some b := hab
    have hyp : y = v.prev := by
      have := hyx.2; rw [hvp] at this; simpa using this.symm
    rw [n'] at hab
    by_cases q1 : a = y
    · rw [if_pos q1] at hab; simp at hab; subst hab; simp
    · rw [if_neg q1] at hab
      by_cases q2 : a = st.vs.length + 1
      · rw [if_pos q2] at hab; simp at hab; subst hab
        exact ⟨Or.inr (Or.inr hnR.1), by omega⟩
      · rw [if_neg q2, if_neg (by rw [← hyp]; exact q1)] at hab
        by_cases q3 : a = st.vs.length
        · rw [if_pos q3] at hab; simp at hab; subst hab
          exact ⟨Or.inr (Or.inr hi), by omega⟩
        · rw [if_neg q3] at hab
          have ha : a ∈ R l := by
            rcases ha with h | h | h
            exacts [absurd h q3, absurd h q2, h]
          have := (hcl.nx_mem ha hab).1
          exact ⟨Or.inr (Or.inr this), by have := hcl.lt _ this; omega⟩
  · obtain ⟨us2, hus2⟩ := fromChain_ring hf2
    have hxn : x = v.next := by
      have := hyx.1; rw [hvn] at this; simpa using this.symm
    refine no_ring (I := fun k => k = st.vs.length ∨ k = st.vs.length + 1 ∨
      (k ∈ R l ∧ k ≠ ev.vertex)) (by simp) ?_ hus2
    intro a b ha hab
    rw [n1] at hab
    have hab : t.nx a = some b := hab
    rw [n'] at hab
    have q1 : a ≠ ev.vertex := by rcases ha with h | h | h <;> [omega; omega; exact h.2]
    rw [if_neg q1] at hab
    by_cases q2 : a = st.vs.length + 1
    · rw [if_pos q2] at hab; simp at hab; subst hab
      exact ⟨Or.inr (Or.inr ⟨hnR.1, hni⟩), by omega⟩
    · rw [if_neg q2] at hab
      by_cases q3 : a = v.prev
      · rw [if_pos q3] at hab; simp at hab; subst hab
        exact ⟨Or.inl rfl, by omega⟩
      · rw [if_neg q3] at hab
        by_cases q4 : a = st.vs.length
        · rw [if_pos q4] at hab; simp at hab; subst hab
          exact ⟨Or.inr (Or.inr ⟨hx, by rw [hxn]; exact hni⟩), by omega⟩
        · rw [if_neg q4] at hab
          have ha : a ∈ R l := by
            rcases ha with h | h | h
            exacts [absurd h q4, absurd h q2, h.1]
          have hb := hcl.nx_mem ha hab
          refine ⟨Or.inr (Or.inr ⟨hb.1, ?_⟩), by have := hcl.lt _ hb.1; omega⟩
          rintro rfl
          have := hb.2
          rw [hvp] at this
          simp at this
          exact q3 this.symm

theorem splitTest_total {st : St S} {ev : SplitEv S} {i : Nat} {v : Vtx S}
    (hv : st.vs[i]? = some v) (hp : v.prev < st.vs.length) (hn : v.next < st.vs.length) :
    ∃ r, splitTest st ev i = .ok r := by
  obtain ⟨p, hp, -⟩ := getV_total hp
  obtain ⟨n, hn, -⟩ := getV_total hn
  unfold splitTest
  rw [getV_ok.2 hv, ok_bind]
  simp only
  split
  · exact ⟨_, rfl⟩
  · rename_i x y hc
    split at hc
    · simp only [Option.some.injEq, Prod.mk.injEq] at hc
      obtain ⟨rfl, rfl⟩ := hc
      rw [getV_ok.2 hv, ok_bind, hp, ok_bind]
      exact ⟨_, rfl⟩
    · split at hc
      · simp only [Option.some.injEq, Prod.mk.injEq] at hc
        obtain ⟨rfl, rfl⟩ := hc
        rw [hn, ok_bind, getV_ok.2 hv, ok_bind]
        exact ⟨_, rfl⟩
      · simp at hc

theorem Loops.splitSearch {st : St S} {R : Nat → List Nat} (h : Loops st R) (ev : SplitEv S) :
    ∃ r, splitSearch st ev st.slav = .ok r := by
  have key : ∀ ls : List Nat, (∀ l ∈ ls, l ∈ st.slav) →
      ∃ r, Polyskel.splitSearch st ev ls = .ok r := by
    intro ls
    induction ls with
    | nil => exact fun _ => ⟨none, rfl⟩
    | cons l ls ih =>
      intro hls
      obtain ⟨vs, hvs, hperm, hc⟩ := h.iterLav (hls l (by simp))
      have hlist : ∃ r, splitSearchList st ev vs = .ok r := by
        have : ∀ ws : List Nat, (∀ w ∈ ws, w ∈ vs) → ∃ r, splitSearchList st ev ws = .ok r := by
          intro ws
          induction ws with
          | nil => exact fun _ => ⟨none, rfl⟩
          | cons w ws ihw =>
            intro hws
            obtain ⟨u, hu⟩ := getElem?_of_lt (hc.lt w (hws w (by simp)))
            obtain ⟨un, up, -⟩ := vs_fields hu
            obtain ⟨r, hr⟩ := splitTest_total (ev := ev) hu
              (hc.lt _ (hc.pv_mem (hws w (by simp)) up).1)
              (hc.lt _ (hc.nx_mem (hws w (by simp)) un).1)
            unfold splitSearchList
            rw [hr, ok_bind]
            cases r with
            | some r => exact ⟨_, rfl⟩
            | none => exact ihw (fun w hw => hws w (List.mem_cons_of_mem _ hw))
        exact this vs (fun _ h => h)
      obtain ⟨r, hr⟩ := hlist
      unfold Polyskel.splitSearch
      simp only [hvs]
      rw [hr, ok_bind]
      cases r with
      | some r => exact ⟨_, rfl⟩
      | none => exact ih (fun l hl => hls l (List.mem_cons_of_mem _ hl))
  exact key st.slav (fun _ h => h)

/-- the pair found by the search is a pair of neighbours of the wavefront -/
theorem Loops.splitPair {st : St S} {R : Nat → List Nat} (h : Loops st R) {ev : SplitEv S}
    {x y : Nat} (hs : Polyskel.splitSearch st ev st.slav = .ok (some (x, y))) :
    ∃ m ∈ st.slav, x ∈ R m ∧ y ∈ R m ∧ Link st y x := by
  obtain ⟨m, hm, w, hw, vv, vx, vy, hvv, -, -, hc, -⟩ := splitSearch_some hs
  obtain ⟨vs, hvs, hperm, hcl⟩ := h.iterLav hm
  rw [hvs] at hw
  obtain ⟨un, up, -⟩ := vs_fields hvv
  have h1 := hcl.pv_mem hw up
  have h2 := hcl.nx_mem hw un
  refine ⟨m, hm, ?_⟩
  rcases hc with ⟨-, rfl, rfl⟩ | ⟨-, -, rfl, rfl⟩
  · exact ⟨hperm.mem_iff.1 hw, hperm.mem_iff.1 h1.1, link_iff.2 ⟨h1.2, up⟩⟩
  · exact ⟨hperm.mem_iff.1 h2.1, hperm.mem_iff.1 hw, link_iff.2 ⟨un, h2.2⟩⟩

/-- a split event on a valid vertex: the wavefront stays closed; the handler fails exactly when
the pair that is found contains the vertex itself -/
theorem handleSplit_loops {st : St S} {R : Nat → List Nat} (h : Loops st R) {ev : SplitEv S}
    {l : Nat} (hl : l ∈ st.slav) (hi : ev.vertex ∈ R l) :
    (∃ st' arcs es R', handleSplit st ev = .ok (st', arcs, es) ∧ Loops st' R') ∨
    (∃ x y, splitSearch st ev st.slav = .ok (some (x, y)) ∧ (x = ev.vertex ∨ y = ev.vertex) ∧
      ∃ e, handleSplit st ev = .error e) := by
  obtain ⟨r, hr⟩ := h.splitSearch ev
  unfold handleSplit
  rw [hr, ok_bind]
  cases r with
  | none => exact Or.inl ⟨st, [], [], R, rfl, h⟩
  | some xy =>
    obtain ⟨x, y⟩ := xy
    obtain ⟨m, hm, hx, hy, hlk⟩ := h.splitPair hr
    by_cases hs : x = ev.vertex ∨ y = ev.vertex
    · right
      refine ⟨x, y, rfl, hs, ?_⟩
      have hml : m = l := by
        rcases hs with rfl | rfl
        · exact h.disjoint hm hl hx hi
        · exact h.disjoint hm hl hy hi
      subst hml
      simp only
      cases he : splitAt st ev x y with
      | error e => exact ⟨e, rfl⟩
      | ok out => exact absurd he (splitAt_self h hl hi hx hlk hs out)
    · left
      simp only [not_or] at hs
      by_cases hml : m = l
      · subst hml
        obtain ⟨P, Q, U, V, st', arcs, es, he, -, -, -, -, -, -, hL, -⟩ :=
          splitAt_same h hl hi hx hlk hs.1 hs.2
        exact ⟨st', arcs, es, _, he, hL⟩
      · obtain ⟨T, Q, U, st', arcs, es, he, -, -, -, -, -, -, -, hL, -⟩ :=
          splitAt_other h hl hi hm hml hx hlk
        exact ⟨st', arcs, es, _, he, hL⟩

end Polyskel
