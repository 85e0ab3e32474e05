import Verif.Proofs.SplitStep
/-
A split event turns closed doubly linked lists into closed doubly linked lists.
-/
namespace Polyskel
open Scalar
set_option linter.unusedSectionVars false
variable {S : Type} [Scalar S]

theorem seg_iff {st : St S} {a b p q : Nat} {P : List Nat} (hp : P.head? = some p)
    (hq : P.getLast? = some q) :
    Seg st a P b ↔ Link st a p ∧ P.IsChain (Link st) ∧ Link st q b := by
  cases P with
  | nil => simp at hp
  | cons c Q =>
    simp only [List.head?_cons, Option.some.injEq] at hp
    subst hp
    rw [seg_cons]
    refine and_congr_right (fun _ => ?_)
    unfold Seg
    rw [List.isChain_append]
    simp [hq]

theorem chain_relink {st st' : St S} {P : List Nat} (h : P.IsChain (Link st))
    (hn : ∀ k ∈ P.dropLast, st'.nx k = st.nx k) (hp : ∀ k ∈ P.tail, st'.pv k = st.pv k) :
    P.IsChain (Link st') := by
  induction P with
  | nil => simp
  | cons a P ih =>
    cases P with
    | nil => simp
    | cons b Q =>
      rw [List.isChain_cons_cons, link_iff] at h ⊢
      rw [hn a (by simp), hp b (by simp)]
      refine ⟨h.1, ih h.2 (fun k hk => hn k ?_) (fun k hk => hp k ?_)⟩
      · rw [List.dropLast_cons_of_ne_nil (by simp)]
        exact List.mem_cons_of_mem _ hk
      · simp only [List.tail_cons] at hk ⊢
        exact List.mem_cons_of_mem _ hk

theorem dropLast_ne {P : List Nat} {q k : Nat} (hd : P.Nodup) (hq : P.getLast? = some q)
    (hk : k ∈ P.dropLast) : k ≠ q := by
  have := List.dropLast_append_getLast? q (by simpa using hq)
  rw [← this, List.nodup_append] at hd
  exact hd.2.2 k hk q (by simp)

theorem tail_ne {P : List Nat} {p k : Nat} (hd : P.Nodup) (hp : P.head? = some p)
    (hk : k ∈ P.tail) : k ≠ p := by
  cases P with
  | nil => simp at hp
  | cons c Q =>
    simp only [List.head?_cons, Option.some.injEq] at hp
    subst hp
    simp only [List.tail_cons] at hk
    rintro rfl
    exact (List.nodup_cons.1 hd).1 hk

/-- new ends for a piece of a list -/
theorem seg_splice {st st' : St S} {a b a' b' p q : Nat} {P : List Nat} (h : Seg st a P b)
    (hd : P.Nodup) (hp : P.head? = some p) (hq : P.getLast? = some q)
    (h1 : st'.nx a' = some p) (h2 : st'.pv p = some a') (h3 : st'.nx q = some b')
    (h4 : st'.pv b' = some q) (hn : ∀ k ∈ P, k ≠ q → st'.nx k = st.nx k)
    (hpp : ∀ k ∈ P, k ≠ p → st'.pv k = st.pv k) : Seg st' a' P b' := by
  rw [seg_iff hp hq] at h ⊢
  refine ⟨link_iff.2 ⟨h1, h2⟩, chain_relink h.2.1 ?_ ?_, link_iff.2 ⟨h3, h4⟩⟩
  · exact fun k hk => hn k (List.mem_of_mem_dropLast hk) (dropLast_ne hd hq hk)
  · exact fun k hk => hpp k (List.mem_of_mem_tail hk) (tail_ne hd hp hk)

/-- the two parts of a list between a vertex and a neighbouring pair elsewhere on the list -/
theorem Closed.parts {st : St S} {R : List Nat} {i x y : Nat} (h : Closed st R) (hi : i ∈ R)
    (hx : x ∈ R) (hl : Link st y x) (hxi : x ≠ i) (hyi : y ≠ i) :
    ∃ P Q n p, Seg st i P x ∧ Seg st y Q i ∧ Seg st i (P ++ Q) i ∧
      P.head? = some n ∧ P.getLast? = some y ∧
      Q.head? = some x ∧ Q.getLast? = some p ∧ (i :: (P ++ Q)).Perm R ∧ (i :: (P ++ Q)).Nodup ∧
      st.nx i = some n ∧ st.pv i = some p := by
  obtain ⟨T, hs, hperm, hd⟩ := h.rotate hi
  have hxT : x ∈ T := by
    have := hperm.mem_iff.2 hx
    rcases List.mem_cons.1 this with rfl | h
    · exact absurd rfl hxi
    · exact h
  obtain ⟨P, B, rfl⟩ := List.append_of_mem hxT
  have hs' := seg_append.1 hs
  have hlast := seg_last hs'.1
  rw [(link_iff.1 hl).2] at hlast
  have hP : P ≠ [] := by
    rintro rfl
    simp at hlast
    exact hyi hlast
  obtain ⟨n, P', rfl⟩ := List.exists_cons_of_ne_nil hP
  rw [List.getLast?_cons_cons] at hlast
  have hn := seg_first hs
  have hp := seg_last hs
  obtain ⟨p, hp'⟩ : ∃ p, (x :: B).getLast? = some p := ⟨_, List.getLast?_eq_some_getLast (by simp)⟩
  refine ⟨n :: P', x :: B, n, p, hs'.1, seg_cons.2 ⟨hl, hs'.2⟩, hs, rfl, hlast.symm, rfl, hp',
    hperm, hd, by simpa using hn, ?_⟩
  rw [hp, ← hp', ← List.cons_append, List.getLast?_append, hp']
  simp

/-- what the pointer assignments of a split do to the parts -/
theorem splitLink_same {st : St S} {ev : SplitEv S} {v : Vtx S} {x y : Nat} {P Q : List Nat}
    {n p : Nat} (hv : st.vs[ev.vertex]? = some v)
    (hs : Seg st ev.vertex P x) (hs' : Seg st y Q ev.vertex)
    (hn : P.head? = some n) (hy : P.getLast? = some y) (hx : Q.head? = some x)
    (hp : Q.getLast? = some p) (hd : (ev.vertex :: (P ++ Q)).Nodup)
    (hnx : st.nx ev.vertex = some n) (hpv : st.pv ev.vertex = some p) {st' : St S}
    (n' : ∀ k, st'.nx k = if k = y then some (st.vs.length + 1)
        else if k = st.vs.length + 1 then some v.next
        else if k = v.prev then some st.vs.length
        else if k = st.vs.length then some x else st.nx k)
    (p' : ∀ k, st'.pv k = if k = v.next then some (st.vs.length + 1)
        else if k = st.vs.length + 1 then some y
        else if k = x then some st.vs.length
        else if k = st.vs.length then some v.prev else st.pv k) :
    Seg st' st.vs.length Q st.vs.length ∧ Seg st' (st.vs.length + 1) P (st.vs.length + 1) := by
  obtain ⟨hvn, hvp, -, -, -⟩ := vs_fields hv
  rw [hnx] at hvn
  rw [hpv] at hvp
  simp only [Option.some.injEq] at hvn hvp
  simp only [← hvn, ← hvp] at n' p'
  have hPm : n ∈ P := List.mem_of_mem_head? hn
  have hyP : y ∈ P := List.mem_of_getLast? hy
  have hxQ : x ∈ Q := List.mem_of_mem_head? hx
  have hpQ : p ∈ Q := List.mem_of_getLast? hp
  have hPl : ∀ k ∈ P, k < st.vs.length := fun k hk => seg_nx_lt hs k (List.mem_cons_of_mem _ hk)
  have hQl : ∀ k ∈ Q, k < st.vs.length := fun k hk => seg_nx_lt hs' k (List.mem_cons_of_mem _ hk)
  rw [List.nodup_cons, List.nodup_append] at hd
  obtain ⟨hi, hdP, hdQ, hdis⟩ := hd
  have hPQ : ∀ k ∈ P, k ∉ Q := fun k hk hq => hdis k hk k hq rfl
  constructor
  · refine seg_splice hs' hdQ hx hp ?_ ?_ ?_ ?_ ?_ ?_
    · have := hPl y hyP
      have := hQl p hpQ
      rw [n', if_neg (by omega), if_neg (by omega), if_neg (by omega), if_pos rfl]
    · have := hQl x hxQ
      rw [p', if_neg (by rintro rfl; exact hPQ _ hPm hxQ), if_neg (by omega), if_pos rfl]
    · have := hQl p hpQ
      rw [n', if_neg (by rintro rfl; exact hPQ _ hyP hpQ), if_neg (by omega), if_pos rfl]
    · have := hQl x hxQ
      have := hPl n hPm
      rw [p', if_neg (by omega), if_neg (by omega), if_neg (by omega), if_pos rfl]
    · intro k hk hkp
      have := hQl k hk
      rw [n', if_neg (by rintro rfl; exact hPQ _ hyP hk), if_neg (by omega), if_neg hkp,
        if_neg (by omega)]
    · intro k hk hkx
      have := hQl k hk
      rw [p', if_neg (by rintro rfl; exact hPQ _ hPm hk), if_neg (by omega), if_neg hkx,
        if_neg (by omega)]
  · refine seg_splice hs hdP hn hy ?_ ?_ ?_ ?_ ?_ ?_
    · have := hPl y hyP
      rw [n', if_neg (by omega), if_pos rfl]
    · rw [p', if_pos rfl]
    · rw [n', if_pos rfl]
    · have := hPl n hPm
      rw [p', if_neg (by omega), if_pos rfl]
    · intro k hk hky
      have := hPl k hk
      rw [n', if_neg hky, if_neg (by omega), if_neg (by rintro rfl; exact hPQ _ hk hpQ),
        if_neg (by omega)]
    · intro k hk hkn
      have := hPl k hk
      rw [p', if_neg hkn, if_neg (by omega), if_neg (by rintro rfl; exact hPQ _ hk hxQ),
        if_neg (by omega)]

/-- what they do to the lists of two LAVs -/
theorem splitLink_other {st : St S} {ev : SplitEv S} {v : Vtx S} {x y : Nat} {T U : List Nat}
    {n p : Nat} (hv : st.vs[ev.vertex]? = some v)
    (hs : Seg st ev.vertex T ev.vertex) (hs' : Seg st y U x)
    (hn : T.head? = some n) (hp : T.getLast? = some p) (hx : U.head? = some x)
    (hy : U.getLast? = some y) (hdT : T.Nodup) (hdU : U.Nodup) (hTU : ∀ k ∈ T, k ∉ U)
    (hnx : st.nx ev.vertex = some n) (hpv : st.pv ev.vertex = some p) {st' : St S}
    (n' : ∀ k, st'.nx k = if k = y then some (st.vs.length + 1)
        else if k = st.vs.length + 1 then some v.next
        else if k = v.prev then some st.vs.length
        else if k = st.vs.length then some x else st.nx k)
    (p' : ∀ k, st'.pv k = if k = v.next then some (st.vs.length + 1)
        else if k = st.vs.length + 1 then some y
        else if k = x then some st.vs.length
        else if k = st.vs.length then some v.prev else st.pv k) :
    Seg st' st.vs.length (U ++ (st.vs.length + 1) :: T) st.vs.length := by
  obtain ⟨hvn, hvp, -, -, -⟩ := vs_fields hv
  rw [hnx] at hvn
  rw [hpv] at hvp
  simp only [Option.some.injEq] at hvn hvp
  simp only [← hvn, ← hvp] at n' p'
  have hnT : n ∈ T := List.mem_of_mem_head? hn
  have hyU : y ∈ U := List.mem_of_getLast? hy
  have hxU : x ∈ U := List.mem_of_mem_head? hx
  have hpT : p ∈ T := List.mem_of_getLast? hp
  have hTl : ∀ k ∈ T, k < st.vs.length := fun k hk => seg_nx_lt hs k (List.mem_cons_of_mem _ hk)
  have hUl : ∀ k ∈ U, k < st.vs.length := fun k hk => seg_nx_lt hs' k (List.mem_cons_of_mem _ hk)
  rw [seg_append]
  constructor
  · refine seg_splice hs' hdU hx hy ?_ ?_ ?_ ?_ ?_ ?_
    · have := hUl y hyU
      have := hTl p hpT
      rw [n', if_neg (by omega), if_neg (by omega), if_neg (by omega), if_pos rfl]
    · have := hUl x hxU
      rw [p', if_neg (by rintro rfl; exact hTU _ hnT hxU), if_neg (by omega), if_pos rfl]
    · rw [n', if_pos rfl]
    · have := hTl n hnT
      rw [p', if_neg (by omega), if_pos rfl]
    · intro k hk hky
      have := hUl k hk
      rw [n', if_neg hky, if_neg (by omega), if_neg (by rintro rfl; exact hTU _ hpT hk),
        if_neg (by omega)]
    · intro k hk hkx
      have := hUl k hk
      rw [p', if_neg (by rintro rfl; exact hTU _ hnT hk), if_neg (by omega), if_neg hkx,
        if_neg (by omega)]
  · refine seg_splice hs hdT hn hp ?_ ?_ ?_ ?_ ?_ ?_
    · have := hUl y hyU
      rw [n', if_neg (by omega), if_pos rfl]
    · rw [p', if_pos rfl]
    · have := hTl p hpT
      rw [n', if_neg (by rintro rfl; exact hTU _ hpT hyU), if_neg (by omega), if_pos rfl]
    · have := hTl n hnT
      have := hUl x hxU
      rw [p', if_neg (by omega), if_neg (by omega), if_neg (by omega), if_pos rfl]
    · intro k hk hkp
      have := hTl k hk
      rw [n', if_neg (by rintro rfl; exact hTU _ hk hyU), if_neg (by omega), if_neg hkp,
        if_neg (by omega)]
    · intro k hk hkn
      have := hTl k hk
      rw [p', if_neg hkn, if_neg (by omega), if_neg (by rintro rfl; exact hTU _ hk hxU),
        if_neg (by omega)]

/-- the steps of a split event after the new LAVs have been made -/
theorem splitTail_ok {st : St S} {R : Nat → List Nat} {X : List Nat} {i : Nat}
    (h : Rings st R (st.slav ++ X) (fun k => k = i))
    (h3 : ∀ l ∈ st.slav, 3 ≤ (R l).length) (sinks : List (V2 S)) :
    ∃ st1 sinks' heads es st', keepOrCollapse st sinks [] X = .ok (st1, sinks', heads) ∧
      nextEvents st1 heads = .ok es ∧ invalidate st1 i = .ok st' ∧ Loops st' R ∧
      st'.slav = st.slav ++ X.filter (fun l => decide (2 < (R l).length)) ∧
      st'.nx = st.nx ∧ st'.pv = st.pv ∧ st'.co = st.co ∧
      (∀ k, st'.vd k = if k = i ∨ ∃ l ∈ X, (R l).length ≤ 2 ∧ k ∈ R l then some false
        else st.vd k) ∧
      st'.vs.length = st.vs.length ∧ st'.orig = st.orig ∧
      (∃ E, sinks' = sinks ++ E.flatten ∧ List.Forall₂ (SinkOf st R) X E) ∧
      nextEvents st' ((X.filter (fun l => decide (2 < (R l).length))).filterMap
        (fun l => (st.lavs[l]?).map LavObj.head)) = .ok es := by
  obtain ⟨t, s', hd', ht, hr, hsl, hheads, hlen, n, p, c, d, len, ll, og, hE⟩ :=
    keepOrCollapse_ok X h sinks [] (by simp)
  obtain ⟨es, hes⟩ := nextEvents_total hr hd' hheads
  obtain ⟨t', ht', hr', n', p', c', d', ll', sl', len', og', -⟩ := hr.kill (vs := [i])
    (by intro v hv; simpa using hv)
  have hinv : invalidate t i = .ok t' := by
    unfold invalidateAll at ht'
    obtain ⟨t2, h2, h2'⟩ := bind_ok.1 ht'
    unfold invalidateAll at h2'
    rw [h2]
    simpa using h2'
  refine ⟨t, s', hd', es, t', ht, hes, hinv, ?_, sl'.trans hsl, n'.trans n, p'.trans p,
    c'.trans c, ?_, len'.trans len, og'.trans og, hE, ?_⟩
  · rw [← sl'] at hr'
    refine hr'.loops (by simp) ?_
    intro l hl
    rw [sl', hsl] at hl
    rcases List.mem_append.1 hl with hl | hl
    · exact h3 l hl
    · have := (List.mem_filter.1 hl).2
      simp only [decide_eq_true_eq] at this
      exact this
  · intro k
    rw [d', d]
    by_cases h1 : k = i
    · simp [h1]
    · simp [h1]
  · rw [List.nil_append] at hlen
    rw [← hlen, ← hes]
    refine nextEvents_congr (fun k hk => ?_)
    obtain ⟨l, hl, hk⟩ := hheads k hk
    refine nextEvent_congr (by rw [n']) (by rw [p']) ?_ c' og'
    rw [(hr.mem l hl k).1 hk, (hr'.mem l (by simpa [sl'] using hl) k).1 hk]

/-- the heap after the pointer assignments of a split: the vertices of the LAVs concerned and the
two new ones are strays -/
theorem splitLink_rings {st : St S} {R : Nat → List Nat} {A : List Nat} {W : Nat → Prop}
    (h : Rings st R A W) {ev : SplitEv S} {v : Vtx S} {x y : Nat}
    (hv : st.vs[ev.vertex]? = some v) (hx : W x) (hy : W y)
    (hp : W v.prev) (hn : W v.next) (hpv : v.prev ≠ ev.vertex) :
    ∃ st', splitLink st ev v x y = .ok (st', st.vs.length, st.vs.length + 1) ∧
      Rings st' R A (fun k => W k ∨ k = st.vs.length ∨ k = st.vs.length + 1) ∧
      (∀ k, st'.nx k = if k = y then some (st.vs.length + 1)
        else if k = st.vs.length + 1 then some v.next
        else if k = v.prev then some st.vs.length
        else if k = st.vs.length then some x else st.nx k) ∧
      (∀ k, st'.pv k = if k = v.next then some (st.vs.length + 1)
        else if k = st.vs.length + 1 then some y
        else if k = x then some st.vs.length
        else if k = st.vs.length then some v.prev else st.pv k) ∧
      (∀ k, st'.lv k = if k = st.vs.length + 1 then some none
        else if k = st.vs.length then some none else st.lv k) ∧
      (∀ k, st'.vd k = if k = st.vs.length + 1 then some true
        else if k = st.vs.length then some true else st.vd k) ∧
      (∀ k, st'.co k = if k = st.vs.length + 1 then some (splitCore v ev false)
        else if k = st.vs.length then some (splitCore v ev true) else st.co k) ∧
      st'.lavs = st.lavs ∧ st'.slav = st.slav ∧ st'.vs.length = st.vs.length + 2 ∧
      st'.orig = st.orig := by
  obtain ⟨t, ht, n', p', l', d', c', la, sl, len, og⟩ := splitLink_ok (ev := ev) hv
    (h.lt_of_stray hx) (h.lt_of_stray hy) (h.lt_of_stray hp) (h.lt_of_stray hn) hpv
  refine ⟨t, ht, ?_, n', p', l', d', c', la, sl, len, og⟩
  refine h.relink (fun k hk => Or.inl hk) ?_ ?_ ?_ ?_ ?_ ?_ ?_ ?_ ?_ ?_
  · intro k hk hlt
    rw [n', if_neg (by rintro rfl; exact hk hy), if_neg (by omega),
      if_neg (by rintro rfl; exact hk hp), if_neg (by omega)]
  · intro k hk hlt
    rw [p', if_neg (by rintro rfl; exact hk hn), if_neg (by omega),
      if_neg (by rintro rfl; exact hk hx), if_neg (by omega)]
  · intro k hk
    rw [l', if_neg (by omega), if_neg (by omega)]
  · intro k hk
    rw [d', if_neg (by omega), if_neg (by omega)]
  · intro l _; rw [la]
  · rw [la]
  · intro k hk
    rw [len]
    constructor
    · intro hlt; right; omega
    · rintro (hw | e)
      · exact absurd (h.lt_of_stray hw) (by omega)
      · omega
  · rintro k hk (hw | e)
    · exact hw
    · omega
  · intro k hk hlt
    rw [d']
    split
    · rfl
    · rw [if_pos (by omega)]
  · intro k hk hlt
    rw [l']
    split
    · rfl
    · rw [if_pos (by omega)]

/-- what a part of a list contributes to the node of the split: the point of its only vertex, if it
has only one -/
def Lone (st : St S) (Q : List Nat) (s : List (V2 S)) : Prop :=
  (2 ≤ Q.length ∧ s = []) ∨ ∃ q c, Q = [q] ∧ st.co q = some c ∧ s = [c.point]

theorem lone_of_sinkOf {st st' : St S} {R : Nat → List Nat} {l h : Nat} {Q : List Nat}
    {s : List (V2 S)} {n : Nat} (hs : SinkOf st' R l s) (hlen : (R l).length = Q.length + 1)
    (hl : st'.lavs[l]? = some { head := h, len := n }) (hQ : Q ≠ []) (hn : st'.nx h = Q.head?)
    (hc : ∀ q ∈ Q, st'.co q = st.co q) : Lone st Q s := by
  rcases hs with ⟨h1, h2⟩ | ⟨h1, o, m, c, ho, hm, hcm, rfl⟩
  · exact Or.inl ⟨by omega, h2⟩
  · right
    rw [hl] at ho
    simp only [Option.some.injEq] at ho
    subst ho
    simp only at hm
    match Q, hQ with
    | [q], _ =>
      rw [hn] at hm
      simp only [List.head?_cons, Option.some.injEq] at hm
      subst hm
      exact ⟨q, c, rfl, by rw [← hc q (by simp), hcm], rfl⟩
    | _ :: _ :: _, _ => simp at hlen; omega

/-- a split whose two sides lie on the same list -/
theorem splitAt_same {st : St S} {R : Nat → List Nat} (h : Loops st R) {ev : SplitEv S}
    {l x y : Nat} (hl : l ∈ st.slav) (hi : ev.vertex ∈ R l) (hx : x ∈ R l) (hlk : Link st y x)
    (hxi : x ≠ ev.vertex) (hyi : y ≠ ev.vertex) :
    ∃ P Q U V st' arcs es, splitAt st ev x y = .ok (st', arcs, es) ∧
      (ev.vertex :: (P ++ Q)).Perm (R l) ∧ Seg st ev.vertex (P ++ Q) ev.vertex ∧
      P.getLast? = some y ∧ Q.head? = some x ∧
      U.Perm (st.vs.length :: Q) ∧ V.Perm ((st.vs.length + 1) :: P) ∧
      Loops st' (fun k => if k = st.lavs.length + 1 then V else if k = st.lavs.length then U
        else R k) ∧
      st'.slav = st.slav.erase l ++ ((if 2 ≤ Q.length then [st.lavs.length] else []) ++
        if 2 ≤ P.length then [st.lavs.length + 1] else []) ∧
      ∃ v, st.vs[ev.vertex]? = some v ∧
      (∀ k, st'.nx k = if k = y then some (st.vs.length + 1)
        else if k = st.vs.length + 1 then some v.next
        else if k = v.prev then some st.vs.length
        else if k = st.vs.length then some x else st.nx k) ∧
      (∀ k, st'.co k = if k = st.vs.length + 1 then some (splitCore v ev false)
        else if k = st.vs.length then some (splitCore v ev true) else st.co k) ∧
      st'.vs.length = st.vs.length + 2 ∧
      (∀ k, st'.vd k = if k = ev.vertex ∨ (Q.length = 1 ∧ (k = st.vs.length ∨ k ∈ Q)) ∨
          (P.length = 1 ∧ (k = st.vs.length + 1 ∨ k ∈ P)) then some false
        else if k = st.vs.length + 1 then some true
        else if k = st.vs.length then some true else st.vd k) ∧
      ∃ sQ sP, Lone st Q sQ ∧ Lone st P sP ∧
        arcs = [{ source := ev.pt, height := ev.dist, sinks := v.point :: (sQ ++ sP) }] ∧
        nextEvents st' ((if 2 ≤ Q.length then [st.vs.length] else []) ++
          if 2 ≤ P.length then [st.vs.length + 1] else []) = .ok es := by
  have hcl := h.closed l hl
  obtain ⟨P, Q, n, p, hs, hs', hss, hPn, hPy, hQx, hQp, hperm, hd, hnx, hpv⟩ :=
    hcl.parts hi hx hlk hxi hyi
  obtain ⟨v, hv, hv'⟩ := getV_total (hcl.lt _ hi)
  obtain ⟨hvn, hvp, hvl, -, -⟩ := vs_fields hv'
  have hvn' : n = v.next := by rw [hnx] at hvn; simpa using hvn
  have hvp' : p = v.prev := by rw [hpv] at hvp; simpa using hvp
  have hPm : n ∈ P := List.mem_of_mem_head? hPn
  have hpQ : p ∈ Q := List.mem_of_getLast? hQp
  have hyP : y ∈ P := List.mem_of_getLast? hPy
  have hxQ : x ∈ Q := List.mem_of_mem_head? hQx
  have hmem : ∀ k, k ∈ R l ↔ k = ev.vertex ∨ k ∈ P ∨ k ∈ Q := by
    intro k
    rw [← hperm.mem_iff]
    simp
  have hdr := h.rings.drop hl
  obtain ⟨t, ht, hr, n', p', l', d', c', la, sl, len, og⟩ := splitLink_rings (ev := ev)
    (x := x) (y := y) hdr hv' (by simp [hmem, hxQ]) (by simp [hmem, hyP])
    (by rw [← hvp']; simp [hmem, hpQ]) (by rw [← hvn']; simp [hmem, hPm])
    (by
      rw [← hvp']
      rintro rfl
      exact (List.nodup_cons.1 hd).1 (by simp [hpQ]))
  obtain ⟨sQ, sP⟩ := splitLink_same hv' hs hs' hPn hPy hQx hQp hd hnx hpv n' p'
  have hPl : ∀ k ∈ P, k < st.vs.length := fun k hk => seg_nx_lt hs k (List.mem_cons_of_mem _ hk)
  have hQl : ∀ k ∈ Q, k < st.vs.length := fun k hk => seg_nx_lt hs' k (List.mem_cons_of_mem _ hk)
  have hd' := hd
  rw [List.nodup_cons, List.nodup_append] at hd'
  obtain ⟨hiPQ, hdP, hdQ, hdis⟩ := hd'
  -- the first new LAV
  have hr0 := hr.slav (st.slav.erase l)
  obtain ⟨t1, U, ht1, hU, hr1, n1, p1, d1, c1, l1, la1, sl1, len1, og1⟩ := hr0.chain
    (hd := st.vs.length) (vs := st.vs.length :: Q)
    (closed_congr (st := t) (fun _ _ => rfl) (fun _ _ => rfl) (.of_seg sQ (by
      rw [List.nodup_cons]
      exact ⟨fun hm => absurd (hQl _ hm) (lt_irrefl _), hdQ⟩))) (by simp)
    (by
      intro k hk
      rcases List.mem_cons.1 hk with rfl | hk
      · simp
      · simp [hmem, hk])
  -- the second new LAV
  obtain ⟨t2, V, ht2, hV, hr2, n2, p2, d2, c2, l2, la2, sl2, len2, og2⟩ := hr1.chain
    (hd := st.vs.length + 1) (vs := (st.vs.length + 1) :: P)
    (closed_congr (st := t) (fun k _ => by rw [n1]; rfl) (fun k _ => by rw [p1]; rfl)
      (.of_seg sP (by
      rw [List.nodup_cons]
      exact ⟨fun hm => absurd (hPl _ hm) (by omega), hdP⟩))) (by simp)
    (by
      intro k hk
      rcases List.mem_cons.1 hk with rfl | hk
      · refine ⟨by simp, ?_⟩
        rw [List.mem_cons]
        rintro (e | e)
        · omega
        · exact absurd (hQl _ e) (by omega)
      · refine ⟨by simp [hmem, hk], ?_⟩
        rw [List.mem_cons]
        rintro (e | e)
        · exact absurd (hPl _ hk) (by omega)
        · exact hdis k hk k e rfl)
  have hlen1 : t1.lavs.length = st.lavs.length + 1 := by rw [la1, la]; simp
  have hla : t.lavs.length = st.lavs.length := by rw [la]
  simp only [hlen1, hla] at ht1 hr1 ht2 hr2
  have hlt : l < st.lavs.length := h.lavs_lt hl
  obtain ⟨st1, sinks', heads, es, st', hk, hes, hin, hL, hsl, n3, p3, c3, d3, len3, og3, ⟨E, hE, hF⟩, hev⟩ :=
    splitTail_ok (st := t2) (X := [st.lavs.length, st.lavs.length + 1]) (i := ev.vertex)
    (R := fun k => if k = st.lavs.length + 1 then V else if k = st.lavs.length then U
        else R k) (by
      have e : st.slav.erase l ++ [st.lavs.length] ++ [st.lavs.length + 1] =
          t2.slav ++ [st.lavs.length, st.lavs.length + 1] := by
        rw [sl2, sl1]; simp
      rw [← e]
      refine hr2.congrW (fun k => ?_)
      simp only [hmem, List.mem_cons, not_or, false_or]
      constructor
      · rintro ⟨⟨(hk | hk | hk) | hk | hk, h1⟩, h2⟩ <;> tauto
      · rintro rfl
        have : ev.vertex < st.vs.length := hcl.lt _ hi
        refine ⟨⟨by tauto, by omega, ?_⟩, by omega, ?_⟩
        · intro hm; exact hiPQ (by simp [hm])
        · intro hm; exact hiPQ (by simp [hm])) (by
      intro m hm
      rw [sl2, sl1] at hm
      have hm' := List.mem_of_mem_erase hm
      have := h.lavs_lt hm'
      rw [if_neg (by omega), if_neg (by omega)]
      exact h.three m hm') [v.point]
  have hxl : (({ t with slav := st.slav.erase l } : St S)).lv x = some (some l) := by
    show t.lv x = _
    have := hQl x hxQ
    rw [l', if_neg (by omega), if_neg (by omega), ← h.mem l hl]
    exact hx
  obtain ⟨wx, hwx, hwx'⟩ := getV_total (st := { t with slav := st.slav.erase l }) (i := x) (by
    show x < t.vs.length
    rw [len]
    have := hQl x hxQ
    omega)
  have hwl : wx.lav = some l := by
    have := (vs_fields hwx').2.2.1
    rw [hxl] at this
    simpa using this.symm
  have hvl' : v.lav = some l := by
    have := (h.mem l hl ev.vertex).1 hi
    rw [hvl] at this
    simpa using this
  refine ⟨P, Q, U, V, st', [{ source := ev.pt, height := ev.dist, sinks := sinks' }], es, ?_, hperm, hss, hPy, hQx, hU, hV, hL, ?_, v, hv', ?_, ?_,
    by rw [len3, len2, len1]; exact len, ?_, ?_⟩
  · unfold splitAt splitLavs
    rw [hv, ok_bind, ht, ok_bind]
    simp only
    rw [hvl', removeLav_ok (by rw [sl]; exact hl), sl, ok_bind, hwx, ok_bind]
    rw [if_neg (by rw [hwl]; simp), ht1, ok_bind]
    simp only
    rw [ht2, ok_bind]
    simp only [pure_bind]
    rw [hk]
    simp only [ok_bind]
    rw [hes, ok_bind, hin, ok_bind]
    rfl
  · rw [hsl, sl2, sl1]
    congr 1
    have e1 : U.length = Q.length + 1 := by rw [hU.length_eq]; simp
    have e2 : V.length = P.length + 1 := by rw [hV.length_eq]; simp
    simp only [List.filter_cons, List.filter_nil]
    simp [e1, e2]
    by_cases q1 : 2 ≤ Q.length <;> by_cases q2 : 2 ≤ P.length <;>
      simp [q1, q2, show ∀ a : Nat, 2 < a + 1 ↔ 2 ≤ a by omega]
  · intro k; rw [n3, n2, n1]; exact n' k
  · intro k; rw [c3, c2, c1]; exact c' k
  · intro k
    have e1 : U.length = Q.length + 1 := by rw [hU.length_eq]; simp
    have e2 : V.length = P.length + 1 := by rw [hV.length_eq]; simp
    have hQ0 : 0 < Q.length := List.length_pos_of_mem hxQ
    have hP0 : 0 < P.length := List.length_pos_of_mem hyP
    rw [d3]
    have : (k = ev.vertex ∨ ∃ l_1 ∈ [st.lavs.length, st.lavs.length + 1],
        (if l_1 = st.lavs.length + 1 then V else if l_1 = st.lavs.length then U
          else R l_1).length ≤ 2 ∧ k ∈ if l_1 = st.lavs.length + 1 then V
            else if l_1 = st.lavs.length then U else R l_1) ↔
        (k = ev.vertex ∨ (Q.length = 1 ∧ (k = st.vs.length ∨ k ∈ Q)) ∨
          (P.length = 1 ∧ (k = st.vs.length + 1 ∨ k ∈ P))) := by
      simp only [List.mem_cons, List.not_mem_nil, or_false, exists_eq_or_imp, exists_eq_left,
        if_true, hU.mem_iff, hV.mem_iff, e1, e2,
        if_neg (show ¬ st.lavs.length = st.lavs.length + 1 by omega)]
      rw [show Q.length + 1 ≤ 2 ↔ Q.length = 1 by omega,
        show P.length + 1 ≤ 2 ↔ P.length = 1 by omega]
    simp only [this]
    congr 1
    rw [d2, d1]
    exact d' k
  · have e1 : U.length = Q.length + 1 := by rw [hU.length_eq]; simp
    have e2 : V.length = P.length + 1 := by rw [hV.length_eq]; simp
    rcases hF with _ | ⟨f1, _ | ⟨f2, _ | _⟩⟩
    rename_i sQ sP
    have cc : ∀ q < st.vs.length, t2.co q = st.co q := by
      intro q hq
      rw [c2, c1]
      show t.co q = _
      rw [c', if_neg (by omega), if_neg (by omega)]
    have g1 : t2.lavs[st.lavs.length]? = some { head := st.vs.length, len := Q.length + 1 } := by
      rw [la2, la1]
      show (t.lavs ++ _ ++ _)[_]? = _
      rw [la]
      simp
    have g2 : t2.lavs[st.lavs.length + 1]? =
        some { head := st.vs.length + 1, len := P.length + 1 } := by
      rw [la2, la1]
      show (t.lavs ++ _ ++ _)[_]? = _
      rw [la]
      simp
    refine ⟨sQ, sP, ?_, ?_, by rw [hE]; simp, ?_⟩
    rotate_left 2
    · rw [← hev]
      congr 1
      simp only [List.filter_cons, List.filter_nil]
      by_cases q1 : 2 ≤ Q.length <;> by_cases q2 : 2 ≤ P.length <;>
        simp [q1, q2, e1, e2, g1, g2, show ∀ a : Nat, 2 < a + 1 ↔ 2 ≤ a by omega]
    · refine lone_of_sinkOf (h := st.vs.length) (n := Q.length + 1) f1 (by simp [e1]) ?_
        (List.ne_nil_of_mem hxQ) ?_ (fun q hq => cc q (hQl q hq))
      · rw [la2, la1]
        show (t.lavs ++ _ ++ _)[_]? = _
        rw [la]
        simp
      · rw [n2, n1]
        show t.nx _ = _
        have : st.vs.length ≠ y := by have := hPl y hyP; omega
        have : st.vs.length ≠ v.prev := by rw [← hvp']; have := hQl p hpQ; omega
        rw [n', if_neg (by assumption), if_neg (by omega), if_neg (by assumption), if_pos rfl, hQx]
    · refine lone_of_sinkOf (h := st.vs.length + 1) (n := P.length + 1) f2 (by simp [e2]) ?_
        (List.ne_nil_of_mem hyP) ?_ (fun q hq => cc q (hPl q hq))
      · rw [la2, la1]
        show (t.lavs ++ _ ++ _)[_]? = _
        rw [la]
        simp
      · rw [n2, n1]
        show t.nx _ = _
        have : st.vs.length + 1 ≠ y := by have := hPl y hyP; omega
        rw [n', if_neg (by assumption), if_pos rfl, hPn, hvn']

/-- a split whose two sides lie on different lists: they become one -/
theorem splitAt_other {st : St S} {R : Nat → List Nat} (h : Loops st R) {ev : SplitEv S}
    {l m x y : Nat} (hl : l ∈ st.slav) (hi : ev.vertex ∈ R l) (hm : m ∈ st.slav) (hlm : m ≠ l)
    (hx : x ∈ R m) (hlk : Link st y x) :
    ∃ T Q U st' arcs es, splitAt st ev x y = .ok (st', arcs, es) ∧
      (ev.vertex :: T).Perm (R l) ∧ Seg st ev.vertex T ev.vertex ∧
      Q.Perm (R m) ∧ Q.head? = some x ∧ Q.getLast? = some y ∧ Seg st y Q x ∧
      U.Perm (st.vs.length :: (Q ++ (st.vs.length + 1) :: T)) ∧
      Loops st' (fun k => if k = st.lavs.length then U else R k) ∧
      st'.slav = (st.slav.erase l).erase m ++ [st.lavs.length] ∧
      ∃ v, st.vs[ev.vertex]? = some v ∧
      (∀ k, st'.nx k = if k = y then some (st.vs.length + 1)
        else if k = st.vs.length + 1 then some v.next
        else if k = v.prev then some st.vs.length
        else if k = st.vs.length then some x else st.nx k) ∧
      (∀ k, st'.co k = if k = st.vs.length + 1 then some (splitCore v ev false)
        else if k = st.vs.length then some (splitCore v ev true) else st.co k) ∧
      st'.vs.length = st.vs.length + 2 ∧
      (∀ k, st'.vd k = if k = ev.vertex then some false
        else if k = st.vs.length + 1 then some true
        else if k = st.vs.length then some true else st.vd k) ∧
      arcs = [{ source := ev.pt, height := ev.dist, sinks := [v.point] }] ∧
      nextEvents st' [st.vs.length] = .ok es := by
  have hcl := h.closed l hl
  have hcm := h.closed m hm
  obtain ⟨T, hs, hperm, hd⟩ := hcl.rotate hi
  obtain ⟨B, hsx, hpermx, hdx⟩ := hcm.rotate hx
  have hT : T ≠ [] := by
    rintro rfl
    have := hperm.length_eq
    have := h.three l hl
    simp at *
    omega
  have hy : (x :: B).getLast? = some y := by
    rw [← seg_last hsx]; exact (link_iff.1 hlk).2
  obtain ⟨n, hn⟩ : ∃ n, T.head? = some n := ⟨_, List.head?_eq_some_head hT⟩
  obtain ⟨p, hp⟩ : ∃ p, T.getLast? = some p := ⟨_, List.getLast?_eq_some_getLast hT⟩
  have hnx : st.nx ev.vertex = some n := by rw [seg_first hs, List.head?_append, hn]; rfl
  have hpv : st.pv ev.vertex = some p := by
    obtain ⟨a, T', rfl⟩ := List.exists_cons_of_ne_nil hT
    rw [seg_last hs, List.getLast?_cons_cons, hp]
  generalize hQ : x :: B = Q at *
  have hQx : Q.head? = some x := by rw [← hQ]; rfl
  have hsQ : Seg st y Q x := by rw [← hQ]; exact seg_cons.2 ⟨hlk, hsx⟩
  clear hQ hsx
  obtain ⟨v, hv, hv'⟩ := getV_total (hcl.lt _ hi)
  obtain ⟨hvn, hvp, hvl, -, -⟩ := vs_fields hv'
  have hvn' : n = v.next := by rw [hnx] at hvn; simpa using hvn
  have hvp' : p = v.prev := by rw [hpv] at hvp; simpa using hvp
  have hnT : n ∈ T := List.mem_of_mem_head? hn
  have hpT : p ∈ T := List.mem_of_getLast? hp
  have hyQ : y ∈ Q := List.mem_of_getLast? hy
  have hxQ : x ∈ Q := List.mem_of_mem_head? hQx
  have hmem : ∀ k, k ∈ R l ↔ k = ev.vertex ∨ k ∈ T := by
    intro k
    rw [← hperm.mem_iff]
    simp
  have hmem' : ∀ k, k ∈ R m ↔ k ∈ Q := fun k => hpermx.mem_iff.symm
  have hdis : ∀ k ∈ R l, k ∉ Q := fun k h1 h2 =>
    hlm (h.disjoint hm hl ((hmem' k).2 h2) h1)
  have hme : m ∈ st.slav.erase l := (h.nodup.mem_erase_iff).2 ⟨hlm, hm⟩
  have hdr := (h.rings.drop hl).drop hme
  obtain ⟨t, ht, hr, n', p', l', d', c', la, sl, len, og⟩ := splitLink_rings (ev := ev)
    (x := x) (y := y) hdr hv' (by simp [hmem', hxQ]) (by simp [hmem', hyQ])
    (by rw [← hvp']; simp [hmem, hpT]) (by rw [← hvn']; simp [hmem, hnT])
    (by
      rw [← hvp']
      rintro rfl
      exact (List.nodup_cons.1 hd).1 (by simp [hpT]))
  have hdT := (List.nodup_cons.1 hd).2
  have sQ := splitLink_other hv' hs hsQ hn hp hQx hy hdT hdx
    (fun k hk => hdis k ((hmem k).2 (Or.inr hk))) hnx hpv n' p'
  have hTl : ∀ k ∈ T, k < st.vs.length := fun k hk => seg_nx_lt hs k (List.mem_cons_of_mem _ hk)
  have hQl : ∀ k ∈ Q, k < st.vs.length := fun k hk => hcm.lt k ((hmem' k).2 hk)
  have hnd : (st.vs.length :: (Q ++ (st.vs.length + 1) :: T)).Nodup := by
    rw [List.nodup_cons, List.nodup_append, List.nodup_cons]
    refine ⟨?_, hdx, ⟨?_, hdT⟩, ?_⟩
    · intro hk
      rcases List.mem_append.1 hk with hk | hk
      · exact absurd (hQl _ hk) (lt_irrefl _)
      · rcases List.mem_cons.1 hk with hk | hk
        · omega
        · exact absurd (hTl _ hk) (lt_irrefl _)
    · intro hk; exact absurd (hTl _ hk) (by omega)
    · rintro a ha b hb rfl
      rcases List.mem_cons.1 hb with rfl | hb
      · exact absurd (hQl _ ha) (by omega)
      · exact hdis a ((hmem a).2 (Or.inr hb)) ha
  have hr0 := hr.slav ((st.slav.erase l).erase m)
  obtain ⟨t1, U, ht1, hU, hr1, n1, p1, d1, c1, l1, la1, sl1, len1, og1⟩ := hr0.chain
    (hd := st.vs.length) (vs := st.vs.length :: (Q ++ (st.vs.length + 1) :: T))
    (closed_congr (st := t) (fun _ _ => rfl) (fun _ _ => rfl) (.of_seg sQ hnd)) (by simp)
    (by
      intro k hk
      rcases List.mem_cons.1 hk with rfl | hk
      · simp
      · rcases List.mem_append.1 hk with hk | hk
        · simp [hmem', hk]
        · rcases List.mem_cons.1 hk with rfl | hk
          · simp
          · simp [hmem, hk])
  have hla : t.lavs.length = st.lavs.length := by rw [la]
  simp only [hla] at ht1 hr1
  have hUlen : 3 ≤ U.length := by
    rw [hU.length_eq]
    have := List.length_pos_of_mem hxQ
    simp
    omega
  obtain ⟨st1, sinks', heads, es, st', hk, hes, hin, hL, hsl, n3, p3, c3, d3, len3, og3, ⟨E, hE, hF⟩, hev⟩ :=
    splitTail_ok (st := t1) (X := [st.lavs.length]) (i := ev.vertex)
    (R := fun k => if k = st.lavs.length then U else R k) (by
      rw [sl1]
      refine hr1.congrW (fun k => ?_)
      simp only [hmem, hmem', List.mem_cons, List.mem_append, not_or, false_or]
      constructor
      · rintro ⟨((hk | hk) | hk) | hk | hk, h1⟩ <;> tauto
      · rintro rfl
        have : ev.vertex < st.vs.length := hcl.lt _ hi
        exact ⟨by tauto, by omega, hdis _ hi, by omega, (List.nodup_cons.1 hd).1⟩) (by
      intro j hj
      rw [sl1] at hj
      have hj' := List.mem_of_mem_erase (List.mem_of_mem_erase hj)
      have := h.lavs_lt hj'
      rw [if_neg (by omega)]
      exact h.three j hj') [v.point]
  have hxl : (({ t with slav := st.slav.erase l } : St S)).lv x = some (some m) := by
    show t.lv x = _
    have := hQl x hxQ
    rw [l', if_neg (by omega), if_neg (by omega), ← h.mem m hm]
    exact hx
  obtain ⟨wx, hwx, hwx'⟩ := getV_total (st := { t with slav := st.slav.erase l }) (i := x) (by
    show x < t.vs.length
    rw [len]
    have := hQl x hxQ
    omega)
  have hwl : wx.lav = some m := by
    have := (vs_fields hwx').2.2.1
    rw [hxl] at this
    simpa using this.symm
  have hvl' : v.lav = some l := by
    have := (h.mem l hl ev.vertex).1 hi
    rw [hvl] at this
    simpa using this
  refine ⟨T, Q, U, st', [{ source := ev.pt, height := ev.dist, sinks := sinks' }], es, ?_, hperm,
    hs, hpermx, hQx, hy, hsQ, hU, hL, ?_, v, hv', ?_, ?_,
    by rw [len3, len1]; exact len, ?_, ?_⟩
  · unfold splitAt splitLavs
    rw [hv, ok_bind, ht, ok_bind]
    simp only
    rw [hvl', removeLav_ok (by rw [sl]; exact hl), sl, ok_bind, hwx, ok_bind]
    rw [if_pos (by rw [hwl]; simpa using fun e => hlm e.symm), hwl,
      removeLav_ok (by exact hme), ok_bind]
    simp only
    rw [ht1, ok_bind]
    simp only [pure_bind]
    rw [hk]
    simp only [ok_bind]
    rw [hes, ok_bind, hin, ok_bind]
    rfl
  · rw [hsl, sl1]
    simp [show 2 < U.length by omega]
  · intro k; rw [n3, n1]; exact n' k
  · intro k; rw [c3, c1]; exact c' k
  · intro k
    rw [d3]
    have : (k = ev.vertex ∨ ∃ l_1 ∈ [st.lavs.length],
        (if l_1 = st.lavs.length then U else R l_1).length ≤ 2 ∧
          k ∈ if l_1 = st.lavs.length then U else R l_1) ↔ k = ev.vertex := by
      simp only [List.mem_singleton, exists_eq_left, if_true]
      constructor
      · rintro (h | h)
        · exact h
        · omega
      · exact Or.inl
    simp only [this]
    congr 1
    rw [d1]
    exact d' k
  · refine ⟨?_, ?_⟩
    · rcases hF with _ | ⟨f1, _ | _⟩
      rcases f1 with ⟨-, rfl⟩ | ⟨f1, -⟩
      · rw [hE]; simp
      · simp at f1; omega
    · rw [← hev]
      obtain ⟨j, g1⟩ : ∃ j, t1.lavs[st.lavs.length]? = some { head := st.vs.length, len := j } := by
        refine ⟨(st.vs.length :: (Q ++ (st.vs.length + 1) :: T)).length, ?_⟩
        rw [la1]
        show (t.lavs ++ _)[_]? = _
        rw [la]
        simp
      congr 1
      simp [show 2 < U.length by omega, g1]

end Polyskel
