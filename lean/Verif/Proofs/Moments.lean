import Verif.Spec.Moments
import Verif.Proofs.Initial
import Verif.Proofs.Events
/-
The wavefront stays closed: one event, and whole runs.
-/
namespace Polyskel
open Scalar
set_option linter.unusedSectionVars false
variable {S : Type} [Scalar S]

theorem seg_iff_chain {st : St S} {a : Nat} {P : List Nat} :
    Seg st a P a ↔ ((a :: P) ++ [a]).IsChain (Link st) := Iff.rfl

theorem closedLoops_iff {st : St S} : ClosedLoops st ↔ ∃ R, Loops st R := by
  constructor
  · intro h
    classical
    have hr : ∀ l, ∃ vs, l ∈ st.slav → ∃ o, st.lavs[l]? = some o ∧ Ring st o.head vs ∧
        (vs ++ [o.head]).IsChain (Link st) ∧ 3 ≤ vs.length ∧ o.len = vs.length ∧
        ∀ i, i ∈ vs ↔ ∃ v, st.vs[i]? = some v ∧ v.lav = some l := by
      intro l
      by_cases hl : l ∈ st.slav
      · obtain ⟨o, vs, h⟩ := h.ring l hl
        exact ⟨vs, fun _ => ⟨o, h⟩⟩
      · exact ⟨[], fun h => absurd h hl⟩
    choose R hR using hr
    have hlv : ∀ l i, (∃ v, st.vs[i]? = some v ∧ v.lav = some l) ↔ st.lv i = some (some l) := by
      intro l i
      unfold St.lv
      cases st.vs[i]? <;> simp
    refine ⟨R, h.distinct, ?_, ?_, ?_, ?_, ?_, ?_⟩
    · intro l hl
      obtain ⟨o, ho, hr, -, -, hlen, -⟩ := hR l hl
      exact ⟨o, ho, List.mem_of_mem_head? hr.2.1, hlen⟩
    · intro l hl
      obtain ⟨o, ho, hr, -, h3, hlen, -⟩ := hR l hl
      exact h3
    · intro l hl
      obtain ⟨o, ho, hr, hc, h3, hlen, -⟩ := hR l hl
      obtain ⟨hd, hh, -⟩ := hr
      cases hv : R l with
      | nil => rw [hv] at hh; simp at hh
      | cons a P =>
        rw [hv] at hh hc hd
        simp only [List.head?_cons, Option.some.injEq] at hh
        rw [← hh] at hc
        exact ⟨hd, a, P, rfl, hc⟩
    · intro l hl v
      obtain ⟨o, ho, hr, hc, h3, hlen, hm⟩ := hR l hl
      rw [hm, hlv]
    · intro i
      constructor
      · intro hv
        obtain ⟨v, hv'⟩ := getElem?_of_lt (vd_lt hv)
        have hvd := (vs_fields hv').2.2.2.1
        rw [hv] at hvd
        obtain ⟨l, hl, e⟩ := (h.valid i v hv').1 (by simpa using hvd.symm)
        exact ⟨l, hl, by rw [(vs_fields hv').2.2.1, e]⟩
      · rintro ⟨l, hl, e⟩
        obtain ⟨v, hv', e⟩ := (hlv l i).2 e
        rw [(vs_fields hv').2.2.2.1, (h.valid i v hv').2 ⟨l, hl, e⟩]
    · intro i hv
      obtain ⟨v, hv'⟩ := getElem?_of_lt (vd_lt hv)
      have hvd := (vs_fields hv').2.2.2.1
      rw [hv] at hvd
      rw [(vs_fields hv').2.2.1, h.invalid i v hv' (by simpa using hvd.symm)]
  · rintro ⟨R, h⟩
    refine ⟨h.nodup, ?_, ?_, ?_⟩
    · intro l hl
      obtain ⟨o, ho, hh, hlen⟩ := h.lav l hl
      obtain ⟨P, hs, hp, hd⟩ := (h.closed l hl).rotate hh
      refine ⟨o, o.head :: P, ho, ⟨hd, rfl, seg_succ hs⟩, hs, ?_, ?_, ?_⟩
      · rw [hp.length_eq]; exact h.three l hl
      · rw [hp.length_eq]; exact hlen
      · intro i
        rw [hp.mem_iff, h.mem l hl]
        unfold St.lv
        cases st.vs[i]? <;> simp
    · intro i v hv
      have := h.valid i
      rw [(vs_fields hv).2.2.2.1, (vs_fields hv).2.2.1] at this
      simpa using this
    · intro i v hv hvd
      have := h.invalid i
      rw [(vs_fields hv).2.2.2.1, (vs_fields hv).2.2.1] at this
      simpa [hvd] using this

/-- when a handler may fail although its event is apt -/
def MayFail (st : St S) : Event S → Prop
  | .edge _ => False
  | .split e => ∃ x y, splitSearch st e st.slav = .ok (some (x, y)) ∧
      (x = e.vertex ∨ y = e.vertex)
  | .dormer _ _ e0 e1 _ => ∃ v0 v1, st.vs[e0.vertex]? = some v0 ∧ st.vs[e1.vertex]? = some v1 ∧
      v0.bisector.intersect v1.bisector = none

/-- one apt event -/
theorem handleEvent_loops {st : St S} {R : Nat → List Nat} (h : Loops st R) {ev : Event S}
    (hk : Known st ev) (hap : Apt st ev) :
    (∃ e, handleEvent st ev = .error e ∧ MayFail st ev) ∨ handleEvent st ev = .ok none ∨
    ∃ st' arcs es R', handleEvent st ev = .ok (some (st', arcs, es)) ∧ Loops st' R' := by
  cases ev with
  | edge e =>
    obtain ⟨va, hva, hva'⟩ := getV_total hk.1
    obtain ⟨vb, hvb, hvb'⟩ := getV_total hk.2
    unfold handleEvent
    simp only
    rw [hva, ok_bind, hvb, ok_bind]
    by_cases hc : va.valid = true ∧ vb.valid = true
    · have hlk := hap va vb hva' hvb' hc.1 hc.2
      obtain ⟨l, hl, -, hm⟩ := h.lavOf hva' hc.1
      have : (!va.valid || !vb.valid) = false := by simp [hc.1, hc.2]
      rw [this]
      right; right
      by_cases hpk : va.prev = vb.next
      · obtain ⟨st', sinks, he, hL, -⟩ := handleEdge_peak h hl hm (link_iff.1 hlk).1 hva' hvb' hpk
        exact ⟨_, _, _, _, by simp only [Bool.false_eq_true, if_false]; rw [he]; rfl, hL⟩
      · obtain ⟨st', es, P, he, -, hL, -⟩ :=
          handleEdge_unify h hl hm (link_iff.1 hlk).1 hva' hvb' hpk
        exact ⟨_, _, _, _, by simp only [Bool.false_eq_true, if_false]; rw [he]; rfl, hL⟩
    · have : (!va.valid || !vb.valid) = true := by
        cases h1 : va.valid <;> cases h2 : vb.valid <;> simp_all
      rw [this]
      right; left; rfl
  | split e =>
    obtain ⟨v, hv, hv'⟩ := getV_total hk
    unfold handleEvent
    simp only
    rw [hv, ok_bind]
    cases hc : v.valid with
    | false => right; left; rfl
    | true =>
      obtain ⟨l, hl, -, hm⟩ := h.lavOf hv' hc
      simp only [Bool.not_true, Bool.false_eq_true, if_false]
      rcases handleSplit_loops h hl hm with ⟨st', arcs, es, R', he, hL⟩ | ⟨x, y, hs, hxy, e', he⟩
      · right; right
        exact ⟨st', arcs, es, R', by rw [he]; rfl, hL⟩
      · left
        exact ⟨e', by rw [he]; rfl, x, y, hs, hxy⟩
  | dormer d p e0 e1 e2 =>
    obtain ⟨v0, hv0, hv0'⟩ := getV_total hk.1
    obtain ⟨v1, hv1, hv1'⟩ := getV_total hk.2.1
    unfold handleEvent
    simp only
    rw [hv0, ok_bind, hv1, ok_bind]
    by_cases hc : v0.valid = true ∧ v1.valid = true
    · obtain ⟨⟨x, y, a1, a2, a3⟩, l', o, hl', ho, h7⟩ := hap v0 v1 hv0' hv1' hc.1 hc.2
      obtain ⟨l, hl, hlv, hm⟩ := h.lavOf hv0' hc.1
      have : l' = l := by rw [hlv] at hl'; simpa using hl'.symm
      subst this
      obtain ⟨o', ho', -, hlen⟩ := h.lav l' hl
      rw [ho] at ho'
      simp only [Option.some.injEq] at ho'
      subst ho'
      have : (!v0.valid || !v1.valid) = false := by simp [hc.1, hc.2]
      rw [this]
      simp only [Bool.false_eq_true, if_false]
      obtain ⟨w0, w1, hw0, hw1, hcase⟩ := handleDormer_loops (e2 := e2) h hl hm
        (by rw [seg_cons, seg_cons, seg_nil]; exact ⟨a1, a2, a3⟩) (by omega) hk.2.2.1 hk.2.2.2
      rcases hcase with ⟨hn, he⟩ | ⟨-, Q, U, st', arcs, he, -, -, hL, -⟩
      · left
        exact ⟨_, by rw [he]; rfl, w0, w1, hw0, hw1, hn⟩
      · right; right
        exact ⟨st', arcs, [], _, by rw [he]; rfl, hL⟩
    · have : (!v0.valid || !v1.valid) = true := by
        cases h1 : v0.valid <;> cases h2 : v1.valid <;> simp_all
      rw [this]
      right; left; rfl

theorem Proposed.known {st : St S} {e : Event S} (h : Proposed st e) : Known st e := by
  obtain ⟨st0, id, h, hf⟩ := h
  obtain ⟨v, p, n, hv, hp, hn, h⟩ := nextEvent_mem h
  have lt : ∀ {i : Nat} {w : Vtx S}, st0.vs[i]? = some w → i < st.vs.length := by
    intro i w hw
    obtain ⟨w', hw', -⟩ := hf.keep i w hw
    exact (List.getElem?_eq_some_iff.1 hw').1
  rcases h with h | ⟨e', rfl, -, -, oe, -, h⟩
  · rcases mem_edgesOf h with ⟨_, _, rfl⟩ | ⟨_, _, rfl⟩
    · exact ⟨lt hp, lt hv⟩
    · exact ⟨lt hv, lt hn⟩
  · show e'.vertex < _
    rw [(splitCandidate_some h).1]
    exact lt hv

theorem Pending.known {st : St S} {e : Event S} (h : Pending st e) : Known st e := by
  cases e with
  | dormer d p e0 e1 e2 => exact ⟨h.1.known, h.2.1.known, h.2.2.known.1, h.2.2.known.2⟩
  | edge e => exact Proposed.known h
  | split e => exact Proposed.known h

/-- a closed wavefront, and events that were proposed in it or earlier -/
def Sound (st : St S) (evs : List (Event S)) : Prop :=
  (∃ R, Loops st R) ∧ ∀ e ∈ evs, Pending st e

theorem stepEvent_sound {lp : Loop S} {e : Event S} {es : List (Event S)}
    (h : Sound lp.st (e :: es ++ lp.queue)) (hap : Apt lp.st e) :
    (∃ err, stepEvent lp e = .error err ∧ handleEvent lp.st e = .error err ∧ MayFail lp.st e) ∨
    ∃ lp', stepEvent lp e = .ok lp' ∧ Sound lp'.st (es ++ lp'.queue) := by
  obtain ⟨⟨R, hL⟩, hp⟩ := h
  unfold stepEvent
  rcases handleEvent_loops hL (hp e (by simp)).known hap with ⟨err, he, hm⟩ | he |
    ⟨st', arcs, evs, R', he, hL'⟩
  · left
    exact ⟨err, by rw [he]; rfl, he, hm⟩
  · right
    refine ⟨lp, by rw [he]; rfl, ⟨R, hL⟩, fun x hx => hp x ?_⟩
    simp only [List.cons_append, List.mem_cons]
    exact Or.inr hx
  · right
    refine ⟨_, by rw [he]; rfl, ⟨R', hL'⟩, fun x hx => ?_⟩
    have hf := handleEvent_frame he
    rcases List.mem_append.1 hx with hx | hx
    · exact (hp x (by simp [hx])).later hf
    · rw [(C08_putAll_perm _ _).mem_iff] at hx
      rcases List.mem_append.1 hx with hx | hx
      · exact (hp x (by simp [hx])).later hf
      · exact (handleEvent_events he x hx).pending

theorem batchMoments_sound {es : List (Event S)} {lp : Loop S}
    (h : Sound lp.st (es ++ lp.queue)) {A B : List (St S × Event S)} {p : St S × Event S}
    (he : batchMoments lp es = A ++ p :: B) (hA : ∀ a ∈ A, Apt a.1 a.2) :
    ClosedLoops p.1 ∧ Pending p.1 p.2 := by
  induction es generalizing lp A with
  | nil => simp [batchMoments] at he
  | cons e es ih =>
    unfold batchMoments at he
    cases A with
    | nil =>
      simp only [List.nil_append, List.cons.injEq] at he
      rw [← he.1]
      exact ⟨closedLoops_iff.2 h.1, h.2 e (by simp)⟩
    | cons a A =>
      simp only [List.cons_append, List.cons.injEq] at he
      have hap := hA a (by simp)
      rw [← he.1] at hap
      rcases stepEvent_sound h hap with ⟨err, h1, -⟩ | ⟨lp', h1, hs⟩
      · rw [h1] at he; simp at he
      · rw [h1] at he
        exact ih hs he.2 (fun x hx => hA x (List.mem_cons_of_mem _ hx))

theorem stepBatch_sound {es : List (Event S)} {lp : Loop S}
    (h : Sound lp.st (es ++ lp.queue)) (hA : ∀ a ∈ batchMoments lp es, Apt a.1 a.2) :
    (∃ err, stepBatch lp es = .error err ∧ ∃ p ∈ batchMoments lp es,
      handleEvent p.1 p.2 = .error err ∧ MayFail p.1 p.2) ∨
    ∃ lp', stepBatch lp es = .ok lp' ∧ Sound lp'.st lp'.queue := by
  induction es generalizing lp with
  | nil => exact Or.inr ⟨lp, rfl, by simpa using h⟩
  | cons e es ih =>
    unfold batchMoments at hA
    have hap := hA (lp.st, e) (by simp)
    unfold stepBatch
    rcases stepEvent_sound h hap with ⟨err, h1, h2, h3⟩ | ⟨lp', h1, hs⟩
    · left
      rw [h1]
      exact ⟨err, rfl, (lp.st, e), by simp [batchMoments], h2, h3⟩
    · rw [h1] at hA
      simp only at hA
      rw [h1, ok_bind]
      rcases ih hs (fun a ha => hA a (List.mem_cons_of_mem _ ha)) with ⟨err, g1, p, hp, g2⟩ | g
      · left
        refine ⟨err, g1, p, ?_, g2⟩
        unfold batchMoments
        rw [h1]
        exact List.mem_cons_of_mem _ hp
      · exact Or.inr g

theorem take_sound {lp : Loop S} {batch q : List (Event S)} (h : Sound lp.st lp.queue)
    (hq : getAllEqualDistance lp.queue = some (batch, q)) :
    Sound ({ lp with queue := q } : Loop S).st (batch ++ ({ lp with queue := q } : Loop S).queue) :=
  ⟨h.1, fun e he => h.2 e (((C09_getAllEqualDistance_perm lp.queue).2 batch q hq).1.mem_iff.1 he)⟩

theorem moments_sound {k : Nat} {lp : Loop S} (h : Sound lp.st lp.queue)
    {A B : List (St S × Event S)} {p : St S × Event S} (he : moments k lp = A ++ p :: B)
    (hA : ∀ a ∈ A, Apt a.1 a.2) : ClosedLoops p.1 ∧ Pending p.1 p.2 := by
  induction k generalizing lp A with
  | zero => simp [moments] at he
  | succ k ih =>
    unfold moments at he
    split at he
    · simp at he
    · split at he
      · simp at he
      · rename_i batch q hq
        have hs := take_sound h hq
        rcases List.append_eq_append_iff.1 he with ⟨C, rfl, hC⟩ | ⟨C, hC, hC2⟩
        · -- after the batch
          rcases stepBatch_sound hs (fun a ha => hA a (by simp [ha])) with ⟨err, g1, -⟩ | ⟨lp', g1, hs'⟩
          · rw [g1] at hC; simp at hC
          · rw [g1] at hC
            exact ih hs' hC (fun a ha => hA a (by simp [ha]))
        · cases C with
          | nil =>
            simp only [List.append_nil] at hC
            subst hC
            rcases stepBatch_sound hs hA with ⟨err, g1, -⟩ | ⟨lp', g1, hs'⟩
            · rw [g1] at hC2; simp at hC2
            · rw [g1] at hC2
              simp only [List.nil_append] at hC2
              exact ih (A := []) hs' hC2.symm (by simp)
          | cons c C =>
            simp only [List.cons_append, List.cons.injEq] at hC2
            obtain ⟨rfl, -⟩ := hC2
            exact batchMoments_sound hs hC hA

theorem mainLoop_sound {k : Nat} {lp : Loop S} (h : Sound lp.st lp.queue)
    (hA : ∀ a ∈ moments k lp, Apt a.1 a.2) :
    mainLoop k lp = none ∨
    (∃ err, mainLoop k lp = some (.error err) ∧ ∃ p ∈ moments k lp,
      handleEvent p.1 p.2 = .error err ∧ MayFail p.1 p.2) ∨
    ∃ lp', mainLoop k lp = some (.ok lp') ∧ Sound lp'.st lp'.queue := by
  induction k generalizing lp with
  | zero =>
    unfold mainLoop
    split
    · exact Or.inr (Or.inr ⟨lp, rfl, h⟩)
    · exact Or.inl rfl
  | succ k ih =>
    unfold mainLoop
    unfold moments at hA
    by_cases hfin : (lp.queue.isEmpty || lp.st.slav.isEmpty) = true
    · rw [if_pos hfin]
      exact Or.inr (Or.inr ⟨lp, rfl, h⟩)
    · rw [if_neg hfin] at hA
      rw [if_neg hfin]
      cases hq : getAllEqualDistance lp.queue with
      | none =>
        exfalso
        rw [(C09_getAllEqualDistance_perm lp.queue).1] at hq
        simp [hq] at hfin
      | some bq =>
        obtain ⟨batch, q⟩ := bq
        rw [hq] at hA
        simp only at hA ⊢
        have hs := take_sound h hq
        rcases stepBatch_sound hs (fun a ha => hA a (by simp [ha])) with
          ⟨err, g1, p, hp, g2⟩ | ⟨lp', g1, hs'⟩
        · right; left
          rw [g1]
          refine ⟨err, rfl, p, ?_, g2⟩
          unfold moments
          rw [if_neg hfin, hq]
          simp [hp]
        · rw [g1] at hA
          simp only [g1] at hA ⊢
          rcases ih hs' (fun a ha => hA a (by simp [ha])) with g | ⟨err, e1, p, hp, e2⟩ | g
          · exact Or.inl g
          · right; left
            refine ⟨err, e1, p, ?_, e2⟩
            unfold moments
            rw [if_neg hfin, hq]
            simp [g1, hp]
          · exact Or.inr (Or.inr g)

theorem startLoop_sound {cs : List (List (Edge2 S))} {lp : Loop S} (h3 : ∀ c ∈ cs, 3 ≤ c.length)
    (hr : startLoop cs = .ok lp) : Sound lp.st lp.queue := by
  obtain ⟨st, R, h1, hL, -⟩ := mkSlav_loops h3
  rw [(startLoop_ok hr).1] at h1
  simp only [Except.ok.injEq] at h1
  subst h1
  exact ⟨⟨R, hL⟩, startLoop_pending hr⟩

/-! ### runs without splits -/

theorem handleEdge_events {st st' : St S} {ev : EdgeEv S} {arcs : List (Subtree S)}
    {es : List (Event S)} (h : handleEdge st ev = .ok (st', arcs, es)) :
    ∀ e ∈ es, ∃ id, nextEvent st' id = .ok (some e) := by
  unfold handleEdge at h
  obtain ⟨va, hva, h⟩ := bind_ok.1 h
  obtain ⟨vb, hvb, h⟩ := bind_ok.1 h
  split at h
  · obtain ⟨s, -, h⟩ := bind_ok.1 h
    split at h
    · cases h
    · obtain ⟨vs, -, h⟩ := bind_ok.1 h
      obtain ⟨sinks, -, h⟩ := bind_ok.1 h
      obtain ⟨s, -, h⟩ := bind_ok.1 h
      simp only [pure_ok, Except.ok.injEq, Prod.mk.injEq] at h
      obtain ⟨-, -, rfl⟩ := h
      simp
  · split at h
    · cases h
    · obtain ⟨⟨s, r⟩, -, h⟩ := bind_ok.1 h
      obtain ⟨o, -, h⟩ := bind_ok.1 h
      obtain ⟨ne, hne, h⟩ := bind_ok.1 h
      simp only [pure_ok, Except.ok.injEq, Prod.mk.injEq] at h
      obtain ⟨rfl, -, rfl⟩ := h
      intro e he
      cases ne with
      | none => simp at he
      | some e' =>
        simp only [Option.toList_some, List.mem_singleton] at he
        exact ⟨r, by rw [hne, he]⟩

/-- an event proposed by a vertex of a closed list is apt at that moment -/
theorem apt_of_nextEvent {st : St S} {R : Nat → List Nat} (h : Loops st R) {id : Nat}
    {e : EdgeEv S} (he : nextEvent st id = .ok (some (.edge e))) : Apt st (.edge e) := by
  obtain ⟨v, p, n, hv, hp, hn, hcase⟩ := nextEvent_mem he
  obtain ⟨fn, fp, -⟩ := vs_fields hv
  intro va vb hva hvb h1 h2
  rcases hcase with hm | ⟨_, e', -⟩
  · rcases mem_edgesOf hm with ⟨i, -, heq⟩ | ⟨i, -, heq⟩
    · simp only [Event.edge.injEq] at heq
      subst heq
      obtain ⟨l, hl, -, hm⟩ := h.lavOf hvb h2
      have hpv := (h.closed l hl).pv_mem hm fp
      exact link_iff.2 ⟨hpv.2, fp⟩
    · simp only [Event.edge.injEq] at heq
      subst heq
      obtain ⟨l, hl, -, hm⟩ := h.lavOf hva h1
      have hnx := (h.closed l hl).nx_mem hm fn
      exact link_iff.2 ⟨fn, hnx.2⟩
  · cases e'

/-- an edge event separates no two neighbours that stay valid -/
theorem handleEdge_keeps_links {st : St S} {R : Nat → List Nat} (h : Loops st R) {ev : EdgeEv S}
    {va vb : Vtx S} (hva : st.vs[ev.a]? = some va) (hvb : st.vs[ev.b]? = some vb)
    (ha : va.valid = true) (hlk : Link st ev.a ev.b)
    {st' : St S} {arcs : List (Subtree S)} {es : List (Event S)}
    (he : handleEdge st ev = .ok (st', arcs, es)) {c d : Nat} (hcd : Link st c d)
    (hc : st'.vd c = some true) (hd : st'.vd d = some true) : Link st' c d := by
  obtain ⟨l, hl, -, hm⟩ := h.lavOf hva ha
  obtain ⟨hcd1, hcd2⟩ := link_iff.1 hcd
  by_cases hpk : va.prev = vb.next
  · obtain ⟨t, sinks, e, -, -, -, -, -, -, n, p, -⟩ :=
      handleEdge_peak h hl hm (link_iff.1 hlk).1 hva hvb hpk
    rw [e] at he
    simp only [Except.ok.injEq, Prod.mk.injEq] at he
    obtain ⟨rfl, -, -⟩ := he
    rw [link_iff, n, p]
    exact ⟨hcd1, hcd2⟩
  · obtain ⟨t, es', P, e, hperm, -, -, -, -, -, n, p, v, -⟩ :=
      handleEdge_unify h hl hm (link_iff.1 hlk).1 hva hvb hpk
    rw [e] at he
    simp only [Except.ok.injEq, Prod.mk.injEq] at he
    obtain ⟨rfl, -, -⟩ := he
    have hcl := h.closed l hl
    have hcN := nx_lt hcd1
    have hdN := pv_lt hcd2
    have hpa := (hcl.pv_mem hm (vs_fields hva).2.1).2
    have hbm : ev.b ∈ R l := hperm.mem_iff.1 (by simp)
    have hnb := (hcl.nx_mem hbm (vs_fields hvb).1).2
    rw [v, if_neg (by omega)] at hc hd
    have hc' : ¬ (c = ev.a ∨ c = ev.b) := by intro hh; rw [if_pos hh] at hc; simp at hc
    have hd' : ¬ (d = ev.a ∨ d = ev.b) := by intro hh; rw [if_pos hh] at hd; simp at hd
    have q1 : c ≠ va.prev := by
      rintro rfl
      rw [hpa] at hcd1
      simp only [Option.some.injEq] at hcd1
      exact hd' (Or.inl hcd1.symm)
    have q2 : d ≠ vb.next := by
      rintro rfl
      rw [hnb] at hcd2
      simp only [Option.some.injEq] at hcd2
      exact hc' (Or.inr hcd2.symm)
    rw [link_iff, n, p, if_neg (by omega), if_neg q1, if_neg (by omega), if_neg q2]
    exact ⟨hcd1, hcd2⟩

/-- the event is an edge event, or does nothing -/
def Quiet (st : St S) : Event S → Prop
  | .edge _ => True
  | e => ∀ st' arcs es, handleEvent st e = .ok (some (st', arcs, es)) → st' = st ∧ es = []

/-- sound, and all edge events are apt -/
def Tight (st : St S) (evs : List (Event S)) : Prop :=
  Sound st evs ∧ ∀ e, .edge e ∈ evs → Apt st (.edge e)

theorem stepEvent_tight {lp lp' : Loop S} {e : Event S} {es : List (Event S)}
    (h : Tight lp.st (e :: es ++ lp.queue)) (hq : Quiet lp.st e)
    (hs : stepEvent lp e = .ok lp') : Tight lp'.st (es ++ lp'.queue) := by
  obtain ⟨hso, hap⟩ := h
  unfold stepEvent at hs
  obtain ⟨r, hr, hs⟩ := bind_ok.1 hs
  cases r with
  | none =>
    simp only [pure_ok, Except.ok.injEq] at hs
    subst hs
    exact ⟨⟨hso.1, fun x hx => hso.2 x (by simp only [List.cons_append, List.mem_cons]; exact Or.inr hx)⟩,
      fun x hx => hap x (by simp only [List.cons_append, List.mem_cons]; exact Or.inr hx)⟩
  | some r =>
    obtain ⟨st', arcs, evs⟩ := r
    simp only [pure_ok, Except.ok.injEq] at hs
    subst hs
    have hmem : ∀ x, x ∈ es ++ putAll lp.queue evs → x ∈ e :: es ++ lp.queue ∨ x ∈ evs := by
      intro x hx
      rcases List.mem_append.1 hx with hx | hx
      · left; simp [hx]
      · rw [(C08_putAll_perm _ _).mem_iff] at hx
        rcases List.mem_append.1 hx with hx | hx
        · left; simp [hx]
        · exact Or.inr hx
    have hf := handleEvent_frame hr
    by_cases hed : ∃ e', e = .edge e'
    · obtain ⟨e', rfl⟩ := hed
      have hape := hap e' (by simp)
      obtain ⟨R, hL⟩ := hso.1
      rcases handleEvent_cases hr with ⟨e, va, vb, heq, hva, hvb, h1, h2, he⟩ | ⟨e, v, heq, -⟩ |
        ⟨d, p, e0, e1, e2, v0, v1, heq, -⟩
      · simp only [Event.edge.injEq] at heq
        subst heq
        have hlk := hape va vb hva hvb h1 h2
        obtain ⟨R', hL'⟩ : ∃ R', Loops st' R' := by
          rcases handleEvent_loops hL (hso.2 _ (by simp)).known hape with ⟨err, he, -⟩ | he |
            ⟨s, a, evs', R', he, hL'⟩
          · rw [hr] at he; cases he
          · rw [hr] at he; cases he
          · rw [hr] at he
            simp only [Except.ok.injEq, Option.some.injEq, Prod.mk.injEq] at he
            obtain ⟨rfl, -⟩ := he
            exact ⟨R', hL'⟩
        refine ⟨⟨⟨R', hL'⟩, ?_⟩, ?_⟩
        · intro x hx
          rcases hmem x hx with hx | hx
          · exact (hso.2 x hx).later hf
          · exact (handleEvent_events hr x hx).pending
        · intro x hx
          rcases hmem _ hx with hx | hx
          · intro wa wb hwa hwb g1 g2
            obtain ⟨ua, hua, hua'⟩ := getV_total (hso.2 _ hx).known.1
            obtain ⟨ub, hub, hub'⟩ := getV_total (hso.2 _ hx).known.2
            obtain ⟨wa', hwa', -, k1⟩ := hf.keep _ _ hua'
            obtain ⟨wb', hwb', -, k2⟩ := hf.keep _ _ hub'
            rw [hwa] at hwa'
            rw [hwb] at hwb'
            simp only [Option.some.injEq] at hwa' hwb'
            subst hwa' hwb'
            have hl := hap x hx ua ub hua' hub' (k1 g1) (k2 g2)
            refine handleEdge_keeps_links hL hva hvb h1 hlk he hl ?_ ?_
            · rw [(vs_fields hwa).2.2.2.1, g1]
            · rw [(vs_fields hwb).2.2.2.1, g2]
          · obtain ⟨id, hid⟩ := handleEdge_events he _ hx
            exact apt_of_nextEvent hL' hid
      · cases heq
      · cases heq
    · have : st' = lp.st ∧ evs = [] := by
        cases e with
        | edge e' => exact absurd ⟨e', rfl⟩ hed
        | split e' => exact hq st' arcs evs hr
        | dormer d p e0 e1 e2 => exact hq st' arcs evs hr
      obtain ⟨rfl, rfl⟩ := this
      refine ⟨⟨hso.1, fun x hx => ?_⟩, fun x hx => ?_⟩
      · rcases hmem x hx with hx | hx
        · exact hso.2 x hx
        · simp at hx
      · rcases hmem _ hx with hx | hx
        · exact hap x hx
        · simp at hx

theorem batchMoments_tight {es : List (Event S)} {lp : Loop S}
    (h : Tight lp.st (es ++ lp.queue)) (hq : ∀ a ∈ batchMoments lp es, Quiet a.1 a.2) :
    (∀ a ∈ batchMoments lp es, ∀ e, a.2 = .edge e → Apt a.1 (.edge e)) ∧
    ∀ lp', stepBatch lp es = .ok lp' → Tight lp'.st lp'.queue := by
  induction es generalizing lp with
  | nil =>
    refine ⟨by simp [batchMoments], fun lp' hs => ?_⟩
    cases hs
    simpa using h
  | cons e es ih =>
    unfold batchMoments at hq ⊢
    have hqe := hq (lp.st, e) (by simp)
    unfold stepBatch
    cases h1 : stepEvent lp e with
    | error err =>
      simp only [List.mem_singleton]
      refine ⟨?_, by intro lp' hs; cases hs⟩
      rintro a rfl e' he
      exact h.2 e' (by simp only at he; simp [he])
    | ok lp1 =>
      rw [h1] at hq
      simp only at hq ⊢
      obtain ⟨i1, i2⟩ := ih (stepEvent_tight h hqe h1) (fun a ha => hq a (List.mem_cons_of_mem _ ha))
      refine ⟨?_, fun lp' hs => i2 lp' hs⟩
      intro a ha e' he
      rcases List.mem_cons.1 ha with rfl | ha
      · exact h.2 e' (by simp only at he; simp [he])
      · exact i1 a ha e' he

theorem moments_tight {k : Nat} {lp : Loop S} (h : Tight lp.st lp.queue)
    (hq : ∀ a ∈ moments k lp, Quiet a.1 a.2) :
    ∀ a ∈ moments k lp, ∀ e, a.2 = .edge e → Apt a.1 (.edge e) := by
  induction k generalizing lp with
  | zero => simp [moments]
  | succ k ih =>
    unfold moments at hq ⊢
    split
    · simp
    · rename_i hfin
      rw [if_neg hfin] at hq
      split
      · simp
      · rename_i batch q hg
        rw [hg] at hq
        simp only at hq
        have ht : Tight ({ lp with queue := q } : Loop S).st
            (batch ++ ({ lp with queue := q } : Loop S).queue) :=
          ⟨take_sound h.1 hg, fun e he => h.2 e
            (((C09_getAllEqualDistance_perm lp.queue).2 batch q hg).1.mem_iff.1 he)⟩
        obtain ⟨i1, i2⟩ := batchMoments_tight ht (fun a ha => hq a (List.mem_append_left _ ha))
        intro a ha
        rcases List.mem_append.1 ha with ha | ha
        · exact i1 a ha
        · cases hb : stepBatch { lp with queue := q } batch with
          | error err => rw [hb] at ha; simp at ha
          | ok lp' =>
            rw [hb] at ha hq
            exact ih (i2 lp' hb) (fun x hx => hq x (List.mem_append_right _ hx)) a ha

theorem startLoop_tight {cs : List (List (Edge2 S))} {lp : Loop S} (h3 : ∀ c ∈ cs, 3 ≤ c.length)
    (hr : startLoop cs = .ok lp) : Tight lp.st lp.queue := by
  have hs := startLoop_sound h3 hr
  refine ⟨hs, ?_⟩
  obtain ⟨-, -, ds, init, init', -, hi, hp, hq⟩ := startLoop_ok hr
  obtain ⟨R, hL⟩ := hs.1
  intro e he
  rw [hq, (C08_putAll_perm _ _).mem_iff] at he
  simp only [List.nil_append, List.mem_filterMap, id, exists_eq_right] at he
  have hin : some (.edge e) ∈ init := by
    split at hp
    · cases hp; exact he
    · rcases processDormers_mem hp _ he with h | ⟨d, -, h⟩
      · exact h
      · obtain ⟨e0, e1, e2, vp, vn, -, -, -, -, -, h⟩ := dormerEvent_some h
        cases h
  unfold initialEvents at hi
  obtain ⟨ids, -, hi⟩ := bind_ok.1 hi
  obtain ⟨id, -, h1⟩ := forall₂_mem_right (mapM_ok hi) hin
  exact apt_of_nextEvent hL h1

end Polyskel
