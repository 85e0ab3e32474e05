import Mathlib.Tactic.Linarith
import Mathlib.Data.List.Nodup
import Verif.Props.Merge
import Verif.Props.Basic
import Verif.Props.Geometry
/-
C33: `removeGhosts`.
-/
namespace Polyskel
open Scalar

section
variable {S : Type} [Scalar S]

/-- positions and heights of the nodes -/
def skelNodes (sk : List (Subtree S)) : List (V2 S × S) := sk.map (fun a => (a.source, a.height))

/-- all sinks -/
def allSinks (sk : List (Subtree S)) : List (V2 S) := sk.flatMap (·.sinks)

theorem vremove_ok {l r : List (V2 S)} {s : V2 S} (h : vremove l s = .ok r) :
    ∃ A t B, l = A ++ t :: B ∧ r = A ++ B ∧ V2.veq t s = true ∧ ∀ a ∈ A, V2.veq a s = false := by
  induction l generalizing r with
  | nil => cases h
  | cons t l ih =>
    unfold vremove at h
    split at h
    · rename_i hv; cases h; exact ⟨[], t, l, rfl, rfl, hv, by simp⟩
    · rename_i hv
      obtain ⟨r', hr', h⟩ := bind_ok.1 h
      cases h
      obtain ⟨A, t', B, rfl, rfl, h1, h2⟩ := ih hr'
      exact ⟨t :: A, t', B, rfl, rfl, h1, by simpa [hv] using h2⟩

theorem vremove_error {l : List (V2 S)} {s : V2 S} {e : PyErr} (h : vremove l s = .error e) :
    e = .value ∧ V2.mem s l = false := by
  induction l with
  | nil => cases h; simp [V2.mem]
  | cons t l ih =>
    unfold vremove at h
    split at h
    · cases h
    · rename_i hv
      rcases bind_error.1 h with h | ⟨_, _, h⟩
      · obtain ⟨h1, h2⟩ := ih h
        refine ⟨h1, ?_⟩
        simp only [V2.mem, List.any_cons, Bool.or_eq_false_iff] at h2 ⊢
        exact ⟨by simpa using hv, h2⟩
      · cases h

/-- the new list of arcs has the same nodes, no more connections, and no new sinks -/
structure Shrinks (sk sk' : List (Subtree S)) : Prop where
  nodes : skelNodes sk' = skelNodes sk
  sinks : ∀ p ∈ allSinks sk', p ∈ allSinks sk
  count : (allSinks sk').length ≤ (allSinks sk).length

theorem Shrinks.refl (sk : List (Subtree S)) : Shrinks sk sk := ⟨rfl, fun _ h => h, Nat.le_refl _⟩
theorem Shrinks.trans {a b c : List (Subtree S)} (h : Shrinks a b) (h' : Shrinks b c) : Shrinks a c :=
  ⟨h'.nodes.trans h.nodes, fun p hp => h.sinks p (h'.sinks p hp), h'.count.trans h.count⟩

theorem Shrinks.length {a b : List (Subtree S)} (h : Shrinks a b) : b.length = a.length := by
  have := congrArg List.length h.nodes
  simpa [skelNodes] using this

theorem edgeCount_eq (sk : List (Subtree S)) : edgeCount sk = (allSinks sk).length := by
  simp [edgeCount, allSinks, List.length_flatMap]

theorem nodes_modify (sk : List (Subtree S)) (j : Nat) (f : Subtree S → List (V2 S)) :
    skelNodes (sk.modify j (fun a => { a with sinks := f a })) = skelNodes sk :=
  modify_map_of_eq (fun _ => rfl)

theorem allSinks_modify (sk : List (Subtree S)) (j : Nat) (f : Subtree S → List (V2 S)) (a : Subtree S)
    (h : sk[j]? = some a) :
    (allSinks (sk.modify j (fun a => { a with sinks := f a })) ++ a.sinks).Perm
      (allSinks sk ++ f a) := by
  induction sk generalizing j with
  | nil => simp at h
  | cons b sk ih =>
    cases j with
    | zero =>
      simp at h; subst h
      simp only [allSinks, List.modify_zero_cons, List.flatMap_cons]
      refine List.perm_append_comm.trans ?_
      rw [List.append_assoc]
      exact List.Perm.append_left _ List.perm_append_comm
    | succ j =>
      simp at h
      simp only [allSinks, List.modify_succ_cons, List.flatMap_cons, List.append_assoc]
      exact List.Perm.append_left _ (ih j h)

theorem moveSink_spec {sk sk' : List (Subtree S)} {i j : Nat} {far near : V2 S}
    (h : moveSink sk i j far near = .ok sk') :
    skelNodes sk' = skelNodes sk ∧ (∀ p ∈ allSinks sk', p ∈ allSinks sk ∨ p = far) ∧
      (allSinks sk').length + 1 ≤ (allSinks sk).length := by
  unfold moveSink at h
  obtain ⟨a, ha, h⟩ := bind_ok.1 h
  obtain ⟨s, hs, h⟩ := bind_ok.1 h
  obtain ⟨s', hs', h⟩ := bind_ok.1 h
  cases h
  have hai : (sk.modify j (fun a => { a with sinks := a.sinks ++ [far] }))[i]? = some a := by
    unfold getArc at ha
    cases hc : (sk.modify j (fun a => { a with sinks := a.sinks ++ [far] }))[i]? with
    | none => rw [hc] at ha; cases ha
    | some x => rw [hc] at ha; cases ha; rfl
  obtain ⟨A, t, B, e1, rfl, _, _⟩ := vremove_ok hs
  obtain ⟨C, u, D, e2, rfl, _, _⟩ := vremove_ok hs'
  have hp := allSinks_modify _ i (fun _ => C ++ D) a hai
  have hsub : ∀ p ∈ C ++ D, p ∈ a.sinks := by
    intro p hp
    have h1 : p ∈ A ++ B := by
      rw [e2]; simp only [List.mem_append, List.mem_cons] at hp ⊢; tauto
    rw [e1]; simp only [List.mem_append, List.mem_cons] at h1 ⊢; tauto
  have hl1 : a.sinks.length = (C ++ D).length + 2 := by
    have := congrArg List.length e2
    rw [e1]; simp at this ⊢; omega
  -- the effect of appending `far`
  have hj : (∀ p ∈ allSinks (sk.modify j (fun a => { a with sinks := a.sinks ++ [far] })),
        p ∈ allSinks sk ∨ p = far) ∧
      (allSinks (sk.modify j (fun a => { a with sinks := a.sinks ++ [far] }))).length ≤
        (allSinks sk).length + 1 := by
    cases hc : sk[j]? with
    | none =>
      rw [List.modify_eq_self (by simpa using hc)]
      exact ⟨fun p hp => .inl hp, by omega⟩
    | some b =>
      have hq := allSinks_modify sk j (fun a => a.sinks ++ [far]) b hc
      constructor
      · intro p hp
        have := (hq.mem_iff (a := p)).1 (by simp [hp])
        simp only [List.mem_append, List.mem_singleton] at this
        rcases this with h | h | h
        · exact .inl h
        · exact .inl (List.mem_flatMap.2 ⟨b, List.mem_of_getElem? hc, h⟩)
        · exact .inr h
      · have := hq.length_eq
        simp only [List.length_append, List.length_singleton] at this
        omega
  refine ⟨by rw [nodes_modify, nodes_modify], ?_, ?_⟩
  · intro p hp'
    have := (hp.mem_iff (a := p)).1 (by simp [hp'])
    rcases List.mem_append.1 this with h | h
    · exact hj.1 p h
    · exact hj.1 p (List.mem_flatMap.2 ⟨a, List.mem_of_getElem? hai, hsub p h⟩)
  · have := hp.length_eq
    simp only [List.length_append] at this hl1
    omega

theorem moveSink_error {sk : List (Subtree S)} {i j : Nat} {far near : V2 S} {e : PyErr}
    (hi : i < sk.length) (h : moveSink sk i j far near = .error e) : e = .value := by
  unfold moveSink at h
  rcases bind_error.1 h with h | ⟨a, _, h⟩
  · unfold getArc at h
    rw [List.getElem?_eq_getElem (by simpa using hi)] at h
    cases h
  rcases bind_error.1 h with h | ⟨s, _, h⟩
  · exact (vremove_error h).1
  rcases bind_error.1 h with h | ⟨s, _, h⟩
  · exact (vremove_error h).1
  cases h

/-- the result of the body for one pair -/
def PairStep.sk : PairStep S → List (Subtree S)
  | .cont sk _ => sk
  | .brk sk _ => sk
def PairStep.alt : PairStep S → Bool
  | .cont _ a => a
  | .brk _ a => a

theorem ghostPair_spec' {i : Nat} {source : V2 S} {sk : List (Subtree S)} {alt : Bool}
    {pair : V2 S × V2 S} {r : PairStep S} (h : ghostPair i source sk alt pair = .ok r) :
    skelNodes r.sk = skelNodes sk ∧ (∀ p ∈ allSinks r.sk, p ∈ allSinks sk ∨ p = pair.1 ∨ p = pair.2) ∧
    ((r.sk = sk ∧ r.alt = alt) ∨
      (r.alt = true ∧ (allSinks r.sk).length < (allSinks sk).length)) := by
  have hmove : ∀ {j : Nat} {far near : V2 S} {sk' : List (Subtree S)}, far = pair.1 ∨ far = pair.2 →
      moveSink sk i j far near = .ok sk' → skelNodes sk' = skelNodes sk ∧
        (∀ p ∈ allSinks sk', p ∈ allSinks sk ∨ p = pair.1 ∨ p = pair.2) ∧
        (allSinks sk').length < (allSinks sk).length := by
    intro j far near sk' hf hm
    obtain ⟨h1, h2, h3⟩ := moveSink_spec hm
    refine ⟨h1, fun p hp => ?_, by omega⟩
    rcases h2 p hp with h | rfl
    · exact .inl h
    · exact .inr hf
  unfold ghostPair at h
  simp only at h
  split at h
  · cases h; exact ⟨rfl, fun _ h => .inl h, .inl ⟨rfl, rfl⟩⟩
  obtain ⟨q, hq, h⟩ := bind_ok.1 h
  split at h
  · cases h; exact ⟨rfl, fun _ h => .inl h, .inl ⟨rfl, rfl⟩⟩
  have hfar : (if V2.length (V2.sub pair.1 source) <. V2.length (V2.sub pair.2 source) then pair.2
      else pair.1) = pair.1 ∨ (if V2.length (V2.sub pair.1 source) <. V2.length (V2.sub pair.2 source) then pair.2
      else pair.1) = pair.2 := by split <;> simp
  generalize (if V2.length (V2.sub pair.1 source) <. V2.length (V2.sub pair.2 source) then pair.2
      else pair.1) = far at h hfar
  generalize (if V2.length (V2.sub pair.1 source) <. V2.length (V2.sub pair.2 source) then pair.1
      else pair.2) = near at h
  cases hfi : sk.findIdx? (fun node => V2.veq node.source near) with
  | none => rw [hfi] at h; cases h; exact ⟨rfl, fun _ h => .inl h, .inl ⟨rfl, rfl⟩⟩
  | some j =>
    rw [hfi] at h
    simp only at h
    split at h
    · obtain ⟨sk', hm, h⟩ := bind_ok.1 h
      cases h
      exact ⟨(hmove hfar hm).1, (hmove hfar hm).2.1, .inr ⟨rfl, (hmove hfar hm).2.2⟩⟩
    · obtain ⟨node, hn, h⟩ := bind_ok.1 h
      split at h
      · obtain ⟨sk', hm, h⟩ := bind_ok.1 h
        cases h
        exact ⟨(hmove hfar hm).1, (hmove hfar hm).2.1, .inr ⟨rfl, (hmove hfar hm).2.2⟩⟩
      · cases h; exact ⟨rfl, fun _ h => .inl h, .inl ⟨rfl, rfl⟩⟩

theorem ghostPair_error {i : Nat} {source : V2 S} {sk : List (Subtree S)} {alt : Bool}
    {pair : V2 S × V2 S} {e : PyErr} (hi : i < sk.length)
    (h : ghostPair i source sk alt pair = .error e) :
    e = .value ∨ (e = .zeroDivision ∧ ∃ a b : S, (a ==. fzero) = false ∧ (b ==. fzero) = false ∧
      (a *. b ==. fzero) = true) := by
  unfold ghostPair at h
  simp only at h
  split at h
  · cases h
  rename_i hz
  rcases bind_error.1 h with h | ⟨q, _, h⟩
  · unfold pydiv at h
    split at h
    · rename_i hz'
      cases h
      simp only [Bool.or_eq_true, not_or, Bool.not_eq_true] at hz
      exact .inr ⟨rfl, _, _, hz.1, hz.2, hz'⟩
    · cases h
  left
  split at h
  · cases h
  generalize (if V2.length (V2.sub pair.1 source) <. V2.length (V2.sub pair.2 source) then pair.2
      else pair.1) = far at h
  generalize (if V2.length (V2.sub pair.1 source) <. V2.length (V2.sub pair.2 source) then pair.1
      else pair.2) = near at h
  cases hfi : sk.findIdx? (fun node => V2.veq node.source near) with
  | none => rw [hfi] at h; cases h
  | some j =>
    rw [hfi] at h
    simp only at h
    split at h
    · rcases bind_error.1 h with h | ⟨_, _, h⟩
      · exact moveSink_error hi h
      · cases h
    · rcases bind_error.1 h with h | ⟨node, _, h⟩
      · unfold getArc at h
        rw [List.getElem?_eq_getElem (List.findIdx?_eq_some_iff_getElem.1 hfi).1] at h
        cases h
      · split at h
        · rcases bind_error.1 h with h | ⟨_, _, h⟩
          · exact moveSink_error hi h
          · cases h
        · cases h

/-- the errors `removeGhosts` can meet -/
def GhostErr (S : Type) [Scalar S] (e : PyErr) : Prop :=
  e = .value ∨ (e = .zeroDivision ∧ ∃ a b : S, (a ==. fzero) = false ∧ (b ==. fzero) = false ∧
      (a *. b ==. fzero) = true)

theorem ghostPairs_spec {i : Nat} {source : V2 S} {sk0 sk : List (Subtree S)} {alt : Bool}
    {ps : List (V2 S × V2 S)} (hi : i < sk.length)
    (hs : skelNodes sk = skelNodes sk0) (hps : ∀ p ∈ ps, p.1 ∈ allSinks sk0 ∧ p.2 ∈ allSinks sk0)
    (hsub : ∀ p ∈ allSinks sk, p ∈ allSinks sk0) :
    (∃ e, ghostPairs i source sk alt ps = .error e ∧ GhostErr S e) ∨
    ∃ sk' alt', ghostPairs i source sk alt ps = .ok (sk', alt') ∧ skelNodes sk' = skelNodes sk0 ∧
      (∀ p ∈ allSinks sk', p ∈ allSinks sk0) ∧
      ((sk' = sk ∧ alt' = alt) ∨ (alt' = true ∧ (allSinks sk').length < (allSinks sk).length)) := by
  induction ps generalizing sk alt with
  | nil => exact .inr ⟨sk, alt, rfl, hs, hsub, .inl ⟨rfl, rfl⟩⟩
  | cons p ps ih =>
    unfold ghostPairs
    cases hg : ghostPair i source sk alt p with
    | error e => exact .inl ⟨e, rfl, ghostPair_error hi hg⟩
    | ok r =>
      obtain ⟨h1, h2, h3⟩ := ghostPair_spec' hg
      have hp := hps p (by simp)
      have hsub' : ∀ p ∈ allSinks r.sk, p ∈ allSinks sk0 := by
        intro q hq
        rcases h2 q hq with h | h | h
        · exact hsub q h
        · rw [h]; exact hp.1
        · rw [h]; exact hp.2
      rw [ok_bind]
      cases r with
      | brk sk' a =>
        refine .inr ⟨sk', a, rfl, h1.trans hs, hsub', ?_⟩
        simpa [PairStep.sk, PairStep.alt] using h3
      | cont sk' a =>
        simp only [PairStep.sk, PairStep.alt] at h1 h2 h3 hsub'
        have hl : sk'.length = sk.length := by
          have := congrArg List.length h1
          simpa [skelNodes] using this
        rcases ih (sk := sk') (alt := a) (by omega) (h1.trans hs) (fun p hp => hps p (by simp [hp]))
          hsub' with h | ⟨sk'', a'', g1, g2, g3, g4⟩
        · exact .inl h
        · refine .inr ⟨sk'', a'', g1, g2, g3, ?_⟩
          rcases h3 with ⟨rfl, rfl⟩ | ⟨rfl, h3⟩ <;> rcases g4 with ⟨rfl, rfl⟩ | ⟨rfl, g4⟩
          · exact .inl ⟨rfl, rfl⟩
          · exact .inr ⟨rfl, g4⟩
          · exact .inr ⟨rfl, h3⟩
          · exact .inr ⟨rfl, by omega⟩

theorem mem_pairs {α : Type} {l : List α} {p : α × α} (h : p ∈ pairs l) : p.1 ∈ l ∧ p.2 ∈ l := by
  induction l with
  | nil => simp [pairs] at h
  | cons a l ih =>
    simp only [pairs, List.mem_append, List.mem_map] at h
    rcases h with ⟨b, hb, rfl⟩ | h
    · simp [hb]
    · have := ih h
      simp [this]

theorem ghostWhile_spec {i : Nat} {k : Nat} {sk : List (Subtree S)} (hi : i < sk.length)
    (hk : (allSinks sk).length < k) :
    (∃ e, ghostWhile i k sk = .error e ∧ GhostErr S e) ∨
    ∃ sk', ghostWhile i k sk = .ok sk' ∧ Shrinks sk sk' := by
  induction k generalizing sk with
  | zero => omega
  | succ k ih =>
    unfold ghostWhile
    have ha : getArc sk i = .ok sk[i] := by simp [getArc, hi]
    rw [ha, ok_bind]
    have hps : ∀ p ∈ pairs sk[i].sinks, p.1 ∈ allSinks sk ∧ p.2 ∈ allSinks sk := by
      intro p hp
      have := mem_pairs hp
      exact ⟨List.mem_flatMap.2 ⟨_, List.getElem_mem hi, this.1⟩,
        List.mem_flatMap.2 ⟨_, List.getElem_mem hi, this.2⟩⟩
    rcases ghostPairs_spec (source := sk[i].source) (alt := false) hi rfl hps (fun _ h => h) with
      ⟨e, h, he⟩ | ⟨sk', a, h, h1, h2, h3⟩
    · rw [h]; exact .inl ⟨e, rfl, he⟩
    · rw [h, ok_bind]
      simp only
      rcases h3 with ⟨rfl, rfl⟩ | ⟨rfl, h3⟩
      · exact .inr ⟨sk', by simp, .refl _⟩
      · have hl : sk'.length = sk.length := by
          have := congrArg List.length h1
          simpa [skelNodes] using this
        have hs : Shrinks sk sk' := ⟨h1, h2, by omega⟩
        simp only [if_true]
        rcases ih (sk := sk') (by omega) (by omega) with h | ⟨sk'', h4, h5⟩
        · exact .inl h
        · exact .inr ⟨sk'', h4, hs.trans h5⟩

theorem ghostArcs_spec {is : List Nat} {sk : List (Subtree S)} (hi : ∀ i ∈ is, i < sk.length) :
    (∃ e, ghostArcs is sk = .error e ∧ GhostErr S e) ∨
    ∃ sk', ghostArcs is sk = .ok sk' ∧ Shrinks sk sk' := by
  induction is generalizing sk with
  | nil => exact .inr ⟨sk, rfl, .refl _⟩
  | cons i is ih =>
    unfold ghostArcs
    rcases ghostWhile_spec (k := edgeCount sk + 1) (hi i (by simp)) (by rw [edgeCount_eq]; omega) with
      ⟨e, h, he⟩ | ⟨sk', h, hs⟩
    · rw [h]; exact .inl ⟨e, rfl, he⟩
    · rw [h, ok_bind]
      rcases ih (sk := sk') (fun j hj => by rw [hs.length]; exact hi j (by simp [hj])) with
        h | ⟨sk'', h1, h2⟩
      · exact .inl h
      · exact .inr ⟨sk'', h1, hs.trans h2⟩

theorem removeLoops_spec (sk : List (Subtree S)) :
    ∃ sk', removeLoops sk = .ok sk' ∧ Shrinks sk sk' := by
  unfold removeLoops
  induction sk with
  | nil => exact ⟨[], rfl, .refl _⟩
  | cons a sk ih =>
    obtain ⟨sk', h, hs⟩ := ih
    have key : ∃ b : Subtree S, (if V2.mem a.source a.sinks then do
        let s ← vremove a.sinks a.source
        return { a with sinks := s }
      else return a : Except PyErr (Subtree S)) = .ok b ∧ (b.source, b.height) = (a.source, a.height) ∧
        (∀ p ∈ b.sinks, p ∈ a.sinks) ∧ b.sinks.length ≤ a.sinks.length := by
      by_cases hm : V2.mem a.source a.sinks = true
      · cases hv : vremove a.sinks a.source with
        | error e => rw [(vremove_error hv).2] at hm; cases hm
        | ok s =>
          obtain ⟨A, t, B, e1, rfl, _, _⟩ := vremove_ok hv
          refine ⟨{ a with sinks := A ++ B }, by rw [if_pos hm]; rfl, rfl, ?_, ?_⟩
          · intro p hp; rw [e1]; simp only [List.mem_append, List.mem_cons] at hp ⊢; tauto
          · rw [e1]; simp
      · exact ⟨a, by rw [if_neg hm]; rfl, rfl, fun _ h => h, Nat.le_refl _⟩
    obtain ⟨b, hb, h1, h2, h3⟩ := key
    refine ⟨b :: sk', ?_, ?_⟩
    · rw [List.mapM_cons, hb, ok_bind, h]; rfl
    · refine ⟨?_, ?_, ?_⟩
      · have := hs.nodes
        simp only [skelNodes, List.map_cons] at this ⊢
        rw [this, h1]
      · intro p hp
        simp only [allSinks, List.flatMap_cons, List.mem_append] at hp ⊢
        rcases hp with h | h
        · exact .inl (h2 p h)
        · exact .inr (hs.sinks p h)
      · have := hs.count
        simp only [allSinks, List.flatMap_cons, List.length_append] at this ⊢
        omega

/-- C33: `removeGhosts` ends on every skeleton, for every numeric behaviour: it raises (a
ValueError, or a ZeroDivisionError caused by underflow) or returns; when it returns, the nodes
have kept their positions and heights, there are not more connections than before, and each
leads to a point that was a sink before. -/
theorem C33_removeGhosts (sk : List (Subtree S)) :
    (∃ e, removeGhosts sk = .error e ∧ GhostErr S e) ∨
    ∃ out, removeGhosts sk = .ok out ∧
      out.map (fun a => (a.source, a.height)) = sk.map (fun a => (a.source, a.height)) ∧
      (out.map (fun a => a.sinks.length)).sum ≤ (sk.map (fun a => a.sinks.length)).sum ∧
      ∀ a ∈ out, ∀ p ∈ a.sinks, ∃ b ∈ sk, p ∈ b.sinks := by
  unfold removeGhosts
  obtain ⟨sk', h, hs⟩ := removeLoops_spec sk
  rw [h, ok_bind]
  rcases ghostArcs_spec (is := List.range sk'.length) (sk := sk') (by simp) with h | ⟨out, h1, h2⟩
  · exact .inl h
  · have h3 := hs.trans h2
    refine .inr ⟨out, h1, h3.nodes, ?_, ?_⟩
    · have := h3.count
      rwa [← edgeCount_eq, ← edgeCount_eq] at this
    · intro a ha p hp
      exact List.mem_flatMap.1 (h3.sinks p (List.mem_flatMap.2 ⟨a, ha, hp⟩))

/-- C33: over the reals `ValueError` is the only exception. -/
theorem C33_raises_only (sk : List (Subtree ℝ)) (e : PyErr) (h : removeGhosts sk = .error e) :
    e = .value := by
  rcases C33_removeGhosts sk with ⟨e', h', he⟩ | ⟨out, h', _⟩
  · rw [h] at h'; cases h'
    rcases he with he | ⟨_, a, b, h1, h2, h3⟩
    · exact he
    · rw [← Bool.not_eq_true, ex_eq] at h1 h2
      rw [ex_eq, ex_mul] at h3
      rw [ex_zero] at h1 h2 h3
      rcases mul_eq_zero.1 h3 with h | h
      · exact absurd h h1
      · exact absurd h h2
  · rw [h] at h'; cases h'

end

/-! The single step, over the reals. -/
section
open Geo

/-- the cosine of the angle at `c` between the directions to `p` and `q` -/
noncomputable def cosAt (c p q : V2 ℝ) : ℝ :=
  ((p.x - c.x) * (q.x - c.x) + (p.y - c.y) * (q.y - c.y)) / (eucl c p * eucl c q)

theorem eucl_eq_zero {a b : V2 ℝ} : eucl a b = 0 ↔ a = b := by
  constructor
  · intro h
    unfold eucl at h
    rw [Real.sqrt_eq_zero (by positivity)] at h
    have h1 : a.x - b.x = 0 := by nlinarith [sq_nonneg (a.x - b.x), sq_nonneg (a.y - b.y)]
    have h2 : a.y - b.y = 0 := by nlinarith [sq_nonneg (a.x - b.x), sq_nonneg (a.y - b.y)]
    cases a; cases b
    simp only [V2.mk.injEq] at h1 h2 ⊢
    exact ⟨by linarith, by linarith⟩
  · rintro rfl; exact eucl_self a

theorem eucl_pos {a b : V2 ℝ} (h : a ≠ b) : 0 < eucl a b :=
  lt_of_le_of_ne (eucl_nonneg a b) (fun h' => h (eucl_eq_zero.1 h'.symm))

theorem cosAt_le_one (c p q : V2 ℝ) (hp : p ≠ c) (hq : q ≠ c) : cosAt c p q ≤ 1 := by
  unfold cosAt
  have h1 := eucl_pos hp.symm
  have h2 := eucl_pos hq.symm
  rw [div_le_one (by positivity)]
  apply le_trans (le_abs_self _)
  rw [← Real.sqrt_sq_eq_abs]
  unfold eucl
  rw [← Real.sqrt_mul (by positivity)]
  apply Real.sqrt_le_sqrt
  nlinarith [sq_nonneg ((p.x - c.x) * (q.y - c.y) - (p.y - c.y) * (q.x - c.x))]

theorem vremove_erase {l : List (V2 ℝ)} {s : V2 ℝ} (h : s ∈ l) : vremove l s = .ok (l.erase s) := by
  induction l with
  | nil => simp at h
  | cons t l ih =>
    unfold vremove
    by_cases ht : t = s
    · subst ht; simp
    · have : ¬ (V2.veq t s = true) := by simpa using ht
      rw [if_neg this, ih (by simpa [Ne.symm ht] using h), List.erase_cons_tail (by simpa using ht)]
      rfl

theorem vremove_not_mem {l : List (V2 ℝ)} {s : V2 ℝ} (h : s ∉ l) : vremove l s = .error .value := by
  cases hv : vremove l s with
  | error e => rw [(vremove_error hv).1]
  | ok r =>
    obtain ⟨A, t, B, rfl, _, h1, _⟩ := vremove_ok hv
    rw [ex_veq] at h1
    subst h1
    simp at h

/-- C33: what happens to one pair `p`, `q` of sinks of arc number `i`, over the reals.  Nothing,
unless both differ from the node and the cosine of the angle between the two connections exceeds
0.99.  Otherwise let `near` be the nearer of the two and `far` the other one.  If no node lies at
`near`, the search ends for this arc.  If the first node at `near` is number `j`, and the cosine
exceeds 0.99999 or a connection of that node passes the segment test with the long connection,
then the two connections are taken from the arc (ValueError if they are gone already) and `far`
is connected to node `j` instead. -/
theorem C33_pair (i : Nat) (sk : List (Subtree ℝ)) (alt : Bool) (p q : V2 ℝ) (arc : Subtree ℝ)
    (hi : sk[i]? = some arc) :
    ((p = arc.source ∨ q = arc.source ∨ cosAt arc.source p q ≤ 99 / 100) →
      ghostPair i arc.source sk alt (p, q) = .ok (.cont sk alt)) ∧
    (p ≠ arc.source → q ≠ arc.source → 99 / 100 < cosAt arc.source p q →
      ∃ far near, ((far = p ∧ near = q ∧ eucl arc.source q ≤ eucl arc.source p) ∨
          (far = q ∧ near = p ∧ eucl arc.source p < eucl arc.source q)) ∧
        ((∀ a ∈ sk, a.source ≠ near) → ghostPair i arc.source sk alt (p, q) = .ok (.brk sk alt)) ∧
        ∀ j node, sk[j]? = some node → node.source = near →
          (∀ j' node', j' < j → sk[j']? = some node' → node'.source ≠ near) →
          (cosAt arc.source p q ≤ 1 - 1 / 100000 →
            (∀ s ∈ node.sinks, segIntersect arc.source far near s = false) →
            ghostPair i arc.source sk alt (p, q) = .ok (.cont sk alt)) ∧
          ((1 - 1 / 100000 < cosAt arc.source p q ∨
              ∃ s ∈ node.sinks, segIntersect arc.source far near s = true) →
            ((far ∉ arc.sinks ∨ near ∉ arc.sinks.erase far) →
              ghostPair i arc.source sk alt (p, q) = .error .value) ∧
            (far ∈ arc.sinks → near ∈ arc.sinks.erase far →
              ∃ r, ghostPair i arc.source sk alt (p, q) = .ok r ∧ r.alt = true ∧
                r.sk = (sk.set j { node with sinks := node.sinks ++ [far] }).set i
                  { arc with sinks := (arc.sinks.erase far).erase near }))) := by
  have hlen : ∀ a : V2 ℝ, V2.length (V2.sub a arc.source) = eucl arc.source a := fun a => by
    rw [length_sub, eucl_comm]
  have hdot : V2.dot (V2.sub p arc.source) (V2.sub q arc.source) =
      (p.x - arc.source.x) * (q.x - arc.source.x) + (p.y - arc.source.y) * (q.y - arc.source.y) := by
    simp [V2.dot, V2.sub]
  constructor
  · intro h
    unfold ghostPair
    simp only [hlen, hdot]
    by_cases hz : eucl arc.source p = 0 ∨ eucl arc.source q = 0
    · rw [if_pos (by simpa using hz)]; rfl
    · rw [if_neg (by simpa using hz)]
      push Not at hz
      have hp : p ≠ arc.source := fun h => hz.1 (eucl_eq_zero.2 h.symm)
      have hq : q ≠ arc.source := fun h => hz.2 (eucl_eq_zero.2 h.symm)
      have hc : cosAt arc.source p q ≤ 99 / 100 := by tauto
      unfold pydiv
      rw [if_neg (by simpa using hz)]
      rw [ok_bind, if_pos]
      · rfl
      · simp only [Bool.not_eq_true', ex_lt_false, ex_abs, ex_sub, ex_div, ex_mul, ex_one, ex_PARALLEL]
        rw [show ((p.x - arc.source.x) * (q.x - arc.source.x) + (p.y - arc.source.y) * (q.y - arc.source.y))
          / (eucl arc.source p * eucl arc.source q) = cosAt arc.source p q from rfl]
        rw [abs_of_nonpos (by linarith)]
        linarith
  · intro hp hq hc
    have hc1 := cosAt_le_one arc.source p q hp hq
    have hpp : eucl arc.source p ≠ 0 := fun h => hp (eucl_eq_zero.1 h).symm
    have hqq : eucl arc.source q ≠ 0 := fun h => hq (eucl_eq_zero.1 h).symm
    have hred : ∀ far near, (if eucl arc.source p < eucl arc.source q then far = q ∧ near = p else
        far = p ∧ near = q) → ghostPair i arc.source sk alt (p, q) =
        (match sk.findIdx? (fun node => V2.veq node.source near) with
          | none => return .brk sk alt
          | some j =>
            if 1 - cosAt arc.source p q <. EPSILON then do
              let sk ← moveSink sk i j far near
              return .brk sk true
            else do
              let node ← getArc sk j
              if node.sinks.any (fun sink => segIntersect arc.source far near sink) then do
                let sk ← moveSink sk i j far near
                return .cont sk true
              else return .cont sk alt) := by
      intro far near hfn
      unfold ghostPair
      simp only [hlen, hdot]
      rw [if_neg (by simpa using ⟨hpp, hqq⟩)]
      unfold pydiv
      rw [if_neg (by simpa using ⟨hpp, hqq⟩)]
      rw [ok_bind]
      have habs : Scalar.abs ((((p.x - arc.source.x) * (q.x - arc.source.x) +
          (p.y - arc.source.y) * (q.y - arc.source.y)) /. (eucl arc.source p *. eucl arc.source q)) -. fone)
          = 1 - cosAt arc.source p q := by
        simp only [ex_abs, ex_sub, ex_div, ex_mul, ex_one]
        rw [show ((p.x - arc.source.x) * (q.x - arc.source.x) + (p.y - arc.source.y) * (q.y - arc.source.y))
          / (eucl arc.source p * eucl arc.source q) = cosAt arc.source p q from rfl]
        rw [abs_of_nonpos (by linarith)]
        ring
      rw [habs]
      rw [if_neg (by rw [Bool.not_eq_true', ex_lt_false, ex_PARALLEL]; linarith)]
      have h1 : (if eucl arc.source p <. eucl arc.source q then q else p) = far := by
        by_cases hlt : eucl arc.source p < eucl arc.source q
        · rw [if_pos hlt] at hfn; rw [if_pos (by simpa using hlt)]; exact hfn.1.symm
        · rw [if_neg hlt] at hfn; rw [if_neg (by simpa using hlt)]; exact hfn.1.symm
      have h2 : (if eucl arc.source p <. eucl arc.source q then p else q) = near := by
        by_cases hlt : eucl arc.source p < eucl arc.source q
        · rw [if_pos hlt] at hfn; rw [if_pos (by simpa using hlt)]; exact hfn.2.symm
        · rw [if_neg hlt] at hfn; rw [if_neg (by simpa using hlt)]; exact hfn.2.symm
      rw [h1, h2]
      rfl
    obtain ⟨far, near, hfn, hor, hns⟩ : ∃ far near, (if eucl arc.source p < eucl arc.source q then far = q ∧ near = p else
        far = p ∧ near = q) ∧ ((far = p ∧ near = q ∧ eucl arc.source q ≤ eucl arc.source p) ∨
          (far = q ∧ near = p ∧ eucl arc.source p < eucl arc.source q)) ∧ near ≠ arc.source := by
      by_cases hlt : eucl arc.source p < eucl arc.source q
      · exact ⟨q, p, by simp [hlt], .inr ⟨rfl, rfl, hlt⟩, hp⟩
      · exact ⟨p, q, by simp [hlt], .inl ⟨rfl, rfl, by linarith⟩, hq⟩
    have hgp := hred far near hfn
    refine ⟨far, near, hor, ?_, ?_⟩
    · intro hno
      rw [hgp]
      have : sk.findIdx? (fun node => V2.veq node.source near) = none := by
        rw [List.findIdx?_eq_none_iff]
        intro a ha
        rw [← Bool.not_eq_true, ex_veq]; exact hno a ha
      rw [this]; rfl
    · intro j node hj hjn hfirst
      have hji : j ≠ i := by
        rintro rfl
        rw [hi] at hj; cases hj
        exact hns hjn.symm
      have hfind : sk.findIdx? (fun node => V2.veq node.source near) = some j := by
        obtain ⟨hjl, hje⟩ := List.getElem?_eq_some_iff.1 hj
        rw [List.findIdx?_eq_some_iff_getElem]
        refine ⟨hjl, by simpa [hje] using hjn, ?_⟩
        intro j' hj'
        have := hfirst j' sk[j'] hj' (List.getElem?_eq_getElem (by omega))
        simpa using this
      have hget : getArc sk j = .ok node := by simp [getArc, hj]
      have hmv : moveSink sk i j far near = (do
          let s ← vremove arc.sinks far
          let s ← vremove s near
          return (sk.set j { node with sinks := node.sinks ++ [far] }).set i { arc with sinks := s }) := by
        have e1 : sk.modify j (fun a => { a with sinks := a.sinks ++ [far] }) =
            sk.set j { node with sinks := node.sinks ++ [far] } := by
          obtain ⟨hjl, hje⟩ := List.getElem?_eq_some_iff.1 hj
          rw [List.modify_eq_set]; simp [hj, hje]
        unfold moveSink
        rw [e1]
        have e2 : getArc (sk.set j { node with sinks := node.sinks ++ [far] }) i = .ok arc := by
          unfold getArc
          rw [List.getElem?_set_ne hji, hi]
        simp only
        rw [e2, ok_bind]
        have e3 : ∀ s, (sk.set j { node with sinks := node.sinks ++ [far] }).modify i
            (fun a => { a with sinks := s }) =
            (sk.set j { node with sinks := node.sinks ++ [far] }).set i { arc with sinks := s } := by
          intro s
          rw [List.modify_eq_set]
          rw [List.getElem?_set_ne hji, hi]
          rfl
        simp only [e3]
      rw [hgp, hfind]
      simp only
      refine ⟨?_, ?_⟩
      · intro hle hns'
        rw [if_neg (by rw [ex_lt, ex_EPSILON]; linarith), hget, ok_bind, if_neg (by
          simp only [List.any_eq_true, not_exists, not_and, Bool.not_eq_true]; exact hns')]
        rfl
      · intro hcond
        have hmove : ∀ (X : Except PyErr (PairStep ℝ)),
            X = (if 1 - cosAt arc.source p q <. EPSILON then do
              let sk ← moveSink sk i j far near
              return .brk sk true
            else do
              let node ← getArc sk j
              if node.sinks.any (fun sink => segIntersect arc.source far near sink) then do
                let sk ← moveSink sk i j far near
                return .cont sk true
              else return .cont sk alt) →
            X = (moveSink sk i j far near >>= fun sk => .ok (.brk sk true)) ∨
            X = (moveSink sk i j far near >>= fun sk => .ok (.cont sk true)) := by
          intro X hX
          by_cases hlt : 1 - cosAt arc.source p q < 1 / 100000
          · rw [if_pos (by rw [ex_lt, ex_EPSILON]; exact hlt)] at hX
            exact .inl hX
          · rw [if_neg (by rw [ex_lt, ex_EPSILON]; exact hlt), hget, ok_bind, if_pos] at hX
            · exact .inr hX
            · rcases hcond with h | ⟨s, hs, h⟩
              · exact absurd h (by linarith)
              · exact List.any_eq_true.2 ⟨s, hs, h⟩
        have hm := hmove _ rfl
        generalize (if 1 - cosAt arc.source p q <. EPSILON then do
              let sk ← moveSink sk i j far near
              return .brk sk true
            else do
              let node ← getArc sk j
              if node.sinks.any (fun sink => segIntersect arc.source far near sink) then do
                let sk ← moveSink sk i j far near
                return .cont sk true
              else return .cont sk alt : Except PyErr (PairStep ℝ)) = X at hm ⊢
        refine ⟨?_, ?_⟩
        · intro hno
          have : moveSink sk i j far near = .error .value := by
            rw [hmv]
            by_cases hf : far ∈ arc.sinks
            · rw [vremove_erase hf, ok_bind, vremove_not_mem (by tauto)]; rfl
            · rw [vremove_not_mem hf]; rfl
          rw [this] at hm
          rcases hm with h | h <;> rw [h] <;> rfl
        · intro h1 h2
          have : moveSink sk i j far near = .ok ((sk.set j { node with sinks := node.sinks ++ [far] }).set i
                  { arc with sinks := (arc.sinks.erase far).erase near }) := by
            rw [hmv, vremove_erase h1, ok_bind, vremove_erase h2]; rfl
          rw [this] at hm
          rcases hm with h | h <;> rw [h]
          · exact ⟨_, rfl, rfl, rfl⟩
          · exact ⟨_, rfl, rfl, rfl⟩

/-- the loop removal of `removeGhosts`: a node's connection to itself goes, nothing else -/
theorem C33_loops (sk : List (Subtree ℝ)) :
    removeLoops sk = .ok (sk.map (fun a => { a with sinks := a.sinks.erase a.source })) := by
  unfold removeLoops
  induction sk with
  | nil => rfl
  | cons a sk ih =>
    rw [List.mapM_cons, ih]
    by_cases h : a.source ∈ a.sinks
    · rw [if_pos (by simpa using h), vremove_erase h]; rfl
    · rw [if_neg (by simpa using h), List.map_cons, List.erase_of_not_mem h]; rfl
end

/-- C33: a ValueError although every sink is a node or a corner: node 0 has three nearly parallel
connections, to node 1 and to two corners, both crossing a connection of node 1.  The first pair
removes the sink at node 1; the `break` of line 546 only leaves the innermost loop, and the next
pair tries to remove it again. -/
theorem C33_value_error :
    removeGhosts [⟨sp2 0 0, sq 1 1, [sp2 10 0, sp2 20 1, sp2 30 1]⟩,
      ⟨sp2 10 0, sq 1 1, [sp2 10 5]⟩] = .error .value := by decide +kernel

/-- a ghost connection is re-routed over the nearer node -/
example : removeGhosts [⟨sp2 0 0, sq 1 1, [sp2 10 0, sp2 20 0, sp2 0 5]⟩,
      ⟨sp2 10 0, sq 1 1, [sp2 10 5]⟩] =
    .ok [⟨sp2 0 0, sq 1 1, [sp2 0 5]⟩, ⟨sp2 10 0, sq 1 1, [sp2 10 5, sp2 20 0]⟩] := by decide +kernel

end Polyskel
