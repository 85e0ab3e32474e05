import Verif.Proofs.Fields
/-
Closed doubly linked lists of vertices, and the invariant that the wavefront consists of such
lists.
-/
namespace Polyskel
set_option linter.unusedSectionVars false
variable {S : Type} [Scalar S]

/-- following `next` from `a` one meets `P` and then `b`, and following `prev` the same backwards -/
def Seg (st : St S) (a : Nat) (P : List Nat) (b : Nat) : Prop :=
  (a :: P ++ [b]).IsChain (Link st)

/-- a closed doubly linked list of different vertices -/
def Closed (st : St S) (R : List Nat) : Prop :=
  R.Nodup ∧ ∃ a P, R = a :: P ∧ Seg st a P a

theorem seg_nil {st : St S} {a b : Nat} : Seg st a [] b ↔ Link st a b := by
  simp [Seg]

theorem seg_append {st : St S} {a b c : Nat} {P Q : List Nat} :
    Seg st a (P ++ c :: Q) b ↔ Seg st a P c ∧ Seg st c Q b := by
  unfold Seg
  have := List.isChain_split (R := Link st) (c := c) (l₁ := a :: P) (l₂ := Q ++ [b])
  simpa using this

theorem seg_cons {st : St S} {a b c : Nat} {Q : List Nat} :
    Seg st a (c :: Q) b ↔ Link st a c ∧ Seg st c Q b := by
  have := seg_append (st := st) (a := a) (b := b) (c := c) (P := []) (Q := Q)
  rwa [List.nil_append, seg_nil] at this

theorem seg_snoc {st : St S} {a b c : Nat} {P : List Nat} :
    Seg st a (P ++ [c]) b ↔ Seg st a P c ∧ Link st c b := by
  rw [seg_append, seg_nil]

theorem seg_congr {st st' : St S} {a b : Nat} {P : List Nat}
    (hn : ∀ k ∈ a :: P, st'.nx k = st.nx k) (hp : ∀ k ∈ P ++ [b], st'.pv k = st.pv k)
    (h : Seg st a P b) : Seg st' a P b := by
  induction P generalizing a with
  | nil =>
    rw [seg_nil, link_iff] at *
    rw [hn a (by simp), hp b (by simp)]
    exact h
  | cons c P ih =>
    rw [seg_cons, link_iff] at *
    refine ⟨?_, ih (fun k hk => hn k (List.mem_cons_of_mem _ hk))
      (fun k hk => hp k (by simp at hk ⊢; tauto)) h.2⟩
    rw [hn a (by simp), hp c (by simp)]
    exact h.1

theorem closed_congr {st st' : St S} {R : List Nat}
    (hn : ∀ k ∈ R, st'.nx k = st.nx k) (hp : ∀ k ∈ R, st'.pv k = st.pv k)
    (h : Closed st R) : Closed st' R := by
  obtain ⟨hd, a, P, rfl, hs⟩ := h
  exact ⟨hd, a, P, rfl, seg_congr hn (fun k hk => hp k (by simp at hk ⊢; tauto)) hs⟩

/-- a closed list may be started anywhere -/
theorem Closed.rotate {st : St S} {R : List Nat} {v : Nat} (h : Closed st R) (hv : v ∈ R) :
    ∃ P, Seg st v P v ∧ (v :: P).Perm R ∧ (v :: P).Nodup := by
  obtain ⟨hd, a, P, rfl, hs⟩ := h
  rcases List.mem_cons.1 hv with rfl | hv
  · exact ⟨P, hs, .refl _, hd⟩
  · obtain ⟨A, B, rfl⟩ := List.append_of_mem hv
    rw [seg_append] at hs
    have hp : (v :: (B ++ a :: A)).Perm (a :: (A ++ v :: B)) := by
      have := List.perm_append_comm (l₁ := v :: B) (l₂ := a :: A)
      simpa using this
    exact ⟨B ++ a :: A, seg_append.2 ⟨hs.2, hs.1⟩, hp, hp.nodup_iff.2 hd⟩

theorem Closed.of_seg {st : St S} {a : Nat} {P : List Nat} (h : Seg st a P a)
    (hd : (a :: P).Nodup) : Closed st (a :: P) := ⟨hd, a, P, rfl, h⟩

theorem seg_succ {st : St S} {a b : Nat} {P : List Nat} (h : Seg st a P b) :
    ((a :: P) ++ [b]).IsChain (Succ st) := h.imp (fun _ _ h => h.1)

/-- the vertices met from `v` -/
theorem Closed.ring {st : St S} {R : List Nat} {v : Nat} (h : Closed st R) (hv : v ∈ R) :
    ∃ vs, Ring st v vs ∧ vs.Perm R ∧ (∃ P, vs = v :: P) ∧ Closed st vs := by
  obtain ⟨P, hs, hp, hd⟩ := h.rotate hv
  exact ⟨v :: P, ⟨hd, rfl, seg_succ hs⟩, hp, ⟨P, rfl⟩, .of_seg hs hd⟩

theorem seg_first {st : St S} {a b : Nat} {P : List Nat} (h : Seg st a P b) :
    st.nx a = (P ++ [b]).head? := by
  cases P with
  | nil => rw [seg_nil, link_iff] at h; simp [h.1]
  | cons c P => rw [seg_cons, link_iff] at h; simp [h.1.1]

theorem seg_last {st : St S} {a b : Nat} {P : List Nat} (h : Seg st a P b) :
    st.pv b = (a :: P).getLast? := by
  induction P generalizing a with
  | nil => rw [seg_nil, link_iff] at h; simp [h.2]
  | cons c P ih =>
    rw [seg_cons] at h
    rw [ih h.2]; simp [List.getLast?_cons_cons]

theorem seg_nx_lt {st : St S} {a b : Nat} {P : List Nat} (h : Seg st a P b) :
    ∀ k ∈ a :: P, k < st.vs.length := chain_succ_lt (seg_succ h)

/-- a vertex of a closed list has both neighbours on it -/
theorem Closed.nbrs {st : St S} {R : List Nat} {v : Nat} (h : Closed st R) (hv : v ∈ R) :
    ∃ p ∈ R, ∃ n ∈ R, Link st p v ∧ Link st v n := by
  obtain ⟨P, hs, hp, -⟩ := h.rotate hv
  rcases List.eq_nil_or_concat P with rfl | ⟨Q, c, rfl⟩
  · rw [seg_nil] at hs
    exact ⟨v, hv, v, hv, hs, hs⟩
  · have h1 := seg_snoc.1 (by simpa using hs)
    cases Q with
    | nil =>
      simp at hp
      refine ⟨c, hp.mem_iff.1 (by simp), c, hp.mem_iff.1 (by simp), h1.2, ?_⟩
      exact seg_nil.1 h1.1
    | cons d Q =>
      refine ⟨c, hp.mem_iff.1 (by simp), d, hp.mem_iff.1 (by simp), h1.2, ?_⟩
      exact (seg_cons.1 h1.1).1

theorem Closed.nx_mem {st : St S} {R : List Nat} {v n : Nat} (h : Closed st R) (hv : v ∈ R)
    (hn : st.nx v = some n) : n ∈ R ∧ st.pv n = some v := by
  obtain ⟨p, -, m, hm, -, hl⟩ := h.nbrs hv
  rw [link_iff] at hl
  rw [hn] at hl
  simp only [Option.some.injEq] at hl
  exact ⟨hl.1 ▸ hm, hl.1 ▸ hl.2⟩

theorem Closed.pv_mem {st : St S} {R : List Nat} {v n : Nat} (h : Closed st R) (hv : v ∈ R)
    (hn : st.pv v = some n) : n ∈ R ∧ st.nx n = some v := by
  obtain ⟨p, hp, m, -, hl, -⟩ := h.nbrs hv
  rw [link_iff] at hl
  rw [hn] at hl
  simp only [Option.some.injEq] at hl
  exact ⟨hl.2 ▸ hp, hl.2 ▸ hl.1⟩

/-- The wavefront `st` consists of disjoint closed doubly linked lists, `R l` being the one of the
LAV `l`. -/
structure Loops (st : St S) (R : Nat → List Nat) : Prop where
  /-- no LAV is listed twice -/
  nodup : st.slav.Nodup
  /-- every listed LAV has its head on its list and knows its length -/
  lav : ∀ l ∈ st.slav, ∃ o, st.lavs[l]? = some o ∧ o.head ∈ R l ∧ o.len = (R l).length
  /-- it has at least three vertices -/
  three : ∀ l ∈ st.slav, 3 ≤ (R l).length
  closed : ∀ l ∈ st.slav, Closed st (R l)
  /-- its vertices are those that refer to it -/
  mem : ∀ l ∈ st.slav, ∀ v, v ∈ R l ↔ st.lv v = some (some l)
  /-- the valid vertices are those on the lists -/
  valid : ∀ v, st.vd v = some true ↔ ∃ l ∈ st.slav, st.lv v = some (some l)
  /-- the others refer to no LAV -/
  invalid : ∀ v, st.vd v = some false → st.lv v = some none

namespace Loops

theorem listLav {st : St S} {R : Nat → List Nat} (h : Loops st R) {l : Nat} (hl : l ∈ st.slav) :
    ∃ vs, Polyskel.listLav st l = .ok vs ∧ vs.Perm (R l) ∧ Closed st vs := by
  obtain ⟨o, ho, hh, -⟩ := h.lav l hl
  obtain ⟨vs, hr, hp, -, hc⟩ := (h.closed l hl).ring hh
  exact ⟨vs, listLav_ok.2 ⟨o, ho, hr⟩, hp, hc⟩

theorem iterLav {st : St S} {R : Nat → List Nat} (h : Loops st R) {l : Nat} (hl : l ∈ st.slav) :
    ∃ vs, Polyskel.iterLav st l = (vs, none) ∧ vs.Perm (R l) ∧ Closed st vs := by
  obtain ⟨o, ho, hh, -⟩ := h.lav l hl
  obtain ⟨vs, hr, hp, -, hc⟩ := (h.closed l hl).ring hh
  exact ⟨vs, iterLav_ok.2 ⟨o, ho, hr⟩, hp, hc⟩

theorem lavOf {st : St S} {R : Nat → List Nat} (h : Loops st R) {i : Nat} {v : Vtx S}
    (hv : st.vs[i]? = some v) (hval : v.valid = true) :
    ∃ l ∈ st.slav, v.lav = some l ∧ i ∈ R l := by
  obtain ⟨-, -, hlv, hvd, -⟩ := vs_fields hv
  rw [hval] at hvd
  obtain ⟨l, hl, e⟩ := (h.valid i).1 hvd
  refine ⟨l, hl, ?_, (h.mem l hl i).2 e⟩
  rw [hlv] at e
  simpa using e

theorem lavs_lt {st : St S} {R : Nat → List Nat} (h : Loops st R) {l : Nat} (hl : l ∈ st.slav) :
    l < st.lavs.length := by
  obtain ⟨o, ho, -⟩ := h.lav l hl
  exact (List.getElem?_eq_some_iff.1 ho).1

/-- lists of different LAVs have no vertex in common -/
theorem disjoint {st : St S} {R : Nat → List Nat} (h : Loops st R) {l l' v : Nat}
    (hl : l ∈ st.slav) (hl' : l' ∈ st.slav) (h1 : v ∈ R l) (h2 : v ∈ R l') : l = l' := by
  rw [h.mem l hl] at h1
  rw [h.mem l' hl', h1] at h2
  simpa using h2

end Loops

theorem getElem?_of_lt {st : St S} {i : Nat} (h : i < st.vs.length) :
    ∃ v, st.vs[i]? = some v := ⟨_, List.getElem?_eq_getElem h⟩

theorem Closed.lt {st : St S} {R : List Nat} (h : Closed st R) : ∀ k ∈ R, k < st.vs.length := by
  obtain ⟨-, a, P, rfl, hs⟩ := h
  exact seg_nx_lt hs

end Polyskel
