import Mathlib.Data.List.Nodup
import Mathlib.Data.Fintype.Card
import Mathlib.Data.List.Perm.Subperm
import Verif.Spec.Wavefront
import Verif.Proofs.Run
/-
Iterating over a LAV yields exactly the vertices of its ring.
-/
namespace Polyskel
set_option linter.unusedSectionVars false
variable {S : Type} [Scalar S]

theorem walk_ok {st : St S} {head : Nat} (k : Nat) {cur : Nat} {visited vs : List Nat}
    (h : walk st head k cur visited = (vs, none)) :
    ∃ r, vs = cur :: r ∧ (vs ++ [head]).IsChain (Succ st) ∧ r.Nodup ∧
      ∀ c ∈ r, c ∉ visited ∧ c ≠ head := by
  induction k generalizing cur visited vs with
  | zero => simp [walk] at h
  | succ k ih =>
    unfold walk at h
    split at h
    · simp at h
    · rename_i v hv
      simp only at h
      split at h
      · rename_i hc
        simp only [Prod.mk.injEq, and_true] at h
        subst h
        refine ⟨[], rfl, ?_, List.nodup_nil, by simp⟩
        simp only [List.cons_append, List.nil_append, List.isChain_pair]
        exact ⟨v, hv, hc⟩
      · rename_i hc
        split at h
        · simp at h
        · rename_i hvis
          simp only [Prod.mk.injEq] at h
          obtain ⟨h1, h2⟩ := h
          obtain ⟨r, hr, hch, hn, hr'⟩ := ih (vs := (walk st head k v.next (v.next :: visited)).1)
            (cur := v.next) (visited := v.next :: visited) (by rw [← h2])
          rw [hr] at h1 hch
          subst h1
          refine ⟨v.next :: r, rfl, ?_, ?_, ?_⟩
          · simp only [List.cons_append, List.isChain_cons_cons] at hch ⊢
            exact ⟨⟨v, hv, rfl⟩, hch⟩
          · exact List.nodup_cons.2 ⟨fun hm => (hr' _ hm).1 (by simp), hn⟩
          · intro c hcm
            rcases List.mem_cons.1 hcm with rfl | hcm
            · exact ⟨hvis, hc⟩
            · exact ⟨fun hm => (hr' c hcm).1 (List.mem_cons_of_mem _ hm), (hr' c hcm).2⟩

theorem walk_of_ring {st : St S} {head : Nat} (k : Nat) {cur : Nat} {visited r : List Nat}
    (hch : ((cur :: r) ++ [head]).IsChain (Succ st)) (hn : r.Nodup)
    (hr : ∀ c ∈ r, c ∉ visited ∧ c ≠ head) (hk : r.length < k) :
    walk st head k cur visited = (cur :: r, none) := by
  induction r generalizing cur visited k with
  | nil =>
    obtain ⟨k, rfl⟩ : ∃ j, k = j + 1 := ⟨k - 1, by simp at hk; omega⟩
    simp only [List.cons_append, List.nil_append, List.isChain_pair] at hch
    obtain ⟨v, hv, hc⟩ := hch
    simp [walk, hv, hc]
  | cons d r ih =>
    obtain ⟨k, rfl⟩ : ∃ j, k = j + 1 := ⟨k - 1, by simp at hk; omega⟩
    simp only [List.cons_append, List.isChain_cons_cons] at hch
    obtain ⟨⟨v, hv, hc⟩, hch⟩ := hch
    have hd := hr d (by simp)
    rw [List.nodup_cons] at hn
    have := ih k (cur := d) (visited := d :: visited) (by simpa using hch) hn.2
      (fun c hcm => ⟨fun hm => by
        rcases List.mem_cons.1 hm with rfl | hm
        · exact hn.1 hcm
        · exact (hr c (List.mem_cons_of_mem _ hcm)).1 hm, (hr c (List.mem_cons_of_mem _ hcm)).2⟩)
      (by simp at hk; omega)
    simp [walk, hv, hc, hd.1, hd.2, this]

theorem chain_succ_lt {st : St S} {l : List Nat} {h : Nat} (hch : (l ++ [h]).IsChain (Succ st)) :
    ∀ c ∈ l, c < st.vs.length := by
  induction l with
  | nil => simp
  | cons a l ih =>
    intro c hc
    have ha : a < st.vs.length := by
      cases l with
      | nil =>
        simp only [List.cons_append, List.nil_append, List.isChain_pair] at hch
        obtain ⟨v, hv, -⟩ := hch
        exact (List.getElem?_eq_some_iff.1 hv).1
      | cons b l =>
        simp only [List.cons_append, List.isChain_cons_cons] at hch
        obtain ⟨⟨v, hv, -⟩, -⟩ := hch
        exact (List.getElem?_eq_some_iff.1 hv).1
    rcases List.mem_cons.1 hc with rfl | hc
    · exact ha
    · exact ih (by rw [List.cons_append] at hch; exact hch.tail) c hc

theorem nodup_length_le_of_lt {l : List Nat} {n : Nat} (hn : l.Nodup) (hl : ∀ c ∈ l, c < n) :
    l.length ≤ n := by
  have : l.Subperm (List.range n) :=
    List.subperm_of_subset hn (fun c hc => List.mem_range.2 (hl c hc))
  simpa using this.length_le

/-- Iterating over a LAV ends normally exactly when its head lies on a closed loop, and then
yields this loop, starting with the head. -/
theorem iterLav_ok {st : St S} {l : Nat} {vs : List Nat} :
    iterLav st l = (vs, none) ↔ ∃ o, st.lavs[l]? = some o ∧ Ring st o.head vs := by
  unfold iterLav
  cases hl : st.lavs[l]? with
  | none => simp
  | some o =>
    simp only [Option.some.injEq, exists_eq_left']
    constructor
    · intro h
      obtain ⟨r, rfl, hch, hn, hr⟩ := walk_ok _ h
      exact ⟨List.nodup_cons.2 ⟨fun hm => (hr _ hm).2 rfl, hn⟩, rfl, hch⟩
    · rintro ⟨hn, hh, hch⟩
      cases vs with
      | nil => simp at hh
      | cons a r =>
        simp only [List.head?_cons, Option.some.injEq] at hh
        subst hh
        have hlen := nodup_length_le_of_lt hn (chain_succ_lt hch)
        rw [List.nodup_cons] at hn
        refine walk_of_ring _ hch hn.2 (fun c hc => ⟨by simp, fun e => hn.1 (e ▸ hc)⟩) ?_
        simp at hlen; omega

theorem listLav_ok {st : St S} {l : Nat} {vs : List Nat} :
    listLav st l = .ok vs ↔ ∃ o, st.lavs[l]? = some o ∧ Ring st o.head vs := by
  rw [← iterLav_ok]
  unfold listLav
  rcases iterLav st l with ⟨a, b⟩
  cases b <;> simp

theorem walk_reach {st : St S} {head : Nat} (k : Nat) {cur : Nat} {visited : List Nat} {h : Nat}
    (hc : Reach st h cur) : ∀ v ∈ (walk st head k cur visited).1, Reach st h v := by
  induction k generalizing cur visited with
  | zero => simp [walk]
  | succ k ih =>
    unfold walk
    cases hv : st.vs[cur]? with
    | none => simpa using hc
    | some v =>
      simp only
      split
      · simpa using hc
      · split
        · simpa using hc
        · intro w hw
          rcases List.mem_cons.1 hw with rfl | hw
          · exact hc
          · exact ih (hc.next ⟨v, hv, rfl⟩) w hw

theorem iterLav_reach {st : St S} {l v : Nat} (h : v ∈ (iterLav st l).1) :
    ∃ o, st.lavs[l]? = some o ∧ Reach st o.head v := by
  unfold iterLav at h
  split at h
  · simp at h
  · rename_i o ho
    exact ⟨o, ho, walk_reach _ .head v h⟩

end Polyskel
