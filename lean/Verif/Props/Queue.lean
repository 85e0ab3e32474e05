import Mathlib.Tactic.Linarith
import Mathlib.Tactic.NormNum
import Verif.Proofs.Heap
import Verif.Spec.Exact
/-
C08 (the event queue) and C09 (getAllEqualDistance), bpypolyskel.py:435-467.
-/
namespace Polyskel
open HeapQ

/-! ### C08 -/

/-- The histories of a queue: `Hist q ins out` means that from the empty queue some sequence of
`put` and `get` calls has inserted the elements `ins`, removed the elements `out` (both in the
order of the calls) and left the list `q` as the queue's internal state. -/
inductive Hist {α : Type} (lt : α → α → Bool) : List α → List α → List α → Prop
  | empty : Hist lt [] [] []
  | put {q ins out} (x : α) : Hist lt q ins out → Hist lt (push lt q x) (ins ++ [x]) out
  | get {q ins out x q'} : Hist lt q ins out → pop lt q = some (x, q') →
      Hist lt q' ins (out ++ [x])

/-- C08: nothing is lost or invented: removed and remaining elements are the inserted ones (any
comparison whatever, so also in the presence of NaN distances). -/
theorem C08_queue_multiset {α : Type} (lt : α → α → Bool) (q ins out : List α)
    (h : Hist lt q ins out) : (out ++ q).Perm ins := by
  induction h with
  | empty => exact List.Perm.refl _
  | put x h ih =>
    refine ((push_perm lt _ x).append_left _).trans ?_
    refine List.perm_middle.trans ?_
    exact (List.Perm.cons x ih).trans (List.perm_append_singleton x _).symm
  | get h hp ih =>
    rw [List.append_assoc]
    exact ((pop_perm lt _ _ _ hp).append_left _).trans ih

theorem Hist.heap {α : Type} {lt : α → α → Bool} (w : WeakOrder lt) {q ins out : List α}
    (h : Hist lt q ins out) : IsHeap lt q := by
  induction h with
  | empty => intro j _ a b _ hb; simp at hb
  | put x h ih => exact push_heap w _ x ih
  | get h hp ih => exact pop_heap w _ _ _ ih hp

/-- C08: `get` removes one occurrence of an element than which none in the queue is smaller. -/
theorem C08_queue_min {α : Type} (lt : α → α → Bool) (w : WeakOrder lt) (q ins out : List α)
    (h : Hist lt q ins out) (x : α) (q' : List α) (hp : pop lt q = some (x, q')) :
    (x :: q').Perm q ∧ ∀ y ∈ q, lt y x = false :=
  ⟨pop_perm lt _ _ _ hp, root_min w q (h.heap w) x (pop_root lt _ _ _ hp)⟩

/-- C08: `get` raises IndexError exactly on an empty queue. -/
theorem C08_queue_empty {α : Type} (lt : α → α → Bool) (q : List α) :
    pop lt q = none ↔ q = [] := pop_none lt q

/-- events compared by distance form such an order, in exact arithmetic -/
theorem evLt_weakOrder : WeakOrder (evLt (S := ℝ)) where
  asymm a b h := by simp only [evLt, ex_lt, ex_lt_false] at *; linarith
  trans a b c h1 h2 := by simp only [evLt, ex_lt_false] at *; linarith

/-- case: three insertions and one removal -/
example : ∃ q, Hist (fun a b : Nat => decide (a < b)) q [5, 3, 4] [3] ∧ q.Perm [4, 5] := by
  refine ⟨_, Hist.get (x := 3) (((Hist.empty.put 5).put 3).put 4) rfl, ?_⟩
  decide

/-- `put_all` inserts one after the other -/
theorem putAll_hist {S : Type} [Scalar S] (q ins out es : List (Event S)) (h : Hist evLt q ins out) :
    Hist evLt (putAll q es) (ins ++ es) out := by
  unfold putAll
  induction es generalizing q ins with
  | nil => simpa using h
  | cons e es ih =>
    have := ih _ _ (h.put e)
    simpa using this

/-- C08 for `put_all`: the queue afterwards holds the old and the new events. -/
theorem C08_putAll_perm {S : Type} [Scalar S] (q es : List (Event S)) :
    (putAll q es).Perm (q ++ es) := by
  unfold putAll
  induction es generalizing q with
  | nil => simp
  | cons e es ih =>
    refine (ih _).trans ?_
    refine ((push_perm evLt q e).append_right es).trans ?_
    exact List.perm_middle.symm

/-! ### C09 -/

theorem popEqual_perm {S : Type} [Scalar S] (d : S) (k : Nat) (q : List (Event S)) :
    ((popEqual d k q).1 ++ (popEqual d k q).2).Perm q := by
  induction k generalizing q with
  | zero => exact List.Perm.refl _
  | succ k ih =>
    unfold popEqual
    split
    · exact List.Perm.refl _
    · split
      · split
        · exact List.Perm.refl _
        · rename_i top tl hlt e q' hp
          exact (List.Perm.cons e (ih q')).trans (pop_perm _ _ _ _ hp)
      · exact List.Perm.refl _

theorem popEqual_spec (d : ℝ) (k : Nat) (q : List (Event ℝ)) (hk : q.length ≤ k)
    (hq : IsHeap evLt q) (hd : ∀ e ∈ q, d ≤ e.dist) :
    let r := popEqual d k q
    (∀ e ∈ r.1, e.dist < d + 1 / 1000) ∧ (∀ e ∈ r.2, d + 1 / 1000 ≤ e.dist) ∧
      r.1.Pairwise (fun a b => a.dist ≤ b.dist) ∧ IsHeap evLt r.2 := by
  induction k generalizing q with
  | zero =>
    have : q = [] := List.length_eq_zero_iff.1 (by omega)
    subst this
    simp only [popEqual]
    simpa using hq
  | succ k ih =>
    unfold popEqual
    simp only
    split
    · simpa using hq
    · rename_i top tl
      have hmin := root_min evLt_weakOrder _ hq top rfl
      have hmin' : ∀ y ∈ top :: tl, top.dist ≤ y.dist := by
        intro y hy; have := hmin y hy; simpa [evLt] using this
      have hdt := hd top (by simp)
      split
      · rename_i hlt
        simp only [ex_abs, ex_sub, ex_lit, ex_lt] at hlt
        rw [abs_of_nonneg (by linarith)] at hlt
        push_cast at hlt
        split
        · rename_i hp
          rw [pop_none] at hp; simp at hp
        · rename_i e q' hp
          have hroot := pop_root _ _ _ _ hp
          simp at hroot
          subst hroot
          have hperm := pop_perm _ _ _ _ hp
          have hlen := hperm.length_eq
          simp at hlen
          have hsub : ∀ y ∈ q', y ∈ top :: tl := fun y hy =>
            hperm.mem_iff.1 (List.mem_cons_of_mem _ hy)
          have hih := ih q' (by simp at hk; omega) (pop_heap evLt_weakOrder _ _ _ hq hp)
            (fun y hy => hd y (hsub y hy))
          simp only at hih ⊢
          obtain ⟨h1, h2, h3, h4⟩ := hih
          refine ⟨?_, h2, ?_, h4⟩
          · intro y hy
            rcases List.mem_cons.1 hy with rfl | hy
            · linarith
            · exact h1 y hy
          · rw [List.pairwise_cons]
            refine ⟨fun y hy => hmin' y (hsub y ?_), h3⟩
            exact (popEqual_perm d k q').mem_iff.1 (List.mem_append_left _ hy)
      · rename_i hlt
        simp only [ex_abs, ex_sub, ex_lit, ex_lt, not_lt] at hlt
        rw [abs_of_nonneg (by linarith)] at hlt
        push_cast at hlt
        refine ⟨by simp, ?_, by simp, hq⟩
        intro y hy
        have := hmin' y hy
        linarith

/-- C09: on a non-empty queue (with whatever history) getAllEqualDistance returns an event with
the smallest distance `d`, then exactly the other events with distance < d + 0.001, in order of
distance; the other events stay in the queue. -/
theorem C09_getAllEqualDistance (q ins out : List (Event ℝ)) (h : Hist evLt q ins out)
    (hne : q ≠ []) :
    ∃ first others rest, getAllEqualDistance q = some (first :: others, rest) ∧
      (first :: others ++ rest).Perm q ∧
      (∀ e ∈ q, first.dist ≤ e.dist) ∧
      (∀ e ∈ others, e.dist < first.dist + 1 / 1000) ∧
      (∀ e ∈ rest, first.dist + 1 / 1000 ≤ e.dist) ∧
      (first :: others).Pairwise (fun a b => a.dist ≤ b.dist) := by
  have hq := h.heap evLt_weakOrder
  cases hp : pop evLt q with
  | none => exact absurd ((pop_none _ _).1 hp) hne
  | some r =>
    obtain ⟨item, q'⟩ := r
    have hmin := root_min evLt_weakOrder _ hq item (pop_root _ _ _ _ hp)
    have hmin' : ∀ y ∈ q, item.dist ≤ y.dist := by
      intro y hy; have := hmin y hy; simpa [evLt] using this
    have hperm := pop_perm _ _ _ _ hp
    have hsub : ∀ y ∈ q', y ∈ q := fun y hy => hperm.mem_iff.1 (List.mem_cons_of_mem _ hy)
    have hspec := popEqual_spec item.dist q'.length q' (Nat.le_refl _)
      (pop_heap evLt_weakOrder _ _ _ hq hp) (fun y hy => hmin' y (hsub y hy))
    simp only at hspec
    obtain ⟨h1, h2, h3, _⟩ := hspec
    refine ⟨item, (popEqual item.dist q'.length q').1, (popEqual item.dist q'.length q').2, ?_, ?_,
      hmin', h1, h2, ?_⟩
    · simp only [getAllEqualDistance, hp]
    · exact (List.Perm.cons item (popEqual_perm _ _ _)).trans hperm
    · rw [List.pairwise_cons]
      refine ⟨fun y hy => hmin' y (hsub y ?_), h3⟩
      exact (popEqual_perm _ _ q').mem_iff.1 (List.mem_append_left _ hy)

/-- C09: it raises (IndexError) exactly on an empty queue, and for any comparison of distances
(no laws assumed) it only moves events: returned and remaining ones are those of before. -/
theorem C09_getAllEqualDistance_perm {S : Type} [Scalar S] (q : List (Event S)) :
    (getAllEqualDistance q = none ↔ q = []) ∧
    ∀ b r, getAllEqualDistance q = some (b, r) → (b ++ r).Perm q ∧ b ≠ [] := by
  unfold getAllEqualDistance
  cases hp : pop evLt q with
  | none =>
    rw [pop_none] at hp
    simp [hp]
  | some x =>
    obtain ⟨item, q'⟩ := x
    have hne : q ≠ [] := by
      intro h0; rw [← pop_none evLt] at h0; rw [h0] at hp; cases hp
    refine ⟨by simp [hne], ?_⟩
    intro b r hbr
    simp only [Option.some.injEq, Prod.mk.injEq] at hbr
    obtain ⟨rfl, rfl⟩ := hbr
    exact ⟨(List.Perm.cons item (popEqual_perm _ _ _)).trans (pop_perm _ _ _ _ hp), by simp⟩

/-- the queue keeps its heap order -/
theorem getAllEqualDistance_heap (q b r : List (Event ℝ)) (hq : IsHeap evLt q)
    (h : getAllEqualDistance q = some (b, r)) : IsHeap evLt r := by
  unfold getAllEqualDistance at h
  cases hp : pop evLt q with
  | none => rw [hp] at h; cases h
  | some x =>
    obtain ⟨item, q'⟩ := x
    rw [hp] at h
    simp only [Option.some.injEq, Prod.mk.injEq] at h
    obtain ⟨rfl, rfl⟩ := h
    have hmin := root_min evLt_weakOrder _ hq item (pop_root _ _ _ _ hp)
    have hmin' : ∀ y ∈ q, item.dist ≤ y.dist := by
      intro y hy; have := hmin y hy; simpa [evLt] using this
    have hperm := pop_perm _ _ _ _ hp
    exact (popEqual_spec item.dist q'.length q' (Nat.le_refl _)
      (pop_heap evLt_weakOrder _ _ _ hq hp)
      (fun y hy => hmin' y (hperm.mem_iff.1 (List.mem_cons_of_mem _ hy)))).2.2.2

/-- case: of the distances 2, 1 and 1.0005 the last two are returned together -/
example : ∃ first others rest,
    getAllEqualDistance (putAll [] [Event.edge ⟨(2 : ℝ), ⟨0, 0⟩, 0, 1⟩, Event.edge ⟨1, ⟨0, 0⟩, 1, 2⟩,
      Event.edge ⟨1.0005, ⟨0, 0⟩, 2, 3⟩]) = some (first :: others, rest) ∧ first.dist = 1 ∧
      rest.length = 1 := by
  have hh := putAll_hist [] [] [] [Event.edge ⟨(2 : ℝ), ⟨0, 0⟩, 0, 1⟩,
    Event.edge ⟨1, ⟨0, 0⟩, 1, 2⟩, Event.edge ⟨1.0005, ⟨0, 0⟩, 2, 3⟩] Hist.empty
  have hp := C08_putAll_perm [] [Event.edge ⟨(2 : ℝ), ⟨0, 0⟩, 0, 1⟩,
    Event.edge ⟨1, ⟨0, 0⟩, 1, 2⟩, Event.edge ⟨1.0005, ⟨0, 0⟩, 2, 3⟩]
  obtain ⟨f, o, r, h1, h2, h3, h4, h5, _⟩ := C09_getAllEqualDistance _ _ _ hh
    (by intro h0; rw [h0] at hp; simpa using hp.length_eq)
  refine ⟨f, o, r, h1, ?_, ?_⟩
  · have hm := (h2.trans hp).mem_iff.1 (List.mem_cons_self (a := f) (l := o ++ r))
    have h1' := h3 _ (hp.mem_iff.2 (by simp : Event.edge ⟨(1 : ℝ), ⟨0, 0⟩, 1, 2⟩ ∈ _))
    simp only [List.nil_append, List.mem_cons, List.not_mem_nil, or_false] at hm
    rcases hm with rfl | rfl | rfl <;> first | rfl | (exfalso; norm_num [Event.dist] at h1')
  · have hall := h2.trans hp
    have hf : f.dist = 1 := by
      have hm := hall.mem_iff.1 (List.mem_cons_self (a := f) (l := o ++ r))
      have h1' := h3 _ (hp.mem_iff.2 (by simp : Event.edge ⟨(1 : ℝ), ⟨0, 0⟩, 1, 2⟩ ∈ _))
      simp only [List.nil_append, List.mem_cons, List.not_mem_nil, or_false] at hm
      rcases hm with rfl | rfl | rfl <;> first | rfl | (exfalso; norm_num [Event.dist] at h1')
    classical
    have hc := hall.countP_eq (fun e => decide (1 + 1 / 1000 ≤ e.dist))
    simp only [List.cons_append, List.countP_cons, List.countP_append, List.nil_append,
      List.countP_nil] at hc
    have c1 : o.countP (fun e => decide (1 + 1 / 1000 ≤ e.dist)) = 0 := by
      rw [List.countP_eq_zero]; intro e he; have := h4 e he; rw [hf] at this; simp; linarith
    have c2 : r.countP (fun e => decide (1 + 1 / 1000 ≤ e.dist)) = r.length := by
      rw [List.countP_eq_length]; intro e he; have := h5 e he; rw [hf] at this; simpa using this
    rw [c1, c2, hf] at hc
    norm_num [Event.dist] at hc
    exact hc

end Polyskel
