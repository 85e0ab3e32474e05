import Mathlib.Algebra.BigOperators.Group.Finset.Basic
import Mathlib.Algebra.Order.BigOperators.Group.Finset
import Mathlib.Algebra.BigOperators.Ring.Finset
import Mathlib.Algebra.Group.Action.Defs
import Mathlib.Tactic.Linarith
/-
A counting lemma on rings of lists, used for C88: the upper boundaries of the faces over the sides of a polygon.
-/
namespace Polyskel
open Finset

private theorem all_of_pred {n : Nat} (p : Nat → Prop) (h : ∀ k, k < n → p ((k + 1) % n) → p k)
    {k : Nat} (hk : k < n) (hp : p k) : ∀ l, l < n → p l := by
  have down : ∀ j, ∀ l, l < n → p l → j ≤ l → p (l - j) := by
    intro j
    induction j with
    | zero => intro l _ hl _; exact hl
    | succ j ih =>
      intro l hl hpl hj
      refine h _ (by omega) ?_
      rw [Nat.mod_eq_of_lt (by omega), show l - (j + 1) + 1 = l - j by omega]
      exact ih l hl hpl (by omega)
  have h0 : p 0 := by simpa using down k k hk hp le_rfl
  have hlast : p (n - 1) := h _ (by omega) (by rw [show n - 1 + 1 = n by omega, Nat.mod_self]; exact h0)
  intro l hl
  have := down (n - 1 - l) (n - 1) (by omega) hlast (by omega)
  rwa [show n - 1 - (n - 1 - l) = l by omega] at this

/-- `n` lists in a ring, whose neighbours end and begin with the same of `s` things; each of these occurs in three
lists at least.  If the lists are as long as those of a tree, two of them have a single element, and not the same. -/
theorem two_ears (n s : Nat) (ch : Nat → List Nat) (hs : 2 ≤ s)
    (hne : ∀ k, k < n → ch k ≠ []) (hnd : ∀ k, k < n → (ch k).Nodup) (hin : ∀ k, k < n → ∀ v ∈ ch k, v < s)
    (hsum : ∑ k ∈ range n, (ch k).length + 2 = n + 2 * s)
    (hpair : ∀ k, k < n → (ch ((k + 1) % n)).getLast? = (ch k).head?)
    (hdeg : ∀ v, v < s → 3 ≤ #{k ∈ range n | v ∈ ch k}) :
    ∃ k, k < n ∧ ∃ l, l < n ∧ ∃ v w, v ≠ w ∧ ch k = [v] ∧ ch l = [w] := by
  have hn : 0 < n := by
    rcases Nat.eq_zero_or_pos n with rfl | h
    · have := hdeg 0 (by omega); simp at this
    · exact h
  -- the head and the last element
  have hone : ∀ k, k < n → ∀ v, (ch k).head? = some v → (ch k).getLast? = some v → ch k = [v] := by
    intro k hk v h1 h2
    have hd := hnd k hk
    cases hc : ch k with
    | nil => exact absurd hc (hne k hk)
    | cons x t =>
      rw [hc] at h1 h2 hd
      simp only [List.head?_cons, Option.some.injEq] at h1
      subst h1
      cases t with
      | nil => rfl
      | cons y t =>
        rw [List.getLast?_cons_cons] at h2
        exact absurd (List.mem_of_getLast? h2) (List.nodup_cons.1 hd).1
  have hHD : ∀ v, ({k ∈ range n | (ch k).head? = some v} : Finset Nat) ⊆ {k ∈ range n | v ∈ ch k} := by
    intro v k hk
    simp only [mem_filter] at hk ⊢
    exact ⟨hk.1, List.mem_of_head? hk.2⟩
  have hLD : ∀ v, ({k ∈ range n | (ch k).getLast? = some v} : Finset Nat) ⊆ {k ∈ range n | v ∈ ch k} := by
    intro v k hk
    simp only [mem_filter] at hk ⊢
    exact ⟨hk.1, List.mem_of_getLast? hk.2⟩
  have hHL : ∀ v, #{k ∈ range n | (ch k).head? = some v} = #{k ∈ range n | (ch k).getLast? = some v} := by
    intro v
    refine card_nbij' (fun k => (k + 1) % n) (fun k => (k + (n - 1)) % n) ?_ ?_ ?_ ?_
    · intro k hk
      simp only [coe_filter, Set.mem_setOf_eq, mem_range] at hk ⊢
      exact ⟨Nat.mod_lt _ hn, by rw [hpair k hk.1]; exact hk.2⟩
    · intro k hk
      simp only [coe_filter, Set.mem_setOf_eq, mem_range] at hk ⊢
      refine ⟨Nat.mod_lt _ hn, ?_⟩
      rw [← hpair _ (Nat.mod_lt _ hn), Nat.mod_add_mod, show k + (n - 1) + 1 = k + n by omega, Nat.add_mod_right,
        Nat.mod_eq_of_lt hk.1]
      exact hk.2
    · intro k hk
      simp only [coe_filter, Set.mem_setOf_eq, mem_range] at hk
      show ((k + 1) % n + (n - 1)) % n = k
      rw [Nat.mod_add_mod, show k + 1 + (n - 1) = k + n by omega, Nat.add_mod_right, Nat.mod_eq_of_lt hk.1]
    · intro k hk
      simp only [coe_filter, Set.mem_setOf_eq, mem_range] at hk
      show ((k + (n - 1)) % n + 1) % n = k
      rw [Nat.mod_add_mod, show k + (n - 1) + 1 = k + n by omega, Nat.add_mod_right, Nat.mod_eq_of_lt hk.1]
  -- the sums
  have hsD : ∑ v ∈ range s, #{k ∈ range n | v ∈ ch k} = ∑ k ∈ range n, (ch k).length := by
    simp only [card_filter]
    rw [sum_comm]
    refine sum_congr rfl (fun k hk => ?_)
    have hk := mem_range.1 hk
    rw [← card_filter, ← List.toFinset_card_of_nodup (hnd k hk)]
    congr 1
    ext v
    simp only [mem_filter, mem_range, List.mem_toFinset]
    exact ⟨fun h => h.2, fun h => ⟨hin k hk v h, h⟩⟩
  have hsL : ∑ v ∈ range s, #{k ∈ range n | (ch k).getLast? = some v} = n := by
    simp only [card_filter]
    rw [sum_comm]
    rw [sum_congr rfl (g := fun _ => 1)]
    · simp
    intro k hk
    have hk := mem_range.1 hk
    rw [← card_filter, card_eq_one]
    refine ⟨(ch k).getLast (hne k hk), ?_⟩
    ext v
    rw [List.getLast?_eq_getLast_of_ne_nil (hne k hk)]
    simp only [mem_filter, mem_range, mem_singleton, Option.some.injEq]
    exact ⟨fun h => h.2.symm, fun h => ⟨h ▸ hin k hk _ (List.getLast_mem _), h.symm⟩⟩
  -- each thing has a list that does not end with it
  have hpos : ∀ v, v < s → #{k ∈ range n | (ch k).getLast? = some v} + 1 ≤ #{k ∈ range n | v ∈ ch k} := by
    intro v hv
    have hle := card_le_card (hLD v)
    by_contra hcon
    have eL := eq_of_subset_of_card_le (hLD v) (by omega)
    have eH := eq_of_subset_of_card_le (hHD v) (by rw [hHL]; omega)
    have hd := hdeg v hv
    obtain ⟨k, hk⟩ := card_pos.1 (show 0 < #{k ∈ range n | v ∈ ch k} by omega)
    simp only [mem_filter, mem_range] at hk
    have hall : ∀ l, l < n → v ∈ ch l := by
      refine all_of_pred (fun l => v ∈ ch l) ?_ hk.1 hk.2
      intro l hl hm
      have : (l + 1) % n ∈ ({k ∈ range n | (ch k).getLast? = some v} : Finset Nat) := by
        rw [eL]; simp only [mem_filter, mem_range]; exact ⟨Nat.mod_lt _ hn, hm⟩
      simp only [mem_filter, mem_range] at this
      rw [hpair l hl] at this
      exact List.mem_of_head? this.2
    obtain ⟨w, hw, hwv⟩ : ∃ w, w < s ∧ w ≠ v := by
      by_cases h : v = 0
      · exact ⟨1, by omega, by omega⟩
      · exact ⟨0, by omega, by omega⟩
    have hdw := hdeg w hw
    obtain ⟨l, hl⟩ := card_pos.1 (show 0 < #{k ∈ range n | w ∈ ch k} by omega)
    simp only [mem_filter, mem_range] at hl
    have m : l ∈ ({k ∈ range n | v ∈ ch k} : Finset Nat) := by
      simp only [mem_filter, mem_range]; exact ⟨hl.1, hall l hl.1⟩
    have m1 := m
    have m2 := m
    rw [← eL] at m1
    rw [← eH] at m2
    simp only [mem_filter] at m1 m2
    have := hl.2
    rw [hone l hl.1 v m2.2 m1.2] at this
    exact hwv (by simpa using this)
  -- a thing with a single list that does not end with it is alone in some list
  have hear : ∀ v, v < s → #{k ∈ range n | v ∈ ch k} ≤ #{k ∈ range n | (ch k).getLast? = some v} + 1 →
      ∃ k, k < n ∧ ch k = [v] := by
    intro v hv hle
    have hd := hdeg v hv
    have hu := card_le_card (union_subset (hHD v) (hLD v))
    have hi := card_union_add_card_inter ({k ∈ range n | (ch k).head? = some v} : Finset Nat)
      {k ∈ range n | (ch k).getLast? = some v}
    rw [hHL] at hi
    obtain ⟨k, hk⟩ := card_pos.1 (show 0 < #(({k ∈ range n | (ch k).head? = some v} : Finset Nat) ∩
      {k ∈ range n | (ch k).getLast? = some v}) by omega)
    simp only [mem_inter, mem_filter, mem_range] at hk
    exact ⟨k, hk.1.1, hone k hk.1.1 v hk.1.2 hk.2.2⟩
  -- two such things
  obtain ⟨v, hv, hvle⟩ : ∃ v, v < s ∧ #{k ∈ range n | v ∈ ch k} ≤ #{k ∈ range n | (ch k).getLast? = some v} + 1 := by
    by_contra hcon
    push Not at hcon
    have : ∑ v ∈ range s, (#{k ∈ range n | (ch k).getLast? = some v} + 2) ≤
        ∑ v ∈ range s, #{k ∈ range n | v ∈ ch k} :=
      sum_le_sum (fun v hv => hcon v (mem_range.1 hv))
    rw [sum_add_distrib, hsL, hsD] at this
    simp only [sum_const, card_range, smul_eq_mul] at this
    omega
  obtain ⟨w, hw, hwv, hwle⟩ : ∃ w, w < s ∧ w ≠ v ∧
      #{k ∈ range n | w ∈ ch k} ≤ #{k ∈ range n | (ch k).getLast? = some w} + 1 := by
    by_contra hcon
    push Not at hcon
    have : ∑ w ∈ range s, (#{k ∈ range n | (ch k).getLast? = some w} + (if w = v then 1 else 2)) ≤
        ∑ w ∈ range s, #{k ∈ range n | w ∈ ch k} := by
      refine sum_le_sum (fun w hw => ?_)
      have hw := mem_range.1 hw
      by_cases h : w = v
      · rw [if_pos h]; exact hpos w hw
      · rw [if_neg h]; exact hcon w hw h
    have h2 : ∑ w ∈ range s, (if w = v then 1 else 2) + 1 = 2 * s := by
      rw [← add_sum_erase _ _ (mem_range.2 hv), if_pos rfl,
        sum_congr rfl (g := fun _ => 2) (fun w hw => if_neg (ne_of_mem_erase hw))]
      simp only [sum_const, card_erase_of_mem (mem_range.2 hv), card_range, smul_eq_mul]
      omega
    rw [sum_add_distrib, hsL, hsD] at this
    omega
  obtain ⟨k, hk, ek⟩ := hear v hv hvle
  obtain ⟨l, hl, el⟩ := hear w hw hwle
  exact ⟨k, hk, l, hl, v, w, hwv.symm, ek, el⟩

end Polyskel
