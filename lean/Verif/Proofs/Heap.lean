import Verif.Model.Skel
/-
Lemmas about the binary heap: permutation, heap order, minimum at the root.
-/
namespace Polyskel.HeapQ

variable {α : Type}

theorem swap_length (h : List α) (i j : Nat) : (swap h i j).length = h.length := by
  unfold swap; split <;> simp

theorem swap_perm (h : List α) (i j : Nat) : (swap h i j).Perm h := by
  unfold swap
  split
  · rename_i a b ha hb
    obtain ⟨hi, ha⟩ := List.getElem?_eq_some_iff.1 ha
    obtain ⟨hj, hb⟩ := List.getElem?_eq_some_iff.1 hb
    subst ha hb
    exact List.set_set_perm hi hj
  · exact List.Perm.refl _

theorem swap_getElem? (h : List α) (i j k : Nat) (hi : i < h.length) (hj : j < h.length) :
    (swap h i j)[k]? = if k = j then h[i]? else if k = i then h[j]? else h[k]? := by
  unfold swap
  simp only [List.getElem?_eq_getElem hi, List.getElem?_eq_getElem hj]
  rw [List.getElem?_set, List.getElem?_set]
  simp only [List.length_set]
  by_cases h1 : k = j
  · subst h1; simp [hj]
  · by_cases h2 : k = i
    · subst h2; simp [h1, Ne.symm h1, hi]
    · simp [h1, h2, Ne.symm h1, Ne.symm h2]

theorem siftdown_perm (lt : α → α → Bool) (k : Nat) (h : List α) (pos : Nat) :
    (siftdown lt k h pos).Perm h := by
  induction k generalizing h pos with
  | zero => exact List.Perm.refl _
  | succ k ih =>
    unfold siftdown
    split
    · exact List.Perm.refl _
    · simp only
      split
      · split
        · exact (ih _ _).trans (swap_perm _ _ _)
        · exact List.Perm.refl _
      · exact List.Perm.refl _

theorem siftupLeaf_perm (lt : α → α → Bool) (k : Nat) (h : List α) (pos : Nat) :
    (siftupLeaf lt k h pos).1.Perm h := by
  induction k generalizing h pos with
  | zero => exact List.Perm.refl _
  | succ k ih =>
    unfold siftupLeaf
    simp only
    split
    · exact List.Perm.refl _
    · exact (ih _ _).trans (swap_perm _ _ _)

theorem push_perm (lt : α → α → Bool) (h : List α) (x : α) : (push lt h x).Perm (x :: h) :=
  (siftdown_perm lt _ _ _).trans (List.perm_append_singleton x h)

theorem pop_none (lt : α → α → Bool) (h : List α) : pop lt h = none ↔ h = [] := by
  unfold pop
  cases hl : h.getLast? with
  | none => simpa using hl
  | some last =>
    have hne : h ≠ [] := by rintro rfl; simp at hl
    simp only [hne, iff_false]
    split <;> simp

theorem getLast_split {h : List α} {last : α} (hl : h.getLast? = some last) :
    h.dropLast ++ [last] = h := by
  obtain ⟨ys, rfl⟩ := List.getLast?_eq_some_iff.1 hl
  simp

theorem pop_perm (lt : α → α → Bool) (h h' : List α) (x : α) (hp : pop lt h = some (x, h')) :
    (x :: h').Perm h := by
  unfold pop at hp
  cases hl : h.getLast? with
  | none => rw [hl] at hp; simp at hp
  | some last =>
    rw [hl] at hp
    have hne : h ≠ [] := by rintro rfl; simp at hl
    have hsplit := getLast_split hl
    simp only at hp
    split at hp
    · rename_i hd
      simp only [Option.some.injEq, Prod.mk.injEq] at hp
      obtain ⟨rfl, rfl⟩ := hp
      rw [hd] at hsplit; rw [← hsplit]; exact List.Perm.refl _
    · rename_i top rest hd
      simp only [Option.some.injEq, Prod.mk.injEq] at hp
      obtain ⟨rfl, rfl⟩ := hp
      have p1 := (siftdown_perm lt (h.dropLast.length + 1)
        (siftupLeaf lt (h.dropLast.length + 1) (h.dropLast.set 0 last) 0).1
        (siftupLeaf lt (h.dropLast.length + 1) (h.dropLast.set 0 last) 0).2).trans
        (siftupLeaf_perm lt (h.dropLast.length + 1) (h.dropLast.set 0 last) 0)
      refine (List.Perm.cons _ p1).trans ?_
      rw [hd] at hsplit ⊢
      rw [← hsplit]
      simp only [List.set_cons_zero, List.cons_append]
      exact List.Perm.cons _ (List.perm_append_singleton last rest).symm

/-- the order of the elements: irreflexive enough to compare (`asymm`) and with a transitive
"not greater" relation -/
structure WeakOrder (lt : α → α → Bool) : Prop where
  asymm : ∀ a b, lt a b = true → lt b a = false
  trans : ∀ a b c, lt b a = false → lt c b = false → lt c a = false

/-- parent not greater than child, for the child at `j` -/
def OkAt (lt : α → α → Bool) (h : List α) (j : Nat) : Prop :=
  ∀ a b, h[(j - 1) / 2]? = some a → h[j]? = some b → lt b a = false

/-- heap order -/
def IsHeap (lt : α → α → Bool) (h : List α) : Prop := ∀ j, 0 < j → OkAt lt h j

/-- grandparent of the children of `pos` not greater than them -/
def OkSkip (lt : α → α → Bool) (h : List α) (pos : Nat) : Prop :=
  0 < pos → ∀ j, (j - 1) / 2 = pos → 0 < j → ∀ a b, h[(pos - 1) / 2]? = some a → h[j]? = some b →
    lt b a = false

theorem siftdown_heap {lt : α → α → Bool} (w : WeakOrder lt) (k : Nat) (h : List α) (pos : Nat)
    (hk : pos < k) (hpos : pos < h.length) (hok : ∀ j, 0 < j → j ≠ pos → OkAt lt h j)
    (hskip : OkSkip lt h pos) : IsHeap lt (siftdown lt k h pos) := by
  induction k generalizing h pos with
  | zero => omega
  | succ k ih =>
    unfold siftdown
    split
    · rename_i h0
      intro j hj; exact hok j hj (by omega)
    · rename_i h0
      simp only
      have hpar : (pos - 1) / 2 < h.length := by omega
      rw [List.getElem?_eq_getElem hpos, List.getElem?_eq_getElem hpar]
      simp only
      generalize hx : h[pos] = x
      generalize hp : h[(pos - 1) / 2] = p
      have hx' : h[pos]? = some x := by rw [List.getElem?_eq_getElem hpos, hx]
      have hp' : h[(pos - 1) / 2]? = some p := by rw [List.getElem?_eq_getElem hpar, hp]
      split
      · rename_i hlt
        have hget := fun m => swap_getElem? h pos ((pos - 1) / 2) m hpos hpar
        refine ih _ _ (by omega) (by rw [swap_length]; exact hpar) ?_ ?_
        · intro j hj hne a b ha hb
          rw [hget] at ha hb
          by_cases hjp : j = pos
          · subst hjp
            rw [if_pos rfl, hx'] at ha
            rw [if_neg (by omega), if_pos rfl, hp'] at hb
            cases ha; cases hb
            exact w.asymm _ _ hlt
          · rw [if_neg hne, if_neg hjp] at hb
            by_cases h1 : (j - 1) / 2 = (pos - 1) / 2
            · rw [if_pos h1, hx'] at ha
              have := hok j hj hjp p b (by rw [h1]; exact hp') hb
              cases ha
              exact w.trans x p b (w.asymm _ _ hlt) this
            · rw [if_neg h1] at ha
              by_cases h2 : (j - 1) / 2 = pos
              · rw [if_pos h2, hp'] at ha
                cases ha
                exact hskip (by omega) j h2 hj p b hp' hb
              · rw [if_neg h2] at ha
                exact hok j hj hjp a b ha hb
        · intro hpp j hjp hj a b ha hb
          rw [hget] at ha hb
          rw [if_neg (by omega), if_neg (by omega)] at ha
          have hpa := hok ((pos - 1) / 2) hpp (by omega) a p ha hp'
          by_cases hj1 : j = (pos - 1) / 2
          · omega
          · rw [if_neg hj1] at hb
            by_cases hj2 : j = pos
            · rw [if_pos hj2, hp'] at hb; cases hb; exact hpa
            · rw [if_neg hj2] at hb
              have := hok j hj hj2 p b (by rw [hjp]; exact hp') hb
              exact w.trans a p b hpa this
      · rename_i hlt
        intro j hj
        by_cases hjp : j = pos
        · subst hjp
          intro a b ha hb
          rw [hp'] at ha; rw [hx'] at hb
          cases ha; cases hb
          simpa using hlt
        · exact hok j hj hjp

theorem siftupLeaf_spec {lt : α → α → Bool} (w : WeakOrder lt) (k : Nat) (h : List α) (pos : Nat)
    (hk : h.length ≤ pos + k) (hpos : pos < h.length)
    (hok : ∀ j, 0 < j → j ≠ pos → (j - 1) / 2 ≠ pos → OkAt lt h j)
    (hskip : OkSkip lt h pos) :
    let r := siftupLeaf lt k h pos
    r.2 < r.1.length ∧ (∀ j, 0 < j → j ≠ r.2 → OkAt lt r.1 j) ∧ OkSkip lt r.1 r.2 := by
  induction k generalizing h pos with
  | zero => omega
  | succ k ih =>
    unfold siftupLeaf
    simp only
    split
    · rename_i hc
      have hlen : h.length ≤ 2 * pos + 1 := by simpa using hc
      refine ⟨hpos, ?_, hskip⟩
      intro j hj hne
      by_cases h1 : (j - 1) / 2 = pos
      · intro a b _ hb
        have : h[j]? = none := by simp; omega
        rw [this] at hb; cases hb
      · exact hok j hj hne h1
    · rename_i c hc
      obtain ⟨hclt, hceq⟩ := List.getElem?_eq_some_iff.1 hc
      -- the chosen child
      generalize hbest : smallerChild lt h (2 * pos + 1) c = best
      unfold smallerChild at hbest
      have hb1 : best = 2 * pos + 1 ∨ best = 2 * pos + 2 := by
        subst hbest; split
        · split <;> simp
        · simp
      have hb2 : best < h.length := by
        subst hbest; split
        · rename_i r hr
          have := (List.getElem?_eq_some_iff.1 hr).1
          split <;> omega
        · exact hclt
      obtain ⟨m, hm⟩ : ∃ m, h[best]? = some m := ⟨_, List.getElem?_eq_getElem hb2⟩
      -- it is not greater than the other one
      have hmin : ∀ j, (j - 1) / 2 = pos → 0 < j → ∀ b, h[j]? = some b → lt b m = false := by
        have hirr : ∀ a, lt a a = false := by
          intro a
          cases hh : lt a a with
          | false => rfl
          | true => exact absurd (w.asymm _ _ hh) (by simp [hh])
        intro j hj hj0 b hb
        have hj' : j = 2 * pos + 1 ∨ j = 2 * pos + 1 + 1 := by omega
        revert hbest
        cases hr : h[2 * pos + 1 + 1]? with
        | none =>
          intro hbest
          simp only at hbest
          rcases hj' with rfl | rfl
          · rw [← hbest] at hm; rw [hm] at hb; cases hb; exact hirr _
          · rw [hr] at hb; cases hb
        | some r =>
          simp only
          split
          · rename_i hlt
            intro hbest
            rw [← hbest, hc] at hm; cases hm
            rcases hj' with rfl | rfl
            · rw [hc] at hb; cases hb; exact hirr _
            · rw [hr] at hb; cases hb; exact w.asymm _ _ hlt
          · rename_i hlt
            intro hbest
            rw [← hbest, hr] at hm; cases hm
            rcases hj' with rfl | rfl
            · rw [hc] at hb; cases hb; simpa using hlt
            · rw [hr] at hb; cases hb; exact hirr _
      have hget := fun q => swap_getElem? h pos best q hpos hb2
      obtain ⟨x, hx⟩ : ∃ x, h[pos]? = some x := ⟨_, List.getElem?_eq_getElem hpos⟩
      apply ih
      · rw [swap_length]; omega
      · rw [swap_length]; exact hb2
      · intro j hj hne hpne a b ha hb
        rw [hget] at ha hb
        rw [if_neg hne] at hb
        rw [if_neg hpne] at ha
        by_cases hjp : j = pos
        · rw [if_pos hjp, hm] at hb
          cases hb
          subst hjp
          rw [if_neg (by omega)] at ha
          exact hskip (by omega) best (by omega) (by omega) a m ha hm
        · rw [if_neg hjp] at hb
          by_cases h1 : (j - 1) / 2 = pos
          · rw [if_pos h1, hm] at ha; cases ha
            exact hmin j h1 hj b hb
          · rw [if_neg h1] at ha
            exact hok j hj hjp h1 a b ha hb
      · intro _ j hjb hj a b ha hb
        rw [hget] at ha hb
        have hbp : (best - 1) / 2 = pos := by omega
        rw [if_neg (by omega), if_pos hbp, hm] at ha
        cases ha
        rw [if_neg (by omega), if_neg (by omega)] at hb
        exact hok j hj (by omega) (by omega) m b (by rw [hjb]; exact hm) hb

theorem push_heap {lt : α → α → Bool} (w : WeakOrder lt) (h : List α) (x : α)
    (hh : IsHeap lt h) : IsHeap lt (push lt h x) := by
  unfold push
  refine siftdown_heap w _ _ _ (by omega) (by simp) ?_ ?_
  · intro j hj hne a b ha hb
    rcases Nat.lt_or_ge j h.length with hlt | hge
    · rw [List.getElem?_append_left hlt] at hb
      rw [List.getElem?_append_left (by omega)] at ha
      exact hh j hj a b ha hb
    · have : (h ++ [x])[j]? = none := by simp; omega
      rw [this] at hb; cases hb
  · intro _ j hj hj0 a b _ hb
    have : (h ++ [x])[j]? = none := by simp; omega
    rw [this] at hb; cases hb

/-- the root of a heap is a smallest element -/
theorem root_min {lt : α → α → Bool} (w : WeakOrder lt) (h : List α) (hh : IsHeap lt h) (r : α)
    (hr : h[0]? = some r) : ∀ y ∈ h, lt y r = false := by
  have key : ∀ (n j : Nat) (b : α), j ≤ n → h[j]? = some b → lt b r = false := by
    intro n
    induction n with
    | zero =>
      intro j b hj hb
      have : j = 0 := by omega
      subst this
      rw [hr] at hb; cases hb
      cases hx : lt r r with
      | false => rfl
      | true => exact absurd (w.asymm _ _ hx) (by simp [hx])
    | succ n ih =>
      intro j b hj hb
      rcases Nat.lt_or_ge j (n + 1) with h1 | h1
      · exact ih j b (by omega) hb
      · have hlt := (List.getElem?_eq_some_iff.1 hb).1
        have hp : (j - 1) / 2 < h.length := by omega
        have h2 := ih ((j - 1) / 2) _ (by omega) (List.getElem?_eq_getElem hp)
        exact w.trans _ _ _ h2 (hh j (by omega) _ _ (List.getElem?_eq_getElem hp) hb)
  intro y hy
  obtain ⟨j, hj⟩ := List.mem_iff_getElem?.1 hy
  exact key j j y (Nat.le_refl _) hj

theorem pop_root (lt : α → α → Bool) (h h' : List α) (x : α) (hp : pop lt h = some (x, h')) :
    h[0]? = some x := by
  unfold pop at hp
  cases hl : h.getLast? with
  | none => rw [hl] at hp; simp at hp
  | some last =>
    rw [hl] at hp
    have hne : h ≠ [] := by rintro rfl; simp at hl
    have hsplit := getLast_split hl
    simp only at hp
    split at hp
    · rename_i hd
      simp only [Option.some.injEq, Prod.mk.injEq] at hp
      obtain ⟨rfl, rfl⟩ := hp
      rw [hd] at hsplit; rw [← hsplit]; rfl
    · rename_i top rest hd
      simp only [Option.some.injEq, Prod.mk.injEq] at hp
      obtain ⟨rfl, rfl⟩ := hp
      rw [← hsplit, hd]; rfl

theorem pop_heap {lt : α → α → Bool} (w : WeakOrder lt) (h h' : List α) (x : α)
    (hh : IsHeap lt h) (hp : pop lt h = some (x, h')) : IsHeap lt h' := by
  unfold pop at hp
  cases hl : h.getLast? with
  | none => rw [hl] at hp; simp at hp
  | some last =>
    rw [hl] at hp
    have hne : h ≠ [] := by rintro rfl; simp at hl
    have hsplit := getLast_split hl
    simp only at hp
    split at hp
    · simp only [Option.some.injEq, Prod.mk.injEq] at hp
      obtain ⟨_, rfl⟩ := hp
      intro j _ a b _ hb; simp at hb
    · rename_i top rest hd
      simp only [Option.some.injEq, Prod.mk.injEq] at hp
      obtain ⟨_, rfl⟩ := hp
      have hdlen : h.dropLast.length = rest.length + 1 := by rw [hd]; rfl
      have hget : ∀ j, 0 < j → ∀ b, (h.dropLast.set 0 last)[j]? = some b → h[j]? = some b := by
        intro j hj b hb
        rw [List.getElem?_set_ne (by omega)] at hb
        have := (List.getElem?_eq_some_iff.1 hb).1
        rw [← hsplit, List.getElem?_append_left this]; exact hb
      have hspec := siftupLeaf_spec w (h.dropLast.length + 1) (h.dropLast.set 0 last) 0
        (by simp) (by rw [List.length_set, hdlen]; omega)
        (fun j hj hne hpne a b ha hb => hh j hj a b
          (hget _ (by omega) a ha) (hget j hj b hb))
        (fun h0 => by omega)
      simp only at hspec
      have hlen : (siftupLeaf lt (h.dropLast.length + 1) (h.dropLast.set 0 last) 0).1.length
          = h.dropLast.length := by
        rw [(siftupLeaf_perm lt _ _ _).length_eq]; simp
      refine siftdown_heap w _ _ _ ?_ hspec.1 hspec.2.1 hspec.2.2
      have := hspec.1
      rw [hlen] at this; omega

end Polyskel.HeapQ
