import Verif.Model.Graph
/-
One concrete Python runtime, for the examples: sets are popped and iterated in list order,
`sorted` is insertion sort.
-/
namespace Polyskel

/-- insert into a sorted list, after equal elements -/
def insertSorted (lt : Int → Int → Bool) (x : Int) : List Int → List Int
  | [] => [x]
  | y :: ys => if lt x y then x :: y :: ys else y :: insertSorted lt x ys

/-- insertion sort -/
def insertionSort (lt : Int → Int → Bool) : List Int → List Int
  | [] => []
  | x :: xs => insertSorted lt x (insertionSort lt xs)

theorem insertSorted_perm (lt : Int → Int → Bool) (x : Int) (l : List Int) :
    (insertSorted lt x l).Perm (x :: l) := by
  induction l with
  | nil => exact List.Perm.refl _
  | cons y ys ih =>
    unfold insertSorted
    split
    · exact List.Perm.refl _
    · exact (List.Perm.cons y ih).trans (List.Perm.swap x y ys)

theorem insertionSort_perm (lt : Int → Int → Bool) (l : List Int) :
    (insertionSort lt l).Perm l := by
  induction l with
  | nil => exact List.Perm.refl _
  | cons x xs ih => exact (insertSorted_perm lt x _).trans (List.Perm.cons x ih)

theorem insertSorted_pairwise (lt : Int → Int → Bool) (x : Int) (l : List Int)
    (hx : x ∉ l)
    (htot : ∀ a ∈ x :: l, ∀ b ∈ x :: l, a ≠ b → (lt a b = true ↔ lt b a = false))
    (htr : ∀ a ∈ x :: l, ∀ b ∈ x :: l, ∀ c ∈ x :: l, a ≠ b → b ≠ c → a ≠ c →
      lt a b = true → lt b c = true → lt a c = true)
    (hn : l.Nodup) (hs : l.Pairwise (fun a b => lt a b = true)) :
    (insertSorted lt x l).Pairwise (fun a b => lt a b = true) := by
  induction l with
  | nil => simp [insertSorted]
  | cons y ys ih =>
    unfold insertSorted
    have hxy : x ≠ y := fun h => hx (h ▸ List.mem_cons_self)
    have hxys : x ∉ ys := fun h => hx (List.mem_cons_of_mem _ h)
    have up : ∀ a, a ∈ x :: ys → a ∈ x :: y :: ys := by
      intro a ha
      rcases List.mem_cons.1 ha with rfl | ha
      · simp
      · simp [ha]
    rw [List.pairwise_cons] at hs
    rw [List.nodup_cons] at hn
    split
    · rename_i h
      rw [List.pairwise_cons]
      refine ⟨fun z hz => ?_, List.pairwise_cons.2 hs⟩
      rcases List.mem_cons.1 hz with rfl | hz
      · exact h
      · refine htr x (by simp) y (by simp) z (by simp [hz]) hxy ?_ ?_ h (hs.1 z hz)
        · exact fun e => hn.1 (e ▸ hz)
        · exact fun e => hxys (e ▸ hz)
    · rename_i h
      rw [List.pairwise_cons]
      refine ⟨fun z hz => ?_, ih hxys ?_ ?_ hn.2 hs.2⟩
      · rcases List.mem_cons.1 ((insertSorted_perm lt x ys).mem_iff.1 hz) with rfl | hz
        · have := htot z (by simp) y (by simp) hxy
          simp only [Bool.not_eq_true] at h
          have h2 := htot y (by simp) z (by simp) (Ne.symm hxy)
          exact h2.2 h
        · exact hs.1 z hz
      · intro a ha b hb
        exact htot a (up a ha) b (up b hb)
      · intro a ha b hb c hc
        exact htr a (up a ha) b (up b hb) c (up c hc)

theorem insertionSort_pairwise (lt : Int → Int → Bool) (l : List Int) (hn : l.Nodup)
    (htot : ∀ a ∈ l, ∀ b ∈ l, a ≠ b → (lt a b = true ↔ lt b a = false))
    (htr : ∀ a ∈ l, ∀ b ∈ l, ∀ c ∈ l, a ≠ b → b ≠ c → a ≠ c →
      lt a b = true → lt b c = true → lt a c = true) :
    (insertionSort lt l).Pairwise (fun a b => lt a b = true) := by
  induction l with
  | nil => simp [insertionSort]
  | cons x xs ih =>
    rw [List.nodup_cons] at hn
    have hp := insertionSort_perm lt xs
    have hm : ∀ a, a ∈ x :: insertionSort lt xs → a ∈ x :: xs := by
      intro a ha
      rcases List.mem_cons.1 ha with rfl | ha
      · simp
      · exact List.mem_cons_of_mem _ (hp.mem_iff.1 ha)
    refine insertSorted_pairwise lt x _ (fun h => hn.1 (hp.mem_iff.1 h)) ?_ ?_
      (hp.nodup_iff.2 hn.2) (ih hn.2 ?_ ?_)
    · intro a ha b hb; exact htot a (hm a ha) b (hm b hb)
    · intro a ha b hb c hc; exact htr a (hm a ha) b (hm b hb) c (hm c hc)
    · intro a ha b hb
      exact htot a (List.mem_cons_of_mem _ ha) b (List.mem_cons_of_mem _ hb)
    · intro a ha b hb c hc
      exact htr a (List.mem_cons_of_mem _ ha) b (List.mem_cons_of_mem _ hb) c
        (List.mem_cons_of_mem _ hc)

/-- the runtime used in the examples -/
def rt0 : Rt where
  popFirst _ _ := true
  pick _ := 0
  sort := insertionSort
  sort_perm := insertionSort_perm
  sort_sorted := insertionSort_pairwise

end Polyskel
