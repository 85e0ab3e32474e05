import Mathlib.Data.List.Perm.Basic
import Mathlib.Data.List.Nodup
import Mathlib.Data.List.Perm.Subperm
import Verif.Model.Skel
/-
Removing the elements at given positions from a list.
-/
namespace Polyskel
variable {α : Type}

theorem nodup_zipIdx (l : List α) (k : Nat) : (l.zipIdx k).Nodup := by
  have h : ((l.zipIdx k).map (·.2)).Nodup := by
    rw [List.zipIdx_map_snd]; exact List.nodup_range'
  exact List.Nodup.of_map _ h

/-- the elements at the given positions together with the remaining ones are all elements -/
theorem dropIdx_perm (idx : List Nat) (l : List α) (hn : idx.Nodup) (hr : ∀ i ∈ idx, i < l.length) :
    (idx.filterMap (fun i => l[i]?) ++ dropIdx idx l).Perm l := by
  unfold dropIdx
  have h1 : (idx.filterMap (fun i => l[i]?)).Perm
      ((l.zipIdx.filter (fun p => idx.contains p.2)).map (·.1)) := by
    have h2 : idx.filterMap (fun i => l[i]?) =
        (idx.filterMap (fun i => (l[i]?).map (fun a => (a, i)))).map (·.1) := by
      rw [List.map_filterMap]
      congr 1
      funext i
      cases l[i]? <;> rfl
    rw [h2]
    apply List.Perm.map
    rw [List.perm_ext_iff_of_nodup]
    · rintro ⟨a, i⟩
      simp only [List.mem_filterMap, Option.map_eq_some_iff, Prod.mk.injEq, List.mem_filter,
        List.mem_zipIdx_iff_getElem?, List.contains_iff_mem]
      constructor
      · rintro ⟨j, hj, b, hb, rfl, rfl⟩; exact ⟨hb, hj⟩
      · rintro ⟨hb, hj⟩; exact ⟨i, hj, a, hb, rfl, rfl⟩
    · refine List.Nodup.filterMap ?_ hn
      intro i j p hi hj
      obtain ⟨a, _, rfl⟩ := Option.map_eq_some_iff.1 hi
      obtain ⟨b, _, h⟩ := Option.map_eq_some_iff.1 hj
      exact (Prod.mk.inj h).2.symm
    · exact (nodup_zipIdx l 0).filter _
  refine (h1.append_right _).trans ?_
  rw [← List.map_append]
  have h3 := (List.filter_append_perm (fun p : α × Nat => idx.contains p.2) l.zipIdx).map (·.1)
  rw [List.zipIdx_map_fst] at h3
  exact h3

theorem mem_dropIdx {idx : List Nat} {l : List α} {a : α} :
    a ∈ dropIdx idx l ↔ ∃ i, l[i]? = some a ∧ i ∉ idx := by
  unfold dropIdx
  simp only [List.mem_map, List.mem_filter, Bool.not_eq_true', Prod.exists, exists_eq_right,
    List.mem_zipIdx_iff_getElem?, exists_and_right]
  constructor
  · rintro ⟨a', ⟨h1, h2⟩⟩
    first
    | exact ⟨a', h1, by simpa using h2⟩
  · rintro ⟨i, h1, h2⟩
    exact ⟨i, h1, by simpa using h2⟩

/-- changing a removed element does not matter -/
theorem dropIdx_set_mem {idx : List Nat} {l : List α} {i : Nat} {a : α} (h : i ∈ idx) :
    dropIdx idx (l.set i a) = dropIdx idx l := by
  unfold dropIdx
  have key : ∀ (l : List α) (k i : Nat), k + i ∈ idx →
      (((l.set i a).zipIdx k).filter (fun p => !idx.contains p.2)).map (·.1) =
      ((l.zipIdx k).filter (fun p => !idx.contains p.2)).map (·.1) := by
    intro l
    induction l with
    | nil => simp
    | cons b l ih =>
      intro k i hi
      cases i with
      | zero => simp [List.zipIdx_cons, List.filter_cons, List.contains_iff_mem, show k ∈ idx from hi]
      | succ i =>
        have := ih (k + 1) i (by rwa [Nat.add_right_comm, Nat.add_assoc])
        simp only [List.set_cons_succ, List.zipIdx_cons, List.filter_cons]
        split
        · simp only [List.map_cons, this]
        · exact this
  exact key l 0 i (by simpa using h)

end Polyskel
