import Verif.Proofs.ListIdx
import Verif.Proofs.Except
import Verif.Props.Basic
import Verif.Model.Polygonize
import Verif.Spec.Samples
/-
C39: removing spikes from the faces, bpypolyskel.py:1059-1137.
-/
namespace Polyskel

/-- the closed vertex sequence `f` contains the directed edge from `p` to `n` -/
def HasStep (f : List Int) (p n : Int) : Prop :=
  ∃ i, f[i]? = some p ∧ f[(i + 1) % f.length]? = some n

theorem hasDart_ok {f : List Int} {p n : Int} {b : Bool} (h : hasDart f p n = .ok b) :
    f ≠ [] ∧ (b = true ↔ HasStep f p n) := by
  unfold hasDart at h
  obtain ⟨l, hl, h⟩ := bind_ok.1 h
  have hne : f ≠ [] := by rintro rfl; simp [iterPrevNext] at hl
  obtain ⟨r, hr, hlen, hget⟩ := C06_iterPrevNext f hne
  rw [hl] at hr; cases hr; cases h
  refine ⟨hne, ?_⟩
  have hpos : 0 < f.length := List.length_pos_iff.2 hne
  rw [List.contains_iff_mem]
  constructor
  · intro hm
    obtain ⟨i, hi, he⟩ := List.mem_iff_getElem.1 hm
    rw [hlen] at hi
    have h1 := hget i hi
    rw [List.getElem?_eq_getElem (by omega), he] at h1
    simp only [Option.some.injEq, Prod.mk.injEq] at h1
    refine ⟨(i + f.length - 1) % f.length, ?_, ?_⟩
    · rw [List.getElem?_eq_getElem (Nat.mod_lt _ hpos), h1.1]
    · have : ((i + f.length - 1) % f.length + 1) % f.length = i := by
        rw [Nat.mod_add_mod]
        have : i + f.length - 1 + 1 = i + f.length := by omega
        rw [this, Nat.add_mod_right, Nat.mod_eq_of_lt hi]
      rw [this, List.getElem?_eq_getElem hi, h1.2]
  · rintro ⟨i, h1, h2⟩
    have hi := (List.getElem?_eq_some_iff.1 h1).1
    have hj : (i + 1) % f.length < f.length := Nat.mod_lt _ hpos
    have h3 := hget _ hj
    have hidx : ((i + 1) % f.length + f.length - 1) % f.length = i := by
      rcases Nat.lt_or_ge (i + 1) f.length with h | h
      · rw [Nat.mod_eq_of_lt h]
        have : i + 1 + f.length - 1 = i + f.length := by omega
        rw [this, Nat.add_mod_right, Nat.mod_eq_of_lt hi]
      · have : i + 1 = f.length := by omega
        rw [this, Nat.mod_self]
        have : 0 + f.length - 1 = i := by omega
        rw [this, Nat.mod_eq_of_lt hi]
    have h4 : f[((i + 1) % f.length + f.length - 1) % f.length]'(Nat.mod_lt _ hpos) = p := by
      have := (List.getElem?_eq_some_iff.1 h1).2
      simp only [hidx]; exact this
    have h5 : f[(i + 1) % f.length] = n := (List.getElem?_eq_some_iff.1 h2).2
    rw [h4, h5] at h3
    exact List.mem_of_getElem? h3

theorem HasStep.mem {f : List Int} {p n : Int} (h : HasStep f p n) : p ∈ f ∧ n ∈ f := by
  obtain ⟨i, h1, h2⟩ := h
  exact ⟨List.mem_of_getElem? h1, List.mem_of_getElem? h2⟩

/-- `lastFaceWith` finds the last face with the directed edge -/
theorem lastFaceWith_ok {p n : Int} {i : Nat} {r o : Option Nat} {fs : List (List Int)}
    (h : lastFaceWith p n i r fs = .ok o) :
    ((∀ f ∈ fs, ¬ HasStep f p n) ∧ o = r) ∨
    ∃ k f, fs[k]? = some f ∧ HasStep f p n ∧ o = some (i + k) ∧
      ∀ m g, k < m → fs[m]? = some g → ¬ HasStep g p n := by
  induction fs generalizing i r with
  | nil => left; simp [lastFaceWith] at h; simp [h]
  | cons f fs ih =>
    unfold lastFaceWith at h
    obtain ⟨b, hb, h⟩ := bind_ok.1 h
    have hb := (hasDart_ok hb).2
    rcases ih h with ⟨h1, h2⟩ | ⟨k, g, h1, h2, h3, h4⟩
    · cases b with
      | false =>
        left
        refine ⟨?_, by simpa using h2⟩
        intro g hg
        rcases List.mem_cons.1 hg with rfl | hg
        · intro hs; simpa using hb.2 hs
        · exact h1 g hg
      | true =>
        right
        refine ⟨0, f, rfl, hb.1 rfl, by simpa using h2, ?_⟩
        intro m g hm hg
        cases m with
        | zero => omega
        | succ m => exact h1 g (List.mem_of_getElem? (by simpa using hg))
    · right
      refine ⟨k + 1, g, by simpa using h1, h2, by rw [h3]; congr 1; omega, ?_⟩
      intro m g' hm hg
      cases m with
      | zero => omega
      | succ m => exact h4 m g' (by omega) (by simpa using hg)

theorem flatten_set {l : List (List Int)} {i : Nat} {a b : List Int} (h : l[i]? = some a) :
    (a ++ (l.set i b).flatten).Perm (b ++ l.flatten) := by
  induction l generalizing i with
  | nil => simp at h
  | cons c l ih =>
    cases i with
    | zero =>
      simp at h; subst h
      simp only [List.set_cons_zero, List.flatten_cons]
      rw [← List.append_assoc, ← List.append_assoc]
      exact List.perm_append_comm.append_right _
    | succ i =>
      simp at h
      simp only [List.set_cons_succ, List.flatten_cons]
      have h1 := (ih h).append_left c
      have h2 : (a ++ (c ++ (l.set i b).flatten)).Perm (c ++ (a ++ (l.set i b).flatten)) := by
        rw [← List.append_assoc, ← List.append_assoc]
        exact List.perm_append_comm.append_right _
      have h3 : (c ++ (b ++ l.flatten)).Perm (b ++ (c ++ l.flatten)) := by
        rw [← List.append_assoc, ← List.append_assoc]
        exact List.perm_append_comm.append_right _
      exact h2.trans (h1.trans h3)

theorem set_erase_perm {l : List (List Int)} {i : Nat} {a : List Int} {x : Int}
    (h : l[i]? = some a) (hx : x ∈ a) : (x :: (l.set i (a.erase x)).flatten).Perm l.flatten := by
  have h1 := flatten_set (b := a.erase x) h
  have h2 : (a ++ (l.set i (a.erase x)).flatten).Perm
      (a.erase x ++ (x :: (l.set i (a.erase x)).flatten)) := by
    have := (List.perm_cons_erase hx).append_right (l.set i (a.erase x)).flatten
    refine this.trans ?_
    simp only [List.cons_append]
    exact List.perm_middle.symm
  exact (List.perm_append_left_iff _).1 (h2.symm.trans h1)

theorem pyRemove_ok {α : Type} [DecidableEq α] {l r : List α} {a : α} (h : pyRemove l a = .ok r) :
    a ∈ l ∧ r = l.erase a := by
  unfold pyRemove at h
  split at h
  · rename_i hm; cases h; exact ⟨hm, rfl⟩
  · cases h

theorem rotateTo_ok {f r : List Int} {x : Int} (h : rotateTo f x = .ok r) :
    r.Perm f ∧ r.head? = some x ∧ ∃ k, k ≤ f.length ∧ r = f.drop k ++ f.take k := by
  unfold rotateTo at h
  split at h
  · rename_i i hi
    cases h
    rw [List.idxOf?_eq_some_iff] at hi
    obtain ⟨hlt, he, _⟩ := hi
    refine ⟨?_, ?_, i, by omega, rfl⟩
    · have := List.perm_append_comm (l₁ := f.drop i) (l₂ := f.take i)
      rw [List.take_append_drop] at this
      exact this
    · rw [List.head?_append, List.head?_drop, List.getElem?_eq_getElem hlt, he]; rfl
  · cases h

theorem rotateMerged_ok {n : Nat} {f r : List Int} (h : rotateMerged n f = .ok r) :
    r.Perm f ∧ ∃ k, k ≤ f.length ∧ r = f.drop k ++ f.take k := by
  unfold rotateMerged at h
  split at h
  · rename_i i hi
    cases h
    rw [List.findIdx?_eq_some_iff_getElem] at hi
    obtain ⟨hlt, _, _⟩ := hi
    rw [List.length_zipIdx] at hlt
    refine ⟨?_, i, by omega, rfl⟩
    have := List.perm_append_comm (l₁ := f.drop i) (l₂ := f.take i)
    rw [List.take_append_drop] at this
    exact this
  · cases h

/-- C39: one round takes away at least one face corner, adds none, and the corners taken away are
those of the spike and (when both sides of the spike are in one face) of its base. -/
theorem C39_round_removes (n : Nat) (faces faces' : List (List Int)) (fi : Nat) (p t x : Int)
    (h : removeSpike n faces fi p t x = .ok (some faces')) :
    ∃ gone, gone ≠ [] ∧ (∀ v ∈ gone, v = t ∨ v = p) ∧
      (gone ++ faces'.flatten).Perm faces.flatten := by
  unfold removeSpike at h
  obtain ⟨r, hr, h⟩ := bind_ok.1 h
  obtain ⟨l, hl, h⟩ := bind_ok.1 h
  cases r with
  | none => cases h
  | some ri =>
  cases l with
  | none => cases h
  | some li =>
    simp only at h
    split at h
    · -- both sides in the same face
      obtain ⟨common, hc, h⟩ := bind_ok.1 h
      obtain ⟨c1, hc1, h⟩ := bind_ok.1 h
      obtain ⟨c2, hc2, h⟩ := bind_ok.1 h
      obtain ⟨face, hface, h⟩ := bind_ok.1 h
      obtain ⟨ht, rfl⟩ := pyRemove_ok hc1
      obtain ⟨hp, rfl⟩ := pyRemove_ok hc2
      rw [pyGet_nat_ok] at hc
      rw [pyGet_nat_ok] at hface
      have h2 : ([t, p] ++ (faces.set ri ((common.erase t).erase p)).flatten).Perm faces.flatten := by
        have e1 := flatten_set (b := (common.erase t).erase p) hc
        have e2 : common.Perm (t :: p :: (common.erase t).erase p) :=
          (List.perm_cons_erase ht).trans ((List.perm_cons_erase hp).cons t)
        have e3 := (e2.append_right (faces.set ri ((common.erase t).erase p)).flatten).symm.trans e1
        have e4 : ((common.erase t).erase p ++ ([t, p] ++
            (faces.set ri ((common.erase t).erase p)).flatten)).Perm
            (t :: p :: (common.erase t).erase p ++
              (faces.set ri ((common.erase t).erase p)).flatten) := by
          rw [← List.append_assoc]
          exact List.Perm.append_right _ List.perm_append_comm
        exact (List.perm_append_left_iff _).1 (e4.trans e3)
      simp only [pure_ok, Except.ok.injEq, Option.some.injEq] at h
      split at h
      · rename_i hm
        subst h
        refine ⟨[t, p, t], by simp, by simp, ?_⟩
        have e5 := (set_erase_perm hface hm).append_left [t, p]
        have := e5.trans h2
        simpa using this
      · subst h
        exact ⟨[t, p], by simp, by simp, h2⟩
    · -- merge the two faces
      rename_i hne
      obtain ⟨face, hface, h⟩ := bind_ok.1 h
      obtain ⟨right, hright, h⟩ := bind_ok.1 h
      obtain ⟨right', hright', h⟩ := bind_ok.1 h
      obtain ⟨left, hleft, h⟩ := bind_ok.1 h
      obtain ⟨left', hleft', h⟩ := bind_ok.1 h
      obtain ⟨merged, hmerged, h⟩ := bind_ok.1 h
      split at h
      · cases h
      · obtain ⟨face', hface', h⟩ := bind_ok.1 h
        obtain ⟨ht, rfl⟩ := pyRemove_ok hface'
        simp only [pure_ok, Except.ok.injEq, Option.some.injEq] at h
        subst h
        rw [pyGet_nat_ok] at hface hright hleft
        obtain ⟨pr, _, _⟩ := rotateTo_ok hright'
        obtain ⟨pl, hhead, _⟩ := rotateTo_ok hleft'
        obtain ⟨pm, _⟩ := rotateMerged_ok hmerged
        have hl' : left' = t :: left'.drop 1 := by
          cases left' with
          | nil => simp at hhead
          | cons a b => simp at hhead; simp [hhead]
        -- corners of the two faces and of the merged one
        have hm : (t :: merged).Perm (right ++ left) := by
          refine (pm.cons t).trans ?_
          have : (t :: (right' ++ left'.drop 1)).Perm (right' ++ left') := by
            conv => rhs; rw [hl']
            exact List.perm_middle.symm
          exact this.trans (pr.append pl)
        have hsel : ∀ (fs : List (List Int)) (a b : List Int), fs[ri]? = some a → fs[li]? = some b →
            (a ++ b ++ (dropIdx [ri, li] fs).flatten).Perm fs.flatten := by
          intro fs a b ha hb
          have hd := dropIdx_perm [ri, li] fs (by simp [hne]) (by
            intro i hi
            simp only [List.mem_cons, List.not_mem_nil, or_false] at hi
            rcases hi with rfl | rfl
            · exact (List.getElem?_eq_some_iff.1 ha).1
            · exact (List.getElem?_eq_some_iff.1 hb).1)
          have hd := hd.flatten
          simpa [ha, hb] using hd
        have hfin : ∀ D : List (List Int), (dropIdx [ri, li] D ++ [merged]).flatten.Perm
            (merged ++ (dropIdx [ri, li] D).flatten) := by
          intro D
          rw [List.flatten_append]
          simp only [List.flatten_cons, List.flatten_nil, List.append_nil]
          exact List.perm_append_comm
        by_cases hfr : fi = ri
        · subst hfr
          rw [hright] at hface; cases hface
          refine ⟨[t], by simp, by simp, ?_⟩
          have hD : dropIdx [fi, li] (faces.set fi (face.erase t)) = dropIdx [fi, li] faces := by
            exact dropIdx_set_mem (by simp)
          rw [hD]
          have e1 := (hfin faces).append_left [t]
          refine e1.trans ?_
          have e2 := (hm.append_right (dropIdx [fi, li] faces).flatten).trans
            (hsel faces _ _ hright hleft)
          simpa using e2
        · by_cases hfl : fi = li
          · subst hfl
            rw [hleft] at hface; cases hface
            refine ⟨[t], by simp, by simp, ?_⟩
            have hD : dropIdx [ri, fi] (faces.set fi (face.erase t)) = dropIdx [ri, fi] faces := by
              exact dropIdx_set_mem (by simp)
            rw [hD]
            have e1 := (hfin faces).append_left [t]
            refine e1.trans ?_
            have e2 := (hm.append_right (dropIdx [ri, fi] faces).flatten).trans
              (hsel faces _ _ hright hleft)
            simpa using e2
          · refine ⟨[t, t], by simp, by simp, ?_⟩
            have hr2 : (faces.set fi (face.erase t))[ri]? = some right := by
              rw [List.getElem?_set_ne hfr]; exact hright
            have hl2 : (faces.set fi (face.erase t))[li]? = some left := by
              rw [List.getElem?_set_ne hfl]; exact hleft
            have e1 := (hfin (faces.set fi (face.erase t))).append_left [t, t]
            refine e1.trans ?_
            have e2 := ((hm.append_right _).trans (hsel _ _ _ hr2 hl2)).cons t
            have e3 := e2.trans (set_erase_perm hface ht)
            simpa using e3

variable {S : Type} [Scalar S]

theorem C39_pass_removes {verts : List (V3 S)} {n : Nat} {faces faces' : List (List Int)}
    {fi : Nat} {rest : List (List Int)} (h : spikePass verts n faces fi rest = .ok (some faces')) :
    ∃ gone, gone ≠ [] ∧ (gone ++ faces'.flatten).Perm faces.flatten := by
  induction rest generalizing fi with
  | nil => simp [spikePass] at h
  | cons face rest ih =>
    unfold spikePass at h
    split at h
    · exact ih h
    · obtain ⟨ts, _, h⟩ := bind_ok.1 h
      obtain ⟨sp, _, h⟩ := bind_ok.1 h
      split at h
      · exact ih h
      · obtain ⟨o, ho, h⟩ := bind_ok.1 h
        split at h
        · exact ih h
        · cases h
          obtain ⟨gone, h1, _, h2⟩ := C39_round_removes _ _ _ _ _ _ _ ho
          exact ⟨gone, h1, h2⟩

/-! errors of the parts are never the fuel error -/

theorem pyGet_not_fuel {α : Type} (l : List α) (i : Int) : pyGet l i ≠ .error .fuel := by
  unfold pyGet
  generalize (if i < 0 then i + (l.length : Int) else i) = j
  simp only
  split
  · simp
  · split <;> simp

theorem pyRemove_not_fuel {α : Type} [DecidableEq α] (l : List α) (a : α) :
    pyRemove l a ≠ .error .fuel := by
  unfold pyRemove; split <;> simp

theorem iterPrevNext_not_fuel {α : Type} (l : List α) : iterPrevNext l ≠ .error .fuel := by
  unfold iterPrevNext; split <;> simp

theorem iterPrevThisNext_not_fuel {α : Type} (l : List α) : iterPrevThisNext l ≠ .error .fuel := by
  unfold iterPrevThisNext; split <;> simp

theorem pydiv_not_fuel (a b : S) : pydiv a b ≠ .error .fuel := by
  unfold pydiv; split <;> simp

theorem bind_not_fuel {α β : Type} {x : Except PyErr α} {f : α → Except PyErr β}
    (h1 : x ≠ .error .fuel) (h2 : ∀ a, x = .ok a → f a ≠ .error .fuel) :
    (x >>= f) ≠ .error .fuel := by
  intro h
  rcases bind_error.1 h with h | ⟨a, ha, h⟩
  · exact h1 h
  · exact h2 a ha h

theorem isSpike_not_fuel (verts : List (V3 S)) (p t x : Int) :
    isSpike verts p t x ≠ .error .fuel := by
  unfold isSpike
  refine bind_not_fuel (pyGet_not_fuel _ _) fun _ _ => ?_
  refine bind_not_fuel (pyGet_not_fuel _ _) fun _ _ => ?_
  refine bind_not_fuel (pyGet_not_fuel _ _) fun _ _ => ?_
  simp only
  split
  · simp
  · exact bind_not_fuel (pydiv_not_fuel _ _) fun _ _ => by simp

theorem findSpike_not_fuel (verts : List (V3 S)) (ts : List (Int × Int × Int)) :
    findSpike verts ts ≠ .error .fuel := by
  induction ts with
  | nil => simp [findSpike]
  | cons t ts ih =>
    unfold findSpike
    refine bind_not_fuel (isSpike_not_fuel _ _ _ _) fun b _ => ?_
    cases b
    · exact ih
    · simp

theorem lastFaceWith_not_fuel (p n : Int) (i : Nat) (r : Option Nat) (fs : List (List Int)) :
    lastFaceWith p n i r fs ≠ .error .fuel := by
  induction fs generalizing i r with
  | nil => simp [lastFaceWith]
  | cons f fs ih =>
    unfold lastFaceWith
    refine bind_not_fuel ?_ fun b _ => ih _ _
    unfold hasDart
    exact bind_not_fuel (iterPrevNext_not_fuel _) fun _ _ => by simp

theorem removeSpike_not_fuel (n : Nat) (faces : List (List Int)) (fi : Nat) (p t x : Int) :
    removeSpike n faces fi p t x ≠ .error .fuel := by
  unfold removeSpike
  refine bind_not_fuel (lastFaceWith_not_fuel _ _ _ _ _) fun r _ => ?_
  refine bind_not_fuel (lastFaceWith_not_fuel _ _ _ _ _) fun l _ => ?_
  have hrot : ∀ f y, rotateTo f y ≠ .error .fuel := by
    intro f y; unfold rotateTo; split <;> simp
  have hmer : ∀ f, rotateMerged n f ≠ .error .fuel := by
    intro f; unfold rotateMerged; split <;> simp
  cases r with
  | none => simp
  | some ri =>
  cases l with
  | none => simp
  | some li =>
    simp only
    split
    · refine bind_not_fuel (pyGet_not_fuel _ _) fun _ _ => ?_
      refine bind_not_fuel (pyRemove_not_fuel _ _) fun _ _ => ?_
      refine bind_not_fuel (pyRemove_not_fuel _ _) fun _ _ => ?_
      refine bind_not_fuel (pyGet_not_fuel _ _) fun _ _ => ?_
      simp
    · refine bind_not_fuel (pyGet_not_fuel _ _) fun _ _ => ?_
      refine bind_not_fuel (pyGet_not_fuel _ _) fun _ _ => ?_
      refine bind_not_fuel (hrot _ _) fun _ _ => ?_
      refine bind_not_fuel (pyGet_not_fuel _ _) fun _ _ => ?_
      refine bind_not_fuel (hrot _ _) fun _ _ => ?_
      refine bind_not_fuel (hmer _) fun _ _ => ?_
      split
      · simp
      · exact bind_not_fuel (pyRemove_not_fuel _ _) fun _ _ => by simp

theorem spikePass_not_fuel (verts : List (V3 S)) (n : Nat) (faces : List (List Int)) (fi : Nat)
    (rest : List (List Int)) : spikePass verts n faces fi rest ≠ .error .fuel := by
  induction rest generalizing fi with
  | nil => simp [spikePass]
  | cons face rest ih =>
    unfold spikePass
    split
    · exact ih _
    · refine bind_not_fuel (iterPrevThisNext_not_fuel _) fun ts _ => ?_
      refine bind_not_fuel (findSpike_not_fuel _ _) fun o _ => ?_
      cases o with
      | none => exact ih _
      | some t =>
        refine bind_not_fuel (removeSpike_not_fuel _ _ _ _ _ _) fun o _ => ?_
        cases o with
        | none => exact ih _
        | some f => simp

theorem spikeLoop_not_fuel (verts : List (V3 S)) (n k : Nat) (faces : List (List Int))
    (hk : faces.flatten.length < k) : spikeLoop verts n k faces ≠ .error .fuel := by
  induction k generalizing faces with
  | zero => omega
  | succ k ih =>
    unfold spikeLoop
    refine bind_not_fuel (spikePass_not_fuel _ _ _ _ _) fun o ho => ?_
    cases o with
    | none => simp
    | some f =>
      obtain ⟨gone, h1, h2⟩ := C39_pass_removes ho
      have := h2.length_eq
      rw [List.length_append] at this
      have := List.length_pos_iff.2 h1
      exact ih f (by omega)

/-- C39: spike removal ends on every list of faces and with every vertex list, in every
arithmetic. -/
theorem C39_spikes_terminate (verts : List (V3 S)) (n : Nat) (faces : List (List Int)) :
    removeSpikes verts n faces ≠ .error .fuel := by
  unfold removeSpikes totalLen
  exact spikeLoop_not_fuel _ _ _ _ (by rw [List.length_flatten]; exact Nat.lt_succ_self _)

theorem spikeLoop_ok {verts : List (V3 S)} {n k : Nat} {faces out : List (List Int)}
    (h : spikeLoop verts n k faces = .ok out) :
    (∃ gone, (gone ++ out.flatten).Perm faces.flatten) ∧
      spikePass verts n out 0 out = .ok none := by
  induction k generalizing faces with
  | zero => simp [spikeLoop] at h
  | succ k ih =>
    unfold spikeLoop at h
    obtain ⟨o, ho, h⟩ := bind_ok.1 h
    cases o with
    | none => cases h; exact ⟨⟨[], List.Perm.refl _⟩, ho⟩
    | some f =>
      obtain ⟨gone, _, h2⟩ := C39_pass_removes ho
      obtain ⟨⟨gone', h3⟩, h4⟩ := ih h
      refine ⟨⟨gone ++ gone', ?_⟩, h4⟩
      rw [List.append_assoc]
      exact (h3.append_left _).trans h2

/-- C39: spike removal only takes corners away; in particular it introduces no vertex index. -/
theorem C39_spikes_subset (verts : List (V3 S)) (n : Nat) (faces out : List (List Int))
    (h : removeSpikes verts n faces = .ok out) :
    (∃ gone, (gone ++ out.flatten).Perm faces.flatten) ∧
    ∀ f ∈ out, ∀ v ∈ f, ∃ f₀ ∈ faces, v ∈ f₀ := by
  have h1 := (spikeLoop_ok h).1
  refine ⟨h1, ?_⟩
  obtain ⟨gone, hp⟩ := h1
  intro f hf v hv
  have : v ∈ faces.flatten := hp.mem_iff.1
    (List.mem_append_right _ (List.mem_flatten.2 ⟨f, hf, hv⟩))
  obtain ⟨f₀, h1, h2⟩ := List.mem_flatten.1 this
  exact ⟨f₀, h1, h2⟩

/-- the three cyclically consecutive entries at position `i` -/
def TripleAt (f : List Int) (i : Nat) (p t x : Int) : Prop :=
  f[(i + f.length - 1) % f.length]? = some p ∧ f[i]? = some t ∧ f[(i + 1) % f.length]? = some x

theorem mem_triples {f : List Int} {ts : List (Int × Int × Int)} (h : iterPrevThisNext f = .ok ts)
    (p t x : Int) : (p, t, x) ∈ ts ↔ ∃ i, TripleAt f i p t x := by
  have hne : f ≠ [] := by rintro rfl; simp [iterPrevThisNext] at h
  obtain ⟨r, hr, hlen, hget⟩ := C06_iterPrevThisNext f hne
  rw [h] at hr; cases hr
  have hpos : 0 < f.length := List.length_pos_iff.2 hne
  constructor
  · intro hm
    obtain ⟨i, hi⟩ := List.mem_iff_getElem?.1 hm
    have hlt : i < f.length := by rw [← hlen]; exact (List.getElem?_eq_some_iff.1 hi).1
    have := hget i hlt
    rw [hi] at this
    simp only [Option.some.injEq, Prod.mk.injEq] at this
    exact ⟨i, by rw [List.getElem?_eq_getElem (Nat.mod_lt _ hpos), this.1],
      by rw [List.getElem?_eq_getElem hlt, this.2.1],
      by rw [List.getElem?_eq_getElem (Nat.mod_lt _ hpos), this.2.2]⟩
  · rintro ⟨i, h1, h2, h3⟩
    have hlt := (List.getElem?_eq_some_iff.1 h2).1
    have := hget i hlt
    rw [(List.getElem?_eq_some_iff.1 h1).2, (List.getElem?_eq_some_iff.1 h2).2,
      (List.getElem?_eq_some_iff.1 h3).2] at this
    exact List.mem_of_getElem? this

theorem findSpike_none {verts : List (V3 S)} {ts : List (Int × Int × Int)}
    (h : findSpike verts ts = .ok none) : ∀ t ∈ ts, isSpike verts t.1 t.2.1 t.2.2 = .ok false := by
  induction ts with
  | nil => simp
  | cons t ts ih =>
    unfold findSpike at h
    obtain ⟨b, hb, h⟩ := bind_ok.1 h
    cases b with
    | true => cases h
    | false =>
      intro u hu
      rcases List.mem_cons.1 hu with rfl | hu
      · exact hb
      · exact ih h u hu

theorem findSpike_some {verts : List (V3 S)} {ts : List (Int × Int × Int)} {t : Int × Int × Int}
    (h : findSpike verts ts = .ok (some t)) :
    t ∈ ts ∧ isSpike verts t.1 t.2.1 t.2.2 = .ok true := by
  induction ts with
  | nil => simp [findSpike] at h
  | cons u ts ih =>
    unfold findSpike at h
    obtain ⟨b, hb, h⟩ := bind_ok.1 h
    cases b with
    | true => cases h; exact ⟨by simp, hb⟩
    | false =>
      obtain ⟨h1, h2⟩ := ih h
      exact ⟨by simp [h1], h2⟩

theorem removeSpike_none {n : Nat} {faces : List (List Int)} {fi : Nat} {p t x : Int}
    (h : removeSpike n faces fi p t x = .ok none) :
    (∀ f ∈ faces, ¬ HasStep f t p) ∨ (∀ f ∈ faces, ¬ HasStep f x t) := by
  unfold removeSpike at h
  obtain ⟨r, hr, h⟩ := bind_ok.1 h
  obtain ⟨l, hl, h⟩ := bind_ok.1 h
  cases r with
  | none =>
    rcases lastFaceWith_ok hr with h1 | ⟨_, _, _, _, h1, _⟩
    · exact .inl h1.1
    · cases h1
  | some ri =>
    cases l with
    | none =>
      rcases lastFaceWith_ok hl with h1 | ⟨_, _, _, _, h1, _⟩
      · exact .inr h1.1
      · cases h1
    | some li =>
      simp only at h
      split at h
      · obtain ⟨_, _, h⟩ := bind_ok.1 h
        obtain ⟨_, _, h⟩ := bind_ok.1 h
        obtain ⟨_, _, h⟩ := bind_ok.1 h
        obtain ⟨_, _, h⟩ := bind_ok.1 h
        cases h
      · obtain ⟨_, _, h⟩ := bind_ok.1 h
        obtain ⟨_, _, h⟩ := bind_ok.1 h
        obtain ⟨_, _, h⟩ := bind_ok.1 h
        obtain ⟨_, _, h⟩ := bind_ok.1 h
        obtain ⟨_, _, h⟩ := bind_ok.1 h
        obtain ⟨_, _, h⟩ := bind_ok.1 h
        split at h
        · cases h
        · obtain ⟨_, _, h⟩ := bind_ok.1 h
          cases h

theorem spikePass_none {verts : List (V3 S)} {n : Nat} {faces : List (List Int)} {fi : Nat}
    {rest : List (List Int)} (h : spikePass verts n faces fi rest = .ok none) :
    ∀ f ∈ rest, 3 < f.length →
      (∀ i p t x, TripleAt f i p t x → isSpike verts p t x = .ok false) ∨
      ∃ i p t x, TripleAt f i p t x ∧ isSpike verts p t x = .ok true ∧
        ((∀ g ∈ faces, ¬ HasStep g t p) ∨ (∀ g ∈ faces, ¬ HasStep g x t)) := by
  induction rest generalizing fi with
  | nil => simp
  | cons face rest ih =>
    unfold spikePass at h
    intro f hf hlen
    split at h
    · rcases List.mem_cons.1 hf with rfl | hf
      · omega
      · exact ih h f hf hlen
    · obtain ⟨ts, hts, h⟩ := bind_ok.1 h
      obtain ⟨o, ho, h⟩ := bind_ok.1 h
      cases o with
      | none =>
        rcases List.mem_cons.1 hf with rfl | hf
        · left
          intro i p t x ht
          exact findSpike_none ho (p, t, x) ((mem_triples hts p t x).2 ⟨i, ht⟩)
        · exact ih h f hf hlen
      | some q =>
        obtain ⟨p, t, x⟩ := q
        obtain ⟨o, hr, h⟩ := bind_ok.1 h
        cases o with
        | some _ => cases h
        | none =>
          rcases List.mem_cons.1 hf with rfl | hf
          · right
            obtain ⟨h1, h2⟩ := findSpike_some ho
            obtain ⟨i, hi⟩ := (mem_triples hts p t x).1 h1
            exact ⟨i, p, t, x, hi, h2, removeSpike_none hr⟩
          · exact ih h f hf hlen

/-- C39: when the loop ends, every face with more than three corners is free of spikes, or has one
that no pair of faces can absorb (one of its sides does not occur in the opposite direction). -/
theorem C39_spikes_done (verts : List (V3 S)) (n : Nat) (faces out : List (List Int))
    (h : removeSpikes verts n faces = .ok out) :
    ∀ f ∈ out, 3 < f.length →
      (∀ i p t x, TripleAt f i p t x → isSpike verts p t x = .ok false) ∨
      ∃ i p t x, TripleAt f i p t x ∧ isSpike verts p t x = .ok true ∧
        ((∀ g ∈ out, ¬ HasStep g t p) ∨ (∀ g ∈ out, ¬ HasStep g x t)) :=
  spikePass_none (spikeLoop_ok h).2

/-! ### what counts as a spike, in exact arithmetic -/

open Geo in
/-- C39: the corner `t` of `p, t, x` is a spike exactly when both sides have positive length, the
angle between them is so small that its cosine exceeds 0.99, and the turn is to the left or (up to
1e-5) straight back. -/
theorem C39_isSpike_iff (verts : List (V3 ℝ)) (p t x : Int) (P T X : V3 ℝ)
    (hp : pyGet verts p = .ok P) (ht : pyGet verts t = .ok T) (hx : pyGet verts x = .ok X) :
    ∃ b, isSpike verts p t x = .ok b ∧
      (b = true ↔ eucl P.xy T.xy ≠ 0 ∧ eucl X.xy T.xy ≠ 0 ∧
        (99 / 100) * (eucl P.xy T.xy * eucl X.xy T.xy) <
          (P.x - T.x) * (X.x - T.x) + (P.y - T.y) * (X.y - T.y) ∧
        -(1 / 100000) < area2 P.xy T.xy X.xy) := by
  unfold isSpike
  rw [ht, hp, hx]
  simp only [ok_bind]
  have e0 : V2.length (V3.xy (V3.sub T P)) = eucl P.xy T.xy := by
    rw [eucl_comm]
    simp only [V2.length, V2.dot, V3.xy, V3.sub, ex_sqrt, ex_rnd, ex_sub, ex_mul, ex_add, eucl]
    congr 1; ring
  have e1 : V2.length (V3.xy (V3.sub X T)) = eucl X.xy T.xy := by
    simp only [V2.length, V2.dot, V3.xy, V3.sub, ex_sqrt, ex_rnd, ex_sub, ex_mul, ex_add, eucl]
    congr 1; ring
  rw [e0, e1]
  by_cases h0 : eucl P.xy T.xy = 0
  · refine ⟨false, ?_, by simp [h0]⟩
    simp [h0]
  by_cases h1 : eucl X.xy T.xy = 0
  · refine ⟨false, ?_, by simp [h1]⟩
    simp [h1]
  have hc : ((Scalar.eq (eucl P.xy T.xy) fzero || Scalar.eq (eucl X.xy T.xy) fzero) : Bool) = false := by
    simp [h0, h1]
  rw [hc]
  simp only [Bool.false_eq_true, if_false, pydiv, ex_mul, ex_eq, ex_zero, mul_eq_zero, h0, h1,
    or_self, ok_bind, pure_ok]
  refine ⟨_, rfl, ?_⟩
  have hp0 : 0 < eucl P.xy T.xy := lt_of_le_of_ne (eucl_nonneg _ _) (Ne.symm h0)
  have hp1 : 0 < eucl X.xy T.xy := lt_of_le_of_ne (eucl_nonneg _ _) (Ne.symm h1)
  have hpos := mul_pos hp0 hp1
  have hdot : V2.dot (V3.xy (V3.sub T P)) (V3.xy (V3.sub X T)) =
      -((P.x - T.x) * (X.x - T.x) + (P.y - T.y) * (X.y - T.y)) := by
    simp only [V2.dot, V3.xy, V3.sub, ex_rnd, ex_sub, ex_mul, ex_add]; ring
  have hcr : V2.cross (V3.xy (V3.sub T P)) (V3.xy (V3.sub X T)) = area2 P.xy T.xy X.xy := by
    simp only [V2.cross, V3.xy, V3.sub, ex_rnd, ex_sub, ex_mul, area2]; ring
  rw [hdot, hcr]
  -- Cauchy-Schwarz
  have hcs : (P.x - T.x) * (X.x - T.x) + (P.y - T.y) * (X.y - T.y) ≤
      eucl P.xy T.xy * eucl X.xy T.xy := by
    unfold eucl
    rw [← Real.sqrt_mul (by positivity)]
    apply Real.le_sqrt_of_sq_le
    simp only [V3.xy]
    nlinarith [sq_nonneg ((P.x - T.x) * (X.y - T.y) - (P.y - T.y) * (X.x - T.x))]
  generalize (P.x - T.x) * (X.x - T.x) + (P.y - T.y) * (X.y - T.y) = D at *
  generalize eucl P.xy T.xy * eucl X.xy T.xy = M at *
  simp only [Bool.and_eq_true, ex_lt, ex_abs, ex_add, ex_one, ex_neg, ex_div, ex_EPSILON,
    ex_PARALLEL, ne_eq, h0, h1, not_false_eq_true, true_and]
  refine and_congr ?_ Iff.rfl
  have hq : -D / M + 1 = (M - D) / M := by field_simp; ring
  rw [hq, abs_of_nonneg (div_nonneg (by linarith) hpos.le), div_lt_iff₀ hpos]
  constructor <;> intro h <;> linarith

/-- case: a thin spike at vertex 5 between three faces; its removal leaves a doubled-back line,
which is removed in the next round -/
example : removeSpikes (ground [(0, 0), (100, 0), (100, 100), (0, 100), (50, 50), (90, 50), (51, 52)])
    4 [[0, 4, 5, 6, 3], [0, 1, 5, 4], [1, 2, 3, 6, 5]] =
    .ok [[0, 4, 6, 3], [0, 1, 2, 3, 6, 4]] := by decide +kernel

end Polyskel
