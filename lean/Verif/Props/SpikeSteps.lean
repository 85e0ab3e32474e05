import Mathlib.Data.List.Rotate
import Mathlib.Data.List.Perm.Basic
import Verif.Props.Spikes
/-
C51: merging the faces beside a spike keeps the surface closed, bpypolyskel.py:1091-1137.
-/
namespace Polyskel

/-- the directed edges of a closed vertex sequence -/
def steps (f : List Int) : List (Int × Int) := f.zip (f.rotate 1)

theorem steps_rotate (f : List Int) (k : Nat) : (steps (f.rotate k)).Perm (steps f) := by
  unfold steps
  have : (f.rotate k).zip ((f.rotate k).rotate 1) = (f.zip (f.rotate 1)).rotate k := by
    rw [List.rotate_rotate, Nat.add_comm, ← List.rotate_rotate]
    unfold List.zip
    rw [List.zipWith_rotate_distrib]
    simp
  rw [this]
  exact List.rotate_perm _ _

theorem steps_rot {f : List Int} {k : Nat} (hk : k ≤ f.length) :
    (steps (f.drop k ++ f.take k)).Perm (steps f) := by
  rw [← List.rotate_eq_drop_append_take hk]; exact steps_rotate f k

/-- the directed edges of an open vertex sequence -/
def openSteps (f : List Int) : List (Int × Int) := f.zip f.tail

theorem steps_cons (a : Int) (l : List Int) (z : Int) (hz : (a :: l).getLast? = some z) :
    steps (a :: l) = openSteps (a :: l) ++ [(z, a)] := by
  unfold steps openSteps
  have h1 : (a :: l).rotate 1 = l ++ [a] := by simp
  rw [h1]
  have h2 : a :: l = (a :: l).dropLast ++ [z] := by
    obtain ⟨l', hl'⟩ := List.getLast?_eq_some_iff.1 hz
    rw [hl']; simp
  conv => lhs; arg 1; rw [h2]
  rw [List.zip_append (by simp)]
  congr 1
  simp only [List.tail_cons]
  have h3 : ((a :: l).dropLast).zip l = ((a :: l)).zip l := by
    conv => rhs; arg 1; rw [h2]
    rw [List.zip_eq_zipWith, List.zip_eq_zipWith]
    have h4 := List.zipWith_append (f := Prod.mk) (l₁ := (a :: l).dropLast) (l₁' := [z])
      (l₂ := l) (l₂' := ([] : List Int)) (by simp)
    rw [List.append_nil] at h4
    rw [h4]; simp
  exact h3

theorem openSteps_append (l : List Int) (z : Int) (m : List Int) (hz : l.getLast? = some z) :
    openSteps (l ++ m) = openSteps l ++ openSteps (z :: m) := by
  induction l with
  | nil => simp at hz
  | cons a l ih =>
    cases l with
    | nil => simp at hz; subst hz; simp [openSteps]
    | cons b l =>
      have : (b :: l).getLast? = some z := by simpa [List.getLast?_cons_cons] using hz
      have := ih this
      simp only [openSteps, List.cons_append, List.tail_cons, List.zip_cons_cons] at this ⊢
      rw [this]

/-- a closed sequence that starts with `x`, contains it once and steps from `y` to `x` ends with
`y` -/
theorem last_of_step {f : List Int} {x y : Int} (hh : f.head? = some x) (hc : f.count x = 1)
    (hs : HasStep f y x) : f.getLast? = some y := by
  obtain ⟨i, h1, h2⟩ := hs
  cases f with
  | nil => simp at hh
  | cons a l =>
    simp at hh; subst hh
    have hni : a ∉ l := by
      intro hm
      have := List.count_pos_iff.2 hm
      rw [List.count_cons] at hc
      simp at hc
      omega
    have hi := (List.getElem?_eq_some_iff.1 h1).1
    have h0 : (i + 1) % (a :: l).length = 0 := by
      apply Classical.byContradiction
      intro hne
      obtain ⟨m, hm⟩ := Nat.exists_eq_succ_of_ne_zero hne
      rw [hm] at h2
      simp at h2
      exact hni (List.mem_of_getElem? h2)
    have hlen : i = (a :: l).length - 1 := by
      rcases Nat.lt_or_ge (i + 1) (a :: l).length with h | h
      · rw [Nat.mod_eq_of_lt h] at h0; omega
      · omega
    rw [List.getLast?_eq_getElem?, ← hlen, h1]

theorem HasStep.rot {f : List Int} {x y : Int} {k : Nat} (hk : k ≤ f.length) (h : HasStep f x y) :
    HasStep (f.drop k ++ f.take k) x y := by
  have key : ∀ (g : List Int), HasStep g x y ↔ (x, y) ∈ steps g := by
    intro g
    unfold HasStep steps
    rw [List.mem_iff_getElem?]
    constructor
    · rintro ⟨i, h1, h2⟩
      have hi := (List.getElem?_eq_some_iff.1 h1).1
      refine ⟨i, ?_⟩
      rw [List.getElem?_zip_eq_some]
      refine ⟨h1, ?_⟩
      rw [List.getElem?_rotate hi]; exact h2
    · rintro ⟨i, h⟩
      rw [List.getElem?_zip_eq_some] at h
      obtain ⟨h1, h2⟩ := h
      have hi := (List.getElem?_eq_some_iff.1 h1).1
      rw [List.getElem?_rotate hi] at h2
      exact ⟨i, h1, h2⟩
  rw [key] at h ⊢
  exact (steps_rot hk).mem_iff.2 h

/-- removing a corner that occurs once replaces its two edges by one -/
theorem steps_erase {f : List Int} {p t x : Int} (hc : f.count t = 1) {i : Nat}
    (ht : TripleAt f i p t x) (hlen : 2 ≤ f.length) :
    ((p, t) :: (t, x) :: steps (f.erase t)).Perm ((p, x) :: steps f) := by
  obtain ⟨h1, h2, h3⟩ := ht
  have hm : t ∈ f := List.mem_of_getElem? h2
  obtain ⟨A, B, hnA, hfe, her⟩ := List.exists_erase_eq hm
  have hAB : (steps f).Perm (steps (t :: (B ++ A))) := by
    have : t :: (B ++ A) = f.rotate A.length := by
      rw [hfe, List.rotate_append_length_eq]; simp
    rw [this]; exact (steps_rotate _ _).symm
  have hBA : (steps (f.erase t)).Perm (steps (B ++ A)) := by
    have : B ++ A = (f.erase t).rotate A.length := by
      rw [her, List.rotate_append_length_eq]
    rw [this]; exact (steps_rotate _ _).symm
  have hcnt : (B ++ A).count t = 0 := by
    rw [hfe, List.count_append, List.count_cons] at hc
    simp at hc
    rw [List.count_append]
    have := List.count_eq_zero_of_not_mem hnA
    omega
  have hnB : t ∉ B ++ A := List.count_eq_zero.1 hcnt
  have hi : i = A.length := by
    rw [hfe] at h2
    rcases Nat.lt_trichotomy i A.length with h | h | h
    · rw [List.getElem?_append_left h] at h2
      exact absurd (List.mem_of_getElem? h2) hnA
    · exact h
    · rw [List.getElem?_append_right (by omega)] at h2
      obtain ⟨m, hm⟩ : ∃ m, i - A.length = m + 1 := ⟨i - A.length - 1, by omega⟩
      rw [hm] at h2
      simp at h2
      exact absurd (List.mem_append_left A (List.mem_of_getElem? h2)) hnB
  have hflen : f.length = A.length + 1 + B.length := by rw [hfe]; simp; omega
  -- neighbours
  have hhead : (B ++ A).head? = some x := by
    rw [← h3, hi]
    cases B with
    | nil =>
      have : A.length + 1 = f.length := by simp at hflen; omega
      rw [this, Nat.mod_self, hfe]
      cases A with
      | nil => simp at hflen; omega
      | cons a A => simp
    | cons b B =>
      rw [Nat.mod_eq_of_lt (by rw [hflen]; simp), hfe]
      simp
  have hlast : (B ++ A).getLast? = some p := by
    rw [← h1, hi]
    rcases List.eq_nil_or_concat' A with rfl | ⟨A', a, rfl⟩
    · have hB : B ≠ [] := by rintro rfl; simp at hflen; omega
      have : (([] : List Int).length + f.length - 1) % f.length = f.length - 1 := by
        rw [List.length_nil, Nat.zero_add, Nat.mod_eq_of_lt (by omega)]
      rw [this, ← List.getLast?_eq_getElem?, hfe]
      simp [List.getLast?_cons, List.getLast?_eq_some_getLast hB]
    · have : ((A' ++ [a]).length + f.length - 1) % f.length = A'.length := by
        have e : (A' ++ [a]).length + f.length - 1 = A'.length + f.length := by simp
        rw [e, Nat.add_mod_right, Nat.mod_eq_of_lt (by rw [hflen]; simp; omega)]
      rw [this, hfe]
      simp
  obtain ⟨R, hR⟩ : ∃ R, B ++ A = x :: R := by
    cases hba : B ++ A with
    | nil => rw [hba] at hhead; simp at hhead
    | cons a R => rw [hba] at hhead; simp at hhead; exact ⟨R, by rw [hhead]⟩
  rw [hR] at hAB hBA hlast
  have e1 := steps_cons x R p hlast
  have e2 := steps_cons t (x :: R) p (by rw [List.getLast?_cons_cons]; exact hlast)
  have e3 : openSteps (t :: x :: R) = (t, x) :: openSteps (x :: R) := by simp [openSteps]
  rw [e1] at hBA
  rw [e2, e3] at hAB
  refine (((hBA.cons _).cons _)).trans ?_
  refine List.Perm.trans ?_ (hAB.symm.cons _)
  rw [List.perm_iff_count]
  intro a
  simp only [List.count_cons, List.count_append, List.count_nil]
  omega

/-- joining the two faces beside the spike -/
theorem steps_merge {right left : List Int} {p t x : Int} (hr : right.head? = some p)
    (hrl : right.getLast? = some t) (hl : left.head? = some t) (hll : left.getLast? = some x)
    (hxt : 2 ≤ left.length) :
    ((t, p) :: (x, t) :: steps (right ++ left.drop 1)).Perm
      ((x, p) :: (steps right ++ steps left)) := by
  cases right with
  | nil => simp at hr
  | cons a R =>
    simp at hr; subst hr
    cases left with
    | nil => simp at hl
    | cons b L =>
      simp at hl; subst hl
      have hL : L ≠ [] := by rintro rfl; simp at hxt
      have hLl : L.getLast? = some x := by
        rw [List.getLast?_cons] at hll
        rw [List.getLast?_eq_some_getLast hL] at hll ⊢
        simpa using hll
      rw [steps_cons a R b hrl, steps_cons b L x hll]
      simp only [List.drop_succ_cons, List.drop_zero, List.cons_append]
      have hm : (a :: (R ++ L)).getLast? = some x := by
        rw [← List.cons_append, List.getLast?_append, hLl]; rfl
      rw [steps_cons a (R ++ L) x hm]
      have := openSteps_append (a :: R) b L hrl
      rw [List.cons_append] at this
      rw [this]
      rw [List.perm_iff_count]
      intro c
      simp only [List.count_cons, List.count_append, List.count_nil]
      omega

theorem lastFaceWith_unique {p n : Int} {fs : List (List Int)} {o : Option Nat}
    (h : lastFaceWith p n 0 none fs = .ok o) {i : Nat} {f : List Int} (hf : fs[i]? = some f)
    (hs : HasStep f p n) (hu : ∀ j g, fs[j]? = some g → HasStep g p n → j = i) : o = some i := by
  rcases lastFaceWith_ok h with ⟨h1, _⟩ | ⟨k, g, h1, h2, h3, _⟩
  · exact absurd hs (h1 f (List.mem_of_getElem? hf))
  · have := hu k g h1 h2
    rw [h3, this, Nat.zero_add]

theorem flatMap_set_perm {l : List (List Int)} {i : Nat} {a b : List Int} (h : l[i]? = some a) :
    (steps a ++ (l.set i b).flatMap steps).Perm (steps b ++ l.flatMap steps) := by
  induction l generalizing i with
  | nil => simp at h
  | cons c l ih =>
    cases i with
    | zero =>
      simp at h; subst h
      simp only [List.set_cons_zero, List.flatMap_cons]
      rw [← List.append_assoc, ← List.append_assoc]
      exact List.perm_append_comm.append_right _
    | succ i =>
      simp at h
      simp only [List.set_cons_succ, List.flatMap_cons]
      have := ih h
      rw [List.perm_iff_count] at this ⊢
      intro y
      have := this y
      simp only [List.count_append] at this ⊢
      omega

/-- C51: when the spike `p, t, x` of face `fi` is merged into its two neighbour faces `ri` (which
contains the edge back from `t` to `p`) and `li` (edge from `x` to `t`), the directed edges of all
faces stay the same, except that the four directed edges of the spike are replaced by the edge
between `p` and `x` in both directions: every other edge keeps its partner. -/
theorem C51_spike_merge_steps (n : Nat) (faces faces' : List (List Int)) (fi ri li : Nat)
    (p t x : Int) (face right left : List Int)
    (h : removeSpike n faces fi p t x = .ok (some faces'))
    (hface : faces[fi]? = some face) (htri : ∃ i, TripleAt face i p t x)
    (hright : faces[ri]? = some right) (hrs : HasStep right t p)
    (hru : ∀ j g, faces[j]? = some g → HasStep g t p → j = ri)
    (hleft : faces[li]? = some left) (hls : HasStep left x t)
    (hlu : ∀ j g, faces[j]? = some g → HasStep g x t → j = li)
    (hrl : ri ≠ li) (hfr : fi ≠ ri) (hfl : fi ≠ li)
    (hcf : face.count t = 1) (hcr : right.count p = 1) (hcl : left.count t = 1) (hxt : x ≠ t)
    (hpt : p ≠ t) :
    ([(p, t), (t, x), (t, p), (x, t)] ++ faces'.flatMap steps).Perm
      ([(p, x), (x, p)] ++ faces.flatMap steps) := by
  unfold removeSpike at h
  obtain ⟨r, hr, h⟩ := bind_ok.1 h
  obtain ⟨l, hl, h⟩ := bind_ok.1 h
  have er := lastFaceWith_unique hr hright hrs hru
  have el := lastFaceWith_unique hl hleft hls hlu
  subst er el
  simp only [if_neg hrl] at h
  obtain ⟨face₀, hf0, h⟩ := bind_ok.1 h
  rw [pyGet_nat_ok, hface] at hf0; cases hf0
  obtain ⟨right₀, hr0, h⟩ := bind_ok.1 h
  rw [pyGet_nat_ok, hright] at hr0; cases hr0
  obtain ⟨right', hright', h⟩ := bind_ok.1 h
  obtain ⟨left₀, hl0, h⟩ := bind_ok.1 h
  rw [pyGet_nat_ok, hleft] at hl0; cases hl0
  obtain ⟨left', hleft', h⟩ := bind_ok.1 h
  obtain ⟨merged, hmerged, h⟩ := bind_ok.1 h
  split at h
  · cases h
  · obtain ⟨face', hface', h⟩ := bind_ok.1 h
    obtain ⟨htm, rfl⟩ := pyRemove_ok hface'
    simp only [pure_ok, Except.ok.injEq, Option.some.injEq] at h
    subst h
    obtain ⟨pr, hrh, kr, hkr, er⟩ := rotateTo_ok hright'
    obtain ⟨pl, hlh, kl, hkl, el⟩ := rotateTo_ok hleft'
    obtain ⟨_, km, hkm, em⟩ := rotateMerged_ok hmerged
    have hrlast : right'.getLast? = some t :=
      last_of_step hrh (by rw [pr.count_eq]; exact hcr) (by rw [er]; exact hrs.rot hkr)
    have hllast : left'.getLast? = some x :=
      last_of_step hlh (by rw [pl.count_eq]; exact hcl) (by rw [el]; exact hls.rot hkl)
    have hl2 : 2 ≤ left'.length := by
      cases left' with
      | nil => simp at hlh
      | cons a L =>
        cases L with
        | nil => simp at hlh hllast; exact absurd (hllast.symm.trans hlh) hxt
        | cons b L => simp
    have hmerge := steps_merge hrh hrlast hlh hllast hl2
    have hsm : (steps merged).Perm (steps (right' ++ left'.drop 1)) := by
      rw [em]; exact steps_rot hkm
    have hsr : (steps right').Perm (steps right) := by rw [er]; exact steps_rot hkr
    have hsl : (steps left').Perm (steps left) := by rw [el]; exact steps_rot hkl
    obtain ⟨i, hi⟩ := htri
    have hf2 : 2 ≤ face.length := by
      obtain ⟨h1, h2, _⟩ := hi
      have h3 := (List.getElem?_eq_some_iff.1 h2).1
      apply Classical.byContradiction
      intro hlt
      have h4 : face.length = 1 := by omega
      have h5 : i = 0 := by omega
      rw [h4, h5] at h1; rw [h5] at h2
      simp at h1
      rw [h2] at h1
      exact hpt (Option.some.inj h1).symm
    have herase := steps_erase hcf hi hf2
    have hset := flatMap_set_perm (b := face.erase t) hface
    have hr2 : (faces.set fi (face.erase t))[ri]? = some right := by
      rw [List.getElem?_set_ne hfr]; exact hright
    have hl2' : (faces.set fi (face.erase t))[li]? = some left := by
      rw [List.getElem?_set_ne hfl]; exact hleft
    have hdrop := dropIdx_perm [ri, li] (faces.set fi (face.erase t)) (by simp [hrl]) (by
      intro j hj
      simp only [List.mem_cons, List.not_mem_nil, or_false] at hj
      rcases hj with rfl | rfl
      · exact (List.getElem?_eq_some_iff.1 hr2).1
      · exact (List.getElem?_eq_some_iff.1 hl2').1)
    have hdrop := hdrop.flatMap_right steps
    simp only [List.filterMap_cons, hr2, hl2', List.filterMap_nil, List.flatMap_append,
      List.flatMap_cons, List.flatMap_nil, List.append_nil] at hdrop
    rw [List.perm_iff_count] at *
    intro a
    have c1 := hmerge a
    have c2 := hsm a
    have c3 := hsr a
    have c4 := hsl a
    have c5 := herase a
    have c6 := hset a
    have c7 := hdrop a
    simp only [List.count_append, List.count_cons, List.count_nil, List.flatMap_append,
      List.flatMap_cons, List.flatMap_nil] at c1 c2 c3 c4 c5 c6 c7 ⊢
    omega

theorem no_step {f : List Int} {x y : Int}
    (h : ∀ i < f.length, ¬ (f[i]? = some x ∧ f[(i + 1) % f.length]? = some y)) (i : Nat) :
    f[i]? = some x → f[(i + 1) % f.length]? = some y → False := by
  intro h1 h2
  exact h i (List.getElem?_eq_some_iff.1 h1).1 ⟨h1, h2⟩

instance (f : List Int) (i : Nat) (p t x : Int) : Decidable (TripleAt f i p t x) := by
  unfold TripleAt; infer_instance

/-- case: a triangular gap with a spike at vertex 5 between the faces beside it -/
example : removeSpike 4 [[0, 4, 5, 6, 3], [0, 1, 5, 4], [1, 2, 3, 6, 5]] 0 4 5 6 =
    .ok (some [[0, 4, 6, 3], [0, 1, 5, 1, 2, 3, 6, 4]]) := by decide

example : (([(4, 5), (5, 6), (5, 4), (6, 5)] : List (Int × Int)) ++
      [[0, 4, 6, 3], [0, 1, 5, 1, 2, 3, 6, 4]].flatMap steps).Perm
    ([(4, 6), (6, 4)] ++ [[0, 4, 5, 6, 3], [0, 1, 5, 4], [1, 2, 3, 6, 5]].flatMap steps) :=
  C51_spike_merge_steps 4 _ _ 0 1 2 4 5 6 [0, 4, 5, 6, 3] [0, 1, 5, 4] [1, 2, 3, 6, 5]
    (by decide) rfl ⟨2, by decide⟩ rfl ⟨2, by decide⟩ (by
      intro j g hg hs
      match j, hg with
      | 0, hg => cases hg; exact absurd hs (by rintro ⟨i, h1, h2⟩; revert h1 h2; exact no_step (by decide) i)
      | 1, _ => rfl
      | 2, hg => cases hg; exact absurd hs (by rintro ⟨i, h1, h2⟩; revert h1 h2; exact no_step (by decide) i)
      | _ + 3, hg => simp at hg)
    rfl ⟨3, by decide⟩ (by
      intro j g hg hs
      match j, hg with
      | 0, hg => cases hg; exact absurd hs (by rintro ⟨i, h1, h2⟩; revert h1 h2; exact no_step (by decide) i)
      | 1, hg => cases hg; exact absurd hs (by rintro ⟨i, h1, h2⟩; revert h1 h2; exact no_step (by decide) i)
      | 2, _ => rfl
      | _ + 3, hg => simp at hg)
    (by decide) (by decide) (by decide) (by decide) (by decide) (by decide) (by decide) (by decide)

end Polyskel
