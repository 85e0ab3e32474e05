import Mathlib.Tactic.Linarith
import Mathlib.Data.List.Nodup
import Verif.Props.Basic
import Verif.Props.Poly
import Verif.Spec.Samples
import Verif.Spec.Soft
/-
C36, C37: `detectDormers`.
-/
namespace Polyskel
open Scalar

section
variable {S : Type} [Scalar S]

/-- the cross product of the directions of the two edges that meet in corner `i`, counted round and
round -/
def cornerCross (c : List (Edge2 S)) (i : Nat) : Option S :=
  match c[(i + c.length - 1) % c.length]?, c[i % c.length]? with
  | some e, some f => some (V2.cross e.norm f.norm)
  | _, _ => none

/-- a turn to the left by nearly 90 degrees -/
def LeftTurn (c : List (Edge2 S)) (i : Nat) : Prop :=
  ∃ x, cornerCross c i = some x ∧ (lit 99 100 <. x) = true

/-- a turn to the right by nearly 90 degrees -/
def RightTurn (c : List (Edge2 S)) (i : Nat) : Prop :=
  ∃ x, cornerCross c i = some x ∧ (lit 99 100 <. x) = false ∧ (x <. Scalar.neg (lit 99 100)) = true

/-- right, left, left, right -/
def DormerAt (c : List (Edge2 S)) (s : Nat) : Prop :=
  RightTurn c s ∧ LeftTurn c (s + 1) ∧ LeftTurn c (s + 2) ∧ RightTurn c (s + 3)

theorem not_right_left {c : List (Edge2 S)} {i : Nat} (h : RightTurn c i) (h' : LeftTurn c i) : False := by
  obtain ⟨x, h1, h2, _⟩ := h
  obtain ⟨y, h3, h4⟩ := h'
  rw [h1] at h3; cases h3
  rw [h2] at h4; cases h4

theorem cornerCross_mod (c : List (Edge2 S)) {i j : Nat} (h : i % c.length = j % c.length) :
    cornerCross c i = cornerCross c j := by
  unfold cornerCross
  rcases Nat.eq_zero_or_pos c.length with h0 | hpos
  · have : c = [] := List.length_eq_zero_iff.1 h0
    subst this; simp
  have h2 : (i + c.length - 1) % c.length = (j + c.length - 1) % c.length := by
    rw [show i + c.length - 1 = i + (c.length - 1) by omega, show j + c.length - 1 = j + (c.length - 1) by omega,
      Nat.add_mod, h, ← Nat.add_mod]
  rw [h, h2]

theorem leftTurn_mod {c : List (Edge2 S)} {i j : Nat} (h : i % c.length = j % c.length) :
    LeftTurn c i ↔ LeftTurn c j := by unfold LeftTurn; rw [cornerCross_mod c h]
theorem rightTurn_mod {c : List (Edge2 S)} {i j : Nat} (h : i % c.length = j % c.length) :
    RightTurn c i ↔ RightTurn c j := by unfold RightTurn; rw [cornerCross_mod c h]

theorem add_mod_congr {n i j k : Nat} (h : i % n = j % n) : (i + k) % n = (j + k) % n := by
  rw [Nat.add_mod, h, ← Nat.add_mod]

theorem dormerAt_mod {c : List (Edge2 S)} {i j : Nat} (h : i % c.length = j % c.length) :
    DormerAt c i ↔ DormerAt c j := by
  unfold DormerAt
  rw [rightTurn_mod h, leftTurn_mod (add_mod_congr h), leftTurn_mod (add_mod_congr h),
    rightTurn_mod (add_mod_congr h)]

/-- the letter of a corner -/
def letter (c : List (Edge2 S)) (i : Nat) : Option Turn := (cornerCross c i).map coder

theorem letter_L {c : List (Edge2 S)} {i : Nat} : letter c i = some .L ↔ LeftTurn c i := by
  unfold letter LeftTurn coder
  cases cornerCross c i with
  | none => simp
  | some x =>
    simp only [Option.map_some, Option.some.injEq, exists_eq_left']
    split
    · rename_i h; simp [h]
    · rename_i h
      split <;> simp [h]

theorem letter_R {c : List (Edge2 S)} {i : Nat} : letter c i = some .R ↔ RightTurn c i := by
  unfold letter RightTurn coder
  cases cornerCross c i with
  | none => simp
  | some x =>
    simp only [Option.map_some, Option.some.injEq, exists_eq_left']
    split
    · rename_i h; simp [h]
    · rename_i h
      split
      · rename_i h'; simp [h, h']
      · rename_i h'; simp [h']

theorem dormerSequence_ok (c : List (Edge2 S)) (h : c ≠ []) :
    ∃ seq, dormerSequence c = .ok seq ∧ seq.length = c.length ∧
      (∀ i, i < c.length → seq[i]? = letter c i) ∧
      ∀ i, i < 2 * c.length → (seq ++ seq)[i]? = letter c i := by
  have hpos := List.length_pos_iff.2 h
  obtain ⟨ps, h1, h2, h3⟩ := C06_iterPrevNext c h
  have key : ∀ i, i < c.length → (ps.map (fun pn => coder (V2.cross pn.1.norm pn.2.norm)))[i]?
      = letter c i := by
    intro i hi
    rw [List.getElem?_map, h3 i hi]
    unfold letter cornerCross
    rw [List.getElem?_eq_getElem (Nat.mod_lt _ hpos), List.getElem?_eq_getElem (Nat.mod_lt _ hpos)]
    simp only [Option.map_some, Nat.mod_eq_of_lt hi]
  refine ⟨_, by rw [dormerSequence, h1, ok_bind]; rfl, by simp [h2], key, ?_⟩
  intro i hi
  by_cases hlt : i < c.length
  · rw [List.getElem?_append_left (by simpa [h2] using hlt)]
    exact key i hlt
  · rw [List.getElem?_append_right (by simpa [h2] using hlt)]
    simp only [List.length_map, h2]
    rw [key (i - c.length) (by omega)]
    unfold letter
    rw [cornerCross_mod c (i := i - c.length) (j := i)]
    conv => rhs; rw [show i = (i - c.length) + c.length by omega, Nat.add_mod_right]

omit [Scalar S] in
theorem rllrMatches_spec (i : Nat) (l : List Turn) :
    (∀ p, p ∈ rllrMatches i l ↔ ∃ s, p = i + s ∧ l[s]? = some .R ∧ l[s + 1]? = some .L ∧
      l[s + 2]? = some .L ∧ l[s + 3]? = some .R) ∧
    (rllrMatches i l).Pairwise (· < ·) := by
  induction l generalizing i with
  | nil => exact ⟨fun p => by simp [rllrMatches], by simp [rllrMatches]⟩
  | cons t ts ih =>
    obtain ⟨ih1, ih2⟩ := ih (i + 1)
    have htake : (t :: ts).take 4 = [Turn.R, Turn.L, Turn.L, Turn.R] ↔
        (t :: ts)[0]? = some .R ∧ (t :: ts)[0 + 1]? = some .L ∧ (t :: ts)[0 + 2]? = some .L ∧
        (t :: ts)[0 + 3]? = some .R := by
      rcases ts with _ | ⟨a, _ | ⟨b, _ | ⟨d, ts⟩⟩⟩ <;> simp
    have hrest : ∀ p, (∃ s, p = i + 1 + s ∧ ts[s]? = some .R ∧ ts[s + 1]? = some .L ∧
        ts[s + 2]? = some .L ∧ ts[s + 3]? = some .R) ↔ ∃ s, 0 < s ∧ p = i + s ∧ (t :: ts)[s]? = some .R ∧
        (t :: ts)[s + 1]? = some .L ∧ (t :: ts)[s + 2]? = some .L ∧ (t :: ts)[s + 3]? = some .R := by
      intro p
      constructor
      · rintro ⟨s, rfl, h⟩
        exact ⟨s + 1, by omega, by omega, by simpa using h⟩
      · rintro ⟨s, h0, rfl, h⟩
        obtain ⟨s, rfl⟩ : ∃ u, s = u + 1 := ⟨s - 1, by omega⟩
        exact ⟨s, by omega, by simpa using h⟩
    unfold rllrMatches
    split
    · rename_i hc
      refine ⟨fun p => ?_, ?_⟩
      · rw [List.mem_cons, ih1, hrest]
        constructor
        · rintro (rfl | ⟨s, _, h⟩)
          · exact ⟨0, rfl, htake.1 hc⟩
          · exact ⟨s, h⟩
        · rintro ⟨s, rfl, h⟩
          rcases Nat.eq_zero_or_pos s with rfl | h0
          · exact .inl rfl
          · exact .inr ⟨s, h0, rfl, h⟩
      · rw [List.pairwise_cons]
        refine ⟨?_, ih2⟩
        intro q hq
        obtain ⟨s, rfl, _⟩ := (ih1 q).1 hq
        omega
    · rename_i hc
      refine ⟨fun p => ?_, ih2⟩
      rw [ih1, hrest]
      constructor
      · rintro ⟨s, _, h⟩; exact ⟨s, h⟩
      · rintro ⟨s, rfl, h⟩
        rcases Nat.eq_zero_or_pos s with rfl | h0
        · exact absurd (htake.2 h) hc
        · exact ⟨s, h0, rfl, h⟩

/-- the corners of the dormer starting in `s` -/
def quad (n s : Nat) : List Nat := [s % n, (s + 1) % n, (s + 2) % n, (s + 3) % n]

theorem dormerStarts_eq (n : Nat) (ns : Nat) (ms : List Nat) (hp : ms.Pairwise (fun a b => a + 3 ≤ b))
    (hns : ∀ m ∈ ms, ns ≤ m) : dormerStarts n ns ms = (ms.filter (· < n)).map (quad n) := by
  induction ms generalizing ns with
  | nil => rfl
  | cons s ss ih =>
    rw [List.pairwise_cons] at hp
    unfold dormerStarts
    by_cases hlt : s < n
    · rw [if_pos ⟨hlt, hns s (by simp)⟩, ih (s + 3) hp.2 (fun m hm => hp.1 m hm)]
      simp [hlt, quad]
    · rw [if_neg (fun h => hlt h.1), ih ns hp.2 (fun m hm => hns m (by simp [hm]))]
      simp [hlt]

/-- filtering by successive removal, for a list without repetitions -/
theorem foldl_erase (bad ds : List (List Nat)) (hn : ds.Nodup) :
    bad.foldl (fun ds sp => if sp ∈ ds then ds.erase sp else ds) ds = ds.filter (fun d => d ∉ bad) := by
  induction bad generalizing ds with
  | nil => simp
  | cons b bad ih =>
    rw [List.foldl_cons]
    have h1 : (if b ∈ ds then ds.erase b else ds) = ds.filter (fun d => d ≠ b) := by
      split
      · rw [hn.erase_eq_filter]
        apply List.filter_congr
        intro x _
        by_cases hx : x = b <;> simp [hx]
      · rename_i hb
        symm
        rw [List.filter_eq_self]
        intro a ha
        simp only [ne_eq, decide_not, Bool.not_eq_true', decide_eq_false_iff_not]
        rintro rfl; exact hb ha
    rw [h1, ih _ (hn.filter _), List.filter_filter]
    apply List.filter_congr
    intro x _
    by_cases hx : x = b <;> simp [hx]

theorem mem_zip_rotate {α : Type} (l : List α) (p : α × α) :
    p ∈ l.zip (l.drop 1 ++ l.take 1) ↔
      ∃ i, ∃ h : i < l.length, p = (l[i], l[(i + 1) % l.length]'(Nat.mod_lt _ (by omega))) := by
  have hlen : (l.drop 1 ++ l.take 1).length = l.length := by
    simp only [List.length_append, List.length_drop, List.length_take]; omega
  have hget : ∀ i (h : i < l.length), (l.drop 1 ++ l.take 1)[i]'(by omega) =
      l[(i + 1) % l.length]'(Nat.mod_lt _ (by omega)) := by
    intro i h
    rw [List.getElem_append]
    split
    · rename_i hlt
      simp only [List.length_drop] at hlt
      rw [List.getElem_drop]
      congr 1
      rw [Nat.mod_eq_of_lt (by omega)]; omega
    · rename_i hlt
      simp only [List.length_drop] at hlt
      have hi : i + 1 = l.length := by omega
      rw [List.getElem_take]
      congr 1
      rw [hi, Nat.mod_self]; simp; omega
  rw [List.mem_iff_getElem]
  constructor
  · rintro ⟨i, hi, rfl⟩
    have hi' : i < l.length := by
      simp only [List.length_zip, hlen] at hi; omega
    refine ⟨i, hi', ?_⟩
    rw [List.getElem_zip, hget i hi']
  · rintro ⟨i, hi, rfl⟩
    refine ⟨i, by simp only [List.length_zip, hlen]; omega, ?_⟩
    rw [List.getElem_zip, hget i hi]

/-- there are at least three corners -/
theorem DormerAt.three {c : List (Edge2 S)} {s : Nat} (h : DormerAt c s) : 3 ≤ c.length := by
  obtain ⟨h1, h2, h3, _⟩ := h
  by_contra hlt
  have hc : c.length = 0 ∨ c.length = 1 ∨ c.length = 2 := by omega
  rcases hc with hc | hc | hc
  · have : c = [] := List.length_eq_zero_iff.1 hc
    subst this
    obtain ⟨x, hx, _⟩ := h1
    simp [cornerCross] at hx
  · exact not_right_left h1 ((leftTurn_mod (by rw [hc]; omega)).1 h2)
  · exact not_right_left h1 ((leftTurn_mod (by rw [hc]; omega)).1 h3)

/-- different patterns start at least three corners apart -/
theorem DormerAt.apart {c : List (Edge2 S)} {s t : Nat} (h : DormerAt c s) (h' : DormerAt c t) (hlt : s < t) :
    s + 3 ≤ t := by
  by_contra hc
  have : t = s + 1 ∨ t = s + 2 := by omega
  rcases this with rfl | rfl
  · exact not_right_left h'.1 h.2.1
  · exact not_right_left h'.1 h.2.2.1

omit [Scalar S] in
theorem quad_inj {n s t : Nat} (hs : s < n) (ht : t < n) (h : quad n s = quad n t) : s = t := by
  simp only [quad, List.cons.injEq] at h
  have := h.1
  rwa [Nat.mod_eq_of_lt hs, Nat.mod_eq_of_lt ht] at this

theorem dropOverlaps_spec (c : List (Edge2 S)) (starts : List Nat) (hp : starts.Pairwise (· < ·))
    (hm : ∀ s, s ∈ starts ↔ s < c.length ∧ DormerAt c s) :
    ∃ kept : List Nat, kept.Pairwise (· < ·) ∧
      (∀ s, s ∈ kept ↔ s < c.length ∧ DormerAt c s ∧ ¬ DormerAt c (s + 3) ∧ ¬ DormerAt c (s + c.length - 3)) ∧
      dropOverlaps (starts.map (quad c.length)) = kept.map (quad c.length) := by
  have hnodup : (starts.map (quad c.length)).Nodup := by
    rw [List.nodup_map_iff_inj_on (hp.imp (fun h => Nat.ne_of_lt h))]
    intro s hs t ht h
    exact quad_inj ((hm s).1 hs).1 ((hm t).1 ht).1 h
  unfold dropOverlaps
  simp only
  rw [foldl_erase _ _ hnodup]
  generalize hbad : (List.flatMap _ _ : List (List Nat)) = bad
  -- the successor of a start
  have hsucc : ∀ i (hi : i < starts.length), DormerAt c (starts[i] + 3) →
      (starts[i] + 3) % c.length = starts[(i + 1) % starts.length]'(Nat.mod_lt _ (by omega)) := by
    intro i hi hd
    obtain ⟨hsn, hds⟩ := (hm _).1 (List.getElem_mem hi)
    have hn3 := hds.three
    have hmem : (starts[i] + 3) % c.length ∈ starts := by
      rw [hm]
      refine ⟨Nat.mod_lt _ (by omega), ?_⟩
      exact (dormerAt_mod (Nat.mod_mod _ _)).2 hd
    obtain ⟨j, hj, hje⟩ := List.getElem_of_mem hmem
    have hmono : ∀ a b (ha : a < starts.length) (hb : b < starts.length), a < b → starts[a] < starts[b] :=
      fun a b ha hb hab => List.pairwise_iff_getElem.1 hp a b ha hb hab
    have hidx : j = (i + 1) % starts.length := by
      by_cases hlt : starts[i] + 3 < c.length
      · rw [Nat.mod_eq_of_lt hlt] at hje
        have hij : i < j := by
          by_contra hc
          rcases Nat.lt_or_ge j i with h | h
          · have := hmono j i hj hi h; omega
          · have : j = i := by omega
            subst this; omega
        have : j = i + 1 := by
          by_contra hne
          have h1 := hmono i (i + 1) hi (by omega) (by omega)
          have h2 := hmono (i + 1) j (by omega) hj (by omega)
          have h3 := hds.apart ((hm _).1 (List.getElem_mem (by omega : i + 1 < starts.length))).2 h1
          omega
        rw [this, Nat.mod_eq_of_lt (by omega)]
      · have hmod : (starts[i] + 3) % c.length = starts[i] + 3 - c.length := by
          rw [Nat.mod_eq_sub_mod (by omega), Nat.mod_eq_of_lt (by omega)]
        rw [hmod] at hje
        have hlast : i + 1 = starts.length := by
          by_contra hne
          have h1 := hmono i (i + 1) hi (by omega) (by omega)
          obtain ⟨h4, h5⟩ := (hm _).1 (List.getElem_mem (by omega : i + 1 < starts.length))
          have h3 := hds.apart h5 h1
          omega
        rw [hlast, Nat.mod_self]
        by_contra hne
        have h1 := hmono 0 j (by omega) hj (by omega)
        obtain ⟨h4, h5⟩ := (hm _).1 (List.getElem_mem (by omega : 0 < starts.length))
        have h6 : DormerAt c (starts[0] + c.length) := (dormerAt_mod (by simp)).2 h5
        have := hds.apart h6 (by omega)
        omega
    simp only [← hje]
    congr 1
  have hmb : ∀ s ∈ starts, (quad c.length s ∈ bad ↔ DormerAt c (s + 3) ∨ DormerAt c (s + c.length - 3)) := by
    intro s hs
    obtain ⟨hsn, hds⟩ := (hm s).1 hs
    have hn3 := hds.three
    rw [← hbad, List.mem_flatMap]
    constructor
    · rintro ⟨p, hp', hq⟩
      rw [mem_zip_rotate] at hp'
      obtain ⟨i, hi, rfl⟩ := hp'
      simp only [List.length_map] at hi
      split at hq
      · rename_i heq
        simp only [List.getElem_map, quad, List.getElem?_cons_succ, List.getElem?_cons_zero, List.length_map,
          Option.some.injEq] at heq
        have hk : (i + 1) % starts.length < starts.length := Nat.mod_lt _ (by omega)
        have hA := (hm _).1 (List.getElem_mem hi)
        have hB := (hm _).1 (List.getElem_mem hk)
        have hd : DormerAt c (starts[i] + 3) := (dormerAt_mod heq.symm).1 hB.2
        simp only [List.getElem_map, List.length_map, List.mem_cons, List.not_mem_nil, or_false] at hq
        rcases hq with hq | hq
        · have := quad_inj hsn hA.1 hq
          left; rw [this]; exact hd
        · have := quad_inj hsn hB.1 hq
          right
          refine (dormerAt_mod ?_).1 hA.2
          have e : (s + c.length - 3) + 3 = s + c.length := by omega
          have h1 : (s + c.length - 3 + 3) % c.length = (starts[i] + 3) % c.length := by
            rw [e, Nat.add_mod_right, this]
            exact heq.symm
          -- cancel
          have h2 := add_mod_congr (k := c.length - 3) h1
          rw [show s + c.length - 3 + 3 + (c.length - 3) = (s + c.length - 3) + c.length by omega,
            show starts[i] + 3 + (c.length - 3) = starts[i] + c.length by omega, Nat.add_mod_right,
            Nat.add_mod_right] at h2
          exact h2.symm
      · cases hq
    · intro h
      -- the pair with overlap: `u` and the next one
      have key : ∀ u ∈ starts, DormerAt c (u + 3) → ∃ p ∈ (starts.map (quad c.length)).zip
          ((starts.map (quad c.length)).drop 1 ++ (starts.map (quad c.length)).take 1),
          p.1 = quad c.length u ∧ p.2 = quad c.length ((u + 3) % c.length) := by
        intro u hu hd
        obtain ⟨i, hi, rfl⟩ := List.getElem_of_mem hu
        refine ⟨_, (mem_zip_rotate _ _).2 ⟨i, by simpa using hi, rfl⟩, by simp, ?_⟩
        simp only [List.getElem_map, List.length_map]
        rw [← hsucc i hi hd]
      have key' : ∀ u, quad c.length u ∈ (if (quad c.length u)[3]? = (quad c.length ((u + 3) % c.length))[0]? then
          [quad c.length u, quad c.length ((u + 3) % c.length)] else []) ∧
          quad c.length ((u + 3) % c.length) ∈ (if (quad c.length u)[3]? = (quad c.length ((u + 3) % c.length))[0]? then
          [quad c.length u, quad c.length ((u + 3) % c.length)] else []) := by
        intro u
        rw [if_pos (by simp [quad])]
        simp
      rcases h with h | h
      · obtain ⟨p, hp', e1, e2⟩ := key s hs h
        refine ⟨p, hp', ?_⟩
        rw [e1, e2]; exact (key' s).1
      · have hu : (s + c.length - 3) % c.length ∈ starts := by
          rw [hm]
          exact ⟨Nat.mod_lt _ (by omega), (dormerAt_mod (Nat.mod_mod _ _)).2 h⟩
        have h3 : ((s + c.length - 3) % c.length + 3) % c.length = s := by
          rw [Nat.mod_add_mod, show s + c.length - 3 + 3 = s + c.length by omega, Nat.add_mod_right,
            Nat.mod_eq_of_lt hsn]
        have hd : DormerAt c ((s + c.length - 3) % c.length + 3) :=
          (dormerAt_mod (by rw [h3, Nat.mod_eq_of_lt hsn])).2 hds
        obtain ⟨p, hp', e1, e2⟩ := key _ hu hd
        refine ⟨p, hp', ?_⟩
        have := (key' ((s + c.length - 3) % c.length)).2
        rw [h3] at this e2
        rw [e1, e2]; exact this
  refine ⟨starts.filter (fun s => quad c.length s ∉ bad), hp.filter _, ?_, ?_⟩
  · intro s
    rw [List.mem_filter]
    constructor
    · rintro ⟨h1, h2⟩
      have h3 := (hm s).1 h1
      have h4 : ¬ (quad c.length s ∈ bad) := by simpa using h2
      rw [hmb s h1] at h4
      exact ⟨h3.1, h3.2, fun h => h4 (.inl h), fun h => h4 (.inr h)⟩
    · rintro ⟨h1, h2, h3, h4⟩
      have h5 := (hm s).2 ⟨h1, h2⟩
      refine ⟨h5, ?_⟩
      have : ¬ (quad c.length s ∈ bad) := by rw [hmb s h5]; tauto
      simpa using this
  · rw [List.filter_map]; rfl

theorem eraseDups_nodup (l : List Nat) (h : l.Nodup) : l.eraseDups = l := by
  induction l with
  | nil => rfl
  | cons a l ih =>
    rw [List.nodup_cons] at h
    rw [List.eraseDups_cons]
    have : l.filter (fun b => !b == a) = l := by
      rw [List.filter_eq_self]
      intro b hb
      simp only [Bool.not_eq_true', beq_eq_false_iff_ne, ne_eq]
      rintro rfl; exact h.1 hb
    rw [this, ih h.2]

/-- two dormers that are kept have no corner in common, and one dormer has four corners -/
theorem quad_disjoint {c : List (Edge2 S)} {s t : Nat} (hs : s < c.length) (ht : t < c.length)
    (ds : DormerAt c s) (dt : DormerAt c t) (h3 : ¬ DormerAt c (s + 3)) (h3' : ¬ DormerAt c (t + 3))
    {x : Nat} (hx : x ∈ quad c.length s) (hy : x ∈ quad c.length t) : s = t := by
  have hn := ds.three
  obtain ⟨a0, a1, a2, a3⟩ := ds
  obtain ⟨b0, b1, b2, b3⟩ := dt
  -- cancelling summands
  have cancel : ∀ u v k : Nat, u < c.length → v < c.length → (u + k) % c.length = (v + k) % c.length → u = v := by
    intro u v k hu hv h
    have h' := Nat.ModEq.add_right_cancel' k (show Nat.ModEq c.length (u + k) (v + k) from h)
    have : u % c.length = v % c.length := h'
    rwa [Nat.mod_eq_of_lt hu, Nat.mod_eq_of_lt hv] at this
  have cancel' : ∀ u v : Nat, (u + 1) % c.length = (v + 2) % c.length → u % c.length = (v + 1) % c.length := by
    intro u v h
    exact Nat.ModEq.add_right_cancel' 1 (show Nat.ModEq c.length (u + 1) (v + 1 + 1) from h)
  have hst : ∀ u, s % c.length = u % c.length → (RightTurn c u) := fun u h => (rightTurn_mod h).1 a0
  have hd : DormerAt c s := ⟨a0, a1, a2, a3⟩
  have hd' : DormerAt c t := ⟨b0, b1, b2, b3⟩
  simp only [quad, List.mem_cons, List.not_mem_nil, or_false] at hx hy
  rcases hx with rfl | rfl | rfl | rfl <;> rcases hy with hy | hy | hy | hy
  · exact cancel s t 0 hs ht hy
  · exact (not_right_left a0 ((leftTurn_mod hy).2 b1)).elim
  · exact (not_right_left a0 ((leftTurn_mod hy).2 b2)).elim
  · exact absurd ((dormerAt_mod hy).1 hd) h3'
  · exact (not_right_left b0 ((leftTurn_mod hy).1 a1)).elim
  · exact cancel s t 1 hs ht hy
  · exact (not_right_left a0 ((leftTurn_mod (cancel' s t hy)).2 b1)).elim
  · exact (not_right_left b3 ((leftTurn_mod hy).1 a1)).elim
  · exact (not_right_left b0 ((leftTurn_mod hy).1 a2)).elim
  · exact (not_right_left b0 ((leftTurn_mod (cancel' t s hy.symm)).2 a1)).elim
  · exact cancel s t 2 hs ht hy
  · exact (not_right_left b3 ((leftTurn_mod hy).1 a2)).elim
  · exact absurd ((dormerAt_mod hy).2 hd') h3
  · exact (not_right_left a3 ((leftTurn_mod hy).2 b1)).elim
  · exact (not_right_left a3 ((leftTurn_mod hy).2 b2)).elim
  · exact cancel s t 3 hs ht hy

theorem quad_nodup {c : List (Edge2 S)} {s : Nat} (ds : DormerAt c s) (h3 : ¬ DormerAt c (s + 3)) :
    (quad c.length s).Nodup := by
  have hn := ds.three
  have hne : s % c.length ≠ (s + 3) % c.length := fun h => h3 ((dormerAt_mod h).1 ds)
  obtain ⟨a0, a1, a2, a3⟩ := ds
  have h12 : (s + 1) % c.length ≠ (s + 2) % c.length := by
    intro h
    have h' : s % c.length = (s + 1) % c.length :=
      Nat.ModEq.add_right_cancel' 1 (show Nat.ModEq c.length (s + 1) (s + 1 + 1) from h)
    exact not_right_left a0 ((leftTurn_mod h').2 a1)
  simp only [quad, List.nodup_cons, List.mem_cons, List.not_mem_nil, or_false, not_or, not_false_eq_true,
    List.nodup_nil, and_true]
  refine ⟨⟨?_, ?_, hne⟩, ⟨h12, ?_⟩, ?_⟩
  · exact fun h => not_right_left a0 ((leftTurn_mod h).2 a1)
  · exact fun h => not_right_left a0 ((leftTurn_mod h).2 a2)
  · exact fun h => not_right_left a3 ((leftTurn_mod h).1 a1)
  · exact fun h => not_right_left a3 ((leftTurn_mod h).1 a2)

/-- the edge that starts in corner `i`, counted round and round -/
def edgeAt (c : List (Edge2 S)) (i : Nat) : Option (Edge2 S) := c[i % c.length]?

/-- the factor for a neighbouring edge: 1.5 beside a left turn, 0.125 elsewhere -/
def Factor (c : List (Edge2 S)) (i : Nat) (f : S) : Prop :=
  (LeftTurn c i → f = lit 3 2) ∧ (¬ LeftTurn c i → f = lit 1 8)

/-- the size checks for the dormer with start `s`; the factors are taken at the pattern with start `t` -/
def Accepts (c : List (Edge2 S)) (t s : Nat) : Prop :=
  ∃ before side1 base side2 after f g,
    edgeAt c (s + c.length - 1) = some before ∧ edgeAt c s = some side1 ∧ edgeAt c (s + 1) = some base ∧
    edgeAt c (s + 2) = some side2 ∧ edgeAt c (s + 3) = some after ∧
    (base.lengthSq <. lit 100 1) = true ∧
    (Scalar.abs (side1.lengthSq -. side2.lengthSq) /. (side1.lengthSq +. side2.lengthSq) <. lit 35 100) = true ∧
    Factor c (t + c.length - 1) f ∧ (base.lengthSq *. f <=. before.lengthSq) = true ∧
    Factor c (t + 4) g ∧ (base.lengthSq *. g <=. after.lengthSq) = true

/-- both sides have no length -/
def FlatSides (c : List (Edge2 S)) (s : Nat) : Prop :=
  ∃ side1 side2, edgeAt c s = some side1 ∧ edgeAt c (s + 2) = some side2 ∧
    (side1.lengthSq +. side2.lengthSq ==. fzero) = true

theorem dormerCheck_spec (c : List (Edge2 S)) (seq : List Turn) (hl : seq.length = c.length)
    (hseq : ∀ i, i < c.length → seq[i]? = letter c i) (h : c ≠ []) (t s : Nat) :
    (FlatSides c s → dormerCheck c seq t (quad c.length s) = .error .zeroDivision) ∧
    (¬ FlatSides c s → (Accepts c t s → ∃ base, edgeAt c (s + 1) = some base ∧
        dormerCheck c seq t (quad c.length s) = .ok (some (quad c.length s, V2.length (V2.sub base.p1 base.p2)))) ∧
      (¬ Accepts c t s → dormerCheck c seq t (quad c.length s) = .ok none)) := by
  have hpos := List.length_pos_iff.2 h
  have hget : ∀ i : Nat, pyGet c ((i % c.length : Nat) : Int) = .ok (c[i % c.length]'(Nat.mod_lt _ hpos)) := by
    intro i; rw [pyGet_nat, List.getElem?_eq_getElem (Nat.mod_lt _ hpos)]
  have hedge : ∀ i, edgeAt c i = some (c[i % c.length]'(Nat.mod_lt _ hpos)) := by
    intro i; unfold edgeAt; rw [List.getElem?_eq_getElem]
  have hletter : ∀ i, ∃ x, letter c i = some x ∧ pyGet seq ((i % c.length : Nat) : Int) = .ok x := by
    intro i
    have hlt : i % c.length < seq.length := by rw [hl]; exact Nat.mod_lt _ hpos
    refine ⟨seq[i % c.length], ?_, ?_⟩
    · have := hseq (i % c.length) (Nat.mod_lt _ hpos)
      rw [List.getElem?_eq_getElem hlt] at this
      rw [this]
      unfold letter
      rw [cornerCross_mod c (Nat.mod_mod i c.length)]
    · rw [pyGet_nat, List.getElem?_eq_getElem hlt]
  have hm1 : (s % c.length + c.length - 1) % c.length = (s + c.length - 1) % c.length := by
    rw [show s % c.length + c.length - 1 = s % c.length + (c.length - 1) by omega,
      show s + c.length - 1 = s + (c.length - 1) by omega, Nat.mod_add_mod]
  obtain ⟨xl, hl1, hl2⟩ := hletter (t + c.length - 1)
  obtain ⟨xr, hr1, hr2⟩ := hletter (t + 4)
  have hg0 : pyGet (quad c.length s) 0 = .ok (s % c.length) := rfl
  have hg1 : pyGet (quad c.length s) 1 = .ok ((s + 1) % c.length) := rfl
  have hg2 : pyGet (quad c.length s) 2 = .ok ((s + 2) % c.length) := rfl
  have hg3 : pyGet (quad c.length s) 3 = .ok ((s + 3) % c.length) := rfl
  unfold dormerCheck
  simp only [hg0, hg1, hg2, hg3, ok_bind, hget, hl, hl2, hr2, hm1]
  have hfl : Factor c (t + c.length - 1) (if xl ≠ Turn.L then lit 1 8 else lit 3 2 : S) := by
    constructor
    · intro hL
      rw [letter_L.2 hL] at hl1; cases hl1; simp
    · intro hL
      rw [if_pos]
      rintro rfl; exact hL (letter_L.1 hl1)
  have hfr : Factor c (t + 4) (if xr ≠ Turn.L then lit 1 8 else lit 3 2 : S) := by
    constructor
    · intro hL
      rw [letter_L.2 hL] at hr1; cases hr1; simp
    · intro hL
      rw [if_pos]
      rintro rfl; exact hL (letter_L.1 hr1)
  generalize (if xl ≠ Turn.L then lit 1 8 else lit 3 2 : S) = f at hfl ⊢
  generalize (if xr ≠ Turn.L then lit 1 8 else lit 3 2 : S) = g at hfr ⊢
  have hfu : ∀ i (f f' : S), Factor c i f → Factor c i f' → f = f' := by
    intro i f f' h h'
    by_cases hL : LeftTurn c i
    · rw [h.1 hL, h'.1 hL]
    · rw [h.2 hL, h'.2 hL]
  have hflat : FlatSides c s ↔ (((c[s % c.length]'(Nat.mod_lt _ hpos)).lengthSq +.
      (c[(s + 2) % c.length]'(Nat.mod_lt _ hpos)).lengthSq) ==. fzero) = true := by
    unfold FlatSides
    simp only [hedge, Option.some.injEq, exists_eq_left', exists_and_left]
  have hacc : Accepts c t s ↔ (((c[(s + 1) % c.length]'(Nat.mod_lt _ hpos)).lengthSq <. lit 100 1) &&
      (Scalar.abs ((c[s % c.length]'(Nat.mod_lt _ hpos)).lengthSq -. (c[(s + 2) % c.length]'(Nat.mod_lt _ hpos)).lengthSq) /.
        ((c[s % c.length]'(Nat.mod_lt _ hpos)).lengthSq +. (c[(s + 2) % c.length]'(Nat.mod_lt _ hpos)).lengthSq) <. lit 35 100) &&
      ((c[(s + 1) % c.length]'(Nat.mod_lt _ hpos)).lengthSq *. f <=. (c[(s + c.length - 1) % c.length]'(Nat.mod_lt _ hpos)).lengthSq) &&
      ((c[(s + 1) % c.length]'(Nat.mod_lt _ hpos)).lengthSq *. g <=. (c[(s + 3) % c.length]'(Nat.mod_lt _ hpos)).lengthSq)) = true := by
    unfold Accepts
    simp only [hedge, Option.some.injEq, Bool.and_eq_true]
    constructor
    · rintro ⟨_, _, _, _, _, f', g', rfl, rfl, rfl, rfl, rfl, h1, h2, h3, h4, h5, h6⟩
      rw [hfu _ _ _ h3 hfl] at h4
      rw [hfu _ _ _ h5 hfr] at h6
      exact ⟨⟨⟨h1, h2⟩, h4⟩, h6⟩
    · rintro ⟨⟨⟨h1, h2⟩, h4⟩, h6⟩
      exact ⟨_, _, _, _, _, f, g, rfl, rfl, rfl, rfl, rfl, h1, h2, hfl, h4, hfr, h6⟩
  rw [hflat, hacc]
  unfold pydiv
  constructor
  · intro hz
    rw [if_pos hz]; rfl
  · intro hz
    rw [if_neg hz]
    simp only [ok_bind]
    constructor
    · intro ha
      refine ⟨_, hedge _, ?_⟩
      rw [if_pos ha]; rfl
    · intro ha
      rw [if_neg ha]; rfl

/-- `t` is the last place where the pattern occurs when the contour is gone through twice -/
def LastMatch (c : List (Edge2 S)) (t : Nat) : Prop :=
  t + 3 < 2 * c.length ∧ DormerAt c t ∧ ∀ t', t' + 3 < 2 * c.length → DormerAt c t' → t' ≤ t

/-- C36: what `detectDormers` returns, for every numeric behaviour.  The candidates are the places
`s` of the right-left-left-right pattern whose end corners do not belong to another pattern.  When
they use all corners (or when there are none) nothing is returned.  Otherwise the candidates whose
sizes are accepted are returned in order, each with its four corners and the length of its base
edge; the factors of the size checks are taken at the last occurrence of the pattern.
ZeroDivisionError is raised when both sides of a candidate have no length. -/
theorem C36_detectDormers (c : List (Edge2 S)) (hs : List (List (Edge2 S))) (h : c ≠ []) :
    ∃ cands : List Nat, cands.Pairwise (· < ·) ∧
      (∀ s, s ∈ cands ↔ s < c.length ∧ DormerAt c s ∧ ¬ DormerAt c (s + 3) ∧
        ¬ DormerAt c (s + c.length - 3)) ∧
      (cands = [] ∨ 4 * cands.length = c.length → detectDormers (c :: hs) = .ok []) ∧
      (cands ≠ [] → 4 * cands.length ≠ c.length → ∃ t, LastMatch c t ∧
        ((∃ s ∈ cands, FlatSides c s) → detectDormers (c :: hs) = .error .zeroDivision) ∧
        ((∀ s ∈ cands, ¬ FlatSides c s) → ∃ acc ds, detectDormers (c :: hs) = .ok ds ∧
          acc.Pairwise (· < ·) ∧ (∀ s, s ∈ acc ↔ s ∈ cands ∧ Accepts c t s) ∧
          List.Forall₂ (fun s (d : List Nat × S) =>
            d.1 = [s % c.length, (s + 1) % c.length, (s + 2) % c.length, (s + 3) % c.length] ∧
            ∃ base, edgeAt c (s + 1) = some base ∧ d.2 = V2.length (V2.sub base.p1 base.p2)) acc ds)) := by
  have hpos := List.length_pos_iff.2 h
  obtain ⟨seq, h1, h2, h3, h4⟩ := dormerSequence_ok c h
  obtain ⟨m1, m2⟩ := rllrMatches_spec 0 (seq ++ seq)
  generalize hms : rllrMatches 0 (seq ++ seq) = ms at m1 m2
  have hlen : (seq ++ seq).length = 2 * c.length := by simp [h2]; omega
  have m1' : ∀ p, p ∈ ms ↔ p + 3 < 2 * c.length ∧ DormerAt c p := by
    intro p
    rw [m1]
    constructor
    · rintro ⟨s, rfl, g1, g2, g3, g4⟩
      obtain ⟨hlt, _⟩ := List.getElem?_eq_some_iff.1 g4
      rw [hlen] at hlt
      rw [h4 s (by omega)] at g1
      rw [h4 _ (by omega)] at g2 g3 g4
      rw [Nat.zero_add]
      exact ⟨hlt, letter_R.1 g1, letter_L.1 g2, letter_L.1 g3, letter_R.1 g4⟩
    · rintro ⟨hlt, g1, g2, g3, g4⟩
      refine ⟨p, by omega, ?_, ?_, ?_, ?_⟩
      · rw [h4 _ (by omega)]; exact letter_R.2 g1
      · rw [h4 _ (by omega)]; exact letter_L.2 g2
      · rw [h4 _ (by omega)]; exact letter_L.2 g3
      · rw [h4 _ (by omega)]; exact letter_R.2 g4
  have hgap : ms.Pairwise (fun a b => a + 3 ≤ b) := by
    refine m2.imp_of_mem (fun {a b} ha hb hlt => ?_)
    exact ((m1' a).1 ha).2.apart ((m1' b).1 hb).2 hlt
  have hst := dormerStarts_eq c.length 0 ms hgap (fun _ _ => Nat.zero_le _)
  have hm : ∀ s, s ∈ ms.filter (· < c.length) ↔ s < c.length ∧ DormerAt c s := by
    intro s
    rw [List.mem_filter, m1', decide_eq_true_eq]
    constructor
    · rintro ⟨⟨_, h⟩, h'⟩; exact ⟨h', h⟩
    · rintro ⟨h', h⟩
      have := h.three
      exact ⟨⟨by omega, h⟩, h'⟩
  obtain ⟨kept, k1, k2, k3⟩ := dropOverlaps_spec c (ms.filter (· < c.length)) (m2.filter _) hm
  have hflat : ((kept.map (quad c.length)).flatten).Nodup := by
    rw [List.nodup_flatten]
    constructor
    · intro l hl
      obtain ⟨s, hs', rfl⟩ := List.mem_map.1 hl
      obtain ⟨_, g2, g3, _⟩ := (k2 s).1 hs'
      exact quad_nodup g2 g3
    · rw [List.pairwise_map]
      refine k1.imp_of_mem (fun {a b} ha hb hlt => ?_)
      intro x hx hy
      obtain ⟨g1, g2, g3, _⟩ := (k2 a).1 ha
      obtain ⟨g1', g2', g3', _⟩ := (k2 b).1 hb
      have := quad_disjoint g1 g1' g2 g2' g3 g3' hx hy
      omega
  have hcount : ((kept.map (quad c.length)).flatten.eraseDups).length = 4 * kept.length := by
    rw [eraseDups_nodup _ hflat, List.length_flatten, List.map_map]
    have : (List.length ∘ quad c.length) = fun _ => 4 := rfl
    rw [this, List.map_const', List.sum_replicate, smul_eq_mul]
    omega
  have hdef : detectDormers (c :: hs) = if 4 * kept.length = c.length then .ok [] else
      match ms.getLast? with
      | none => .ok []
      | some s => do
        let r ← (kept.map (quad c.length)).mapM (dormerCheck c seq s)
        return r.filterMap id := by
    unfold detectDormers
    simp only [h1, ok_bind, h2, hms, hst, k3, hcount]
    rfl
  refine ⟨kept, k1, k2, ?_, ?_⟩
  · intro hk
    rw [hdef]
    rcases hk with rfl | hk
    · split
      · rfl
      · split
        · rfl
        · rfl
    · rw [if_pos hk]
  · intro hne hn
    obtain ⟨s0, hs0⟩ := List.exists_mem_of_ne_nil _ hne
    have hms0 : s0 ∈ ms := by
      obtain ⟨g1, g2, _⟩ := (k2 s0).1 hs0
      exact List.mem_of_mem_filter ((hm s0).2 ⟨g1, g2⟩)
    obtain ⟨t, ht⟩ : ∃ t, ms.getLast? = some t := by
      cases hl : ms.getLast? with
      | none => rw [List.getLast?_eq_none_iff] at hl; subst hl; cases hms0
      | some t => exact ⟨t, rfl⟩
    have hlast : LastMatch c t := by
      have htm := List.mem_of_getLast? ht
      refine ⟨((m1' t).1 htm).1, ((m1' t).1 htm).2, ?_⟩
      intro t' hlt' hd'
      have htm' := (m1' t').2 ⟨hlt', hd'⟩
      obtain ⟨ys, rfl⟩ := List.getLast?_eq_some_iff.1 ht
      rw [List.mem_append] at htm'
      rcases htm' with h' | h'
      · rw [List.pairwise_append] at m2
        exact le_of_lt (m2.2.2 t' h' t (by simp))
      · simp at h'; omega
    refine ⟨t, hlast, ?_, ?_⟩
    · rintro ⟨s, hs', hflat'⟩
      rw [hdef, if_neg hn, ht]
      simp only
      have : (kept.map (quad c.length)).mapM (dormerCheck c seq t) = .error .zeroDivision := by
        cases hmm : (kept.map (quad c.length)).mapM (dormerCheck c seq t) with
        | ok r =>
          obtain ⟨b, _, hb⟩ := mapM_mem' hmm _ (List.mem_map.2 ⟨s, hs', rfl⟩)
          rw [(dormerCheck_spec c seq h2 h3 h t s).1 hflat'] at hb
          cases hb
        | error e =>
          obtain ⟨q, hq, he⟩ := mapM_error hmm
          obtain ⟨s', hs'', rfl⟩ := List.mem_map.1 hq
          obtain ⟨d1, d2⟩ := dormerCheck_spec c seq h2 h3 h t s'
          by_cases hf : FlatSides c s'
          · rw [d1 hf] at he; cases he; rfl
          · by_cases ha : Accepts c t s'
            · obtain ⟨_, _, hk⟩ := (d2 hf).1 ha
              rw [hk] at he; cases he
            · rw [(d2 hf).2 ha] at he; cases he
      rw [this]; rfl
    · intro hno
      rw [hdef, if_neg hn, ht]
      simp only
      -- by induction over the candidates
      clear hdef hcount hflat k3 hne hn hs0
      have key : ∀ l : List Nat, (∀ s ∈ l, ¬ FlatSides c s) → l.Pairwise (· < ·) → ∃ acc r,
          (l.map (quad c.length)).mapM (dormerCheck c seq t) = .ok r ∧ acc.Pairwise (· < ·) ∧
          (∀ s, s ∈ acc ↔ s ∈ l ∧ Accepts c t s) ∧
          List.Forall₂ (fun s (d : List Nat × S) =>
            d.1 = [s % c.length, (s + 1) % c.length, (s + 2) % c.length, (s + 3) % c.length] ∧
            ∃ base, edgeAt c (s + 1) = some base ∧ d.2 = V2.length (V2.sub base.p1 base.p2)) acc
            (r.filterMap id) := by
        intro l hl hp
        induction l with
        | nil => exact ⟨[], [], rfl, .nil, by simp, .nil⟩
        | cons s l ih =>
          rw [List.pairwise_cons] at hp
          obtain ⟨acc, r, i1, i2, i3, i4⟩ := ih (fun s hs => hl s (by simp [hs])) hp.2
          obtain ⟨_, d2⟩ := dormerCheck_spec c seq h2 h3 h t s
          have d2 := d2 (hl s (by simp))
          by_cases ha : Accepts c t s
          · obtain ⟨base, hb, hk⟩ := d2.1 ha
            refine ⟨s :: acc, some (quad c.length s, V2.length (V2.sub base.p1 base.p2)) :: r, ?_, ?_, ?_, ?_⟩
            · rw [List.map_cons, List.mapM_cons, hk, i1]; rfl
            · rw [List.pairwise_cons]
              exact ⟨fun a ha' => hp.1 a ((i3 a).1 ha').1, i2⟩
            · intro s'
              rw [List.mem_cons, List.mem_cons, i3]
              constructor
              · rintro (rfl | h)
                · exact ⟨.inl rfl, ha⟩
                · exact ⟨.inr h.1, h.2⟩
              · rintro ⟨rfl | h, h'⟩
                · exact .inl rfl
                · exact .inr ⟨h, h'⟩
            · exact .cons ⟨rfl, base, hb, rfl⟩ i4
          · refine ⟨acc, none :: r, ?_, i2, ?_, i4⟩
            · rw [List.map_cons, List.mapM_cons, d2.2 ha, i1]; rfl
            · intro s'
              rw [i3, List.mem_cons]
              constructor
              · rintro ⟨h, h'⟩; exact ⟨.inr h, h'⟩
              · rintro ⟨rfl | h, h'⟩
                · exact absurd h' ha
                · exact ⟨h, h'⟩
      obtain ⟨acc, r, i1, i2, i3, i4⟩ := key kept hno k1
      exact ⟨acc, r.filterMap id, by rw [i1]; rfl, i2, i3, i4⟩

/-- C36: no contour: IndexError; an empty one: ValueError -/
theorem C36_empty (hs : List (List (Edge2 S))) :
    detectDormers ([] : List (List (Edge2 S))) = .error .index ∧
    detectDormers (([] : List (Edge2 S)) :: hs) = .error .value := ⟨rfl, rfl⟩

end
open Geo

theorem lengthSq_eucl (e : Edge2 ℝ) : e.lengthSq = eucl e.p1 e.p2 ^ 2 := by
  unfold eucl
  rw [Real.sq_sqrt (by positivity)]
  simp [Edge2.lengthSq, V2.lengthSq, V2.dot, V2.sub]
  ring

/-- C36: over the reals.  Every dormer consists of four cyclically consecutive corners turning right,
left, left, right with a sine beyond 0.99; its number is the length of the base edge, which is
shorter than 10; the squares of the lengths of the side edges have a contrast below 0.35; the
neighbouring edges have at least the 8th part of the square of the base length.  The dormers have no corner in common and do not use
all corners. -/
theorem C36_dormers (c : List (Edge2 ℝ)) (hs : List (List (Edge2 ℝ))) (ds : List (List Nat × ℝ))
    (h : c ≠ []) (hd : detectDormers (c :: hs) = .ok ds) :
    (∀ d ∈ ds, ∃ s, s < c.length ∧
      d.1 = [s, (s + 1) % c.length, (s + 2) % c.length, (s + 3) % c.length] ∧
      (∃ x, cornerCross c s = some x ∧ x < -(99 / 100)) ∧
      (∃ x, cornerCross c (s + 1) = some x ∧ 99 / 100 < x) ∧
      (∃ x, cornerCross c (s + 2) = some x ∧ 99 / 100 < x) ∧
      (∃ x, cornerCross c (s + 3) = some x ∧ x < -(99 / 100)) ∧
      ∃ before side1 base side2 after, edgeAt c (s + c.length - 1) = some before ∧
        edgeAt c s = some side1 ∧ edgeAt c (s + 1) = some base ∧ edgeAt c (s + 2) = some side2 ∧
        edgeAt c (s + 3) = some after ∧ d.2 = eucl base.p1 base.p2 ∧ d.2 < 10 ∧
        |eucl side1.p1 side1.p2 ^ 2 - eucl side2.p1 side2.p2 ^ 2| <
          35 / 100 * (eucl side1.p1 side1.p2 ^ 2 + eucl side2.p1 side2.p2 ^ 2) ∧
        d.2 ^ 2 / 8 ≤ eucl before.p1 before.p2 ^ 2 ∧ d.2 ^ 2 / 8 ≤ eucl after.p1 after.p2 ^ 2) ∧
    (ds.map (·.1)).flatten.Nodup ∧
    (ds ≠ [] → 4 * ds.length < c.length) := by
  obtain ⟨cands, k1, k2, k3, k4⟩ := C36_detectDormers c hs h
  by_cases h0 : cands = [] ∨ 4 * cands.length = c.length
  · rw [k3 h0] at hd; cases hd; simp
  · push Not at h0
    obtain ⟨t, ht, z1, z2⟩ := k4 h0.1 h0.2
    by_cases hz : ∃ s ∈ cands, FlatSides c s
    · rw [z1 hz] at hd; cases hd
    · push Not at hz
      obtain ⟨acc, ds', e1, e2, e3, e4⟩ := z2 hz
      rw [hd] at e1; cases e1
      have hnd : (ds.map (·.1)).flatten.Nodup := by
        have hmap : ds.map (·.1) = acc.map (quad c.length) := by
          clear hd e2 e3
          induction e4 with
          | nil => rfl
          | cons hab _ ih =>
            rw [List.map_cons, List.map_cons, ih, hab.1]; rfl
        rw [hmap, List.nodup_flatten]
        constructor
        · intro l hl
          obtain ⟨s, hs', rfl⟩ := List.mem_map.1 hl
          obtain ⟨_, g2, g3, _⟩ := (k2 s).1 ((e3 s).1 hs').1
          exact quad_nodup g2 g3
        · rw [List.pairwise_map]
          refine e2.imp_of_mem (fun {a b} ha hb hlt => ?_)
          intro x hx hy
          obtain ⟨g1, g2, g3, _⟩ := (k2 a).1 ((e3 a).1 ha).1
          obtain ⟨g1', g2', g3', _⟩ := (k2 b).1 ((e3 b).1 hb).1
          have := quad_disjoint g1 g1' g2 g2' g3 g3' hx hy
          omega
      refine ⟨?_, hnd, ?_⟩
      · intro d hdm
        obtain ⟨s, hs', hsd⟩ : ∃ s ∈ acc, d.1 = [s % c.length, (s + 1) % c.length, (s + 2) % c.length, (s + 3) % c.length] ∧
            ∃ base, edgeAt c (s + 1) = some base ∧ d.2 = V2.length (V2.sub base.p1 base.p2) := by
          clear hnd e2 e3 hd
          induction e4 with
          | nil => cases hdm
          | cons hab _ ih =>
            rcases List.mem_cons.1 hdm with rfl | h
            · exact ⟨_, by simp, hab⟩
            · obtain ⟨s, h1, h2⟩ := ih h
              exact ⟨s, by simp [h1], h2⟩
        obtain ⟨hcand, hacc⟩ := (e3 s).1 hs'
        obtain ⟨g1, ⟨⟨x0, y0, _, w0⟩, ⟨x1, y1, w1⟩, ⟨x2, y2, w2⟩, ⟨x3, y3, _, w3⟩⟩, _, _⟩ := (k2 s).1 hcand
        obtain ⟨before, side1, base, side2, after, f, g, a1, a2, a3, a4, a5, a6, a7, a8, a9, a10, a11⟩ := hacc
        obtain ⟨hd1, base', hb, hd2⟩ := hsd
        rw [a3] at hb; cases hb
        simp only [ex_lt, ex_neg, ex_lit, ex_le, ex_mul, ex_abs, ex_sub, ex_div, ex_add,
          lengthSq_eucl] at w0 w1 w2 w3 a6 a7 a9 a11
        rw [length_sub] at hd2
        have hf : ∀ i f, Factor c i f → 1 / 8 ≤ f := by
          intro i f hf
          by_cases hL : LeftTurn c i
          · rw [hf.1 hL]; norm_num
          · rw [hf.2 hL]; norm_num
        have hf1 := hf _ _ a8
        have hg1 := hf _ _ a10
        have hsum : 0 < eucl side1.p1 side1.p2 ^ 2 + eucl side2.p1 side2.p2 ^ 2 := by
          have : ¬ FlatSides c s := hz s hcand
          by_contra hle
          apply this
          refine ⟨side1, side2, a2, a4, ?_⟩
          simp only [ex_eq, ex_add, lengthSq_eucl, ex_zero]
          have := sq_nonneg (eucl side1.p1 side1.p2)
          have := sq_nonneg (eucl side2.p1 side2.p2)
          linarith
        have hsq := sq_nonneg (eucl base.p1 base.p2)
        refine ⟨s, g1, ?_, ⟨x0, y0, ?_⟩, ⟨x1, y1, ?_⟩, ⟨x2, y2, ?_⟩, ⟨x3, y3, ?_⟩,
          before, side1, base, side2, after, a1, a2, a3, a4, a5, hd2, ?_, ?_, ?_, ?_⟩
        · rw [hd1, Nat.mod_eq_of_lt g1]
        · norm_num at w0 ⊢; linarith
        · norm_num at w1 ⊢; linarith
        · norm_num at w2 ⊢; linarith
        · norm_num at w3 ⊢; linarith
        · rw [hd2]
          have := eucl_nonneg base.p1 base.p2
          norm_num at a6
          nlinarith
        · rw [div_lt_iff₀ hsum] at a7
          norm_num at a7 ⊢
          linarith
        · rw [hd2]; nlinarith
        · rw [hd2]; nlinarith
      · intro _
        have hl1 : acc.length = ds.length := e4.length_eq
        have hl2 : acc.length ≤ cands.length := by
          have hsub : acc ⊆ cands := fun s hs' => ((e3 s).1 hs').1
          exact (List.subperm_of_subset (e2.imp (fun h => Nat.ne_of_lt h)) hsub).length_le
        -- the candidates have four corners each
        have hl3 : 4 * cands.length ≤ c.length := by
          have hnd' : (cands.map (quad c.length)).flatten.Nodup := by
            rw [List.nodup_flatten]
            constructor
            · intro l hl
              obtain ⟨s, hs', rfl⟩ := List.mem_map.1 hl
              obtain ⟨_, g2, g3, _⟩ := (k2 s).1 hs'
              exact quad_nodup g2 g3
            · rw [List.pairwise_map]
              refine k1.imp_of_mem (fun {a b} ha hb hlt => ?_)
              intro x hx hy
              obtain ⟨g1, g2, g3, _⟩ := (k2 a).1 ha
              obtain ⟨g1', g2', g3', _⟩ := (k2 b).1 hb
              have := quad_disjoint g1 g1' g2 g2' g3 g3' hx hy
              omega
          have hsub : (cands.map (quad c.length)).flatten ⊆ List.range c.length := by
            intro x hx
            obtain ⟨l, hl, hx⟩ := List.mem_flatten.1 hx
            obtain ⟨s, hs', rfl⟩ := List.mem_map.1 hl
            have hp := List.length_pos_iff.2 h
            rw [List.mem_range]
            simp only [quad, List.mem_cons, List.not_mem_nil, or_false] at hx
            rcases hx with rfl | rfl | rfl | rfl <;> exact Nat.mod_lt _ hp
          have := (List.subperm_of_subset hnd' hsub).length_le
          rw [List.length_range, List.length_flatten, List.map_map] at this
          have e : (List.length ∘ quad c.length) = fun _ => 4 := rfl
          rw [e, List.map_const', List.sum_replicate, smul_eq_mul] at this
          omega
        have := h0.2
        omega

/-- C37, the part that holds: with a single occurrence of the pattern the factors are taken at that
occurrence, so that the decision depends on its neighbourhood only. -/
theorem C37_single_partial {S : Type} [Scalar S] (c : List (Edge2 S)) (s t : Nat) (hs : s < c.length)
    (hone : ∀ s', s' < c.length → DormerAt c s' → s' = s) (ht : LastMatch c t) :
    t % c.length = s ∧ (∀ f, Factor c (t + c.length - 1) f ↔ Factor c (s + c.length - 1) f) ∧
    (∀ f, Factor c (t + 4) f ↔ Factor c (s + 4) f) ∧ (Accepts c t s ↔ Accepts c s s) := by
  have hpos : 0 < c.length := by omega
  have h1 : t % c.length = s :=
    hone _ (Nat.mod_lt _ hpos) ((dormerAt_mod (Nat.mod_mod _ _)).2 ht.2.1)
  have h2 : t % c.length = s % c.length := by rw [h1, Nat.mod_eq_of_lt hs]
  have h3 : (t + c.length - 1) % c.length = (s + c.length - 1) % c.length := by
    rw [show t + c.length - 1 = t + (c.length - 1) by omega, show s + c.length - 1 = s + (c.length - 1) by omega]
    exact add_mod_congr h2
  have f1 : ∀ f, Factor c (t + c.length - 1) f ↔ Factor c (s + c.length - 1) f := fun f => by
    unfold Factor; rw [leftTurn_mod h3]
  have f2 : ∀ f, Factor c (t + 4) f ↔ Factor c (s + 4) f := fun f => by
    unfold Factor; rw [leftTurn_mod (add_mod_congr h2)]
  refine ⟨h1, f1, f2, ?_⟩
  unfold Accepts
  simp only [f1, f2]

/-- C37 is false in general: the two contours agree in the first seven corners and in the corner
before the first one, that is, in the dormer at corners 1 to 4, its edges, the edges beside it and
the turns beside those.  The second contour has another dormer elsewhere, and this makes the first
dormer acceptable. -/
theorem C37_refuted :
    detectDormers [ringEdges [(0, 0), (2, 0), (2, -3), (6, -3), (6, 0), (30, 0), (30, 15), (25, 20),
      (5, 20), (0, 15)]] = .ok [] ∧
    (detectDormers [ringEdges [(0, 0), (2, 0), (2, -3), (6, -3), (6, 0), (30, 0), (30, 15), (25, 20),
      (20, 20), (20, 23), (16, 23), (16, 20), (5, 20), (0, 15)]]) =
      .ok [([1, 2, 3, 4], sq 4), ([8, 9, 10, 11], sq 4)] := by
  decide +kernel

end Polyskel
