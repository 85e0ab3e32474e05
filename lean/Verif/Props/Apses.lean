import Mathlib.Tactic.Linarith
import Mathlib.Data.List.Nodup
import Verif.Props.Merge
import Verif.Props.Basic
import Verif.Props.Circle
import Verif.Props.Poly
import Verif.Spec.Samples
import Verif.Spec.Soft
/-
C34, C35: `detectApses`.
-/
namespace Polyskel
open Scalar

/-- `s … e-1` is a maximal run of `true` in `l` -/
def MaxRun (l : List Bool) (s e : Nat) : Prop :=
  s < e ∧ (∀ k, s ≤ k → k < e → l[k]? = some true) ∧ l[e]? ≠ some true ∧
    (s = 0 ∨ l[s - 1]? ≠ some true)

theorem MaxRun.le {l : List Bool} {s e : Nat} (h : MaxRun l s e) : e ≤ l.length := by
  obtain ⟨h1, h2, _⟩ := h
  have := h2 (e - 1) (by omega) (by omega)
  obtain ⟨h3, _⟩ := List.getElem?_eq_some_iff.1 this
  omega

theorem MaxRun.unique {l : List Bool} {s e e' : Nat} (h : MaxRun l s e) (h' : MaxRun l s e') : e = e' := by
  rcases Nat.lt_trichotomy e e' with hlt | h0 | hlt
  · exact absurd (h'.2.1 e (by have := h.1; omega) hlt) h.2.2.1
  · exact h0
  · exact absurd (h.2.1 e' (by have := h'.1; omega) hlt) h'.2.2.1

theorem takeWhile_run (l : List Bool) :
    (∀ k, k < (l.takeWhile id).length → l[k]? = some true) ∧ l[(l.takeWhile id).length]? ≠ some true := by
  induction l with
  | nil => simp
  | cons b l ih =>
    cases b with
    | false => simp
    | true =>
      simp only [List.takeWhile_cons, id, if_true, List.length_cons]
      refine ⟨?_, by simpa using ih.2⟩
      intro k hk
      cases k with
      | zero => rfl
      | succ k => simpa using ih.1 k (by omega)

/-- a run not starting at the beginning is a run of the rest -/
theorem MaxRun.drop {l : List Bool} {m s e : Nat} (hm : 0 < m) (hl : l[m - 1]? ≠ some true ∨ 0 < s) :
    MaxRun (l.drop m) s e ↔ MaxRun l (s + m) (e + m) := by
  unfold MaxRun
  constructor
  · rintro ⟨h1, h2, h3, h4⟩
    refine ⟨by omega, ?_, by simpa [Nat.add_comm] using h3, ?_⟩
    · intro k hk hk'
      have := h2 (k - m) (by omega) (by omega)
      rw [List.getElem?_drop, show m + (k - m) = k by omega] at this
      exact this
    · right
      rcases h4 with rfl | h4
      · rcases hl with h | h
        · simpa using h
        · omega
      · rcases Nat.eq_zero_or_pos s with rfl | hs
        · rcases hl with h | h
          · simpa using h
          · omega
        · rw [List.getElem?_drop, show m + (s - 1) = s + m - 1 by omega] at h4
          exact h4
  · rintro ⟨h1, h2, h3, h4⟩
    refine ⟨by omega, ?_, by rw [List.getElem?_drop, Nat.add_comm]; exact h3, ?_⟩
    · intro k hk hk'
      rw [List.getElem?_drop]
      exact h2 (m + k) (by omega) (by omega)
    · rcases Nat.eq_zero_or_pos s with hs | hs
      · exact .inl hs
      · right
        rw [List.getElem?_drop, show m + (s - 1) = s + m - 1 by omega]
        exact h4.resolve_left (by omega)

theorem runMatches_spec (n : Nat) (hn : 0 < n) (k i : Nat) (l : List Bool) (hk : l.length ≤ k) :
    (∀ p, p ∈ runMatches n k i l ↔ ∃ s e, p = (i + s, i + e) ∧ MaxRun l s e ∧ n ≤ e - s) ∧
    (runMatches n k i l).Pairwise (fun p q => p.1 < q.1) := by
  induction k generalizing i l with
  | zero =>
    have : l = [] := List.length_eq_zero_iff.1 (by omega)
    subst this
    refine ⟨fun p => ⟨fun h => by simp [runMatches] at h, ?_⟩, by simp [runMatches]⟩
    rintro ⟨s, e, _, h, _⟩
    have := h.le; have := h.1
    simp at *; omega
  | succ k ih =>
    cases l with
    | nil =>
      refine ⟨fun p => ⟨fun h => by simp [runMatches] at h, ?_⟩, by simp [runMatches]⟩
      rintro ⟨s, e, _, h, _⟩
      have := h.le; have := h.1
      simp at *; omega
    | cons b rest =>
      obtain ⟨hw1, hw2⟩ := takeWhile_run (b :: rest)
      unfold runMatches
      simp only
      generalize hrun : ((b :: rest).takeWhile id).length = run at hw1 hw2
      have hstart : ∀ e, MaxRun (b :: rest) 0 e → e = run := by
        intro e h
        have hpos : 0 < run := by
          rcases Nat.eq_zero_or_pos run with h0 | h0
          · subst h0
            exact absurd (h.2.1 0 (Nat.le_refl _) h.1) hw2
          · exact h0
        exact h.unique ⟨hpos, fun k _ hk => hw1 k hk, hw2, .inl rfl⟩
      have hinside : ∀ s e, MaxRun (b :: rest) s e → 0 < s → run < s := by
        intro s e h hs
        by_contra hle
        rcases h.2.2.2 with h0 | h0
        · omega
        · exact h0 (hw1 (s - 1) (by omega))
      split
      · rename_i hc
        simp only [Bool.and_eq_true, decide_eq_true_eq] at hc
        obtain ⟨rfl, hnr⟩ := hc
        have hrpos : 0 < run := by omega
        have hlen : ((true :: rest).drop run).length ≤ k := by
          simp only [List.length_drop, List.length_cons] at hk ⊢; omega
        obtain ⟨ih1, ih2⟩ := ih (i + run) ((true :: rest).drop run) hlen
        have hfirst : ∀ s e, MaxRun ((true :: rest).drop run) s e → 0 < s := by
          intro s e h
          rcases Nat.eq_zero_or_pos s with rfl | h0
          · have := h.2.1 0 (Nat.le_refl _) h.1
            rw [List.getElem?_drop] at this
            exact absurd this hw2
          · exact h0
        refine ⟨?_, ?_⟩
        · intro p
          rw [List.mem_cons, ih1]
          constructor
          · rintro (rfl | ⟨s, e, rfl, h, hle⟩)
            · exact ⟨0, run, by simp, ⟨hrpos, fun k _ hk => hw1 k hk, hw2, .inl rfl⟩, by omega⟩
            · refine ⟨s + run, e + run, by simp; omega, ?_, by omega⟩
              exact (MaxRun.drop hrpos (.inr (hfirst s e h))).1 h
          · rintro ⟨s, e, rfl, h, hle⟩
            rcases Nat.eq_zero_or_pos s with rfl | h0
            · rw [hstart e h]; exact .inl (by simp)
            · have hs := hinside s e h h0
              have he := h.1
              refine .inr ⟨s - run, e - run, by simp; omega, ?_, by omega⟩
              rw [MaxRun.drop hrpos (.inr (by omega)), show s - run + run = s by omega,
                show e - run + run = e by omega]
              exact h
        · rw [List.pairwise_cons]
          refine ⟨?_, ih2⟩
          intro q hq
          obtain ⟨s, e, rfl, h, _⟩ := (ih1 q).1 hq
          have := hfirst s e h
          simp; omega
      · rename_i hc
        simp only [Bool.and_eq_true, decide_eq_true_eq, not_and, not_le] at hc
        have hlen : rest.length ≤ k := by simp at hk; omega
        obtain ⟨ih1, ih2⟩ := ih (i + 1) rest hlen
        refine ⟨?_, ih2⟩
        intro p
        rw [ih1]
        have hdrop : rest = (b :: rest).drop 1 := rfl
        constructor
        · rintro ⟨s, e, rfl, h, hle⟩
          refine ⟨s + 1, e + 1, by simp; omega, ?_, by omega⟩
          rw [hdrop] at h
          refine (MaxRun.drop Nat.one_pos ?_).1 h
          rcases Nat.eq_zero_or_pos s with rfl | h0
          · left
            intro hb
            simp at hb
            subst hb
            -- then the run of the rest is too short
            have hr := hc rfl
            have hall : ∀ k, k < e + 1 → (true :: rest)[k]? = some true := by
              intro k hk'
              cases k with
              | zero => rfl
              | succ k =>
                have := h.2.1 k (by omega) (by omega)
                simpa using this
            have : ¬ run < e + 1 := fun hlt => hw2 (hall run hlt)
            omega
          · exact .inr h0
        · rintro ⟨s, e, rfl, h, hle⟩
          rcases Nat.eq_zero_or_pos s with rfl | h0
          · exfalso
            have he := hstart e h
            have hb : b = true := by
              have := h.2.1 0 (Nat.le_refl _) h.1
              simpa using this
            have := hc hb
            omega
          · have he := h.1
            have hs := hinside s e h h0
            refine ⟨s - 1, e - 1, by simp; omega, ?_, by omega⟩
            rw [hdrop]
            refine (MaxRun.drop Nat.one_pos ?_).2 (by
              rw [show s - 1 + 1 = s by omega, show e - 1 + 1 = e by omega]; exact h)
            rcases Nat.eq_zero_or_pos (s - 1) with h1 | h1
            · left
              rcases h.2.2.2 with h2 | h2
              · omega
              · rw [h1] at h2; simpa using h2
            · exact .inr h1

section
variable {S : Type} [Scalar S]

/-- corner `i` of the contour (counted round and round) turns by less than 30 degrees: the cross
product of the directions of the two edges meeting there is below one half -/
def lowCorner (c : List (Edge2 S)) (i : Nat) : Prop :=
  ∃ (h : 0 < c.length), (Scalar.abs (V2.cross (c[(i + c.length - 1) % c.length]'(Nat.mod_lt _ h)).norm
    (c[i % c.length]'(Nat.mod_lt _ h)).norm) <. lit 1 2) = true

/-- a maximal run of low corners `s, …, e-1` of the contour gone through twice -/
structure LowRun (c : List (Edge2 S)) (s e : Nat) : Prop where
  lt : s < e
  le : e ≤ 2 * c.length
  low : ∀ k, s ≤ k → k < e → lowCorner c k
  after : e = 2 * c.length ∨ ¬ lowCorner c e
  before : s = 0 ∨ ¬ lowCorner c (s - 1)

/-- the corner points of a run -/
def runPoints (c : List (Edge2 S)) (s e : Nat) : List (V2 S) :=
  (List.range (e - s)).filterMap (fun k => (c[(s + k) % c.length]?).map (·.p1))

theorem apseSequence_ok (c : List (Edge2 S)) (h : c ≠ []) :
    ∃ seq, apseSequence c = .ok seq ∧ seq.length = c.length ∧
      ∀ i, i < 2 * c.length → ((seq ++ seq)[i]? = some true ↔ lowCorner c i) := by
  have hpos := List.length_pos_iff.2 h
  obtain ⟨ps, h1, h2, h3⟩ := C06_iterPrevNext c h
  refine ⟨_, by rw [apseSequence, h1, ok_bind]; rfl, by simp [h2], ?_⟩
  have key : ∀ i, i < c.length → ((ps.map (fun pn => Scalar.abs (V2.cross pn.1.norm pn.2.norm) <. lit 1 2))[i]?
      = some true ↔ lowCorner c i) := by
    intro i hi
    rw [List.getElem?_map, h3 i hi]
    unfold lowCorner
    simp only [Option.map_some, Option.some.injEq, hpos, exists_true_left, Nat.mod_eq_of_lt hi]
  intro i hi
  by_cases hlt : i < c.length
  · rw [List.getElem?_append_left (by simpa [h2] using hlt)]
    exact key i hlt
  · rw [List.getElem?_append_right (by simpa [h2] using hlt)]
    simp only [List.length_map, h2]
    rw [key (i - c.length) (by omega)]
    unfold lowCorner
    have e1 : (i - c.length + c.length - 1) % c.length = (i + c.length - 1) % c.length := by
      rw [show i + c.length - 1 = (i - c.length + c.length - 1) + c.length by omega, Nat.add_mod_right]
    have e2 : (i - c.length) % c.length = i % c.length := by
      conv => rhs; rw [show i = (i - c.length) + c.length by omega, Nat.add_mod_right]
    simp only [e1, e2]

theorem maxRun_iff_lowRun {c : List (Edge2 S)} {seq : List Bool} (hl : seq.length = c.length)
    (hs : ∀ i, i < 2 * c.length → ((seq ++ seq)[i]? = some true ↔ lowCorner c i)) (s e : Nat) :
    MaxRun (seq ++ seq) s e ↔ LowRun c s e := by
  have hlen : (seq ++ seq).length = 2 * c.length := by simp [hl]; omega
  constructor
  · intro h
    have hle := h.le
    rw [hlen] at hle
    obtain ⟨h1, h2, h3, h4⟩ := h
    refine ⟨h1, hle, fun k hk hk' => (hs k (by omega)).1 (h2 k hk hk'), ?_, ?_⟩
    · by_cases he : e = 2 * c.length
      · exact .inl he
      · exact .inr (fun hlow => h3 ((hs e (by omega)).2 hlow))
    · rcases h4 with h4 | h4
      · exact .inl h4
      · exact .inr (fun hlow => h4 ((hs (s - 1) (by omega)).2 hlow))
  · rintro ⟨h1, h2, h3, h4, h5⟩
    refine ⟨h1, fun k hk hk' => (hs k (by omega)).2 (h3 k hk hk'), ?_, ?_⟩
    · rcases h4 with h4 | h4
      · rw [List.getElem?_eq_none (by omega)]; simp
      · by_cases he : e = 2 * c.length
        · rw [List.getElem?_eq_none (by omega)]; simp
        · exact fun hlow => h4 ((hs e (by omega)).1 hlow)
    · rcases h5 with h5 | h5
      · exact .inl h5
      · exact .inr (fun hlow => h5 ((hs (s - 1) (by omega)).1 hlow))

theorem apseCenter_eq (c : List (Edge2 S)) (h : c ≠ []) (s e : Nat) :
    apseCenter c c.length (s, e) = (fitCircle3Points (runPoints c s e)).map (·.1) := by
  have hpos := List.length_pos_iff.2 h
  have hm : ∀ l : List Nat, ((l.map (fun k => (s + k) % c.length)).mapM (fun (i : Nat) => do
      let e ← pyGet c (i : Int); return e.p1) : Except PyErr (List (V2 S))) =
      .ok (l.filterMap (fun k => (c[(s + k) % c.length]?).map (·.p1))) := by
    intro l
    induction l with
    | nil => rfl
    | cons k l ih =>
      have hlt : (s + k) % c.length < c.length := Nat.mod_lt _ hpos
      rw [List.map_cons, List.mapM_cons, ih]
      rw [pyGet_nat, List.getElem?_eq_getElem hlt]
      rw [List.filterMap_cons, List.getElem?_eq_getElem hlt]
      rfl
  unfold apseCenter
  simp only
  rw [hm, ok_bind]
  show (do let (c, _) ← fitCircle3Points (runPoints c s e); return c) = _
  cases fitCircle3Points (runPoints c s e) <;> rfl

/-- C35: `detectApses`, for every numeric behaviour and every non-empty contour.  When all corners are
low, or when going round twice there is no run of six low corners, the result is None.  Otherwise
the maximal runs of at least six low corners that start in the first round are taken in order, and
the result is the list of the centres fitted to the corner points of these runs. -/
theorem C35_detectApses (c : List (Edge2 S)) (h : c ≠ []) :
    ((∀ i, i < c.length → lowCorner c i) → detectApses c = .ok none) ∧
    ((∀ s e, LowRun c s e → e - s < 6) → detectApses c = .ok none) ∧
    ((∃ i, i < c.length ∧ ¬ lowCorner c i) → (∃ s e, LowRun c s e ∧ 6 ≤ e - s) →
      ∃ runs : List (Nat × Nat), runs.Pairwise (fun p q => p.1 < q.1) ∧
        (∀ p, p ∈ runs ↔ LowRun c p.1 p.2 ∧ 6 ≤ p.2 - p.1 ∧ p.1 < c.length) ∧
        detectApses c = (runs.mapM (fun p => (fitCircle3Points (runPoints c p.1 p.2)).map (·.1))).map some) := by
  obtain ⟨seq, h1, h2, h3⟩ := apseSequence_ok c h
  have hpos := List.length_pos_iff.2 h
  have hall : seq.all id = true ↔ ∀ i, i < c.length → lowCorner c i := by
    rw [List.all_eq_true]
    constructor
    · intro ha i hi
      rw [← h3 i (by omega), List.getElem?_append_left (by omega), List.getElem?_eq_getElem (by omega)]
      exact congrArg some (ha _ (List.getElem_mem _))
    · intro ha b hb
      obtain ⟨i, hi, rfl⟩ := List.getElem_of_mem hb
      have := (h3 i (by omega)).2 (ha i (by omega))
      rw [List.getElem?_append_left (by omega), List.getElem?_eq_getElem hi] at this
      simpa using this
  obtain ⟨r1, r2⟩ := runMatches_spec 6 (by omega) (2 * seq.length) 0 (seq ++ seq) (by simp; omega)
  have r1' : ∀ p, p ∈ runMatches 6 (2 * seq.length) 0 (seq ++ seq) ↔ LowRun c p.1 p.2 ∧ 6 ≤ p.2 - p.1 := by
    intro p
    rw [r1]
    constructor
    · rintro ⟨s, e, rfl, hr, hle⟩
      simp only [Nat.zero_add]
      exact ⟨(maxRun_iff_lowRun h2 h3 s e).1 hr, hle⟩
    · rintro ⟨hr, hle⟩
      exact ⟨p.1, p.2, by simp, (maxRun_iff_lowRun h2 h3 _ _).2 hr, hle⟩
  have hdef : detectApses c = (if seq.all id then return none else
      if (runMatches 6 (2 * seq.length) 0 (seq ++ seq)).isEmpty then return none else do
        let cs ← ((runMatches 6 (2 * seq.length) 0 (seq ++ seq)).filter
          (fun m => decide (m.1 < seq.length))).mapM (apseCenter c seq.length)
        return some cs) := by
    unfold detectApses; rw [h1, ok_bind]
  refine ⟨?_, ?_, ?_⟩
  · intro ha
    rw [hdef, if_pos (hall.2 ha)]; rfl
  · intro hno
    rw [hdef]
    split
    · rfl
    · rw [if_pos]
      · rfl
      · rw [List.isEmpty_iff, List.eq_nil_iff_forall_not_mem]
        intro p hp
        have := (r1' p).1 hp
        have := hno _ _ this.1
        omega
  · rintro ⟨i, hi, hlow⟩ ⟨s, e, hr, hle⟩
    refine ⟨(runMatches 6 (2 * seq.length) 0 (seq ++ seq)).filter (fun m => decide (m.1 < seq.length)),
      r2.filter _, ?_, ?_⟩
    · intro p
      rw [List.mem_filter, r1', decide_eq_true_eq, h2]
      tauto
    · rw [hdef, if_neg (fun ha => hlow (hall.1 ha i hi)), if_neg]
      · rw [h2]
        have hf : apseCenter c c.length = fun p : Nat × Nat =>
            (fitCircle3Points (runPoints c p.1 p.2)).map (·.1) := by
          funext p; exact apseCenter_eq c h p.1 p.2
        rw [hf]
        generalize (List.mapM _ _ : Except PyErr (List (V2 S))) = X
        cases X <;> rfl
      · rw [List.isEmpty_iff]
        intro hnil
        have := (r1' (s, e)).2 ⟨hr, hle⟩
        rw [hnil] at this
        cases this

/-- C34, C35: an empty contour raises ValueError. -/
theorem C35_empty : detectApses ([] : List (Edge2 S)) = .error .value := rfl

end

open Geo

/-- the points a run is fitted to: first, middle and last corner point -/
theorem runPoints_get (c : List (Edge2 ℝ)) (h : c ≠ []) (s e : Nat) :
    (runPoints c s e).length = e - s ∧
    ∀ k, k < e - s → (runPoints c s e)[k]? = (c[(s + k) % c.length]?).map (·.p1) := by
  have hpos := List.length_pos_iff.2 h
  have heq : ∀ l : List Nat, l.filterMap (fun k => (c[(s + k) % c.length]?).map (·.p1)) =
      l.map (fun k => (c[(s + k) % c.length]'(Nat.mod_lt _ hpos)).p1) := by
    intro l
    rw [← List.filterMap_eq_map]
    congr 1
    funext k
    simp [List.getElem?_eq_getElem (Nat.mod_lt (s + k) hpos)]
  unfold runPoints
  rw [heq]
  refine ⟨by simp, ?_⟩
  intro k hk
  rw [List.getElem?_map, List.getElem?_range hk, List.getElem?_eq_getElem (Nat.mod_lt (s + k) hpos)]
  rfl

/-- corner point number `i`, counted round and round -/
def cornerAt (c : List (Edge2 ℝ)) (i : Nat) (p : V2 ℝ) : Prop := (c[i % c.length]?).map (·.p1) = some p

theorem fit_run (c : List (Edge2 ℝ)) (h : c ≠ []) (s e : Nat) (hse : s < e) :
    ∃ p0 pm pl, cornerAt c s p0 ∧ cornerAt c (s + (e - s) / 2) pm ∧ cornerAt c (e - 1) pl ∧
      (Collinear3 p0 pm pl → fitCircle3Points (runPoints c s e) = .error .zeroDivision) ∧
      (¬ Collinear3 p0 pm pl → ∃ r, fitCircle3Points (runPoints c s e) = .ok r) := by
  obtain ⟨hl, hg⟩ := runPoints_get c h s e
  have hne : runPoints c s e ≠ [] := by
    intro h0; rw [h0] at hl; simp at hl; omega
  obtain ⟨p0, pm, pl, e0, em, el, _⟩ := fitCircle_points (runPoints c s e) hne
  refine ⟨p0, pm, pl, ?_, ?_, ?_, ?_, ?_⟩
  · rw [List.head?_eq_getElem?, hg 0 (by omega)] at e0; exact e0
  · rw [hl, hg _ (by omega)] at em; exact em
  · rw [List.getLast?_eq_getElem?, hl, hg _ (by omega), show s + (e - s - 1) = e - 1 by omega] at el
    exact el
  · exact C04_fitCircle_collinear _ _ _ _ e0 em el
  · intro hc
    obtain ⟨c', R, h', _⟩ := C04_fitCircle_equidistant _ _ _ _ e0 em el hc
    exact ⟨_, h'⟩

/-- the first, the middle and the last corner point of the run are on a line -/
def StraightRun (c : List (Edge2 ℝ)) (s e : Nat) : Prop :=
  ∃ p0 pm pl, cornerAt c s p0 ∧ cornerAt c (s + (e - s) / 2) pm ∧ cornerAt c (e - 1) pl ∧
    Collinear3 p0 pm pl

theorem fit_run_error (c : List (Edge2 ℝ)) (h : c ≠ []) (s e : Nat) (hse : s < e) (x : PyErr) :
    fitCircle3Points (runPoints c s e) = .error x ↔ x = .zeroDivision ∧ StraightRun c s e := by
  obtain ⟨p0, pm, pl, h0, hm, hl, h1, h2⟩ := fit_run c h s e hse
  by_cases hc : Collinear3 p0 pm pl
  · rw [h1 hc]
    constructor
    · intro h; cases h; exact ⟨rfl, p0, pm, pl, h0, hm, hl, hc⟩
    · rintro ⟨rfl, _⟩; rfl
  · obtain ⟨r, hr⟩ := h2 hc
    rw [hr]
    constructor
    · intro h; cases h
    · rintro ⟨_, q0, qm, ql, g0, gm, gl, hc'⟩
      unfold cornerAt at *
      rw [h0] at g0; rw [hm] at gm; rw [hl] at gl
      cases g0; cases gm; cases gl
      exact absurd hc' hc

/-- C34: over the reals, `detectApses` fails on a non-empty contour exactly when it has a corner of
30 degrees or more and a maximal run of at least six low corners, starting in the first round, whose
first, middle and last point are on a line; the exception is ZeroDivisionError. -/
theorem C34_detectApses (c : List (Edge2 ℝ)) (h : c ≠ []) (x : PyErr) :
    detectApses c = .error x ↔ x = .zeroDivision ∧ (∃ i, i < c.length ∧ ¬ lowCorner c i) ∧
      ∃ s e, LowRun c s e ∧ 6 ≤ e - s ∧ s < c.length ∧ StraightRun c s e := by
  obtain ⟨h1, h2, h3⟩ := C35_detectApses c h
  constructor
  · intro hx
    have ha : ∃ i, i < c.length ∧ ¬ lowCorner c i := by
      by_contra hc
      push Not at hc
      rw [h1 hc] at hx; cases hx
    have hb : ∃ s e, LowRun c s e ∧ 6 ≤ e - s := by
      by_contra hc
      push Not at hc
      rw [h2 hc] at hx; cases hx
    obtain ⟨runs, _, hr, heq⟩ := h3 ha hb
    rw [heq] at hx
    have hm : runs.mapM (fun p => (fitCircle3Points (runPoints c p.1 p.2)).map (·.1)) = .error x := by
      generalize (runs.mapM _ : Except PyErr (List (V2 ℝ))) = X at hx
      cases X with
      | error e => cases hx; rfl
      | ok r => cases hx
    obtain ⟨p, hp, he⟩ := mapM_error hm
    have hf : fitCircle3Points (runPoints c p.1 p.2) = .error x := by
      generalize fitCircle3Points (runPoints c p.1 p.2) = X at he
      cases X with
      | error e => cases he; rfl
      | ok r => cases he
    obtain ⟨g1, g2, g3⟩ := (hr p).1 hp
    obtain ⟨rfl, hs⟩ := (fit_run_error c h _ _ g1.lt x).1 hf
    exact ⟨rfl, ha, p.1, p.2, g1, g2, g3, hs⟩
  · rintro ⟨rfl, ha, s, e, hr, h6, hs, hst⟩
    obtain ⟨runs, _, hruns, heq⟩ := h3 ha ⟨s, e, hr, h6⟩
    rw [heq]
    have hmem : (s, e) ∈ runs := (hruns (s, e)).2 ⟨hr, h6, hs⟩
    cases hm : (runs.mapM (fun p => (fitCircle3Points (runPoints c p.1 p.2)).map (·.1))) with
    | ok r =>
      exfalso
      obtain ⟨b, _, hb⟩ := mapM_mem' hm _ hmem
      rw [(fit_run_error c h s e hr.lt _).2 ⟨rfl, hst⟩] at hb
      cases hb
    | error x =>
      obtain ⟨p, hp, he⟩ := mapM_error hm
      have hf : fitCircle3Points (runPoints c p.1 p.2) = .error x := by
        generalize fitCircle3Points (runPoints c p.1 p.2) = X at he
        cases X with
        | error e => cases he; rfl
        | ok r => cases he
      rw [((fit_run_error c h _ _ ((hruns p).1 hp).1.lt x).1 hf).1]
      rfl

/-- C34: such a contour makes `skeletonize` raise, whatever the holes: ZeroDivisionError, unless the
main loop raised before. -/
theorem C34_skeletonize (outer : List (Edge2 ℝ)) (holes : List (List (Edge2 ℝ))) (e : PyErr)
    (h : detectApses outer = .error e) (fuel : Nat) (r : Except PyErr (List (Subtree ℝ)))
    (hr : skeletonize fuel (outer :: holes) = some r) :
    r = .error e ∨ (∃ e', startLoop (outer :: holes) = .error e' ∧ r = .error e') ∨
      ∃ lp e', startLoop (outer :: holes) = .ok lp ∧ mainLoop fuel lp = some (.error e') ∧
        r = .error e' := by
  unfold skeletonize at hr
  split at hr
  · rename_i e' he'
    cases hr; exact .inr (.inl ⟨e', he', rfl⟩)
  · rename_i lp hlp
    split at hr
    · cases hr
    · rename_i e' he'
      cases hr; exact .inr (.inr ⟨lp, e', hlp, he', rfl⟩)
    · rename_i lp' hlp'
      cases hr
      left
      unfold finish
      rw [C30_raises_conv _ _ _ _ h]
      rfl

/-- C34: and `polygonize` raises, leaving the caller's lists alone. -/
theorem C34_polygonize (rt : Rt) (fuel : Nat) (a : PolyArgs ℝ) (out : PolyOut ℝ) (z : ℝ) (ctr : V3 ℝ)
    (outer : List (Edge2 ℝ)) (holes : List (List (Edge2 ℝ))) (e : PyErr)
    (hb : buildContours a = .ok (z, ctr, outer :: holes)) (h : detectApses outer = .error e)
    (hp : polygonize rt fuel a = some out) :
    (∃ e', out.result = .error e' ∧ skeletonize fuel (outer :: holes) = some (.error e')) ∧
      out.verts = a.verts ∧ out.faces = a.faces := by
  unfold polygonize at hp
  simp only [hb] at hp
  split at hp
  · cases hp
  · rename_i e' he'
    cases hp; exact ⟨⟨e', rfl, he'⟩, rfl, rfl⟩
  · rename_i sk hsk
    rcases C34_skeletonize outer holes e h fuel _ hsk with h | ⟨_, _, h⟩ | ⟨_, _, _, _, h⟩ <;> cases h

/-- C34: a rectangle with one side cut into eight pieces -/
theorem C34_rectangle : (polygonize rt0 40 (simpleCall
    [(0,0),(1,0),(2,0),(3,0),(4,0),(5,0),(6,0),(7,0),(8,0),(8,5),(0,5)] 1 1)).map (·.result) =
    some (.error .zeroDivision) := by decide +kernel

/-- case for C35: a semicircle on a rectangle has one apse -/
example : (detectApses (ringEdges [(0, -100), (100, -100), (100, 0), (97, 17), (88, 32), (75, 43), (59, 49), (41, 49), (25, 43), (12, 32), (3, 17), (0, 0)])).map (fun r => r.map List.length) = .ok (some 1) := by
  decide +kernel

/-- case for C35: no apse in a square -/
example : detectApses (ringEdges [(0, 0), (9, 0), (9, 9), (0, 9)]) = .ok none := by decide +kernel

end Polyskel
