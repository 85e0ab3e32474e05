import Mathlib.Data.List.Perm.Subperm
import Verif.Props.Spikes
/-
C40: the final clean-up of the faces, bpypolyskel.py:1139-1171.
-/
namespace Polyskel
open Scalar
variable {S : Type} [Scalar S]

/-- `removeItems` succeeds when every item occurs often enough, and leaves a sublist -/
theorem removeItems_ok {items face : List Int} (h : List.Subperm items face) :
    ∃ r, removeItems face items = .ok r ∧ r.Sublist face ∧ (items ++ r).Perm face := by
  induction items generalizing face with
  | nil => exact ⟨face, rfl, List.Sublist.refl _, List.Perm.refl _⟩
  | cons a items ih =>
    have hm : a ∈ face := h.subset (by simp)
    have h' : List.Subperm items (face.erase a) := by
      have := h.erase a
      simpa using this
    obtain ⟨r, h1, h2, h3⟩ := ih h'
    refine ⟨r, ?_, h2.trans List.erase_sublist, ?_⟩
    · unfold removeItems pyRemove
      rw [if_pos hm]
      exact h1
    · exact (h3.cons a).trans (List.perm_cons_erase hm).symm

theorem triples_mid {f : List Int} {ts : List (Int × Int × Int)} (h : iterPrevThisNext f = .ok ts) :
    ts.map (·.2.1) = f := by
  unfold iterPrevThisNext at h
  split at h
  · cases h
  · rename_i hne
    cases h
    have hl : (f.drop (f.length - 1) ++ f.take (f.length - 1)).length = f.length := by simp
    have hl2 : (f.zip (f.drop 1 ++ f.take 1)).length = f.length := by simp; omega
    have h1 : ∀ (A : List Int) (B : List (Int × Int)), A.length = B.length →
        (A.zip B).map (fun x => x.2.1) = B.map (·.1) := by
      intro A B hAB
      have h2 : (A.zip B).map (fun x => x.2.1) = ((A.zip B).map (·.2)).map (·.1) := by
        rw [List.map_map]; rfl
      rw [h2, List.map_snd_zip (by omega)]
    rw [h1 _ _ (by rw [hl, hl2]), List.map_fst_zip (by simp; omega)]

/-- what can happen to `verticesToRemove`: it lists some of the corners, in order -/
theorem parallelVerts_ok {verts : List (V3 S)} {n : Nat} {count : Int → Nat}
    {acc rm : List Int} {ts : List (Int × Int × Int)}
    (h : parallelVerts verts n count acc ts = .ok rm) :
    ∃ l, rm = acc ++ l ∧ l.Sublist (ts.map (·.2.1)) ∧
      ∀ v ∈ l, (n : Int) ≤ v ∧ count v < 3 := by
  induction ts generalizing acc with
  | nil => simp [parallelVerts] at h; exact ⟨[], by simp [h], by simp, by simp⟩
  | cons t ts ih =>
    obtain ⟨p, t, x⟩ := t
    unfold parallelVerts at h
    have skip : parallelVerts verts n count acc ts = .ok rm →
        ∃ l, rm = acc ++ l ∧ l.Sublist (((p, t, x) :: ts).map (·.2.1)) ∧
          ∀ v ∈ l, (n : Int) ≤ v ∧ count v < 3 := by
      intro h
      obtain ⟨l, h1, h2, h3⟩ := ih h
      exact ⟨l, h1, h2.trans (List.sublist_cons_self _ _), h3⟩
    split at h
    · rename_i hc
      simp only [Bool.and_eq_true, decide_eq_true_eq] at hc
      have take : parallelVerts verts n count (acc ++ [t]) ts = .ok rm →
          ∃ l, rm = acc ++ l ∧ l.Sublist (((p, t, x) :: ts).map (·.2.1)) ∧
            ∀ v ∈ l, (n : Int) ≤ v ∧ count v < 3 := by
        intro h
        obtain ⟨l, h1, h2, h3⟩ := ih h
        refine ⟨t :: l, by simp [h1], by simpa using h2, ?_⟩
        intro v hv
        rcases List.mem_cons.1 hv with rfl | hv
        · exact ⟨hc.2, hc.1⟩
        · exact h3 v hv
      obtain ⟨T, _, h⟩ := bind_ok.1 h
      obtain ⟨P, _, h⟩ := bind_ok.1 h
      obtain ⟨X, _, h⟩ := bind_ok.1 h
      simp only at h
      split at h
      · obtain ⟨c, _, h⟩ := bind_ok.1 h
        split at h
        · exact take h
        · exact skip h
      · split at h
        · exact skip h
        · exact take h
    · exact skip h

/-- with valid indices the only possible exception is the division by zero of Python's `/` -/
theorem parallelVerts_error {verts : List (V3 S)} {n : Nat} {count : Int → Nat}
    {acc : List Int} {ts : List (Int × Int × Int)} {e : PyErr}
    (hv : ∀ t ∈ ts, (∃ a, pyGet verts t.1 = .ok a) ∧ (∃ a, pyGet verts t.2.1 = .ok a) ∧
      ∃ a, pyGet verts t.2.2 = .ok a)
    (h : parallelVerts verts n count acc ts = .error e) : e = .zeroDivision := by
  induction ts generalizing acc with
  | nil => simp [parallelVerts] at h
  | cons t ts ih =>
    obtain ⟨p, t, x⟩ := t
    have ih := fun {acc} => ih (acc := acc) (fun t ht => hv t (by simp [ht]))
    obtain ⟨⟨P, hP⟩, ⟨T, hT⟩, X, hX⟩ := hv (p, t, x) (by simp)
    unfold parallelVerts at h
    split at h
    · simp only at hP hT hX
      rw [hT, hP, hX] at h
      simp only [ok_bind] at h
      split at h
      · rcases bind_error.1 h with h | ⟨c, _, h⟩
        · unfold pydiv at h
          split at h
          · cases h; rfl
          · cases h
        · split at h <;> exact ih h
      · split at h <;> exact ih h
    · exact ih h

theorem adjacentDups_ok {face rm : List Int} (h : adjacentDups face = .ok rm) :
    face ≠ [] ∧ List.Subperm rm face ∧ ∀ v, v ∈ rm ↔ HasStep face v v := by
  unfold adjacentDups at h
  obtain ⟨ps, hps, h⟩ := bind_ok.1 h
  cases h
  have hne : face ≠ [] := by rintro rfl; simp [iterPrevNext] at hps
  refine ⟨hne, ?_, ?_⟩
  · have h1 : ((ps.filter (fun p => p.1 = p.2)).map (·.1)).Sublist (ps.map (·.1)) :=
      List.filter_sublist.map _
    have h2 : (ps.map (·.1)).Perm face := by
      unfold iterPrevNext at hps
      split at hps
      · cases hps
      · cases hps
        rw [List.map_fst_zip (by simp)]
        have := List.perm_append_comm (l₁ := face.drop (face.length - 1))
          (l₂ := face.take (face.length - 1))
        rw [List.take_append_drop] at this
        exact this
    exact h1.subperm.trans h2.subperm
  · intro v
    have hd : hasDart face v v = .ok (ps.contains (v, v)) := by
      unfold hasDart; rw [hps]; rfl
    rw [← (hasDart_ok hd).2, List.contains_iff_mem]
    simp only [List.mem_map, List.mem_filter, decide_eq_true_eq, Prod.exists]
    constructor
    · rintro ⟨a, b, ⟨h1, rfl⟩, rfl⟩; exact h1
    · intro h; exact ⟨v, v, ⟨h, rfl⟩, rfl⟩

theorem adjacentDups_total {face : List Int} (h : face ≠ []) : ∃ rm, adjacentDups face = .ok rm := by
  obtain ⟨r, hr, _⟩ := C06_iterPrevNext face h
  exact ⟨_, by unfold adjacentDups; rw [hr]; rfl⟩

/-- C40 for one face: in every arithmetic, with valid indices and a corner that may not be removed
(a polygon vertex, or one occurring in three or more corners), the clean-up returns a sublist of
the face that contains all corners of the polygon not repeated in a row, or Python's division
raises ZeroDivisionError; it raises nothing else. -/
theorem C40_cleanFace (verts : List (V3 S)) (n : Nat) (count : Int → Nat) (face : List Int)
    (hv : ∀ v ∈ face, ∃ a, pyGet verts v = .ok a)
    (hkeep : ∃ v ∈ face, v < (n : Int) ∨ 3 ≤ count v) :
    cleanFace verts n count face = .error .zeroDivision ∨
    ∃ mid out, cleanFace verts n count face = .ok out ∧ out.Sublist mid ∧ mid.Sublist face ∧
      (∀ v, v < (n : Int) ∨ 3 ≤ count v → mid.count v = face.count v) ∧
      (∀ v, ¬ HasStep mid v v → out.count v = mid.count v) := by
  have hne : face ≠ [] := by
    rintro rfl; obtain ⟨v, hv, _⟩ := hkeep; simp at hv
  have second : ∀ mid : List Int, mid.Sublist face →
      (∀ v, v < (n : Int) ∨ 3 ≤ count v → mid.count v = face.count v) →
      ∃ out, (do let rm ← adjacentDups mid; removeItems mid rm) = .ok out ∧ out.Sublist mid ∧
        (∀ v, ¬ HasStep mid v v → out.count v = mid.count v) := by
    intro mid hmid hc
    have hmne : mid ≠ [] := by
      obtain ⟨v, hvf, hv⟩ := hkeep
      rintro rfl
      have := hc v hv
      have h2 := List.count_pos_iff.2 hvf
      simp at this
      omega
    obtain ⟨rm, hrm⟩ := adjacentDups_total hmne
    obtain ⟨_, h2, h3⟩ := adjacentDups_ok hrm
    obtain ⟨out, ho, hs, hp⟩ := removeItems_ok h2
    refine ⟨out, by rw [hrm]; exact ho, hs, ?_⟩
    intro v hv
    have := hp.count_eq v
    rw [List.count_append] at this
    have h0 : rm.count v = 0 := List.count_eq_zero.2 (fun hm => hv ((h3 v).1 hm))
    omega
  unfold cleanFace
  split
  · obtain ⟨ts, hts, _⟩ := C06_iterPrevThisNext face hne
    rw [hts]
    simp only [ok_bind]
    have hval : ∀ t ∈ ts, (∃ a, pyGet verts t.1 = .ok a) ∧ (∃ a, pyGet verts t.2.1 = .ok a) ∧
        ∃ a, pyGet verts t.2.2 = .ok a := by
      rintro ⟨p, t, x⟩ ht
      obtain ⟨i, h1, h2, h3⟩ := (mem_triples hts p t x).1 ht
      exact ⟨hv _ (List.mem_of_getElem? h1), hv _ (List.mem_of_getElem? h2),
        hv _ (List.mem_of_getElem? h3)⟩
    cases hpv : parallelVerts verts n count [] ts with
    | error e =>
      left
      have := parallelVerts_error hval hpv
      subst this
      rfl
    | ok rm =>
      right
      simp only [ok_bind]
      obtain ⟨l, h1, h2, h3⟩ := parallelVerts_ok hpv
      rw [List.nil_append] at h1
      subst h1
      rw [triples_mid hts] at h2
      obtain ⟨mid, hm1, hm2, hm3⟩ := removeItems_ok h2.subperm
      rw [hm1]
      have hcnt : ∀ v, v < (n : Int) ∨ 3 ≤ count v → mid.count v = face.count v := by
        intro v hv
        have := hm3.count_eq v
        rw [List.count_append] at this
        have h0 : rm.count v = 0 := List.count_eq_zero.2 (fun hm => by
          have := h3 v hm
          omega)
        omega
      obtain ⟨out, ho, hs, hstep⟩ := second mid hm2 hcnt
      exact ⟨mid, out, ho, hs, hm2, hcnt, hstep⟩
  · right
    obtain ⟨out, ho, hs, hstep⟩ := second face (List.Sublist.refl _) (fun _ _ => rfl)
    exact ⟨face, out, by rw [ok_bind]; exact ho, hs, List.Sublist.refl _, fun _ _ => rfl, hstep⟩

/-- C40: the same for all faces. -/
theorem C40_cleanFaces (verts : List (V3 S)) (n : Nat) (faces : List (List Int))
    (hv : ∀ f ∈ faces, ∀ v ∈ f, ∃ a, pyGet verts v = .ok a)
    (hkeep : ∀ f ∈ faces, ∃ v ∈ f, v < (n : Int) ∨ 3 ≤ faces.flatten.count v) :
    (∀ e, cleanFaces verts n faces = .error e → e = .zeroDivision) ∧
    ∀ out, cleanFaces verts n faces = .ok out →
      List.Forall₂ (fun f o => ∃ mid, List.Sublist o mid ∧ List.Sublist mid f ∧
        (∀ v, v < (n : Int) ∨ 3 ≤ faces.flatten.count v → mid.count v = f.count v) ∧
        (∀ v, ¬ HasStep mid v v → o.count v = mid.count v)) faces out := by
  unfold cleanFaces
  constructor
  · intro e h
    obtain ⟨f, hf, h⟩ := mapM_error h
    rcases C40_cleanFace verts n _ f (hv f hf) (hkeep f hf) with h' | ⟨_, _, h', _⟩
    · rw [h'] at h; cases h; rfl
    · rw [h'] at h; cases h
  · intro out h
    have h2 := mapM_ok h
    rw [List.forall₂_iff_get] at h2 ⊢
    refine ⟨h2.1, ?_⟩
    intro i h3 h4
    have h5 := h2.2 i h3 h4
    have hf : faces.get ⟨i, h3⟩ ∈ faces := List.get_mem _ _
    rcases C40_cleanFace verts n (fun v => faces.flatten.count v) (faces.get ⟨i, h3⟩) (hv _ hf)
      (hkeep _ hf) with h' | ⟨mid, o, h', h6⟩
    · rw [h'] at h5; cases h5
    · rw [h'] at h5
      have := Except.ok.inj h5
      rw [← this]
      exact ⟨mid, h6⟩

/-! ### which vertices the parallel-edge step removes, in exact arithmetic -/

open Geo in
/-- the corner `t` between `p` and `x` is superfluous: it coincides with a neighbour, or the two
edges go on in nearly the same direction (cosine above 0.99) -/
def Flat (P T X : V2 ℝ) : Prop :=
  eucl P T = 0 ∨ eucl X T = 0 ∨
    (99 / 100) * (eucl P T * eucl X T) <
      (T.x - P.x) * (X.x - T.x) + (T.y - P.y) * (X.y - T.y)

open Geo in
theorem cauchy (P T X : V2 ℝ) : (T.x - P.x) * (X.x - T.x) + (T.y - P.y) * (X.y - T.y) ≤
    eucl P T * eucl X T := by
  unfold eucl
  rw [← Real.sqrt_mul (by positivity)]
  apply Real.le_sqrt_of_sq_le
  nlinarith [sq_nonneg ((P.x - T.x) * (X.y - T.y) - (P.y - T.y) * (X.x - T.x))]

open Geo in
theorem parallelVerts_exact {verts : List (V3 ℝ)} {n : Nat} {count : Int → Nat}
    {acc : List Int} {ts : List (Int × Int × Int)}
    (hv : ∀ t ∈ ts, (∃ a, pyGet verts t.1 = .ok a) ∧ (∃ a, pyGet verts t.2.1 = .ok a) ∧
      ∃ a, pyGet verts t.2.2 = .ok a) :
    ∃ rm, parallelVerts verts n count acc ts = .ok rm ∧
      ∀ v, v ∈ rm ↔ v ∈ acc ∨ ∃ p x P T X, (p, v, x) ∈ ts ∧ (n : Int) ≤ v ∧ count v < 3 ∧
        pyGet verts p = .ok P ∧ pyGet verts v = .ok T ∧ pyGet verts x = .ok X ∧
        Flat P.xy T.xy X.xy := by
  induction ts generalizing acc with
  | nil => exact ⟨acc, rfl, by simp⟩
  | cons t ts ih =>
    obtain ⟨p, t, x⟩ := t
    have ih := fun {acc} => ih (acc := acc) (fun t ht => hv t (by simp [ht]))
    obtain ⟨⟨P, hP⟩, ⟨T, hT⟩, X, hX⟩ := hv (p, t, x) (by simp)
    simp only at hP hT hX
    have skip : (¬ ((n : Int) ≤ t ∧ count t < 3 ∧ Flat P.xy T.xy X.xy) ∨ t ∈ acc) →
        ∃ rm, parallelVerts verts n count acc ts = .ok rm ∧
        ∀ v, v ∈ rm ↔ v ∈ acc ∨ ∃ p' x' P T X, (p', v, x') ∈ (p, t, x) :: ts ∧ (n : Int) ≤ v ∧
          count v < 3 ∧ pyGet verts p' = .ok P ∧ pyGet verts v = .ok T ∧ pyGet verts x' = .ok X ∧
          Flat P.xy T.xy X.xy := by
      intro hno
      obtain ⟨rm, h1, h2⟩ := ih (acc := acc)
      refine ⟨rm, h1, fun v => ?_⟩
      rw [h2]
      constructor
      · rintro (h | ⟨p', x', P', T', X', hm, h⟩)
        · exact .inl h
        · exact .inr ⟨p', x', P', T', X', by simp [hm], h⟩
      · rintro (h | ⟨p', x', P', T', X', hm, h3, h4, h5, h6, h7, h8⟩)
        · exact .inl h
        · rcases List.mem_cons.1 hm with hm | hm
          · cases hm
            rw [hP] at h5; rw [hT] at h6; rw [hX] at h7
            cases h5; cases h6; cases h7
            rcases hno with hno | hno
            · exact absurd ⟨h3, h4, h8⟩ hno
            · exact .inl hno
          · exact .inr ⟨p', x', P', T', X', hm, h3, h4, h5, h6, h7, h8⟩
    have take : (n : Int) ≤ t ∧ count t < 3 ∧ Flat P.xy T.xy X.xy →
        ∃ rm, parallelVerts verts n count (acc ++ [t]) ts = .ok rm ∧
        ∀ v, v ∈ rm ↔ v ∈ acc ∨ ∃ p' x' P T X, (p', v, x') ∈ (p, t, x) :: ts ∧ (n : Int) ≤ v ∧
          count v < 3 ∧ pyGet verts p' = .ok P ∧ pyGet verts v = .ok T ∧ pyGet verts x' = .ok X ∧
          Flat P.xy T.xy X.xy := by
      intro hyes
      obtain ⟨rm, h1, h2⟩ := ih (acc := acc ++ [t])
      refine ⟨rm, h1, fun v => ?_⟩
      rw [h2]
      constructor
      · rintro (h | ⟨p', x', P', T', X', hm, h⟩)
        · rcases List.mem_append.1 h with h | h
          · exact .inl h
          · rw [List.mem_singleton] at h; subst h
            exact .inr ⟨p, x, P, T, X, by simp, hyes.1, hyes.2.1, hP, hT, hX, hyes.2.2⟩
        · exact .inr ⟨p', x', P', T', X', by simp [hm], h⟩
      · rintro (h | ⟨p', x', P', T', X', hm, h⟩)
        · exact .inl (List.mem_append_left _ h)
        · rcases List.mem_cons.1 hm with hm | hm
          · cases hm; exact .inl (by simp)
          · exact .inr ⟨p', x', P', T', X', hm, h⟩
    unfold parallelVerts
    split
    · rename_i hc
      simp only [Bool.and_eq_true, decide_eq_true_eq] at hc
      rw [hT, hP, hX]
      simp only [ok_bind]
      have e0 : V2.length (V3.xy (V3.sub T P)) = eucl P.xy T.xy := by
        rw [eucl_comm]
        simp only [V2.length, V2.dot, V3.xy, V3.sub, ex_sqrt, ex_rnd, ex_sub, ex_mul, ex_add, eucl]
        congr 1; ring
      have e1 : V2.length (V3.xy (V3.sub X T)) = eucl X.xy T.xy := by
        simp only [V2.length, V2.dot, V3.xy, V3.sub, ex_sqrt, ex_rnd, ex_sub, ex_mul, ex_add, eucl]
        congr 1; ring
      rw [e0, e1]
      by_cases h0 : eucl P.xy T.xy = 0
      · simp only [h0, ex_zero, show Scalar.eq (0 : ℝ) 0 = true by simp, Bool.not_true,
          Bool.false_and, Bool.false_eq_true, if_false]
        split
        · rename_i hm; exact skip (.inr hm)
        · exact take ⟨hc.2, hc.1, .inl h0⟩
      by_cases h1 : eucl X.xy T.xy = 0
      · simp only [h1, ex_zero, show Scalar.eq (0 : ℝ) 0 = true by simp, Bool.not_true,
          Bool.and_false, Bool.false_eq_true, if_false]
        split
        · rename_i hm; exact skip (.inr hm)
        · exact take ⟨hc.2, hc.1, .inr (.inl h1)⟩
      have hcond : (!Scalar.eq (eucl P.xy T.xy) fzero && !Scalar.eq (eucl X.xy T.xy) fzero : Bool)
          = true := by simp [h0, h1]
      rw [hcond]
      simp only [if_true, pydiv, ex_mul, ex_eq, ex_zero, mul_eq_zero, h0, h1, or_self, if_false,
        ok_bind]
      have hp0 : 0 < eucl P.xy T.xy := lt_of_le_of_ne (eucl_nonneg _ _) (Ne.symm h0)
      have hp1 : 0 < eucl X.xy T.xy := lt_of_le_of_ne (eucl_nonneg _ _) (Ne.symm h1)
      have hpos := mul_pos hp0 hp1
      have hdot : V2.dot (V3.xy (V3.sub T P)) (V3.xy (V3.sub X T)) =
          (T.x - P.x) * (X.x - T.x) + (T.y - P.y) * (X.y - T.y) := by
        simp only [V2.dot, V3.xy, V3.sub, ex_rnd, ex_sub, ex_mul, ex_add]
      rw [hdot]
      have hiff : (Scalar.lt (Scalar.abs (((T.x - P.x) * (X.x - T.x) + (T.y - P.y) * (X.y - T.y)) /.
          (eucl P.xy T.xy * eucl X.xy T.xy) -. fone)) PARALLEL = true) ↔ Flat P.xy T.xy X.xy := by
        have hcs := cauchy P.xy T.xy X.xy
        simp only [V3.xy] at hcs
        unfold Flat
        simp only [h0, h1, false_or]
        simp only [V3.xy] at hpos ⊢
        generalize (T.x - P.x) * (X.x - T.x) + (T.y - P.y) * (X.y - T.y) = D at *
        generalize eucl ⟨P.x, P.y⟩ ⟨T.x, T.y⟩ * eucl ⟨X.x, X.y⟩ ⟨T.x, T.y⟩ = M at *
        simp only [ex_lt, ex_abs, ex_sub, ex_one, ex_div, ex_PARALLEL]
        have hq : D / M - 1 = -((M - D) / M) := by field_simp; ring
        rw [hq, abs_neg, abs_of_nonneg (div_nonneg (by linarith) hpos.le), div_lt_iff₀ hpos]
        constructor <;> intro h <;> linarith
      split
      · rename_i hl; exact take ⟨hc.2, hc.1, hiff.1 hl⟩
      · rename_i hl; exact skip (.inl fun h => hl (hiff.2 h.2.2))
    · rename_i hc
      simp only [Bool.and_eq_true, decide_eq_true_eq, not_and] at hc
      exact skip (.inl fun h => hc h.2.1 h.1)

/-- removing each of the items once from a list without repetitions -/
theorem removeItems_nodup {face items r : List Int} (hf : face.Nodup)
    (h : removeItems face items = .ok r) : r = face.filter (fun v => !items.contains v) := by
  induction items generalizing face with
  | nil => simp [removeItems] at h; simp [h]
  | cons a items ih =>
    unfold removeItems at h
    obtain ⟨f', hf', h⟩ := bind_ok.1 h
    obtain ⟨hm, rfl⟩ := pyRemove_ok hf'
    rw [ih (hf.erase a) h, hf.erase_eq_filter, List.filter_filter]
    congr 1
    funext v
    by_cases hva : v = a
    · simp [hva]
    · simp [hva]

open Classical in
/-- C40, exact arithmetic: a face of more than three different corners loses exactly the skeleton
vertices that occur in fewer than three face corners and are superfluous in this face; a face of
up to three different corners is unchanged. -/
theorem C40_cleanFace_exact (verts : List (V3 ℝ)) (n : Nat) (count : Int → Nat) (face : List Int)
    (hv : ∀ v ∈ face, ∃ a, pyGet verts v = .ok a) (hnd : face.Nodup)
    (gone : Int → Prop)
    (hgone : ∀ v, gone v ↔ 3 < face.length ∧ (n : Int) ≤ v ∧ count v < 3 ∧
      ∃ i p x P T X, TripleAt face i p v x ∧ pyGet verts p = .ok P ∧ pyGet verts v = .ok T ∧
        pyGet verts x = .ok X ∧ Flat P.xy T.xy X.xy)
    (h2 : 2 ≤ (face.filter (fun v => !decide (gone v))).length) :
    cleanFace verts n count face = .ok (face.filter (fun v => !decide (gone v))) := by
  have hne : face ≠ [] := by rintro rfl; simp at h2
  have second : ∀ mid : List Int, mid.Nodup → 2 ≤ mid.length →
      (do let rm ← adjacentDups mid; removeItems mid rm) = .ok mid := by
    intro mid hm hl
    obtain ⟨rm, hrm⟩ := adjacentDups_total (face := mid) (by rintro rfl; simp at hl)
    obtain ⟨_, _, h3⟩ := adjacentDups_ok hrm
    have : rm = [] := by
      apply List.eq_nil_iff_forall_not_mem.2
      intro v hv
      obtain ⟨i, a, b⟩ := (h3 v).1 hv
      have hi := (List.getElem?_eq_some_iff.1 a).1
      have e := (List.getElem?_eq_some_iff.1 a).2.trans (List.getElem?_eq_some_iff.1 b).2.symm
      have := (List.Nodup.getElem_inj_iff hm).1 e
      rcases Nat.lt_or_ge (i + 1) mid.length with h | h
      · rw [Nat.mod_eq_of_lt h] at this; omega
      · have e : i + 1 = mid.length := by omega
        rw [e, Nat.mod_self] at this; omega
    rw [hrm, this]; rfl
  unfold cleanFace
  split
  · rename_i hlen
    obtain ⟨ts, hts, _⟩ := C06_iterPrevThisNext face hne
    rw [hts]
    simp only [ok_bind]
    have hval : ∀ t ∈ ts, (∃ a, pyGet verts t.1 = .ok a) ∧ (∃ a, pyGet verts t.2.1 = .ok a) ∧
        ∃ a, pyGet verts t.2.2 = .ok a := by
      rintro ⟨p, t, x⟩ ht
      obtain ⟨i, h1, h2, h3⟩ := (mem_triples hts p t x).1 ht
      exact ⟨hv _ (List.mem_of_getElem? h1), hv _ (List.mem_of_getElem? h2),
        hv _ (List.mem_of_getElem? h3)⟩
    obtain ⟨rm, hrm, hmem⟩ := parallelVerts_exact (n := n) (count := count) (acc := []) hval
    rw [hrm]
    simp only [ok_bind]
    obtain ⟨l, e1, e2, _⟩ := parallelVerts_ok hrm
    rw [List.nil_append] at e1; subst e1
    rw [triples_mid hts] at e2
    obtain ⟨mid, hm1, hm2, _⟩ := removeItems_ok e2.subperm
    have hmid := removeItems_nodup hnd hm1
    have hmid' : mid = face.filter (fun v => !decide (gone v)) := by
      rw [hmid]
      congr 1
      funext v
      congr 1
      rw [Bool.eq_iff_iff, List.contains_iff_mem, decide_eq_true_iff, hmem, hgone]
      simp only [List.not_mem_nil, false_or]
      constructor
      · rintro ⟨p, x, P, T, X, h1, h2, h3, h4⟩
        obtain ⟨i, hi⟩ := (mem_triples hts _ _ _).1 h1
        exact ⟨hlen, h2, h3, i, p, x, P, T, X, hi, h4⟩
      · rintro ⟨_, h2, h3, i, p, x, P, T, X, hi, h4⟩
        exact ⟨p, x, P, T, X, (mem_triples hts _ _ _).2 ⟨i, hi⟩, h2, h3, h4⟩
    rw [hm1, ok_bind, ← hmid']
    exact second mid (hnd.sublist hm2) (by rw [hmid']; exact h2)
  · rename_i hlen
    have : face.filter (fun v => !decide (gone v)) = face := by
      rw [List.filter_eq_self]
      intro v _
      simp only [Bool.not_eq_true', decide_eq_false_iff_not, hgone]
      omega
    rw [this] at h2 ⊢
    rw [ok_bind]
    exact second face hnd h2

/-- C40: the step for repeated vertices does not always do what it is meant to: `face.remove` takes
the first occurrence of the vertex, here a corner that was not repeated, and leaves the repeated
one. -/
theorem C40_wrong_corner_removed :
    cleanFace (ground [(0, 0), (10, 0), (10, 10), (0, 10), (5, 5)]) 5 (fun _ => 3)
      [0, 1, 2, 0, 0, 3] = .ok [1, 2, 0, 0, 3] := by decide +kernel

/-- C40: the condition of `C40_cleanFace` cannot be dropped: a face without such a corner can lose
all corners, and the second step then raises ValueError. -/
theorem C40_emptied_face_raises :
    cleanFaces (ground [(0, 0), (1, 1), (1, 1), (1, 1), (1, 1)]) 1 [[1, 2, 3, 4]] =
      .error .value := by decide +kernel

/-- case: two vertices of the ridge lie on a straight line and occur twice; the polygon corner 1
on a straight line stays -/
example : cleanFaces (ground [(0, 0), (10, 0), (20, 0), (5, 5), (10, 5), (15, 5), (10, 10)]) 3
    [[0, 1, 2, 5, 4, 3], [3, 4, 5, 6]] = .ok [[0, 1, 2, 5, 3], [3, 5, 6]] := by decide +kernel

end Polyskel
