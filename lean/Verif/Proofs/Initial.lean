import Verif.Proofs.SplitFail
import Verif.Proofs.DormerStep
/-
The wavefront that is built from the contours.
-/
namespace Polyskel
open Scalar
set_option linter.unusedSectionVars false
variable {S : Type} [Scalar S]

/-- the geometry of the wavefront vertex at the corner between two edges -/
def cornerCore (e : Edge2 S × Edge2 S) : Core S := (mkVtx 0 e.2.p1 e.1 e.2 none false).core

/-- `st` is `s0` with one more LAV, which has a vertex for each of `ps` -/
structure Built (s0 : St S) (ps : List (Edge2 S × Edge2 S)) (st : St S) : Prop where
  len : st.vs.length = s0.vs.length + ps.length
  nx0 : ∀ k < s0.vs.length, st.nx k = s0.nx k
  pv0 : ∀ k < s0.vs.length, st.pv k = s0.pv k
  lv0 : ∀ k < s0.vs.length, st.lv k = s0.lv k
  vd0 : ∀ k < s0.vs.length, st.vd k = s0.vd k
  co0 : ∀ k < s0.vs.length, st.co k = s0.co k
  nx : ∀ j < ps.length, st.nx (s0.vs.length + j) =
    some (if j + 1 = ps.length then s0.vs.length else s0.vs.length + j + 1)
  pv : ∀ j < ps.length, st.pv (s0.vs.length + j) =
    some (if j = 0 then s0.vs.length + ps.length - 1 else s0.vs.length + j - 1)
  lv : ∀ j < ps.length, st.lv (s0.vs.length + j) = some (some s0.lavs.length)
  vd : ∀ j < ps.length, st.vd (s0.vs.length + j) = some true
  co : ∀ j < ps.length, st.co (s0.vs.length + j) = ps[j]?.map cornerCore
  lavs : st.lavs = s0.lavs ++ [{ head := if ps = [] then 0 else s0.vs.length, len := ps.length }]
  slav : st.slav = s0.slav
  orig : st.orig = s0.orig

theorem built_nil (s0 : St S) : Built s0 [] (s0.newL { head := 0, len := 0 }).1 where
  len := by simp
  nx0 := by simp
  pv0 := by simp
  lv0 := by simp
  vd0 := by simp
  co0 := by simp
  nx := by simp
  pv := by simp
  lv := by simp
  vd := by simp
  co := by simp
  lavs := by simp [St.newL]
  slav := rfl
  orig := rfl

theorem modify_last {α : Type} (xs : List α) (a : α) (f : α → α) :
    (xs ++ [a]).modify xs.length f = xs ++ [f a] := by
  induction xs with
  | nil => rfl
  | cons x xs ih => simp [List.modify_succ_cons, ih]

theorem built_step {s0 st : St S} {ps : List (Edge2 S × Edge2 S)} (h : Built s0 ps st)
    (p n : Edge2 S) :
    ∃ st', addVertexToLav s0.lavs.length st ps.isEmpty p n = .ok st' ∧
      Built s0 (ps ++ [(p, n)]) st' := by
  obtain ⟨hlen, nx0, pv0, lv0, vd0, co0, hnx, hpv, hlv, hvd, hco, hla, hsl, hor⟩ := h
  unfold addVertexToLav
  simp only [St.len_modL, St.newV_snd]
  have hla1 : (st.modL s0.lavs.length fun o => { o with len := o.len + 1 }).lavs =
      s0.lavs ++ [{ head := if ps = [] then 0 else s0.vs.length, len := ps.length + 1 }] := by
    simp only [St.modL, hla]
    rw [modify_last]
  generalize hs1 : (st.modL s0.lavs.length fun o => { o with len := o.len + 1 }) = s1 at *
  have f1 : s1.vs = st.vs := by rw [← hs1]; rfl
  have f2 : s1.slav = st.slav := by rw [← hs1]; rfl
  have f3 : s1.orig = st.orig := by rw [← hs1]; rfl
  have g1 : s1.nx = st.nx := by unfold St.nx; rw [f1]
  have g2 : s1.pv = st.pv := by unfold St.pv; rw [f1]
  have g3 : s1.lv = st.lv := by unfold St.lv; rw [f1]
  have g4 : s1.vd = st.vd := by unfold St.vd; rw [f1]
  have g5 : s1.co = st.co := by unfold St.co; rw [f1]
  generalize hw : mkVtx st.vs.length n.p1 p n none false = w
  have w1 : w.core = cornerCore (p, n) := by rw [← hw]; rfl
  have w2 : w.valid = true := by rw [← hw]; rfl
  clear hs1 hw
  cases hps : ps with
  | nil =>
    subst hps
    simp only [List.isEmpty_nil, if_true]
    refine ⟨_, rfl, ?_⟩
    simp only [List.length_nil, Nat.add_zero] at hlen
    rw [hlen]
    have hl1 : s1.vs.length = s0.vs.length := by rw [f1, hlen]
    constructor
    · simp [hl1]
    · intro k hk; simp [g1, hl1, nx0 k hk, hk.ne]
    · intro k hk; simp [g2, hl1, pv0 k hk, hk.ne]
    · intro k hk; simp [g3, hl1, lv0 k hk, hk.ne]
    · intro k hk; simp [g4, hl1, vd0 k hk, hk.ne]
    · intro k hk; simp [g5, hl1, co0 k hk, hk.ne]
    · intro j hj
      have : j = 0 := by simp at hj; exact hj
      subst this; simp [hl1]
    · intro j hj
      have : j = 0 := by simp at hj; exact hj
      subst this; simp [hl1]
    · intro j hj
      have : j = 0 := by simp at hj; exact hj
      subst this; simp [hl1]
    · intro j hj
      have : j = 0 := by simp at hj; exact hj
      subst this; simp [hl1, w2]
    · intro j hj
      have : j = 0 := by simp at hj; exact hj
      subst this; simp [hl1, w1]
    · show ((s1.setHead s0.lavs.length s0.vs.length)).lavs = _
      simp only [St.setHead, St.modL, hla1]
      rw [modify_last]
      simp
    · exact f2.trans hsl
    · exact f3.trans hor
  | cons q ps' =>
    rw [← hps]
    have hne : ps ≠ [] := by rw [hps]; simp
    have hpos : 0 < ps.length := List.length_pos_iff.2 hne
    clear hps
    have hemp : ps.isEmpty = false := by simp [hne]
    rw [hemp]
    simp only [Bool.false_eq_true, if_false]
    rw [if_neg hne] at hla hla1
    generalize hs2 : (s1.newV w).1.setLav st.vs.length (some s0.lavs.length) = s2
    have hl1 : s1.vs.length = st.vs.length := by rw [f1]
    have n2 : ∀ k, s2.nx k = if k = st.vs.length then some w.next else st.nx k := by
      intro k; rw [← hs2]; simp [hl1, g1]
    have p2 : ∀ k, s2.pv k = if k = st.vs.length then some w.prev else st.pv k := by
      intro k; rw [← hs2]; simp [hl1, g2]
    have l2 : ∀ k, s2.lv k = if k = st.vs.length then some (some s0.lavs.length)
        else st.lv k := by
      intro k; rw [← hs2]; simp only [St.lv_setLav, St.lv_newV, hl1, g3]; split <;> simp
    have d2 : ∀ k, s2.vd k = if k = st.vs.length then some true else st.vd k := by
      intro k; rw [← hs2]; simp [hl1, g4, w2]
    have c2 : ∀ k, s2.co k = if k = st.vs.length then some (cornerCore (p, n)) else st.co k := by
      intro k; rw [← hs2]; simp [hl1, g5, w1]
    have len2 : s2.vs.length = st.vs.length + 1 := by rw [← hs2]; simp [hl1]
    have la2 : s2.lavs = s0.lavs ++ [{ head := s0.vs.length, len := ps.length + 1 }] := by
      rw [← hs2, ← hla1]; rfl
    have sl2 : s2.slav = s0.slav := by rw [← hs2, ← hsl, ← f2]; rfl
    have or2 : s2.orig = s0.orig := by rw [← hs2, ← hor, ← f3]; rfl
    clear hs2
    have ho : s2.getL s0.lavs.length = .ok { head := s0.vs.length, len := ps.length + 1 } := by
      rw [getL_ok, la2]; simp
    rw [ho, ok_bind]
    simp only
    obtain ⟨hd, hhd, hhd'⟩ := getV_total (st := s2) (i := s0.vs.length) (by omega)
    have hhp : hd.prev = s0.vs.length + ps.length - 1 := by
      have := (vs_fields hhd').2.1
      rw [p2, if_neg (by omega)] at this
      have h0 := hpv 0 hpos
      simp only [Nat.add_zero, if_true] at h0
      rw [h0] at this
      simpa using this.symm
    rw [hhd, ok_bind, hhp]
    refine ⟨_, rfl, ?_⟩
    generalize hs3 : (((s2.setNext st.vs.length s0.vs.length).setPrev st.vs.length
      (s0.vs.length + ps.length - 1)).setNext (s0.vs.length + ps.length - 1)
        st.vs.length).setPrev s0.vs.length st.vs.length = s3
    have n3 : ∀ k, s3.nx k = if k = s0.vs.length + ps.length - 1 then some st.vs.length
        else if k = st.vs.length then some s0.vs.length else st.nx k := by
      intro k
      rw [← hs3]
      simp only [St.nx_setPrev, St.nx_setNext, n2]
      by_cases q1 : k = s0.vs.length + ps.length - 1
      · have : k ≠ st.vs.length := by omega
        obtain ⟨j, hj⟩ := nx_some (st := st) (i := k) (by omega)
        rw [if_pos q1, if_neg this, if_neg this, if_pos q1, hj]; rfl
      · rw [if_neg q1, if_neg q1]
        by_cases q2 : k = st.vs.length
        · simp [q2]
        · simp [q2]
    have p3 : ∀ k, s3.pv k = if k = s0.vs.length then some st.vs.length
        else if k = st.vs.length then some (s0.vs.length + ps.length - 1) else st.pv k := by
      intro k
      rw [← hs3]
      simp only [St.pv_setPrev, St.pv_setNext, p2]
      by_cases q1 : k = s0.vs.length
      · have : k ≠ st.vs.length := by omega
        have h0 := hpv 0 hpos
        simp only [Nat.add_zero, if_true] at h0
        rw [if_pos q1, if_neg this, if_neg this, if_pos q1, q1, h0]; rfl
      · rw [if_neg q1, if_neg q1]
        by_cases q2 : k = st.vs.length
        · simp [q2]
        · simp [q2]
    have l3 : s3.lv = s2.lv := by rw [← hs3]; funext k; simp
    have d3 : s3.vd = s2.vd := by rw [← hs3]; funext k; simp
    have c3 : s3.co = s2.co := by rw [← hs3]; funext k; simp
    have len3 : s3.vs.length = s2.vs.length := by rw [← hs3]; simp
    have la3 : s3.lavs = s2.lavs := by rw [← hs3]; rfl
    have sl3 : s3.slav = s2.slav := by rw [← hs3]; rfl
    have or3 : s3.orig = s2.orig := by rw [← hs3]; rfl
    clear hs3
    constructor
    · rw [len3, len2, hlen]; simp; omega
    · intro k hk; rw [n3, if_neg (by omega), if_neg (by omega), nx0 k hk]
    · intro k hk; rw [p3, if_neg (by omega), if_neg (by omega), pv0 k hk]
    · intro k hk; rw [l3, l2, if_neg (by omega), lv0 k hk]
    · intro k hk; rw [d3, d2, if_neg (by omega), vd0 k hk]
    · intro k hk; rw [c3, c2, if_neg (by omega), co0 k hk]
    · intro j hj
      simp only [List.length_append, List.length_singleton] at hj ⊢
      rw [n3]
      by_cases q1 : j + 1 = ps.length
      · rw [if_pos (by omega), if_neg (by omega)]; congr 1; omega
      · rw [if_neg (by omega)]
        by_cases q2 : j = ps.length
        · rw [if_pos (by omega), if_pos (by omega)]
        · rw [if_neg (by omega), hnx j (by omega), if_neg q1, if_neg (by omega)]
    · intro j hj
      simp only [List.length_append, List.length_singleton] at hj ⊢
      rw [p3]
      by_cases q1 : j = 0
      · rw [if_pos (by omega), if_pos q1]; congr 1
      · rw [if_neg (by omega), if_neg q1]
        by_cases q2 : j = ps.length
        · rw [if_pos (by omega)]; congr 1; omega
        · rw [if_neg (by omega), hpv j (by omega), if_neg q1]
    · intro j hj
      simp only [List.length_append, List.length_singleton] at hj
      rw [l3, l2]
      by_cases q2 : j = ps.length
      · rw [if_pos (by omega)]
      · rw [if_neg (by omega), hlv j (by omega)]
    · intro j hj
      simp only [List.length_append, List.length_singleton] at hj
      rw [d3, d2]
      by_cases q2 : j = ps.length
      · rw [if_pos (by omega)]
      · rw [if_neg (by omega), hvd j (by omega)]
    · intro j hj
      simp only [List.length_append, List.length_singleton] at hj
      rw [c3, c2]
      by_cases q2 : j = ps.length
      · rw [if_pos (by omega), q2]; simp
      · rw [if_neg (by omega), hco j (by omega), List.getElem?_append_left (by omega)]
    · rw [la3, la2]; simp
    · rw [sl3, sl2]
    · rw [or3, or2]

theorem fromPolygonLoop_built {s0 : St S} (rest : List (Edge2 S × Edge2 S))
    {st : St S} {ps : List (Edge2 S × Edge2 S)} (h : Built s0 ps st) :
    ∃ st', fromPolygonLoop s0.lavs.length st ps.isEmpty rest = .ok st' ∧
      Built s0 (ps ++ rest) st' := by
  induction rest generalizing st ps with
  | nil => exact ⟨st, rfl, by simpa using h⟩
  | cons e rest ih =>
    obtain ⟨p, n⟩ := e
    obtain ⟨s1, h1, hb⟩ := built_step h p n
    obtain ⟨s2, h2, hb2⟩ := ih hb
    unfold fromPolygonLoop
    rw [h1, ok_bind]
    refine ⟨s2, ?_, by simpa using hb2⟩
    have he : (ps ++ [(p, n)]).isEmpty = false := by cases ps <;> rfl
    rw [he] at h2
    exact h2

theorem cornerPairs_length {α : Type} (c : List α) : (cornerPairs c).length = c.length := by
  unfold cornerPairs
  simp

theorem fromPolygon_built (s0 : St S) {c : List (Edge2 S)} (hc : c ≠ []) :
    ∃ st, fromPolygon s0 c = .ok (st, s0.lavs.length) ∧ Built s0 (cornerPairs c) st := by
  obtain ⟨st, h1, h2⟩ := fromPolygonLoop_built (cornerPairs c) (built_nil s0)
  refine ⟨st, ?_, by simpa using h2⟩
  unfold fromPolygon
  have hip : iterPrevNext c = .ok (cornerPairs c) := by
    unfold iterPrevNext cornerPairs
    rw [if_neg (by simpa using hc)]
  simp only [hip, ok_bind, St.newL_snd]
  simp only [List.isEmpty_nil] at h1
  rw [h1]
  rfl

/-- the new vertices form a closed list -/
theorem Built.closed {s0 st : St S} {ps : List (Edge2 S × Edge2 S)} (h : Built s0 ps st)
    (hne : ps ≠ []) : Closed st (List.range' s0.vs.length ps.length) := by
  have hpos : 0 < ps.length := List.length_pos_iff.2 hne
  obtain ⟨m, hm⟩ : ∃ m, ps.length = m + 1 := ⟨ps.length - 1, by omega⟩
  refine ⟨List.nodup_range', s0.vs.length, List.range' (s0.vs.length + 1) m, ?_, ?_⟩
  · rw [hm, List.range'_succ]
  · have key : ∀ r j, j + r = m → Seg st (s0.vs.length + j)
        (List.range' (s0.vs.length + j + 1) r) s0.vs.length := by
      intro r
      induction r with
      | zero =>
        intro j hj
        rw [List.range'_zero, seg_nil, link_iff, h.nx j (by omega), if_pos (by omega)]
        refine ⟨rfl, ?_⟩
        have := h.pv 0 hpos
        simp only [Nat.add_zero, if_true] at this
        rw [this]
        congr 1
        omega
      | succ r ih =>
        intro j hj
        rw [List.range'_succ, seg_cons, link_iff, h.nx j (by omega), if_neg (by omega)]
        refine ⟨⟨rfl, ?_⟩, ih (j + 1) (by omega)⟩
        have := h.pv (j + 1) (by omega)
        rw [if_neg (by omega)] at this
        rw [Nat.add_assoc, this]
        congr 1
    have := key m 0 (by omega)
    simpa using this

theorem Built.loops {s0 st : St S} {ps : List (Edge2 S × Edge2 S)} (h : Built s0 ps st)
    {R : Nat → List Nat} (h0 : Loops s0 R) (h3 : 3 ≤ ps.length) :
    Loops { st with slav := st.slav ++ [s0.lavs.length] }
      (fun k => if k = s0.lavs.length then List.range' s0.vs.length ps.length else R k) := by
  have hne : ps ≠ [] := by rintro rfl; simp at h3
  have hlt : ∀ k ∈ s0.slav, k < s0.lavs.length := fun k hk => h0.lavs_lt hk
  have hR : ∀ k ∈ s0.slav, (if k = s0.lavs.length then List.range' s0.vs.length ps.length
      else R k) = R k := fun k hk => if_neg (hlt k hk).ne
  have hsl : ∀ k, k ∈ st.slav ++ [s0.lavs.length] ↔ k ∈ s0.slav ∨ k = s0.lavs.length := by
    intro k; rw [h.slav]; simp
  have hcl := h.closed hne
  have hmem : ∀ v, v ∈ List.range' s0.vs.length ps.length ↔
      ∃ j < ps.length, v = s0.vs.length + j := by
    intro v
    rw [List.mem_range'_1]
    constructor
    · rintro ⟨a, b⟩; exact ⟨v - s0.vs.length, by omega, by omega⟩
    · rintro ⟨j, a, rfl⟩; omega
  constructor
  · show (st.slav ++ [s0.lavs.length]).Nodup
    rw [h.slav, List.nodup_append]
    refine ⟨h0.nodup, by simp, ?_⟩
    rintro a ha b hb rfl
    simp only [List.mem_singleton] at hb
    have := hlt a ha
    omega
  · intro l hl
    rcases (hsl l).1 hl with hl | rfl
    · simp only [hR l hl]
      obtain ⟨o, ho, hh⟩ := h0.lav l hl
      refine ⟨o, ?_, hh⟩
      show st.lavs[l]? = some o
      rw [h.lavs, List.getElem?_append_left (hlt l hl), ho]
    · refine ⟨{ head := s0.vs.length, len := ps.length }, ?_, ?_, ?_⟩
      · show st.lavs[s0.lavs.length]? = _
        rw [h.lavs, if_neg hne]; simp
      · simp only [if_true, hmem]; exact ⟨0, by omega, rfl⟩
      · simp
  · intro l hl
    rcases (hsl l).1 hl with hl | rfl
    · simp only [hR l hl]; exact h0.three l hl
    · simp; exact h3
  · intro l hl
    rcases (hsl l).1 hl with hl | rfl
    · simp only [hR l hl]
      refine closed_congr (st := s0) ?_ ?_ (h0.closed l hl)
      · intro k hk; exact h.nx0 k ((h0.closed l hl).lt k hk)
      · intro k hk; exact h.pv0 k ((h0.closed l hl).lt k hk)
    · simp only [if_true]
      exact closed_congr (st := st) (fun _ _ => rfl) (fun _ _ => rfl) hcl
  · intro l hl v
    show _ ↔ st.lv v = _
    by_cases hv : v < s0.vs.length
    · rw [h.lv0 v hv]
      rcases (hsl l).1 hl with hl | rfl
      · simp only [hR l hl]; exact h0.mem l hl v
      · simp only [if_true]
        constructor
        · intro hm; rw [List.mem_range'_1] at hm; omega
        · intro e
          exfalso
          cases hd : s0.vd v with
          | none =>
            obtain ⟨w, hw⟩ := getElem?_of_lt hv
            rw [(vs_fields hw).2.2.2.1] at hd
            simp at hd
          | some b =>
            cases b with
            | true =>
              obtain ⟨l', hl', e'⟩ := (h0.valid v).1 hd
              rw [e] at e'
              simp only [Option.some.injEq] at e'
              have := hlt l' hl'
              omega
            | false => rw [h0.invalid v hd] at e; simp at e
    · by_cases hv2 : v < s0.vs.length + ps.length
      · obtain ⟨j, hj, rfl⟩ : ∃ j < ps.length, v = s0.vs.length + j :=
          ⟨v - s0.vs.length, by omega, by omega⟩
        rw [h.lv j hj]
        rcases (hsl l).1 hl with hl | rfl
        · simp only [hR l hl]
          constructor
          · intro hm; have := (h0.closed l hl).lt _ hm; omega
          · intro e
            simp only [Option.some.injEq] at e
            have := hlt l hl
            omega
        · simp only [if_true, iff_true]
          exact (hmem _).2 ⟨j, hj, rfl⟩
      · have hn : st.lv v = none := by
          cases e : st.lv v with
          | none => rfl
          | some j => have := lv_lt e; have := h.len; omega
        rw [hn]
        simp only [reduceCtorEq, iff_false]
        rcases (hsl l).1 hl with hl | rfl
        · rw [hR l hl]
          intro hm; have := (h0.closed l hl).lt _ hm; omega
        · simp only [if_true, hmem]
          rintro ⟨j, hj, rfl⟩; omega
  · intro v
    show st.vd v = some true ↔ ∃ l ∈ st.slav ++ [s0.lavs.length], st.lv v = some (some l)
    by_cases hv : v < s0.vs.length
    · rw [h.vd0 v hv, h.lv0 v hv, h0.valid v]
      constructor
      · rintro ⟨l, hl, e⟩; exact ⟨l, (hsl l).2 (Or.inl hl), e⟩
      · rintro ⟨l, hl, e⟩
        rcases (hsl l).1 hl with hl | rfl
        · exact ⟨l, hl, e⟩
        · exfalso
          cases hd : s0.vd v with
          | none =>
            obtain ⟨w, hw⟩ := getElem?_of_lt hv
            rw [(vs_fields hw).2.2.2.1] at hd
            simp at hd
          | some b =>
            cases b with
            | true =>
              obtain ⟨l', hl', e'⟩ := (h0.valid v).1 hd
              rw [e] at e'
              simp only [Option.some.injEq] at e'
              have := hlt l' hl'
              omega
            | false => rw [h0.invalid v hd] at e; simp at e
    · by_cases hv2 : v < s0.vs.length + ps.length
      · obtain ⟨j, hj, rfl⟩ : ∃ j < ps.length, v = s0.vs.length + j :=
          ⟨v - s0.vs.length, by omega, by omega⟩
        rw [h.lv j hj, h.vd j hj]
        simp only [true_iff]
        exact ⟨_, (hsl _).2 (Or.inr rfl), rfl⟩
      · constructor
        · intro e; have := vd_lt e; have := h.len; omega
        · rintro ⟨l, -, e⟩; have := lv_lt e; have := h.len; omega
  · intro v
    show st.vd v = some false → st.lv v = some none
    by_cases hv : v < s0.vs.length
    · rw [h.vd0 v hv, h.lv0 v hv]; exact h0.invalid v
    · by_cases hv2 : v < s0.vs.length + ps.length
      · obtain ⟨j, hj, rfl⟩ : ∃ j < ps.length, v = s0.vs.length + j :=
          ⟨v - s0.vs.length, by omega, by omega⟩
        rw [h.vd j hj]; simp
      · intro e; have := vd_lt e; have := h.len; omega

/-- the LAV `l` of the wavefront has, from its head `b`, the vertices of the corners `c` -/
def LavIs (st : St S) (R : Nat → List Nat) (l : Nat) (c : List (Edge2 S)) (b : Nat) : Prop :=
  R l = List.range' b c.length ∧ st.lavs[l]? = some { head := b, len := c.length } ∧
    ∀ j < c.length, st.co (b + j) = (cornerPairs c)[j]?.map cornerCore

theorem fromContours_loops {cs : List (List (Edge2 S))} {s0 : St S} {R : Nat → List Nat}
    (h0 : Loops s0 R) (h3 : ∀ c ∈ cs, 3 ≤ c.length) :
    ∃ st R', fromContours s0 cs = .ok st ∧ Loops st R' ∧ st.orig = s0.orig ∧
      st.slav = s0.slav ++ List.range' s0.lavs.length cs.length ∧
      st.vs.length = s0.vs.length + (cs.map List.length).sum ∧
      (∀ k < s0.vs.length, st.co k = s0.co k) ∧ (∀ k < s0.vs.length, st.nx k = s0.nx k) ∧
      (∀ l < s0.lavs.length, R' l = R l ∧ st.lavs[l]? = s0.lavs[l]?) ∧
      ∀ j c, cs[j]? = some c → LavIs st R' (s0.lavs.length + j) c
        (s0.vs.length + ((cs.take j).map List.length).sum) := by
  induction cs generalizing s0 R with
  | nil =>
    exact ⟨s0, R, rfl, h0, rfl, by simp, by simp, by simp, by simp, by simp, by simp⟩
  | cons c cs ih =>
    have hc := h3 c (by simp)
    have hne : c ≠ [] := by rintro rfl; simp at hc
    obtain ⟨s1, h1, hb⟩ := fromPolygon_built s0 hne
    have hL := hb.loops h0 (by rw [cornerPairs_length]; exact hc)
    obtain ⟨st, R', hst, hL', hor, hsl, hlen, hco, hnx, hold, hnew⟩ := ih hL
      (fun d hd => h3 d (List.mem_cons_of_mem _ hd))
    have e1 : s1.lavs.length = s0.lavs.length + 1 := by rw [hb.lavs]; simp
    have e2 : s1.vs.length = s0.vs.length + c.length := by rw [hb.len, cornerPairs_length]
    have hne' : cornerPairs c ≠ [] := by
      intro e
      have := cornerPairs_length c
      rw [e] at this
      simp at this
      exact hne (List.length_eq_zero_iff.1 this.symm)
    refine ⟨st, R', ?_, hL', hor.trans hb.orig, ?_, ?_, ?_, ?_, ?_, ?_⟩
    · unfold fromContours
      rw [h1, ok_bind]
      exact hst
    · rw [hsl]
      show s1.slav ++ [s0.lavs.length] ++ List.range' s1.lavs.length cs.length = _
      rw [hb.slav, e1, List.length_cons, List.range'_succ]
      simp
    · rw [hlen]
      show s1.vs.length + _ = _
      rw [e2]; simp; omega
    · intro k hk
      rw [hco k (by show k < s1.vs.length; omega)]
      exact hb.co0 k hk
    · intro k hk
      rw [hnx k (by show k < s1.vs.length; omega)]
      exact hb.nx0 k hk
    · intro l hl
      obtain ⟨a, b⟩ := hold l (by show l < s1.lavs.length; omega)
      rw [a, b, if_neg hl.ne]
      refine ⟨rfl, ?_⟩
      show s1.lavs[l]? = _
      rw [hb.lavs, List.getElem?_append_left hl]
    · intro j d hj
      cases j with
      | zero =>
        simp only [List.getElem?_cons_zero, Option.some.injEq] at hj
        subst hj
        obtain ⟨a, b⟩ := hold s0.lavs.length (by show _ < s1.lavs.length; omega)
        simp only [List.take_zero, List.map_nil, List.sum_nil, Nat.add_zero]
        refine ⟨?_, ?_, ?_⟩
        · rw [a, if_pos rfl, cornerPairs_length]
        · rw [b]
          show s1.lavs[s0.lavs.length]? = _
          rw [hb.lavs, if_neg hne', cornerPairs_length]
          simp
        · intro j hj
          rw [hco (s0.vs.length + j) (by show _ < s1.vs.length; omega)]
          exact hb.co j (by rw [cornerPairs_length]; exact hj)
      | succ j =>
        simp only [List.getElem?_cons_succ] at hj
        have := hnew j d hj
        have e : s1.lavs.length + j = s0.lavs.length + (j + 1) := by omega
        have this : LavIs st R' (s1.lavs.length + j) d
          (s1.vs.length + ((cs.take j).map List.length).sum) := this
        rw [e, e2] at this
        rw [List.take_succ_cons, List.map_cons, List.sum_cons,
          ← Nat.add_assoc s0.vs.length]
        exact this

/-- the list of a LAV of the initial wavefront -/
theorem LavIs.listLav {st : St S} {R : Nat → List Nat} (h : Loops st R) {l b : Nat}
    {c : List (Edge2 S)} (hl : l ∈ st.slav) (hc : LavIs st R l c b) (hne : c ≠ []) :
    Polyskel.listLav st l = .ok (List.range' b c.length) := by
  obtain ⟨hR, ho, -⟩ := hc
  have hcl := h.closed l hl
  rw [hR] at hcl
  obtain ⟨n, hn⟩ : ∃ n, c.length = n + 1 :=
    ⟨c.length - 1, by have := List.length_pos_iff.2 hne; omega⟩
  obtain ⟨hd, a, P, he, hs⟩ := hcl
  have hab : a = b := by
    rw [hn, List.range'_succ] at he
    simp only [List.cons.injEq] at he
    exact he.1.symm
  subst hab
  exact listLav_ok.2 ⟨_, ho, hd, by rw [he]; rfl, by rw [he]; exact seg_succ hs⟩

theorem chainLavs_range {st : St S} {R : Nat → List Nat} (h : Loops st R)
    {cs : List (List (Edge2 S))} {k b : Nat} (hne : ∀ c ∈ cs, c ≠ [])
    (hk : ∀ l ∈ List.range' k cs.length, l ∈ st.slav)
    (hc : ∀ j c, cs[j]? = some c → LavIs st R (k + j) c (b + ((cs.take j).map List.length).sum)) :
    Polyskel.chainLavs st (List.range' k cs.length) =
      .ok (List.range' b (cs.map List.length).sum) := by
  induction cs generalizing k b with
  | nil => rfl
  | cons c cs ih =>
    rw [List.length_cons, List.range'_succ] at hk ⊢
    unfold Polyskel.chainLavs
    have h0 := hc 0 c (by simp)
    simp only [Nat.add_zero, List.take_zero, List.map_nil, List.sum_nil] at h0
    rw [LavIs.listLav h (hk k (by simp)) h0 (hne c (by simp)), ok_bind,
      ih (k := k + 1) (b := b + c.length) (fun d hd => hne d (List.mem_cons_of_mem _ hd))
        (fun l hl => hk l (List.mem_cons_of_mem _ hl)) (fun j d hj => by
          have := hc (j + 1) d (by simpa using hj)
          rw [List.take_succ_cons, List.map_cons, List.sum_cons, ← Nat.add_assoc b] at this
          have e : k + (j + 1) = k + 1 + j := by omega
          rwa [e] at this), ok_bind]
    simp only [pure_ok, List.map_cons, List.sum_cons]
    rw [List.range'_append_1]

theorem Loops.origEdgeOf {st : St S} {R : Nat → List Nat} (h : Loops st R) {i l : Nat}
    (hl : l ∈ st.slav) (hi : i ∈ R l) : ∃ o, Polyskel.origEdgeOf st i = .ok o := by
  have hc := h.closed l hl
  obtain ⟨v, hv, hv'⟩ := getV_total (hc.lt i hi)
  obtain ⟨p, hp, -⟩ := getV_total (hc.lt _ (hc.pv_mem hi (vs_fields hv').2.1).1)
  unfold Polyskel.origEdgeOf
  rw [hv, ok_bind, hp, ok_bind]
  exact ⟨_, rfl⟩

theorem Loops.chainLavs {st : St S} {R : Nat → List Nat} (h : Loops st R) (ls : List Nat)
    (hls : ∀ l ∈ ls, l ∈ st.slav) :
    ∃ ids, Polyskel.chainLavs st ls = .ok ids ∧ ∀ i ∈ ids, ∃ l ∈ st.slav, i ∈ R l := by
  induction ls with
  | nil => exact ⟨[], rfl, by simp⟩
  | cons l ls ih =>
    obtain ⟨vs, hvs, hp, -⟩ := h.listLav (hls l (by simp))
    obtain ⟨ids, hids, hm⟩ := ih (fun k hk => hls k (List.mem_cons_of_mem _ hk))
    unfold Polyskel.chainLavs
    rw [hvs, ok_bind, hids, ok_bind]
    refine ⟨vs ++ ids, rfl, ?_⟩
    intro i hi
    rcases List.mem_append.1 hi with hi | hi
    · exact ⟨l, hls l (by simp), hp.mem_iff.1 hi⟩
    · exact hm i hi

theorem Loops.orig {st : St S} {R : Nat → List Nat} (h : Loops st R) (o : List (OrigEdge S)) :
    Loops { st with orig := o } R where
  nodup := h.nodup
  lav := h.lav
  three := h.three
  closed := fun l hl => closed_congr (st := st) (fun _ _ => rfl) (fun _ _ => rfl) (h.closed l hl)
  mem := h.mem
  valid := h.valid
  invalid := h.invalid

/-- contours with three edges or more give a wavefront of closed lists -/
theorem mkSlav_loops {cs : List (List (Edge2 S))} (h3 : ∀ c ∈ cs, 3 ≤ c.length) :
    ∃ st R, mkSlav cs = .ok st ∧ Loops st R ∧ st.slav = List.range cs.length ∧
      st.vs.length = (cs.map List.length).sum ∧
      (∀ (j : Nat) c, cs[j]? = some c → LavIs st R j c ((cs.take j).map List.length).sum) ∧
      Polyskel.chainLavs st st.slav = .ok (List.range st.vs.length) ∧
      (List.range st.vs.length).mapM (Polyskel.origEdgeOf st) = .ok st.orig := by
  have h0 : Loops ({ vs := [], lavs := [], slav := [], orig := [] } : St S) (fun _ => []) := by
    constructor
    · simp
    · simp
    · simp
    · simp
    · simp
    · intro v; simp [St.vd]
    · intro v; simp [St.vd]
  obtain ⟨st, R, hst, hL, -, hsl, hlen, -, -, -, hnew⟩ := fromContours_loops h0 h3
  have hlav : ∀ (j : Nat) c, cs[j]? = some c →
      LavIs st R j c ((cs.take j).map List.length).sum := by
    intro j c hj
    have := hnew j c hj
    simpa only [List.length_nil, Nat.zero_add] using this
  have hsl' : st.slav = List.range' 0 cs.length := by rw [hsl]; simp
  have hlen' : st.vs.length = (cs.map List.length).sum := by rw [hlen]; simp
  have hids : Polyskel.chainLavs st st.slav = .ok (List.range st.vs.length) := by
    have := chainLavs_range (k := 0) (b := 0) (cs := cs) hL
      (fun c hc => by rintro rfl; have := h3 _ hc; simp at this)
      (fun l hl => by rw [hsl']; exact hl) (fun j c hj => by simpa using hlav j c hj)
    rw [hsl', this, hlen', List.range_eq_range']
  obtain ⟨ids, hids', hm⟩ := hL.chainLavs st.slav (fun _ h => h)
  rw [hids] at hids'
  cases hids'
  obtain ⟨oes, hoes⟩ := mapM_total (f := Polyskel.origEdgeOf st) (l := List.range st.vs.length) (by
    intro i hi
    obtain ⟨l, hl, hi⟩ := hm i hi
    exact hL.origEdgeOf hl hi)
  have eIter : ∀ l, iterLav { st with orig := oes } l = iterLav st l := by
    intro l
    have : ∀ h k c vis, walk { st with orig := oes } h k c vis = walk st h k c vis := by
      intro h k
      induction k with
      | zero => intros; rfl
      | succ k ih => intro c vis; unfold walk; simp only [ih]
    unfold iterLav
    simp only [this]
  have eChain : ∀ ls, Polyskel.chainLavs { st with orig := oes } ls = Polyskel.chainLavs st ls := by
    intro ls
    induction ls with
    | nil => rfl
    | cons l ls ih => unfold Polyskel.chainLavs Polyskel.listLav; simp only [eIter, ih]
  refine ⟨{ st with orig := oes }, R, ?_, hL.orig oes, ?_, hlen', hlav, ?_, hoes⟩
  · unfold mkSlav
    rw [hst, ok_bind, hids, ok_bind, hoes, ok_bind]
    rfl
  · show st.slav = _
    rw [hsl', List.range_eq_range']
  · exact (eChain _).trans hids

end Polyskel
