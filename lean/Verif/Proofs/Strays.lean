import Verif.Proofs.EdgeStep
/-
The wavefront while an event is being handled: closed lists and, beside them, stray vertices that
are valid but at the moment on no list.
-/
namespace Polyskel
open Scalar
set_option linter.unusedSectionVars false
variable {S : Type} [Scalar S]

/-- closed lists `R l` for the LAVs `l` in `A`, and stray vertices `W` -/
structure Rings (st : St S) (R : Nat → List Nat) (A : List Nat) (W : Nat → Prop) : Prop where
  nodup : A.Nodup
  lav : ∀ l ∈ A, ∃ o, st.lavs[l]? = some o ∧ o.head ∈ R l ∧ o.len = (R l).length
  closed : ∀ l ∈ A, Closed st (R l)
  mem : ∀ l ∈ A, ∀ v, v ∈ R l ↔ st.lv v = some (some l)
  valid : ∀ v, st.vd v = some true ↔ W v ∨ ∃ l ∈ A, st.lv v = some (some l)
  invalid : ∀ v, st.vd v = some false → st.lv v = some none
  stray : ∀ v, W v → ∀ l, st.lv v = some (some l) → l ∉ A ∧ l < st.lavs.length

theorem Loops.rings {st : St S} {R : Nat → List Nat} (h : Loops st R) :
    Rings st R st.slav (fun _ => False) where
  nodup := h.nodup
  lav := h.lav
  closed := h.closed
  mem := h.mem
  valid := by intro v; simpa using h.valid v
  invalid := h.invalid
  stray := by simp

theorem Rings.loops {st : St S} {R : Nat → List Nat} {W : Nat → Prop} (h : Rings st R st.slav W)
    (hW : ∀ v, ¬ W v) (h3 : ∀ l ∈ st.slav, 3 ≤ (R l).length) : Loops st R where
  nodup := h.nodup
  lav := h.lav
  three := h3
  closed := h.closed
  mem := h.mem
  valid := by intro v; simpa [hW v] using h.valid v
  invalid := h.invalid

namespace Rings
variable {st st' : St S} {R : Nat → List Nat} {A : List Nat} {W W' : Nat → Prop}

theorem lavs_lt (h : Rings st R A W) {l : Nat} (hl : l ∈ A) : l < st.lavs.length := by
  obtain ⟨o, ho, -⟩ := h.lav l hl
  exact (List.getElem?_eq_some_iff.1 ho).1

theorem disjoint (h : Rings st R A W) {l l' v : Nat}
    (hl : l ∈ A) (hl' : l' ∈ A) (h1 : v ∈ R l) (h2 : v ∈ R l') : l = l' := by
  rw [h.mem l hl] at h1
  rw [h.mem l' hl', h1] at h2
  simpa using h2

theorem stray_notMem (h : Rings st R A W) {l v : Nat} (hl : l ∈ A) (hv : W v) : v ∉ R l := by
  intro hm
  exact (h.stray v hv l ((h.mem l hl v).1 hm)).1 hl

theorem lt_of_stray (h : Rings st R A W) {v : Nat} (hv : W v) : v < st.vs.length :=
  vd_lt ((h.valid v).2 (Or.inl hv))

/-- giving up a list -/
theorem drop (h : Rings st R A W) {l : Nat} (hl : l ∈ A) :
    Rings st R (A.erase l) (fun v => W v ∨ v ∈ R l) where
  nodup := h.nodup.erase _
  lav := fun l' hl' => h.lav l' (List.mem_of_mem_erase hl')
  closed := fun l' hl' => h.closed l' (List.mem_of_mem_erase hl')
  mem := fun l' hl' => h.mem l' (List.mem_of_mem_erase hl')
  valid := by
    intro v
    rw [h.valid v, h.mem l hl v]
    constructor
    · rintro (hw | ⟨l', hl', e⟩)
      · exact Or.inl (Or.inl hw)
      · by_cases hll : l' = l
        · subst hll; exact Or.inl (Or.inr e)
        · exact Or.inr ⟨l', (h.nodup.mem_erase_iff).2 ⟨hll, hl'⟩, e⟩
    · rintro ((hw | e) | ⟨l', hl', e⟩)
      · exact Or.inl hw
      · exact Or.inr ⟨l, hl, e⟩
      · exact Or.inr ⟨l', List.mem_of_mem_erase hl', e⟩
  invalid := h.invalid
  stray := by
    rintro v (hw | hm) l' e
    · have := h.stray v hw l' e
      exact ⟨fun hm => this.1 (List.mem_of_mem_erase hm), this.2⟩
    · rw [h.mem l hl v, e] at hm
      simp only [Option.some.injEq] at hm
      subst hm
      exact ⟨fun hm => (h.nodup.mem_erase_iff.1 hm).1 rfl, h.lavs_lt hl⟩

/-- changing links of stray vertices and adding stray vertices -/
theorem relink (h : Rings st R A W) (hWW : ∀ v, W v → W' v)
    (hn : ∀ k, ¬ W k → k < st.vs.length → st'.nx k = st.nx k)
    (hp : ∀ k, ¬ W k → k < st.vs.length → st'.pv k = st.pv k)
    (hlv : ∀ k < st.vs.length, st'.lv k = st.lv k)
    (hvd : ∀ k < st.vs.length, st'.vd k = st.vd k)
    (hla : ∀ l : Nat, l ∈ A → st'.lavs[l]? = st.lavs[l]?) (hlen : st.lavs.length ≤ st'.lavs.length)
    (hnew : ∀ k, st.vs.length ≤ k → (k < st'.vs.length ↔ W' k))
    (hold : ∀ k, k < st.vs.length → W' k → W k)
    (hnvd : ∀ k, st.vs.length ≤ k → k < st'.vs.length → st'.vd k = some true)
    (hnlv : ∀ k, st.vs.length ≤ k → k < st'.vs.length → st'.lv k = some none) :
    Rings st' R A W' where
  nodup := h.nodup
  lav := by
    intro l hl
    rw [hla l hl]
    exact h.lav l hl
  closed := by
    intro l hl
    refine closed_congr ?_ ?_ (h.closed l hl)
    · intro k hk
      exact hn k (fun hw => h.stray_notMem hl hw hk) ((h.closed l hl).lt k hk)
    · intro k hk
      exact hp k (fun hw => h.stray_notMem hl hw hk) ((h.closed l hl).lt k hk)
  mem := by
    intro l hl v
    rw [h.mem l hl v]
    by_cases hv : v < st.vs.length
    · rw [hlv v hv]
    · constructor
      · intro e; exact absurd (lv_lt e) hv
      · intro e
        rw [hnlv v (by omega) (lv_lt e)] at e
        simp at e
  valid := by
    intro v
    by_cases hv : v < st.vs.length
    · rw [hvd v hv, h.valid v, hlv v hv]
      constructor
      · rintro (hw | hw)
        · exact Or.inl (hWW v hw)
        · exact Or.inr hw
      · rintro (hw | hw)
        · exact Or.inl (hold v hv hw)
        · exact Or.inr hw
    · constructor
      · intro e
        exact Or.inl ((hnew v (by omega)).1 (vd_lt e))
      · rintro (hw | ⟨l, -, e⟩)
        · exact hnvd v (by omega) ((hnew v (by omega)).2 hw)
        · rw [hnlv v (by omega) (lv_lt e)] at e
          simp at e
  invalid := by
    intro v e
    by_cases hv : v < st.vs.length
    · rw [hvd v hv] at e
      rw [hlv v hv]
      exact h.invalid v e
    · rw [hnvd v (by omega) (vd_lt e)] at e
      simp at e
  stray := by
    intro v hw l e
    by_cases hv : v < st.vs.length
    · rw [hlv v hv] at e
      have := h.stray v (hold v hv hw) l e
      exact ⟨this.1, by omega⟩
    · rw [hnlv v (by omega) (lv_lt e)] at e
      simp at e

/-- the list of LAVs does not matter -/
theorem slav (h : Rings st R A W) (s : List Nat) : Rings { st with slav := s } R A W where
  nodup := h.nodup
  lav := h.lav
  closed := fun l hl => closed_congr (fun _ _ => rfl) (fun _ _ => rfl) (h.closed l hl)
  mem := h.mem
  valid := h.valid
  invalid := h.invalid
  stray := h.stray

/-- making a LAV of stray vertices that form a closed list -/
theorem chain (h : Rings st R A W) {hd : Nat} {vs : List Nat} (hc : Closed st vs) (hh : hd ∈ vs)
    (hw : ∀ v ∈ vs, W v) :
    ∃ st' us, fromChain st hd = .ok (st', st.lavs.length) ∧ us.Perm vs ∧
      Rings st' (fun l => if l = st.lavs.length then us else R l) (A ++ [st.lavs.length])
        (fun v => W v ∧ v ∉ vs) ∧
      st'.nx = st.nx ∧ st'.pv = st.pv ∧ st'.vd = st.vd ∧ st'.co = st.co ∧
      (∀ k, st'.lv k = if k ∈ vs then some (some st.lavs.length) else st.lv k) ∧
      st'.lavs = st.lavs ++ [{ head := hd, len := vs.length }] ∧ st'.slav = st.slav ∧
      st'.vs.length = st.vs.length ∧ st'.orig = st.orig := by
  obtain ⟨us, hr, hperm, -, hcu⟩ := hc.ring hh
  obtain ⟨t, ht, n, p, d, c, lvv, la, sl, len, og⟩ := fromChain_ok hr
  have lvv' : ∀ k, t.lv k = if k ∈ vs then some (some st.lavs.length) else st.lv k := by
    intro k
    rw [lvv]
    simp only [hperm.mem_iff]
    split
    · rename_i hk
      have : ∃ j, st.lv k = some j := ⟨st.vs[k]'(hc.lt k hk) |>.lav, by
        simp [St.lv, hc.lt k hk]⟩
      obtain ⟨j, hj⟩ := this
      simp [hj]
    · rfl
  have hnew : st.lavs.length ∉ A := fun hm => absurd (h.lavs_lt hm) (lt_irrefl _)
  have hA : ∀ l, l ∈ A ++ [st.lavs.length] ↔ l ∈ A ∨ l = st.lavs.length := by simp
  have hne : ∀ l ∈ A, l ≠ st.lavs.length := fun l hl e => hnew (e ▸ hl)
  have hlv : ∀ l ∈ A, ∀ v, t.lv v = some (some l) ↔ st.lv v = some (some l) := by
    intro l hl v
    rw [lvv']
    split
    · rename_i hv
      constructor
      · intro e; simp at e; exact absurd e.symm (hne l hl)
      · intro e; exact absurd ((h.mem l hl v).2 e) (h.stray_notMem hl (hw v hv))
    · rfl
  refine ⟨t, us, ht, hperm, ?_, n, p, d, c, lvv', by rw [la, hperm.length_eq], sl, len, og⟩
  refine ⟨?_, ?_, ?_, ?_, ?_, ?_, ?_⟩
  · rw [List.nodup_append]
    exact ⟨h.nodup, by simp, by simpa using hne⟩
  · intro l hl
    rcases (hA l).1 hl with hl | rfl
    · rw [if_neg (hne l hl), la, List.getElem?_append_left (h.lavs_lt hl)]
      exact h.lav l hl
    · rw [if_pos rfl, la]
      exact ⟨{ head := hd, len := us.length }, by simp, hperm.mem_iff.2 hh, rfl⟩
  · intro l hl
    rcases (hA l).1 hl with hl | rfl
    · rw [if_neg (hne l hl)]
      exact closed_congr (fun k _ => by rw [n]) (fun k _ => by rw [p]) (h.closed l hl)
    · rw [if_pos rfl]
      exact closed_congr (fun k _ => by rw [n]) (fun k _ => by rw [p]) hcu
  · intro l hl v
    rcases (hA l).1 hl with hl | rfl
    · rw [if_neg (hne l hl), hlv l hl, h.mem l hl]
    · rw [if_pos rfl, lvv', hperm.mem_iff]
      split
      · rename_i hv; simp [hv]
      · rename_i hv
        simp only [hv, false_iff]
        intro e
        by_cases hval : st.vd v = some true
        · rcases (h.valid v).1 hval with hwv | ⟨l, hl, e'⟩
          · exact absurd (h.stray v hwv _ e).2 (lt_irrefl _)
          · rw [e'] at e; simp at e; exact hne l hl e
        · obtain ⟨w, hw⟩ := getElem?_of_lt (lv_lt e)
          have hvd := (vs_fields hw).2.2.2.1
          have : w.valid = false := by
            cases hwv : w.valid with
            | false => rfl
            | true => rw [hwv] at hvd; exact absurd hvd hval
          rw [this] at hvd
          rw [h.invalid v hvd] at e
          simp at e
  · intro v
    rw [d, h.valid v]
    constructor
    · rintro (hwv | ⟨l, hl, e⟩)
      · by_cases hv : v ∈ vs
        · exact Or.inr ⟨_, (hA _).2 (Or.inr rfl), by rw [lvv', if_pos hv]⟩
        · exact Or.inl ⟨hwv, hv⟩
      · exact Or.inr ⟨l, (hA l).2 (Or.inl hl), (hlv l hl v).2 e⟩
    · rintro (⟨hwv, -⟩ | ⟨l, hl, e⟩)
      · exact Or.inl hwv
      · rcases (hA l).1 hl with hl | rfl
        · exact Or.inr ⟨l, hl, (hlv l hl v).1 e⟩
        · rw [lvv'] at e
          split at e
          · rename_i hv; exact Or.inl (hw v hv)
          · exfalso
            by_cases hval : st.vd v = some true
            · rcases (h.valid v).1 hval with hwv | ⟨l, hl, e'⟩
              · exact absurd (h.stray v hwv _ e).2 (lt_irrefl _)
              · rw [e'] at e; simp at e; exact hne l hl e
            · obtain ⟨w, hw⟩ := getElem?_of_lt (lv_lt e)
              have hvd := (vs_fields hw).2.2.2.1
              have : w.valid = false := by
                cases hwv : w.valid with
                | false => rfl
                | true => rw [hwv] at hvd; exact absurd hvd hval
              rw [this] at hvd
              rw [h.invalid v hvd] at e
              simp at e
  · intro v e
    rw [d] at e
    have hnv : v ∉ vs := by
      intro hv
      have := (h.valid v).2 (Or.inl (hw v hv))
      rw [this] at e; simp at e
    rw [lvv', if_neg hnv]
    exact h.invalid v e
  · rintro v ⟨hwv, hv⟩ l e
    rw [lvv', if_neg hv] at e
    have := h.stray v hwv l e
    refine ⟨?_, by rw [la]; simp; omega⟩
    rw [hA]
    rintro (hm | rfl)
    · exact this.1 hm
    · exact absurd this.2 (lt_irrefl _)

/-- invalidating stray vertices -/
theorem kill (h : Rings st R A W) {vs : List Nat} (hw : ∀ v ∈ vs, W v) :
    ∃ st', invalidateAll st vs = .ok st' ∧ Rings st' R A (fun v => W v ∧ v ∉ vs) ∧
      st'.nx = st.nx ∧ st'.pv = st.pv ∧ st'.co = st.co ∧
      (∀ k, st'.vd k = if k ∈ vs then some false else st.vd k) ∧
      st'.lavs.length = st.lavs.length ∧
      st'.slav = st.slav ∧ st'.vs.length = st.vs.length ∧ st'.orig = st.orig ∧
      ∀ l ∈ A, st'.lavs[l]? = st.lavs[l]? := by
  obtain ⟨t, ht, n, p, c, d, lvv, la, ll, sl, len, og⟩ := invalidateAll_ok (st := st) (vs := vs)
    (fun v hv => h.lt_of_stray (hw v hv)) (fun v hv l e => (h.stray v (hw v hv) l e).2)
  refine ⟨t, ht, ?_, n, p, c, d, ll, sl, len, og,
    fun l hl => la l (fun v hv e => (h.stray v (hw v hv) l e).1 hl)⟩
  have hlv : ∀ l ∈ A, ∀ v, t.lv v = some (some l) ↔ st.lv v = some (some l) := by
    intro l hl v
    rw [lvv]
    split
    · rename_i hv
      constructor
      · intro e; simp at e
      · intro e; exact absurd ((h.mem l hl v).2 e) (h.stray_notMem hl (hw v hv))
    · rfl
  refine ⟨h.nodup, ?_, ?_, ?_, ?_, ?_, ?_⟩
  · intro l hl
    rw [la l (fun v hv e => (h.stray v (hw v hv) l e).1 hl)]
    exact h.lav l hl
  · intro l hl
    exact closed_congr (fun k _ => by rw [n]) (fun k _ => by rw [p]) (h.closed l hl)
  · intro l hl v
    rw [hlv l hl, h.mem l hl]
  · intro v
    rw [d]
    split
    · rename_i hv
      simp only [Option.some.injEq, Bool.false_eq_true, false_iff, not_or, not_and, not_not]
      refine ⟨fun _ => hv, ?_⟩
      rintro ⟨l, hl, e⟩
      rw [lvv, if_pos hv] at e
      simp at e
    · rename_i hv
      rw [h.valid v]
      constructor
      · rintro (hwv | ⟨l, hl, e⟩)
        · exact Or.inl ⟨hwv, hv⟩
        · exact Or.inr ⟨l, hl, (hlv l hl v).2 e⟩
      · rintro (⟨hwv, -⟩ | ⟨l, hl, e⟩)
        · exact Or.inl hwv
        · exact Or.inr ⟨l, hl, (hlv l hl v).1 e⟩
  · intro v e
    rw [d] at e
    rw [lvv]
    split
    · rfl
    · rename_i hv
      rw [if_neg hv] at e
      exact h.invalid v e
  · rintro v ⟨hwv, hv⟩ l e
    rw [lvv, if_neg hv] at e
    rw [ll]
    exact h.stray v hwv l e

theorem congrW (h : Rings st R A W) (hW : ∀ v, W v ↔ W' v) : Rings st R A W' := by
  have : W = W' := by funext v; exact propext (hW v)
  exact this ▸ h

theorem congrR {R' : Nat → List Nat} (h : Rings st R A W) (hR : ∀ l ∈ A, R l = R' l) :
    Rings st R' A W where
  nodup := h.nodup
  lav := fun l hl => hR l hl ▸ h.lav l hl
  closed := fun l hl => hR l hl ▸ h.closed l hl
  mem := fun l hl => hR l hl ▸ h.mem l hl
  valid := h.valid
  invalid := h.invalid
  stray := h.stray

theorem listLav (h : Rings st R A W) {l : Nat} (hl : l ∈ A) :
    ∃ vs, Polyskel.listLav st l = .ok vs ∧ vs.Perm (R l) ∧ Closed st vs := by
  obtain ⟨o, ho, hh, -⟩ := h.lav l hl
  obtain ⟨vs, hr, hp, -, hc⟩ := (h.closed l hl).ring hh
  exact ⟨vs, listLav_ok.2 ⟨o, ho, hr⟩, hp, hc⟩

theorem nextEvent (h : Rings st R A W) {i l : Nat}
    (hl : l ∈ A) (hi : i ∈ R l) : ∃ e, Polyskel.nextEvent st i = .ok e := by
  have hc := h.closed l hl
  obtain ⟨v, hv⟩ := getElem?_of_lt (hc.lt i hi)
  obtain ⟨hn, hp, hlv, -, -⟩ := vs_fields hv
  refine nextEvent_total hv ?_ (hc.lt _ (hc.pv_mem hi hp).1) (hc.lt _ (hc.nx_mem hi hn).1)
  have := (h.mem l hl i).1 hi
  rw [hlv] at this
  intro e
  rw [e] at this
  simp at this

end Rings
end Polyskel
