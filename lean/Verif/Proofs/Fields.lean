import Verif.Proofs.Rings
/-
The fields of the vertices as functions of the heap, and how the operations change them.
-/
namespace Polyskel
set_option linter.unusedSectionVars false
variable {S : Type} [Scalar S]

namespace St
/-- the `next` of a vertex -/
def nx (st : St S) (i : Nat) : Option Nat := st.vs[i]?.map (·.next)
/-- the `prev` of a vertex -/
def pv (st : St S) (i : Nat) : Option Nat := st.vs[i]?.map (·.prev)
/-- the LAV of a vertex -/
def lv (st : St S) (i : Nat) : Option (Option Nat) := st.vs[i]?.map (·.lav)
/-- the validity of a vertex -/
def vd (st : St S) (i : Nat) : Option Bool := st.vs[i]?.map (·.valid)
/-- the constant part of a vertex -/
def co (st : St S) (i : Nat) : Option (Core S) := st.vs[i]?.map (·.core)

section
variable {β : Type}

theorem field_modV (g : Vtx S → β) (st : St S) (i : Nat) (f : Vtx S → Vtx S)
    (h : ∀ v, g (f v) = g v) (k : Nat) : (st.modV i f).vs[k]?.map g = st.vs[k]?.map g := by
  simp only [St.modV, List.getElem?_modify]
  cases st.vs[k]? with
  | none => simp
  | some v => by_cases hk : i = k <;> simp [hk, h]

theorem field_set (g : Vtx S → β) (st : St S) (i : Nat) (f : Vtx S → Vtx S) (b : β)
    (h : ∀ v, g (f v) = b) (k : Nat) :
    (st.modV i f).vs[k]?.map g = if k = i then (st.vs[k]?.map g).map (fun _ => b)
      else st.vs[k]?.map g := by
  simp only [St.modV, List.getElem?_modify]
  cases st.vs[k]? with
  | none => simp
  | some v =>
    by_cases hk : i = k
    · subst hk; simp [h]
    · simp [hk, Ne.symm hk]

theorem field_newV (g : Vtx S → β) (st : St S) (v : Vtx S) (k : Nat) :
    (st.newV v).1.vs[k]?.map g = if k = st.vs.length then some (g v) else st.vs[k]?.map g := by
  simp only [St.newV]
  by_cases hk : k = st.vs.length
  · subst hk; simp
  · rw [if_neg hk]
    rcases Nat.lt_or_ge k st.vs.length with h | h
    · rw [List.getElem?_append_left h]
    · rw [List.getElem?_eq_none (by simp; omega), List.getElem?_eq_none h]
end

@[simp] theorem nx_setNext (st : St S) (i j k : Nat) : (st.setNext i j).nx k =
    if k = i then (st.nx k).map (fun _ => j) else st.nx k := by apply field_set; intro _; rfl
@[simp] theorem nx_setPrev (st : St S) (i j k : Nat) : (st.setPrev i j).nx k = st.nx k := by apply field_modV; intro _; rfl
@[simp] theorem nx_setLav (st : St S) (i k : Nat) (l : Option Nat) :
    (st.setLav i l).nx k = st.nx k := by apply field_modV; intro _; rfl
@[simp] theorem nx_inval (st : St S) (i k : Nat) :
    (st.modV i (fun v => { v with valid := false })).nx k = st.nx k := by apply field_modV; intro _; rfl
@[simp] theorem nx_newV (st : St S) (v : Vtx S) (k : Nat) : (st.newV v).1.nx k =
    if k = st.vs.length then some v.next else st.nx k := by apply field_newV
@[simp] theorem nx_modL (st : St S) (i k : Nat) (f) : (st.modL i f).nx k = st.nx k := rfl
@[simp] theorem nx_setHead (st : St S) (i j k : Nat) : (st.setHead i j).nx k = st.nx k := rfl
@[simp] theorem nx_newL (st : St S) (o k) : (st.newL o).1.nx k = st.nx k := rfl
@[simp] theorem nx_slav (st : St S) (s k) : ({ st with slav := s } : St S).nx k = st.nx k := rfl

@[simp] theorem pv_setPrev (st : St S) (i j k : Nat) : (st.setPrev i j).pv k =
    if k = i then (st.pv k).map (fun _ => j) else st.pv k := by apply field_set; intro _; rfl
@[simp] theorem pv_setNext (st : St S) (i j k : Nat) : (st.setNext i j).pv k = st.pv k := by apply field_modV; intro _; rfl
@[simp] theorem pv_setLav (st : St S) (i k : Nat) (l : Option Nat) :
    (st.setLav i l).pv k = st.pv k := by apply field_modV; intro _; rfl
@[simp] theorem pv_inval (st : St S) (i k : Nat) :
    (st.modV i (fun v => { v with valid := false })).pv k = st.pv k := by apply field_modV; intro _; rfl
@[simp] theorem pv_newV (st : St S) (v : Vtx S) (k : Nat) : (st.newV v).1.pv k =
    if k = st.vs.length then some v.prev else st.pv k := by apply field_newV
@[simp] theorem pv_modL (st : St S) (i k : Nat) (f) : (st.modL i f).pv k = st.pv k := rfl
@[simp] theorem pv_setHead (st : St S) (i j k : Nat) : (st.setHead i j).pv k = st.pv k := rfl
@[simp] theorem pv_newL (st : St S) (o k) : (st.newL o).1.pv k = st.pv k := rfl
@[simp] theorem pv_slav (st : St S) (s k) : ({ st with slav := s } : St S).pv k = st.pv k := rfl

@[simp] theorem lv_setLav (st : St S) (i k : Nat) (l : Option Nat) : (st.setLav i l).lv k =
    if k = i then (st.lv k).map (fun _ => l) else st.lv k := by apply field_set; intro _; rfl
@[simp] theorem lv_setNext (st : St S) (i j k : Nat) : (st.setNext i j).lv k = st.lv k := by apply field_modV; intro _; rfl
@[simp] theorem lv_setPrev (st : St S) (i j k : Nat) : (st.setPrev i j).lv k = st.lv k := by apply field_modV; intro _; rfl
@[simp] theorem lv_inval (st : St S) (i k : Nat) :
    (st.modV i (fun v => { v with valid := false })).lv k = st.lv k := by apply field_modV; intro _; rfl
@[simp] theorem lv_newV (st : St S) (v : Vtx S) (k : Nat) : (st.newV v).1.lv k =
    if k = st.vs.length then some v.lav else st.lv k := by apply field_newV
@[simp] theorem lv_modL (st : St S) (i k : Nat) (f) : (st.modL i f).lv k = st.lv k := rfl
@[simp] theorem lv_setHead (st : St S) (i j k : Nat) : (st.setHead i j).lv k = st.lv k := rfl
@[simp] theorem lv_newL (st : St S) (o k) : (st.newL o).1.lv k = st.lv k := rfl
@[simp] theorem lv_slav (st : St S) (s k) : ({ st with slav := s } : St S).lv k = st.lv k := rfl

@[simp] theorem vd_inval (st : St S) (i k : Nat) :
    (st.modV i (fun v => { v with valid := false })).vd k =
    if k = i then (st.vd k).map (fun _ => false) else st.vd k := by apply field_set; intro _; rfl
@[simp] theorem vd_setNext (st : St S) (i j k : Nat) : (st.setNext i j).vd k = st.vd k := by apply field_modV; intro _; rfl
@[simp] theorem vd_setPrev (st : St S) (i j k : Nat) : (st.setPrev i j).vd k = st.vd k := by apply field_modV; intro _; rfl
@[simp] theorem vd_setLav (st : St S) (i k : Nat) (l : Option Nat) :
    (st.setLav i l).vd k = st.vd k := by apply field_modV; intro _; rfl
@[simp] theorem vd_newV (st : St S) (v : Vtx S) (k : Nat) : (st.newV v).1.vd k =
    if k = st.vs.length then some v.valid else st.vd k := by apply field_newV
@[simp] theorem vd_modL (st : St S) (i k : Nat) (f) : (st.modL i f).vd k = st.vd k := rfl
@[simp] theorem vd_setHead (st : St S) (i j k : Nat) : (st.setHead i j).vd k = st.vd k := rfl
@[simp] theorem vd_newL (st : St S) (o k) : (st.newL o).1.vd k = st.vd k := rfl
@[simp] theorem vd_slav (st : St S) (s k) : ({ st with slav := s } : St S).vd k = st.vd k := rfl

@[simp] theorem co_inval (st : St S) (i k : Nat) :
    (st.modV i (fun v => { v with valid := false })).co k = st.co k := by apply field_modV; intro _; rfl
@[simp] theorem co_setNext (st : St S) (i j k : Nat) : (st.setNext i j).co k = st.co k := by apply field_modV; intro _; rfl
@[simp] theorem co_setPrev (st : St S) (i j k : Nat) : (st.setPrev i j).co k = st.co k := by apply field_modV; intro _; rfl
@[simp] theorem co_setLav (st : St S) (i k : Nat) (l : Option Nat) :
    (st.setLav i l).co k = st.co k := by apply field_modV; intro _; rfl
@[simp] theorem co_newV (st : St S) (v : Vtx S) (k : Nat) : (st.newV v).1.co k =
    if k = st.vs.length then some v.core else st.co k := by apply field_newV
@[simp] theorem co_modL (st : St S) (i k : Nat) (f) : (st.modL i f).co k = st.co k := rfl
@[simp] theorem co_setHead (st : St S) (i j k : Nat) : (st.setHead i j).co k = st.co k := rfl
@[simp] theorem co_newL (st : St S) (o k) : (st.newL o).1.co k = st.co k := rfl
@[simp] theorem co_slav (st : St S) (s k) : ({ st with slav := s } : St S).co k = st.co k := rfl

@[simp] theorem len_modV (st : St S) (i f) : (st.modV i f).vs.length = st.vs.length := by
  simp [St.modV]
@[simp] theorem len_setNext (st : St S) (i j) : (st.setNext i j).vs.length = st.vs.length :=
  len_modV _ _ _
@[simp] theorem len_setPrev (st : St S) (i j) : (st.setPrev i j).vs.length = st.vs.length :=
  len_modV _ _ _
@[simp] theorem len_setLav (st : St S) (i l) : (st.setLav i l).vs.length = st.vs.length :=
  len_modV _ _ _
@[simp] theorem len_newV (st : St S) (v) : (st.newV v).1.vs.length = st.vs.length + 1 := by
  simp [St.newV]
@[simp] theorem len_modL (st : St S) (i f) : (st.modL i f).vs.length = st.vs.length := rfl
@[simp] theorem len_setHead (st : St S) (i j) : (st.setHead i j).vs.length = st.vs.length := rfl
@[simp] theorem len_newL (st : St S) (o) : (st.newL o).1.vs.length = st.vs.length := rfl
@[simp] theorem newV_snd (st : St S) (v) : (st.newV v).2 = st.vs.length := rfl
@[simp] theorem newL_snd (st : St S) (v) : (st.newL v).2 = st.lavs.length := rfl

end St

theorem succ_iff {st : St S} {a b : Nat} : Succ st a b ↔ st.nx a = some b := by
  unfold Succ St.nx
  cases st.vs[a]? <;> simp

theorem pred_iff {st : St S} {a b : Nat} : Pred st a b ↔ st.pv b = some a := by
  unfold Pred St.pv
  cases st.vs[b]? <;> simp

theorem link_iff {st : St S} {a b : Nat} :
    Link st a b ↔ st.nx a = some b ∧ st.pv b = some a := by
  unfold Link
  rw [succ_iff, pred_iff]

theorem nx_some {st : St S} {i : Nat} (h : i < st.vs.length) : ∃ j, st.nx i = some j :=
  ⟨st.vs[i].next, by simp [St.nx, h]⟩
theorem nx_none {st : St S} {i : Nat} : st.nx i = none ↔ st.vs.length ≤ i := by
  simp [St.nx]
theorem co_none {st : St S} {i : Nat} : st.co i = none ↔ st.vs.length ≤ i := by
  simp [St.co]
theorem nx_lt {st : St S} {i j : Nat} (h : st.nx i = some j) : i < st.vs.length := by
  by_contra hc
  rw [nx_none.2 (by omega)] at h
  cases h
theorem pv_lt {st : St S} {i j : Nat} (h : st.pv i = some j) : i < st.vs.length := by
  by_contra hc
  have : st.pv i = none := by simp [St.pv]; omega
  rw [this] at h; cases h
theorem lv_lt {st : St S} {i : Nat} {j} (h : st.lv i = some j) : i < st.vs.length := by
  by_contra hc
  have : st.lv i = none := by simp [St.lv]; omega
  rw [this] at h; cases h
theorem vd_lt {st : St S} {i : Nat} {j} (h : st.vd i = some j) : i < st.vs.length := by
  by_contra hc
  have : st.vd i = none := by simp [St.vd]; omega
  rw [this] at h; cases h

theorem vs_fields {st : St S} {i : Nat} {v : Vtx S} (h : st.vs[i]? = some v) :
    st.nx i = some v.next ∧ st.pv i = some v.prev ∧ st.lv i = some v.lav ∧
    st.vd i = some v.valid ∧ st.co i = some v.core := by
  simp [St.nx, St.pv, St.lv, St.vd, St.co, h]

/-! ### compound operations -/

theorem foldl_setLav_fields (l : Option Nat) (vs : List Nat) (st : St S) :
    let st' := vs.foldl (fun st v => st.setLav v l) st
    st'.nx = st.nx ∧ st'.pv = st.pv ∧ st'.vd = st.vd ∧ st'.co = st.co ∧
    (∀ k, st'.lv k = if k ∈ vs then (st.lv k).map (fun _ => l) else st.lv k) ∧
    st'.lavs = st.lavs ∧ st'.slav = st.slav ∧ st'.vs.length = st.vs.length := by
  induction vs generalizing st with
  | nil => simp
  | cons v vs ih =>
    obtain ⟨h1, h2, h3, h4, h5, h6, h7, h8⟩ := ih (st.setLav v l)
    simp only [List.foldl_cons]
    refine ⟨h1.trans ?_, h2.trans ?_, h3.trans ?_, h4.trans ?_, ?_, h6, h7, by rw [h8]; simp⟩
    · funext k; simp
    · funext k; simp
    · funext k; simp
    · funext k; simp
    · intro k
      rw [h5]
      simp only [St.lv_setLav, List.mem_cons]
      by_cases hk : k = v
      · subst hk
        cases st.lv k <;> simp
      · simp [hk]

/-- `fromChain`: it returns exactly when the head lies on a closed loop. -/
theorem fromChain_ok {st : St S} {h : Nat} {vs : List Nat} (hr : Ring st h vs) :
    ∃ st', fromChain st h = .ok (st', st.lavs.length) ∧ st'.nx = st.nx ∧ st'.pv = st.pv ∧
      st'.vd = st.vd ∧ st'.co = st.co ∧
      (∀ k, st'.lv k = if k ∈ vs then (st.lv k).map (fun _ => some st.lavs.length) else st.lv k) ∧
      st'.lavs = st.lavs ++ [{ head := h, len := vs.length }] ∧ st'.slav = st.slav ∧
      st'.vs.length = st.vs.length ∧ st'.orig = st.orig := by
  unfold fromChain
  have hring : iterLav (st.newL { head := h, len := 0 }).1 st.lavs.length = (vs, none) := by
    rw [iterLav_ok]
    exact ⟨{ head := h, len := 0 }, by simp [St.newL], hr⟩
  simp only [St.newL_snd, hring]
  refine ⟨_, rfl, ?_⟩
  obtain ⟨h1, h2, h3, h4, h5, h6, h7, h8⟩ :=
    foldl_setLav_fields (some st.lavs.length) vs (st.newL { head := h, len := 0 }).1
  refine ⟨h1, h2, h3, h4, h5, ?_, h7, h8, ?_⟩
  · simp only [St.modL, h6]
    simp only [St.newL]
    apply List.ext_getElem?
    intro i
    rw [List.getElem?_modify]
    rcases Nat.lt_trichotomy i st.lavs.length with hi | hi | hi
    · rw [List.getElem?_append_left hi, List.getElem?_append_left hi]
      have : st.lavs.length ≠ i := by omega
      simp [this]
    · subst hi; simp
    · rw [List.getElem?_eq_none (by simp; omega), List.getElem?_eq_none (by simp; omega)]; rfl
  · simp only [St.modL]
    exact (foldl_setLav_frame (N := fun _ => True) _ vs _).orig

theorem fromChain_ring {st st' : St S} {h l : Nat} (hr : fromChain st h = .ok (st', l)) :
    ∃ vs, Ring st h vs := by
  unfold fromChain at hr
  simp only at hr
  split at hr
  · rename_i vs hi
    rw [iterLav_ok] at hi
    obtain ⟨o, ho, hr⟩ := hi
    simp [St.newL] at ho
    subst ho
    exact ⟨vs, hr⟩
  · cases hr

theorem fromChain_len {st st' : St S} {h l : Nat} (hr : fromChain st h = .ok (st', l)) :
    st'.vs.length = st.vs.length := by
  obtain ⟨vs, hring⟩ := fromChain_ring hr
  obtain ⟨s, hs, -, -, -, -, -, -, -, h8, -⟩ := fromChain_ok hring
  rw [hr] at hs
  cases hs
  exact h8

theorem invalidate_ok {st : St S} {i : Nat} {v : Vtx S} (hv : st.vs[i]? = some v)
    (hl : ∀ l, v.lav = some l → ∃ o, st.lavs[l]? = some o) :
    ∃ st', invalidate st i = .ok st' ∧ st'.nx = st.nx ∧ st'.pv = st.pv ∧ st'.co = st.co ∧
      (∀ k, st'.vd k = if k = i then some false else st.vd k) ∧
      (∀ k, st'.lv k = if k = i then some none else st.lv k) ∧
      (∀ l, st'.lavs[l]? = if v.lav = some l then
        (st.lavs[l]?).map (fun o => if o.head = i then { o with head := v.next } else o)
        else st.lavs[l]?) ∧
      st'.slav = st.slav ∧ st'.vs.length = st.vs.length ∧ st'.orig = st.orig := by
  obtain ⟨-, -, hlv, hvd, -⟩ := vs_fields hv
  unfold invalidate
  rw [getV_ok.2 hv, ok_bind]
  cases hlav : v.lav with
  | none =>
    refine ⟨_, rfl, ?_, ?_, ?_, ?_, ?_, ?_, rfl, by simp, rfl⟩
    · funext k; simp
    · funext k; simp
    · funext k; simp
    · intro k
      simp only [St.vd_inval]
      by_cases hk : k = i
      · subst hk; simp [hvd]
      · simp [hk]
    · intro k
      simp only [St.lv_inval]
      by_cases hk : k = i
      · subst hk; simp [hlv, hlav]
      · simp [hk]
    · intro l; simp [St.modV]
  | some l =>
    obtain ⟨o, ho⟩ := hl l hlav
    simp only
    rw [getL_ok.2 (show (st.modV i _).lavs[l]? = some o from ho), ok_bind]
    refine ⟨_, rfl, ?_, ?_, ?_, ?_, ?_, ?_, ?_, ?_, ?_⟩
    · funext k; split <;> simp
    · funext k; split <;> simp
    · funext k; split <;> simp
    · intro k
      have : (if o.head = i then (st.modV i fun v => { v with valid := false }).setHead l v.next
          else st.modV i fun v => { v with valid := false }).vd k =
          if k = i then (st.vd k).map (fun _ => false) else st.vd k := by
        split <;> simp
      simp only [St.vd_setLav, this]
      by_cases hk : k = i
      · subst hk; simp [hvd]
      · simp [hk]
    · intro k
      have : (if o.head = i then (st.modV i fun v => { v with valid := false }).setHead l v.next
          else st.modV i fun v => { v with valid := false }).lv k = st.lv k := by
        split <;> simp
      simp only [St.lv_setLav, this]
      by_cases hk : k = i
      · subst hk; simp [hlv]
      · simp [hk]
    · intro l'
      by_cases hh : o.head = i
      · simp only [hh, if_true]
        simp only [St.setLav, St.setHead, St.modL, St.modV, List.getElem?_modify]
        by_cases hl' : l = l'
        · subst hl'; simp [ho, hh]
        · simp [hl']
      · simp only [hh, if_false]
        simp only [St.setLav, St.modV]
        by_cases hl' : l = l'
        · subst hl'; simp [ho, hh]
        · simp [hl']
    · split <;> rfl
    · split <;> simp
    · split <;> rfl

/-- `removeLav` on a listed LAV -/
theorem removeLav_ok {st : St S} {l : Nat} (h : l ∈ st.slav) :
    removeLav st (some l) = .ok { st with slav := st.slav.erase l } := by
  unfold removeLav pyRemove
  simp [h]

end Polyskel
