import Verif.Proofs.Run
import Verif.Proofs.Events
import Verif.Props.Queue
/-
Lemmas for C77: the heap of the event loop has no loose ends, in any arithmetic and for any sequence of events.
-/
namespace Polyskel
open Scalar
set_option linter.unusedSectionVars false

/-- the step returns normally with a result of the kind `Q`, or raises one of the exceptions `E` -/
def Safe {α : Type} (E : PyErr → Prop) (x : Except PyErr α) (Q : α → Prop) : Prop :=
  match x with
  | .ok a => Q a
  | .error e => E e

theorem Safe.bind {α β : Type} {E : PyErr → Prop} {x : Except PyErr α} {f : α → Except PyErr β} {P : α → Prop}
    {Q : β → Prop} (h : Safe E x P) (hf : ∀ a, P a → Safe E (f a) Q) : Safe E (x >>= f) Q := by
  cases x with
  | error e => exact h
  | ok a => exact hf a h

theorem Safe.mono {α : Type} {E : PyErr → Prop} {x : Except PyErr α} {P Q : α → Prop}
    (h : Safe E x P) (hf : ∀ a, P a → Q a) : Safe E x Q := by
  cases x with
  | error e => exact h
  | ok a => exact hf a h

theorem Safe.weaken {α : Type} {E F : PyErr → Prop} {x : Except PyErr α} {Q : α → Prop}
    (h : Safe E x Q) (hf : ∀ e, E e → F e) : Safe F x Q := by
  cases x with
  | error e => exact hf e h
  | ok a => exact h

theorem Safe.err {α : Type} {E : PyErr → Prop} {x : Except PyErr α} {Q : α → Prop} {e : PyErr}
    (h : Safe E x Q) (hx : x = .error e) : E e := by
  subst hx; exact h

theorem Safe.val {α : Type} {E : PyErr → Prop} {x : Except PyErr α} {Q : α → Prop} {a : α}
    (h : Safe E x Q) (hx : x = .ok a) : Q a := by
  subst hx; exact h

theorem Safe.mapM {α β : Type} {E : PyErr → Prop} {f : α → Except PyErr β} {Q : β → Prop} (l : List α)
    (h : ∀ a ∈ l, Safe E (f a) Q) : Safe E (l.mapM f) (fun r => r.length = l.length ∧ ∀ b ∈ r, Q b) := by
  induction l with
  | nil => exact ⟨rfl, by simp⟩
  | cons a l ih =>
    rw [List.mapM_cons]
    refine (h a (by simp)).bind fun b hb => (ih fun a ha => h a (by simp [ha])).bind fun r hr => ?_
    refine ⟨by simp [hr.1], ?_⟩
    intro c hc
    rcases List.mem_cons.1 hc with rfl | hc
    · exact hb
    · exact hr.2 c hc

variable {S : Type}

/-- no loose ends: all references point to objects that exist -/
structure Tidy (st : St S) : Prop where
  prev : ∀ (i : Nat) v, st.vs[i]? = some v → v.prev < st.vs.length
  next : ∀ (i : Nat) v, st.vs[i]? = some v → v.next < st.vs.length
  lav : ∀ (i : Nat) v, st.vs[i]? = some v → ∀ l, v.lav = some l → l < st.lavs.length
  head : ∀ (l : Nat) o, st.lavs[l]? = some o → o.head < st.vs.length
  slav : ∀ l ∈ st.slav, l < st.lavs.length

/-- `st'` has all objects of `st` -/
def Grew (st st' : St S) : Prop := st.vs.length ≤ st'.vs.length ∧ st.lavs.length ≤ st'.lavs.length

theorem Grew.refl (st : St S) : Grew st st := ⟨le_refl _, le_refl _⟩
theorem Grew.trans {a b c : St S} (h : Grew a b) (h' : Grew b c) : Grew a c :=
  ⟨h.1.trans h'.1, h.2.trans h'.2⟩

/-- the same objects in a heap without loose ends -/
def Kept (st st' : St S) : Prop := Tidy st' ∧ st'.vs.length = st.vs.length ∧ st'.lavs.length = st.lavs.length

theorem Tidy.modV {st : St S} (h : Tidy st) (i : Nat) (f : Vtx S → Vtx S)
    (hp : ∀ v, v.prev < st.vs.length → (f v).prev < st.vs.length)
    (hn : ∀ v, v.next < st.vs.length → (f v).next < st.vs.length)
    (hl : ∀ v, (∀ l, v.lav = some l → l < st.lavs.length) → ∀ l, (f v).lav = some l → l < st.lavs.length) :
    Kept st (st.modV i f) := by
  have key : ∀ (j : Nat) v, (st.vs.modify i f)[j]? = some v → ∃ w, st.vs[j]? = some w ∧ (v = w ∨ v = f w) := by
    intro j v hv
    rw [List.getElem?_modify] at hv
    split at hv
    · obtain ⟨w, hw, rfl⟩ := Option.map_eq_some_iff.1 hv
      exact ⟨w, hw, .inr rfl⟩
    · obtain ⟨w, hw, rfl⟩ := Option.map_eq_some_iff.1 hv
      exact ⟨w, hw, .inl rfl⟩
  refine ⟨⟨?_, ?_, ?_, ?_, h.slav⟩, by simp [St.modV], rfl⟩
  · intro j v hv
    obtain ⟨w, hw, rfl | rfl⟩ := key j v hv
    · simpa [St.modV] using h.prev j _ hw
    · simpa [St.modV] using hp _ (h.prev j _ hw)
  · intro j v hv
    obtain ⟨w, hw, rfl | rfl⟩ := key j v hv
    · simpa [St.modV] using h.next j _ hw
    · simpa [St.modV] using hn _ (h.next j _ hw)
  · intro j v hv
    obtain ⟨w, hw, rfl | rfl⟩ := key j v hv
    · exact h.lav j _ hw
    · exact hl _ (h.lav j _ hw)
  · intro l o ho
    simpa [St.modV] using h.head l o ho

theorem Tidy.setPrev {st : St S} (h : Tidy st) (i : Nat) {j : Nat} (hj : j < st.vs.length) :
    Kept st (st.setPrev i j) := h.modV i _ (fun _ _ => hj) (fun _ h => h) (fun _ h => h)
theorem Tidy.setNext {st : St S} (h : Tidy st) (i : Nat) {j : Nat} (hj : j < st.vs.length) :
    Kept st (st.setNext i j) := h.modV i _ (fun _ h => h) (fun _ _ => hj) (fun _ h => h)
theorem Tidy.setLav {st : St S} (h : Tidy st) (i : Nat) {o : Option Nat}
    (ho : ∀ l, o = some l → l < st.lavs.length) :
    Kept st (st.setLav i o) := h.modV i _ (fun _ h => h) (fun _ h => h) (fun _ _ => ho)

theorem Tidy.modL {st : St S} (h : Tidy st) (i : Nat) (f : LavObj → LavObj)
    (hf : ∀ o, o.head < st.vs.length → (f o).head < st.vs.length) : Kept st (st.modL i f) := by
  refine ⟨⟨h.prev, h.next, ?_, ?_, ?_⟩, rfl, by simp [St.modL]⟩
  · intro j v hv l hl
    simpa [St.modL] using h.lav j v hv l hl
  · intro l o ho
    simp only [St.modL, List.getElem?_modify] at ho
    split at ho
    · obtain ⟨w, hw, rfl⟩ := Option.map_eq_some_iff.1 ho
      exact hf _ (h.head l _ hw)
    · obtain ⟨w, hw, rfl⟩ := Option.map_eq_some_iff.1 ho
      exact h.head l _ hw
  · intro l hl
    simpa [St.modL] using h.slav l hl

theorem Tidy.setHead {st : St S} (h : Tidy st) (l : Nat) {i : Nat} (hi : i < st.vs.length) :
    Kept st (st.setHead l i) := h.modL l _ (fun _ _ => hi)

theorem Tidy.newV {st : St S} (h : Tidy st) (v : Vtx S) (hp : v.prev ≤ st.vs.length)
    (hn : v.next ≤ st.vs.length) (hl : ∀ l, v.lav = some l → l < st.lavs.length) :
    Tidy (st.newV v).1 ∧ (st.newV v).1.vs.length = st.vs.length + 1 ∧
      (st.newV v).1.lavs.length = st.lavs.length := by
  have key : ∀ (j : Nat) w, (st.vs ++ [v])[j]? = some w → st.vs[j]? = some w ∨ w = v := by
    intro j w hw
    by_cases hj : j < st.vs.length
    · rw [List.getElem?_append_left hj] at hw
      exact .inl hw
    · rw [List.getElem?_append_right (by omega)] at hw
      have := List.mem_of_getElem? hw
      simp at this
      exact .inr this
  refine ⟨⟨?_, ?_, ?_, ?_, h.slav⟩, by simp [St.newV], rfl⟩
  · intro j w hw
    simp only [St.newV, List.length_append, List.length_singleton]
    rcases key j w hw with hw | rfl
    · have := h.prev j w hw; omega
    · omega
  · intro j w hw
    simp only [St.newV, List.length_append, List.length_singleton]
    rcases key j w hw with hw | rfl
    · have := h.next j w hw; omega
    · omega
  · intro j w hw
    rcases key j w hw with hw | rfl
    · exact h.lav j w hw
    · exact hl
  · intro l o ho
    have := h.head l o ho
    simp only [St.newV, List.length_append, List.length_singleton]
    omega

theorem Tidy.newL {st : St S} (h : Tidy st) (o : LavObj) (ho : o.head < st.vs.length) :
    Tidy (st.newL o).1 ∧ (st.newL o).1.vs.length = st.vs.length ∧
      (st.newL o).1.lavs.length = st.lavs.length + 1 := by
  refine ⟨⟨h.prev, h.next, ?_, ?_, ?_⟩, rfl, by simp [St.newL]⟩
  · intro j v hv l hl
    have := h.lav j v hv l hl
    simp only [St.newL, List.length_append, List.length_singleton]
    omega
  · intro l w hw
    simp only [St.newL] at hw
    by_cases hj : l < st.lavs.length
    · rw [List.getElem?_append_left hj] at hw
      exact h.head l w hw
    · rw [List.getElem?_append_right (by omega)] at hw
      have := List.mem_of_getElem? hw
      simp at this
      subst this
      exact ho
  · intro l hl
    have := h.slav l hl
    simp only [St.newL, List.length_append, List.length_singleton]
    omega

theorem Tidy.setSlav {st : St S} (h : Tidy st) (s : List Nat) (hs : ∀ l ∈ s, l < st.lavs.length) :
    Tidy { st with slav := s } := ⟨h.prev, h.next, h.lav, h.head, hs⟩

theorem Kept.trans {a b c : St S} (h : Kept a b) (h' : Kept b c) : Kept a c :=
  ⟨h'.1, h'.2.1.trans h.2.1, h'.2.2.trans h.2.2⟩

theorem Kept.grew {a b : St S} (h : Kept a b) : Grew a b := ⟨h.2.1.ge, h.2.2.ge⟩

variable [Scalar S]

/-- the exceptions that the event loop may raise -/
def LoopErr (e : PyErr) : Prop := e = .value ∨ e = .attribute ∨ e = .runtime ∨ e = .typeError

theorem getV_safe {E : PyErr → Prop} {st : St S} {i : Nat} (h : i < st.vs.length) :
    Safe E (st.getV i) (fun v => st.vs[i]? = some v) := by
  unfold St.getV
  rw [List.getElem?_eq_getElem h]
  exact rfl

theorem getL_safe {E : PyErr → Prop} {st : St S} {i : Nat} (h : i < st.lavs.length) :
    Safe E (st.getL i) (fun v => st.lavs[i]? = some v) := by
  unfold St.getL
  rw [List.getElem?_eq_getElem h]
  exact rfl

/-- the vertices of the event exist -/
def Event.within (n : Nat) : Event S → Prop
  | .split e => e.vertex < n
  | .edge e => e.a < n ∧ e.b < n
  | .dormer _ _ e0 e1 e2 => e0.vertex < n ∧ e1.vertex < n ∧ e2.a < n ∧ e2.b < n

theorem Event.within.mono {n m : Nat} (h : n ≤ m) {e : Event S} (he : e.within n) : e.within m := by
  cases e with
  | split e => exact lt_of_lt_of_le he h
  | edge e => exact ⟨lt_of_lt_of_le he.1 h, lt_of_lt_of_le he.2 h⟩
  | dormer d p e0 e1 e2 =>
    exact ⟨lt_of_lt_of_le he.1 h, lt_of_lt_of_le he.2.1 h, lt_of_lt_of_le he.2.2.1 h, lt_of_lt_of_le he.2.2.2 h⟩

theorem nextEvent_safe {st : St S} (h : Tidy st) {id : Nat} (hi : id < st.vs.length) :
    Safe LoopErr (nextEvent st id) (fun o => ∀ e ∈ o, e.within st.vs.length) := by
  unfold nextEvent
  refine (getV_safe hi).bind fun v hv => ?_
  have hs : Safe LoopErr (splitsOf st id v) (fun l => ∀ e ∈ l, e.vertex = id) := by
    unfold splitsOf
    split
    · split
      · exact .inr (.inl rfl)
      · intro e he
        obtain ⟨oe, -, hoe⟩ := List.mem_filterMap.1 he
        exact (splitCandidate_some hoe).1
    · intro e he; cases he
  refine hs.bind fun sp hsp => ?_
  refine (getV_safe (h.prev id v hv)).bind fun p _ => ?_
  refine (getV_safe (h.next id v hv)).bind fun n _ => ?_
  intro e he
  have hm : e ∈ sp.map Event.split ++ edgesOf id v p n := by
    generalize sp.map Event.split ++ edgesOf id v p n = l at he
    cases l with
    | nil => cases he
    | cons a l =>
      simp only [nearest, Option.mem_def, Option.some.injEq] at he
      rw [← he]
      exact minByKey_mem _ _ _
  rcases List.mem_append.1 hm with hm | hm
  · obtain ⟨s, hs', rfl⟩ := List.mem_map.1 hm
    show s.vertex < _
    rw [hsp s hs']; exact hi
  · unfold edgesOf edgeOf at hm
    rcases List.mem_append.1 hm with hm | hm
    · split at hm
      · simp only [List.mem_singleton] at hm
        subst hm
        exact ⟨h.prev id v hv, hi⟩
      · cases hm
    · split at hm
      · simp only [List.mem_singleton] at hm
        subst hm
        exact ⟨hi, h.next id v hv⟩
      · cases hm

theorem walk_safe {st : St S} (h : Tidy st) {head : Nat} : ∀ (k cur : Nat) (visited : List Nat),
    cur < st.vs.length → visited.Nodup → (∀ x ∈ visited, x < st.vs.length) →
    st.vs.length + 2 ≤ k + visited.length →
    (∀ x ∈ (walk st head k cur visited).1, x < st.vs.length) ∧
      ((walk st head k cur visited).2 = none ∨ (walk st head k cur visited).2 = some .runtime) := by
  intro k
  induction k with
  | zero =>
    intro cur visited hc hn hv hk
    have : visited.length ≤ st.vs.length := by
      have := (List.subperm_of_subset hn (l₂ := List.range st.vs.length)
        (fun x hx => List.mem_range.2 (hv x hx))).length_le
      simpa using this
    omega
  | succ k ih =>
    intro cur visited hc hn hv hk
    unfold walk
    rw [List.getElem?_eq_getElem hc]
    simp only
    have hnx := h.next cur _ (List.getElem?_eq_getElem hc)
    split
    · exact ⟨by simpa using hc, .inl rfl⟩
    · split
      · exact ⟨by simpa using hc, .inr rfl⟩
      · rename_i hnot
        obtain ⟨h1, h2⟩ := ih _ (st.vs[cur].next :: visited) hnx (List.nodup_cons.2 ⟨hnot, hn⟩)
          (by
            intro x hx
            rcases List.mem_cons.1 hx with rfl | hx
            · exact hnx
            · exact hv x hx)
          (by simp only [List.length_cons]; omega)
        refine ⟨?_, h2⟩
        intro x hx
        rcases List.mem_cons.1 hx with rfl | hx
        · exact hc
        · exact h1 x hx

theorem iterLav_safe {st : St S} (h : Tidy st) {l : Nat} (hl : l < st.lavs.length) :
    (∀ x ∈ (iterLav st l).1, x < st.vs.length) ∧
      ((iterLav st l).2 = none ∨ (iterLav st l).2 = some .runtime) := by
  unfold iterLav
  rw [List.getElem?_eq_getElem hl]
  exact walk_safe h _ _ _ (h.head l _ (List.getElem?_eq_getElem hl)) (by simp) (by simp) (by simp)

theorem listLav_safe {st : St S} (h : Tidy st) {l : Nat} (hl : l < st.lavs.length) :
    Safe LoopErr (listLav st l) (fun vs => ∀ x ∈ vs, x < st.vs.length) := by
  obtain ⟨h1, h2⟩ := iterLav_safe h hl
  unfold listLav
  rcases hi : iterLav st l with ⟨vs, o⟩
  rw [hi] at h1 h2
  rcases h2 with h2 | h2
  · simp only at h2; subst h2; exact h1
  · simp only at h2; subst h2; exact .inr (.inr (.inl rfl))

theorem setLavs_kept {st : St S} {l : Nat} {vs : List Nat} (h : Tidy st) (hl : l < st.lavs.length) :
    Kept st (vs.foldl (fun st v => st.setLav v (some l)) st) := by
  induction vs generalizing st with
  | nil => exact ⟨h, rfl, rfl⟩
  | cons v vs ih =>
    have h1 := h.setLav v (o := some l) (by simpa using hl)
    exact h1.trans (ih h1.1 (by rw [h1.2.2]; exact hl))

theorem fromChain_safe {st : St S} (h : Tidy st) {head : Nat} (hh : head < st.vs.length) :
    Safe LoopErr (fromChain st head) (fun r => Tidy r.1 ∧ r.1.vs.length = st.vs.length ∧
      r.1.lavs.length = st.lavs.length + 1 ∧ r.2 < r.1.lavs.length) := by
  unfold fromChain
  obtain ⟨h1, h2, h3⟩ := h.newL { head, len := 0 } hh
  have hl : (st.newL { head, len := 0 }).2 < (st.newL { head, len := 0 }).1.lavs.length := by
    simp [St.newL]
  obtain ⟨-, h5⟩ := iterLav_safe h1 hl
  simp only
  rcases hi : iterLav (st.newL { head, len := 0 }).1 (st.newL { head, len := 0 }).2 with ⟨vs, o⟩
  rw [hi] at h5
  rcases h5 with h5 | h5
  · simp only at h5; subst h5
    have k1 := setLavs_kept (vs := vs) h1 hl
    have k2 := k1.trans (k1.1.modL (st.newL { head, len := 0 }).2 (fun o => { o with len := vs.length }) (fun _ h => h))
    exact ⟨k2.1, by rw [k2.2.1, h2], by rw [k2.2.2, h3], by rw [k2.2.2]; exact hl⟩
  · simp only at h5; subst h5; exact .inr (.inr (.inl rfl))

theorem invalidate_safe {st : St S} (h : Tidy st) {id : Nat} (hi : id < st.vs.length) :
    Safe LoopErr (invalidate st id) (fun st' => Kept st st') := by
  unfold invalidate
  refine (getV_safe hi).bind fun v hv => ?_
  have k := h.modV id (fun v => { v with valid := false }) (fun _ h => h) (fun _ h => h) (fun _ h => h)
  split
  · exact k
  · rename_i l hl
    have hll := h.lav id v hv l hl
    simp only
    refine (getL_safe (by rw [k.2.2]; exact hll)).bind fun o _ => ?_
    have k2 : Kept st (if o.head = id then
        (st.modV id fun v => { v with valid := false }).setHead l v.next else
        st.modV id fun v => { v with valid := false }) := by
      split
      · exact k.trans (k.1.setHead l (by rw [k.2.1]; exact h.next id v hv))
      · exact k
    exact k2.trans (k2.1.setLav id (o := none) (by simp))

theorem invalidateAll_safe {st : St S} (h : Tidy st) {vs : List Nat} (hv : ∀ x ∈ vs, x < st.vs.length) :
    Safe LoopErr (invalidateAll st vs) (fun st' => Kept st st') := by
  induction vs generalizing st with
  | nil => exact ⟨h, rfl, rfl⟩
  | cons v vs ih =>
    unfold invalidateAll
    refine (invalidate_safe h (hv v (by simp))).bind fun st1 k => ?_
    exact (ih k.1 (fun x hx => by rw [k.2.1]; exact hv x (by simp [hx]))).mono fun _ k' => k.trans k'

theorem removeLav_safe {st : St S} (h : Tidy st) {l : Option Nat} :
    Safe LoopErr (removeLav st l) (fun st' => Kept st st') := by
  unfold removeLav
  split
  · exact .inl rfl
  · unfold pyRemove
    split
    · exact ⟨h.setSlav _ (fun l hl => h.slav l (List.mem_of_mem_erase hl)), rfl, rfl⟩
    · exact .inl rfl

theorem pointsOf_safe {st : St S} {vs : List Nat} (hv : ∀ x ∈ vs, x < st.vs.length) :
    Safe LoopErr (pointsOf st vs) (fun _ => True) := by
  unfold pointsOf
  refine (Safe.mapM (Q := fun _ => True) vs fun x hx => ?_).mono fun _ _ => trivial
  exact (getV_safe (hv x hx)).bind fun _ _ => trivial

theorem mkVtx_refs (i : Nat) (p : V2 S) (e e' : Edge2 S) (d : Option (V2 S × V2 S)) (f : Bool) :
    (mkVtx i p e e' d f).prev = i ∧ (mkVtx i p e e' d f).next = i ∧ (mkVtx i p e e' d f).lav = none :=
  ⟨rfl, rfl, rfl⟩

theorem unify_safe {st : St S} (h : Tidy st) {l a b : Nat} (hl : l < st.lavs.length) (ha : a < st.vs.length)
    (hb : b < st.vs.length) (p : V2 S) :
    Safe LoopErr (unify st l a b p) (fun r => Tidy r.1 ∧ r.1.vs.length = st.vs.length + 1 ∧
      r.1.lavs.length = st.lavs.length ∧ r.2 < r.1.vs.length) := by
  unfold unify
  refine (getV_safe ha).bind fun va _ => (getV_safe hb).bind fun vb _ => ?_
  simp only
  generalize hmk : mkVtx st.vs.length p va.edgePrev vb.edgeNext
      (some (V2.normalized vb.bisector.v, V2.normalized va.bisector.v)) false = nv
  have hnv : nv.prev = st.vs.length ∧ nv.next = st.vs.length ∧ nv.lav = none := by
    rw [← hmk]; exact mkVtx_refs _ _ _ _ _ _
  obtain ⟨t1, n1, m1⟩ := h.newV nv (by rw [hnv.1]) (by rw [hnv.2.1]) (by rw [hnv.2.2]; simp)
  have hr : (st.newV nv).2 = st.vs.length := rfl
  rw [hr]
  generalize (st.newV nv).1 = s1 at t1 n1 m1
  have k2 := t1.setLav st.vs.length (o := some l) (by simp; omega)
  generalize s1.setLav st.vs.length (some l) = s2 at k2
  obtain ⟨t2, n2, m2⟩ := k2
  refine (getL_safe (by omega)).bind fun o _ => ?_
  have k3 : Kept s2 (if o.head = a ∨ o.head = b then s2.setHead l st.vs.length else s2) := by
    split
    · exact t2.setHead l (by omega)
    · exact ⟨t2, rfl, rfl⟩
  generalize (if o.head = a ∨ o.head = b then s2.setHead l st.vs.length else s2) = s3 at k3
  obtain ⟨t3, n3, m3⟩ := k3
  refine (getV_safe (by omega)).bind fun va3 hva3 => ?_
  obtain ⟨t4, n4, m4⟩ := t3.setNext va3.prev (j := st.vs.length) (by omega)
  generalize s3.setNext va3.prev st.vs.length = s4 at t4 n4 m4
  refine (getV_safe (by omega)).bind fun vb4 hvb4 => ?_
  obtain ⟨t5, n5, m5⟩ := t4.setPrev vb4.next (j := st.vs.length) (by omega)
  generalize s4.setPrev vb4.next st.vs.length = s5 at t5 n5 m5
  refine (getV_safe (by omega)).bind fun va5 hva5 => ?_
  have := t5.prev _ _ hva5
  obtain ⟨t6, n6, m6⟩ := t5.setPrev st.vs.length (j := va5.prev) (by omega)
  generalize s5.setPrev st.vs.length va5.prev = s6 at t6 n6 m6
  refine (getV_safe (by omega)).bind fun vb6 hvb6 => ?_
  have := t6.next _ _ hvb6
  obtain ⟨t7, n7, m7⟩ := t6.setNext st.vs.length (j := vb6.next) (by omega)
  generalize s6.setNext st.vs.length vb6.next = s7 at t7 n7 m7
  refine (invalidate_safe t7 (by omega)).bind fun s8 k8 => ?_
  obtain ⟨t8, n8, m8⟩ := k8
  refine (invalidate_safe t8 (by omega)).bind fun s9 k9 => ?_
  obtain ⟨t9, n9, m9⟩ := k9
  obtain ⟨t10, n10, m10⟩ := t9.modL l (fun o => { o with len := o.len - 1 }) (fun _ h => h)
  generalize (s9.modL l fun o => { o with len := o.len - 1 }) = s10 at t10 n10 m10
  exact ⟨t10, by show s10.vs.length = _; omega, by show s10.lavs.length = _; omega, by show _ < s10.vs.length; omega⟩

/-- what a handler leaves behind -/
def Handled (st : St S) (r : HandlerOut S) : Prop :=
  Tidy r.1 ∧ st.vs.length ≤ r.1.vs.length ∧ ∀ e ∈ r.2.2, e.within r.1.vs.length

theorem handleEdge_safe {st : St S} (h : Tidy st) {ev : EdgeEv S} (ha : ev.a < st.vs.length)
    (hb : ev.b < st.vs.length) : Safe LoopErr (handleEdge st ev) (Handled st) := by
  unfold handleEdge
  refine (getV_safe ha).bind fun va hva => (getV_safe hb).bind fun vb _ => ?_
  split
  · refine (removeLav_safe h).bind fun s1 k1 => ?_
    obtain ⟨t1, n1, m1⟩ := k1
    split
    · exact .inr (.inl rfl)
    · rename_i l hl
      have := h.lav _ _ hva l hl
      refine (listLav_safe t1 (by omega)).bind fun vs hvs => ?_
      refine (pointsOf_safe hvs).bind fun sinks _ => ?_
      refine (invalidateAll_safe t1 hvs).bind fun s2 k2 => ?_
      exact ⟨k2.1, by show _ ≤ s2.vs.length; rw [k2.2.1, n1], by simp⟩
  · split
    · exact .inr (.inl rfl)
    · rename_i l hl
      have := h.lav _ _ hva l hl
      refine (unify_safe h this ha hb _).bind fun r hr => ?_
      obtain ⟨s1, i⟩ := r
      obtain ⟨t1, n1, m1, i1⟩ := hr
      simp only at t1 n1 m1 i1 ⊢
      refine (getL_safe (by omega)).bind fun o _ => ?_
      have k2 : Kept s1 (if o.head = ev.a ∨ o.head = ev.b then s1.setHead l i else s1) := by
        split
        · exact t1.setHead l i1
        · exact ⟨t1, rfl, rfl⟩
      generalize (if o.head = ev.a ∨ o.head = ev.b then s1.setHead l i else s1) = s2 at k2
      obtain ⟨t2, n2, m2⟩ := k2
      refine (nextEvent_safe t2 (by omega)).bind fun ne hne => ?_
      exact ⟨t2, by show _ ≤ s2.vs.length; omega, fun e he => hne e (by simpa using he)⟩

theorem splitTest_safe {st : St S} (h : Tidy st) {ev : SplitEv S} {v : Nat} (hv : v < st.vs.length) :
    Safe LoopErr (splitTest st ev v) (fun o => ∀ q ∈ o, q.1 < st.vs.length ∧ q.2 < st.vs.length) := by
  unfold splitTest
  refine (getV_safe hv).bind fun vv hvv => ?_
  simp only
  generalize hc : (if V2.veq ev.opp.norm vv.edgePrev.norm && V2.veq ev.opp.p1 vv.edgePrev.p1 then
      some (v, vv.prev)
    else if V2.veq ev.opp.norm vv.edgeNext.norm && V2.veq ev.opp.p1 vv.edgeNext.p1 then
      some (vv.next, v)
    else none) = cand
  cases cand with
  | none => intro q hq; cases hq
  | some q =>
    obtain ⟨x, y⟩ := q
    have hxy : x < st.vs.length ∧ y < st.vs.length := by
      split at hc
      · cases hc; exact ⟨hv, h.prev v vv hvv⟩
      · split at hc
        · cases hc; exact ⟨h.next v vv hvv, hv⟩
        · cases hc
    simp only
    refine (getV_safe hxy.1).bind fun vx _ => (getV_safe hxy.2).bind fun vy _ => ?_
    simp only [pure_ok]
    split
    · intro q hq; cases hq; exact hxy
    · intro q hq; cases hq

theorem splitSearchList_safe {st : St S} (h : Tidy st) {ev : SplitEv S} {vs : List Nat}
    (hv : ∀ x ∈ vs, x < st.vs.length) :
    Safe LoopErr (splitSearchList st ev vs) (fun o => ∀ q ∈ o, q.1 < st.vs.length ∧ q.2 < st.vs.length) := by
  induction vs with
  | nil => intro q hq; cases hq
  | cons v vs ih =>
    unfold splitSearchList
    refine (splitTest_safe h (hv v (by simp))).bind fun o ho => ?_
    cases o with
    | some r => exact ho
    | none => exact ih fun x hx => hv x (by simp [hx])

theorem splitSearch_safe {st : St S} (h : Tidy st) {ev : SplitEv S} {ls : List Nat}
    (hl : ∀ x ∈ ls, x < st.lavs.length) :
    Safe LoopErr (splitSearch st ev ls) (fun o => ∀ q ∈ o, q.1 < st.vs.length ∧ q.2 < st.vs.length) := by
  induction ls with
  | nil => intro q hq; cases hq
  | cons l ls ih =>
    unfold splitSearch
    obtain ⟨h1, h2⟩ := iterLav_safe h (hl l (by simp))
    refine (splitSearchList_safe h h1).bind fun o ho => ?_
    cases o with
    | some r => exact ho
    | none =>
      rcases h2 with h2 | h2
      · simp only [h2]
        exact ih fun x hx => hl x (by simp [hx])
      · simp only [h2]
        exact .inr (.inr (.inl rfl))

theorem keepOrCollapse_safe {st : St S} (h : Tidy st) {sinks : List (V2 S)} {heads ls : List Nat}
    (hh : ∀ x ∈ heads, x < st.vs.length) (hl : ∀ x ∈ ls, x < st.lavs.length) :
    Safe LoopErr (keepOrCollapse st sinks heads ls) (fun r => Tidy r.1 ∧ r.1.vs.length = st.vs.length ∧
      ∀ x ∈ r.2.2, x < st.vs.length) := by
  induction ls generalizing st sinks heads with
  | nil => exact ⟨h, rfl, hh⟩
  | cons l ls ih =>
    unfold keepOrCollapse
    refine (getL_safe (hl l (by simp))).bind fun o ho => ?_
    have hd := h.head l o ho
    split
    · refine ih (h.setSlav _ ?_) ?_ (fun x hx => hl x (by simp [hx]))
      · intro x hx
        rcases List.mem_append.1 hx with hx | hx
        · exact h.slav x hx
        · rw [List.mem_singleton.1 hx]; exact hl l (by simp)
      · intro x hx
        rcases List.mem_append.1 hx with hx | hx
        · exact hh x hx
        · rw [List.mem_singleton.1 hx]; exact hd
    · refine (getV_safe hd).bind fun hv hhv => ?_
      refine (getV_safe (h.next _ _ hhv)).bind fun n _ => ?_
      refine (listLav_safe h (hl l (by simp))).bind fun vs hvs => ?_
      refine (invalidateAll_safe h hvs).bind fun s1 k1 => ?_
      obtain ⟨t1, n1, m1⟩ := k1
      refine (ih t1 (fun x hx => by rw [n1]; exact hh x hx) (fun x hx => by rw [m1]; exact hl x (by simp [hx]))).mono ?_
      rintro r ⟨a, b, c⟩
      exact ⟨a, by rw [b, n1], fun x hx => by rw [← n1]; exact c x hx⟩

theorem nextEvents_safe {st : St S} (h : Tidy st) {vs : List Nat} (hv : ∀ x ∈ vs, x < st.vs.length) :
    Safe LoopErr (nextEvents st vs) (fun es => ∀ e ∈ es, e.within st.vs.length) := by
  induction vs with
  | nil => intro e he; cases he
  | cons v vs ih =>
    unfold nextEvents
    refine (nextEvent_safe h (hv v (by simp))).bind fun o ho => ?_
    refine (ih fun x hx => hv x (by simp [hx])).bind fun es hes => ?_
    intro e he
    rcases List.mem_append.1 he with he | he
    · exact ho e (by simpa using he)
    · exact hes e he

theorem splitLink_safe {st : St S} (h : Tidy st) {ev : SplitEv S} {v : Vtx S} {x y : Nat}
    (hev : st.vs[ev.vertex]? = some v) (hx : x < st.vs.length) (hy : y < st.vs.length) :
    Safe LoopErr (splitLink st ev v x y) (fun r => Tidy r.1 ∧ r.1.vs.length = st.vs.length + 2 ∧
      r.1.lavs.length = st.lavs.length ∧ r.2.1 < r.1.vs.length ∧ r.2.2 < r.1.vs.length) := by
  have hvx : ev.vertex < st.vs.length := (List.getElem?_eq_some_iff.1 hev).1
  have hpv := h.prev _ _ hev
  unfold splitLink
  simp only
  generalize hmk : mkVtx st.vs.length ev.pt v.edgePrev ev.opp none true = nv
  have hnv : nv.prev = st.vs.length ∧ nv.next = st.vs.length ∧ nv.lav = none := by
    rw [← hmk]; exact mkVtx_refs _ _ _ _ _ _
  obtain ⟨t1, n1, m1⟩ := h.newV nv (by rw [hnv.1]) (by rw [hnv.2.1]) (by rw [hnv.2.2]; simp)
  have hr : (st.newV nv).2 = st.vs.length := rfl
  rw [hr]
  generalize (st.newV nv).1 = s1 at t1 n1 m1
  generalize hmk2 : mkVtx s1.vs.length ev.pt ev.opp v.edgeNext none true = nw
  have hnw : nw.prev = s1.vs.length ∧ nw.next = s1.vs.length ∧ nw.lav = none := by
    rw [← hmk2]; exact mkVtx_refs _ _ _ _ _ _
  obtain ⟨t2, n2, m2⟩ := t1.newV nw (by rw [hnw.1]) (by rw [hnw.2.1]) (by rw [hnw.2.2]; simp)
  have hr2 : (s1.newV nw).2 = s1.vs.length := rfl
  rw [hr2]
  generalize (s1.newV nw).1 = s2 at t2 n2 m2
  obtain ⟨t3, n3, m3⟩ := t2.setPrev st.vs.length (j := v.prev) (by omega)
  generalize s2.setPrev st.vs.length v.prev = s3 at t3 n3 m3
  obtain ⟨t4, n4, m4⟩ := t3.setNext st.vs.length (j := x) (by omega)
  generalize s3.setNext st.vs.length x = s4 at t4 n4 m4
  obtain ⟨t5, n5, m5⟩ := t4.setNext v.prev (j := st.vs.length) (by omega)
  generalize s4.setNext v.prev st.vs.length = s5 at t5 n5 m5
  obtain ⟨t6, n6, m6⟩ := t5.setPrev x (j := st.vs.length) (by omega)
  generalize s5.setPrev x st.vs.length = s6 at t6 n6 m6
  obtain ⟨t7, n7, m7⟩ := t6.setPrev s1.vs.length (j := y) (by omega)
  generalize s6.setPrev s1.vs.length y = s7 at t7 n7 m7
  refine (getV_safe (by omega)).bind fun v' hv' => ?_
  have := t7.next _ _ hv'
  obtain ⟨t8, n8, m8⟩ := t7.setNext s1.vs.length (j := v'.next) (by omega)
  generalize s7.setNext s1.vs.length v'.next = s8 at t8 n8 m8
  obtain ⟨t9, n9, m9⟩ := t8.setPrev v'.next (j := s1.vs.length) (by omega)
  generalize s8.setPrev v'.next s1.vs.length = s9 at t9 n9 m9
  obtain ⟨t10, n10, m10⟩ := t9.setNext y (j := s1.vs.length) (by omega)
  generalize s9.setNext y s1.vs.length = s10 at t10 n10 m10
  exact ⟨t10, by show s10.vs.length = _; omega, by show s10.lavs.length = _; omega,
    by show st.vs.length < s10.vs.length; omega, by show s1.vs.length < s10.vs.length; omega⟩

theorem splitLavs_safe {st : St S} (h : Tidy st) {lav : Option Nat} {x v1 v2 : Nat} (hx : x < st.vs.length)
    (h1 : v1 < st.vs.length) (h2 : v2 < st.vs.length) :
    Safe LoopErr (splitLavs st lav x v1 v2) (fun r => Tidy r.1 ∧ r.1.vs.length = st.vs.length ∧
      ∀ l ∈ r.2, l < r.1.lavs.length) := by
  unfold splitLavs
  refine (removeLav_safe h).bind fun s1 k1 => ?_
  obtain ⟨t1, n1, m1⟩ := k1
  refine (getV_safe (by omega)).bind fun vx _ => ?_
  split
  · refine (removeLav_safe t1).bind fun s2 k2 => ?_
    obtain ⟨t2, n2, m2⟩ := k2
    refine (fromChain_safe t2 (by omega)).bind fun r hr => ?_
    obtain ⟨s3, l1⟩ := r
    obtain ⟨t3, n3, m3, i3⟩ := hr
    simp only at t3 n3 m3 i3 ⊢
    exact ⟨t3, by show s3.vs.length = _; omega, by simpa using i3⟩
  · refine (fromChain_safe t1 (by omega)).bind fun r hr => ?_
    obtain ⟨s3, l1⟩ := r
    obtain ⟨t3, n3, m3, i3⟩ := hr
    simp only at t3 n3 m3 i3 ⊢
    refine (fromChain_safe t3 (by omega)).bind fun r hr => ?_
    obtain ⟨s4, l2⟩ := r
    obtain ⟨t4, n4, m4, i4⟩ := hr
    simp only at t4 n4 m4 i4 ⊢
    refine ⟨t4, by show s4.vs.length = _; omega, ?_⟩
    intro l hl
    show l < s4.lavs.length
    simp only [List.mem_cons, List.not_mem_nil, or_false] at hl
    rcases hl with rfl | rfl <;> omega

theorem splitAt_safe {st : St S} (h : Tidy st) {ev : SplitEv S} {x y : Nat} (hv : ev.vertex < st.vs.length)
    (hx : x < st.vs.length) (hy : y < st.vs.length) : Safe LoopErr (splitAt st ev x y) (Handled st) := by
  unfold splitAt
  refine (getV_safe hv).bind fun v hvv => ?_
  refine (splitLink_safe h hvv hx hy).bind fun r hr => ?_
  obtain ⟨s1, v1, v2⟩ := r
  obtain ⟨t1, n1, m1, i1, i2⟩ := hr
  simp only at t1 n1 m1 i1 i2 ⊢
  refine (splitLavs_safe t1 (by omega) i1 i2).bind fun r hr => ?_
  obtain ⟨s2, ls⟩ := r
  obtain ⟨t2, n2, i3⟩ := hr
  simp only at t2 n2 i3 ⊢
  refine (keepOrCollapse_safe t2 (heads := []) (by simp) i3).bind fun r hr => ?_
  obtain ⟨s3, sinks, heads⟩ := r
  obtain ⟨t3, n3, i4⟩ := hr
  simp only at t3 n3 i4 ⊢
  refine (nextEvents_safe t3 (fun x hx => by rw [n3]; exact i4 x hx)).bind fun es hes => ?_
  refine (invalidate_safe t3 (by omega)).bind fun s4 k4 => ?_
  obtain ⟨t4, n4, m4⟩ := k4
  exact ⟨t4, by show _ ≤ s4.vs.length; omega, fun e he => by rw [n4]; exact hes e he⟩

theorem handleSplit_safe {st : St S} (h : Tidy st) {ev : SplitEv S} (hv : ev.vertex < st.vs.length) :
    Safe LoopErr (handleSplit st ev) (Handled st) := by
  unfold handleSplit
  refine (splitSearch_safe h h.slav).bind fun o ho => ?_
  cases o with
  | none => exact ⟨h, le_refl _, by simp⟩
  | some q => exact splitAt_safe h hv (ho q rfl).1 (ho q rfl).2

theorem handleDormer_safe {st : St S} (h : Tidy st) {e0 e1 : SplitEv S} {e2 : EdgeEv S}
    (h0 : e0.vertex < st.vs.length) (h1 : e1.vertex < st.vs.length) (ha : e2.a < st.vs.length)
    (hb : e2.b < st.vs.length) : Safe LoopErr (handleDormer st e0 e1 e2) (Handled st) := by
  unfold handleDormer
  refine (getV_safe h0).bind fun vp hvp => ?_
  have p1 := h.prev _ _ hvp
  have p2 := h.next _ _ hvp
  split
  · exact ⟨h, le_refl _, by simp⟩
  · rename_i l hl
    have hll := h.lav _ _ hvp l hl
    refine (getV_safe h1).bind fun vn hvn => ?_
    have p3 := h.prev _ _ hvn
    have p4 := h.next _ _ hvn
    simp only
    obtain ⟨t1, n1, m1⟩ := h.setHead l p1
    generalize st.setHead l vp.prev = s1 at t1 n1 m1
    obtain ⟨t2, n2, m2⟩ := t1.setNext vp.prev (j := vn.next) (by omega)
    generalize s1.setNext vp.prev vn.next = s2 at t2 n2 m2
    refine (getV_safe (by omega)).bind fun vn' hvn' => ?_
    refine (getV_safe (by omega)).bind fun vp' hvp' => ?_
    have p5 := t2.prev _ _ hvp'
    obtain ⟨t3, n3, m3⟩ := t2.setPrev vn'.next (j := vp'.prev) (by omega)
    generalize s2.setPrev vn'.next vp'.prev = s3 at t3 n3 m3
    refine (getL_safe (by omega)).bind fun o ho => ?_
    refine (fromChain_safe t3 (t3.head _ _ ho)).bind fun r hr => ?_
    obtain ⟨s4, nl⟩ := r
    obtain ⟨t4, n4, m4, i4⟩ := hr
    simp only at t4 n4 m4 i4 ⊢
    refine (removeLav_safe t4).bind fun s5 k5 => ?_
    obtain ⟨t5, n5, m5⟩ := k5
    have t6 : Tidy { s5 with slav := s5.slav ++ [nl] } := t5.setSlav _ (by
      intro x hx
      rcases List.mem_append.1 hx with hx | hx
      · exact t5.slav x hx
      · rw [List.mem_singleton.1 hx]; omega)
    have n6 : ({ s5 with slav := s5.slav ++ [nl] } : St S).vs.length = s5.vs.length := rfl
    generalize ({ s5 with slav := s5.slav ++ [nl] } : St S) = s6 at t6 n6
    split
    · exact .inr (.inr (.inr rfl))
    · refine (getV_safe (by omega)).bind fun pa _ => (getV_safe (by omega)).bind fun pb _ => ?_
      refine (invalidateAll_safe t6 ?_).bind fun s7 k7 => ?_
      · intro x hx
        simp only [List.mem_cons, List.not_mem_nil, or_false] at hx
        rcases hx with rfl | rfl | rfl | rfl <;> omega
      · exact ⟨k7.1, by show _ ≤ s7.vs.length; rw [k7.2.1]; omega, by simp⟩

theorem handleEvent_safe {st : St S} (h : Tidy st) {ev : Event S} (he : ev.within st.vs.length) :
    Safe LoopErr (handleEvent st ev) (fun o => ∀ r ∈ o, Handled st r) := by
  unfold handleEvent
  split
  · refine (getV_safe he.1).bind fun va _ => (getV_safe he.2).bind fun vb _ => ?_
    split
    · intro r hr; cases hr
    · exact (handleEdge_safe h he.1 he.2).bind fun r hr => by rintro _ ⟨⟩; exact hr
  · refine (getV_safe he).bind fun v _ => ?_
    split
    · intro r hr; cases hr
    · exact (handleSplit_safe h he).bind fun r hr => by rintro _ ⟨⟩; exact hr
  · refine (getV_safe he.1).bind fun va _ => (getV_safe he.2.1).bind fun vb _ => ?_
    split
    · intro r hr; cases hr
    · exact (handleDormer_safe h he.1 he.2.1 he.2.2.1 he.2.2.2).bind fun r hr => by rintro _ ⟨⟩; exact hr

theorem stepBatch_safe {lp : Loop S} {es : List (Event S)} (h : Tidy lp.st)
    (hq : ∀ e ∈ lp.queue, e.within lp.st.vs.length) (he : ∀ e ∈ es, e.within lp.st.vs.length) :
    Safe LoopErr (stepBatch lp es) (fun lp' => Tidy lp'.st ∧ ∀ e ∈ lp'.queue, e.within lp'.st.vs.length) := by
  induction es generalizing lp with
  | nil => exact ⟨h, hq⟩
  | cons e es ih =>
    unfold stepBatch
    have hs : Safe LoopErr (stepEvent lp e) (fun lp' => Tidy lp'.st ∧ lp.st.vs.length ≤ lp'.st.vs.length ∧
        ∀ e ∈ lp'.queue, e.within lp'.st.vs.length) := by
      unfold stepEvent
      refine (handleEvent_safe h (he e (by simp))).bind fun o ho => ?_
      cases o with
      | none => exact ⟨h, le_refl _, hq⟩
      | some r =>
        obtain ⟨st', arcs, evs⟩ := r
        obtain ⟨h1, h2, h3⟩ := ho _ rfl
        refine ⟨h1, h2, ?_⟩
        intro x hx
        rcases List.mem_append.1 ((C08_putAll_perm _ _).mem_iff.1 hx) with hx | hx
        · exact (hq x hx).mono h2
        · exact h3 x hx
    refine hs.bind fun lp1 h1 => ?_
    exact ih h1.1 h1.2.2 (fun x hx => (he x (by simp [hx])).mono h1.2.1)

/-- the event loop never reaches for an object that does not exist -/
theorem mainLoop_safe {k : Nat} {lp : Loop S} (h : Tidy lp.st)
    (hq : ∀ e ∈ lp.queue, e.within lp.st.vs.length) {e : PyErr} (he : mainLoop k lp = some (.error e)) :
    LoopErr e := by
  induction k generalizing lp with
  | zero =>
    unfold mainLoop at he
    split at he <;> simp at he
  | succ k ih =>
    unfold mainLoop at he
    split at he
    · simp at he
    · rename_i hne
      obtain ⟨hp1, hp2⟩ := C09_getAllEqualDistance_perm lp.queue
      split at he
      · rename_i hg
        have := hp1.1 hg
        simp [this] at hne
      · rename_i batch q hg
        have hm := (hp2 _ _ hg).1
        have hb := stepBatch_safe (lp := { lp with queue := q }) (es := batch) h
          (fun e he => hq e (hm.mem_iff.1 (by simp [he]))) (fun e he => hq e (hm.mem_iff.1 (by simp [he])))
        split at he
        · rename_i e' hs
          cases he
          exact hb.err hs
        · rename_i lp' hs
          obtain ⟨h1, h2⟩ := hb.val hs
          exact ih h1 h2 he

end Polyskel
