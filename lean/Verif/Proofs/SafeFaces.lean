import Verif.Proofs.SafeStart
import Verif.Props.Skeleton
/-
Lemmas for C77: the graph of the faces, the removal of spikes and the clean-up.
-/
namespace Polyskel
open Scalar Graph
set_option linter.unusedSectionVars false
variable {S : Type} [Scalar S]

/-- a valid Python index into a list of length `m` -/
def InRange (m : Nat) (v : Int) : Prop := -(m : Int) ≤ v ∧ v < m

theorem pydiv_safe (a b : S) : Safe (· = PyErr.zeroDivision) (pydiv a b) (fun _ => True) := by
  unfold pydiv
  split
  · rfl
  · trivial

theorem orderNbrs_safe {rt : Rt} {vList : List (V3 S)} {v : Int} {ns : List Int} (hv : InRange vList.length v)
    (hns : ∀ w ∈ ns, InRange vList.length w) :
    Safe (· = PyErr.zeroDivision) (orderNbrs rt vList v ns) (fun _ => True) := by
  unfold orderNbrs
  split
  · trivial
  · refine (pyGet_safe hv).bind fun c _ => ?_
    refine (Safe.mapM (E := (· = PyErr.zeroDivision)) (Q := fun _ => True) ns fun w hw => ?_).bind fun _ _ => trivial
    refine (pyGet_safe (hns w hw)).bind fun p _ => ?_
    have : Safe (· = PyErr.zeroDivision) (pseudoangle (V3.sub p c).x (V3.sub p c).y) (fun _ => True) := by
      unfold pseudoangle
      refine (pydiv_safe _ _).bind fun q _ => ?_
      split <;> trivial
    exact this.bind fun _ _ => trivial

theorem embedding_safe {rt : Rt} {g : Graph} {vList : List (V3 S)}
    (h : ∀ vl ∈ g, InRange vList.length vl.1 ∧ ∀ w ∈ vl.2, InRange vList.length w) :
    Safe (· = PyErr.zeroDivision) (circularEmbedding rt g vList) (fun _ => True) := by
  unfold circularEmbedding
  refine (Safe.mapM (Q := fun _ => True) g fun vl hvl => ?_).mono fun _ _ => trivial
  exact (orderNbrs_safe (h vl hvl).1 (h vl hvl).2).bind fun _ _ => trivial

theorem traceLoop_safe {rt : Rt} {emb : Graph} (hsym : ∀ v w, w ∈ nbrs emb v → v ∈ nbrs emb w) (k : Nat)
    {es path : List Dart} {fs : List (List Dart)} (hp : es ≠ [] → path ≠ [])
    (hpd : ∀ d ∈ path, d.1 ∈ nbrs emb d.2) (hed : ∀ d ∈ es, d.1 ∈ nbrs emb d.2) :
    Safe (fun e => e = .endlessFaces ∨ e = .fuel) (traceLoop rt emb k es path fs) (fun _ => True) := by
  induction k generalizing es path fs with
  | zero => exact .inr rfl
  | succ k ih =>
    unfold traceLoop
    split
    · trivial
    · rename_i hes
      have hes' : es ≠ [] := by simpa using hes
      have hpath := hp hes'
      split
      · rename_i hl
        exact absurd (List.getLast?_eq_none_iff.1 hl) hpath
      · rename_i u v hl
        have hu := hpd (u, v) (List.mem_of_getLast? hl)
        obtain ⟨nxt, hn⟩ := nextNode_total hu
        have hnm := (nextNode_ok hn).mem.2
        rw [hn, ok_bind]
        simp only
        split
        · obtain ⟨e, he⟩ := pickDart_total (rt := rt) hes'
          simp only [he]
          refine ih (by simp) ?_ (fun d hd => hed d (List.mem_of_mem_erase hd))
          intro d hd
          rw [List.mem_singleton.1 hd]
          exact hed e (pickDart_mem he)
        · split
          · exact .inl rfl
          · refine ih (by simp) ?_ (fun d hd => hed d (List.mem_of_mem_erase hd))
            intro d hd
            rcases List.mem_append.1 hd with hd | hd
            · exact hpd d hd
            · rw [List.mem_singleton.1 hd]
              exact hsym _ _ hnm

theorem faces_error {rt : Rt} {g emb : Graph} {n : Int} (hsym : ∀ v w, w ∈ nbrs emb v → v ∈ nbrs emb w)
    (hed : ∀ d ∈ edgeSet g, d.1 ∈ nbrs emb d.2) {e : PyErr} (he : faces rt g emb n = .error e) :
    e = .endlessFaces := by
  have h16 := C16_faces_terminates rt g emb n
  rw [he] at h16
  unfold faces at he
  rcases bind_error.1 he with he | ⟨_, -, he⟩
  · unfold traceFaces at he
    simp only at he
    have key : e = .endlessFaces ∨ e = .fuel := by
      split at he
      · rename_i hpk
        have : edgeSet g = [] := by
          by_contra hne
          obtain ⟨d, hd⟩ := pickDart_total (rt := rt) hne
          rw [hpk] at hd; cases hd
        exact (traceLoop_safe hsym _ (by simp [this]) (by simp) hed).err he
      · rename_i d hpk
        refine (traceLoop_safe hsym _ (by simp) ?_ (fun d hd => hed d (List.mem_of_mem_erase hd))).err he
        intro d' hd'
        rw [List.mem_singleton.1 hd']
        exact hed d (pickDart_mem hpk)
    rcases key with h | h
    · exact h
    · exact absurd (by rw [h]) h16
  · cases he

/-! ### spikes -/

theorem isSpike_safe {verts : List (V3 S)} {p t x : Int} (hp : InRange verts.length p)
    (ht : InRange verts.length t) (hx : InRange verts.length x) :
    Safe (· = PyErr.zeroDivision) (isSpike verts p t x) (fun _ => True) := by
  unfold isSpike
  refine (pyGet_safe ht).bind fun _ _ => (pyGet_safe hp).bind fun _ _ => (pyGet_safe hx).bind fun _ _ => ?_
  simp only
  split
  · trivial
  · exact (pydiv_safe _ _).bind fun _ _ => trivial

theorem findSpike_safe {verts : List (V3 S)} {ts : List (Int × Int × Int)}
    (h : ∀ t ∈ ts, InRange verts.length t.1 ∧ InRange verts.length t.2.1 ∧ InRange verts.length t.2.2) :
    Safe (· = PyErr.zeroDivision) (findSpike verts ts) (fun _ => True) := by
  induction ts with
  | nil => trivial
  | cons t ts ih =>
    unfold findSpike
    obtain ⟨a, b, c⟩ := h t (by simp)
    refine (isSpike_safe a b c).bind fun r _ => ?_
    split
    · trivial
    · exact ih fun t ht => h t (by simp [ht])

/-- the exceptions of the removal of spikes -/
def SpikeErr (e : PyErr) : Prop := e = .zeroDivision ∨ e = .value ∨ e = .stopIteration ∨ e = .endlessSpike

theorem iterPrevThisNext_safe {α : Type} (f : List α) :
    Safe (· = PyErr.value) (iterPrevThisNext f) (fun ts => ∀ t ∈ ts, t.1 ∈ f ∧ t.2.1 ∈ f ∧ t.2.2 ∈ f) := by
  unfold iterPrevThisNext
  split
  · rfl
  · rintro ⟨p, t, x⟩ ht
    have h1 := (List.of_mem_zip ht).1
    have h2 := List.of_mem_zip (List.of_mem_zip ht).2
    refine ⟨?_, h2.1, ?_⟩
    · rcases List.mem_append.1 h1 with h | h
      · exact List.mem_of_mem_drop h
      · exact List.mem_of_mem_take h
    · rcases List.mem_append.1 h2.2 with h | h
      · exact List.mem_of_mem_drop h
      · exact List.mem_of_mem_take h

theorem lastFaceWith_safe {p n : Int} {i : Nat} {r : Option Nat} {fs : List (List Int)}
    (hr : ∀ k ∈ r, k < i + fs.length) :
    Safe (· = PyErr.value) (lastFaceWith p n i r fs) (fun o => ∀ k ∈ o, k < i + fs.length) := by
  induction fs generalizing i r with
  | nil => exact hr
  | cons f fs ih =>
    unfold lastFaceWith
    have : Safe (· = PyErr.value) (hasDart f p n) (fun _ => True) := by
      unfold hasDart iterPrevNext
      split
      · rfl
      · trivial
    refine this.bind fun b _ => ?_
    refine (ih ?_).mono fun o ho k hk => ?_
    · intro k hk
      split at hk
      · cases hk; omega
      · have := hr k hk
        rw [List.length_cons] at this; omega
    · have := ho k hk
      simp; omega

theorem removeSpike_safe {n : Nat} {faces : List (List Int)} {fi : Nat} {p t x : Int} (hfi : fi < faces.length) :
    Safe SpikeErr (removeSpike n faces fi p t x) (fun _ => True) := by
  unfold removeSpike
  refine ((lastFaceWith_safe (by simp)).weaken fun _ h => .inr (.inl h)).bind fun r hr => ?_
  refine ((lastFaceWith_safe (by simp)).weaken fun _ h => .inr (.inl h)).bind fun l hl => ?_
  have hrot : ∀ f y, Safe SpikeErr (rotateTo f y) (fun _ => True) := by
    intro f y; unfold rotateTo; split
    · trivial
    · exact .inr (.inr (.inl rfl))
  have hmer : ∀ f, Safe SpikeErr (rotateMerged n f) (fun _ => True) := by
    intro f; unfold rotateMerged; split
    · trivial
    · exact .inr (.inr (.inl rfl))
  have hrem : ∀ (f : List Int) y, Safe SpikeErr (pyRemove f y) (fun _ => True) := by
    intro f y; unfold pyRemove; split
    · trivial
    · exact .inr (.inl rfl)
  cases r with
  | none => trivial
  | some ri =>
  cases l with
  | none => trivial
  | some li =>
    have hri := hr ri rfl
    have hli := hl li rfl
    simp only
    split
    · refine (pyGet_safe (by omega)).bind fun _ _ => ?_
      refine (hrem _ _).bind fun _ _ => ?_
      refine (hrem _ _).bind fun _ _ => ?_
      refine (pyGet_safe (by rw [List.length_set]; omega)).bind fun _ _ => ?_
      trivial
    · refine (pyGet_safe (by omega)).bind fun _ _ => ?_
      refine (pyGet_safe (by omega)).bind fun _ _ => ?_
      refine (hrot _ _).bind fun _ _ => ?_
      refine (pyGet_safe (by omega)).bind fun _ _ => ?_
      refine (hrot _ _).bind fun _ _ => ?_
      refine (hmer _).bind fun _ _ => ?_
      split
      · exact .inr (.inr (.inr rfl))
      · exact (hrem _ _).bind fun _ _ => trivial

theorem spikePass_safe {verts : List (V3 S)} {n : Nat} {faces : List (List Int)} {fi : Nat}
    {rest : List (List Int)} (hr : ∀ f ∈ rest, ∀ v ∈ f, InRange verts.length v)
    (hfi : fi + rest.length = faces.length) :
    Safe SpikeErr (spikePass verts n faces fi rest) (fun _ => True) := by
  induction rest generalizing fi with
  | nil => trivial
  | cons face rest ih =>
    have hrec := ih (fi := fi + 1) (fun f hf => hr f (by simp [hf])) (by simp at hfi; omega)
    unfold spikePass
    split
    · exact hrec
    · refine ((iterPrevThisNext_safe face).weaken fun _ h => .inr (.inl h)).bind fun ts hts => ?_
      refine ((findSpike_safe fun t ht => ?_).weaken fun _ h => .inl h).bind fun o _ => ?_
      · obtain ⟨a, b, c⟩ := hts t ht
        exact ⟨hr face (by simp) _ a, hr face (by simp) _ b, hr face (by simp) _ c⟩
      · cases o with
        | none => exact hrec
        | some t =>
          obtain ⟨p, t, x⟩ := t
          refine (removeSpike_safe (by simp at hfi; omega)).bind fun o _ => ?_
          cases o with
          | none => exact hrec
          | some f => trivial

theorem spikeLoop_safe {verts : List (V3 S)} {n k : Nat} {faces : List (List Int)}
    (hr : ∀ f ∈ faces, ∀ v ∈ f, InRange verts.length v) :
    Safe (fun e => SpikeErr e ∨ e = .fuel) (spikeLoop verts n k faces)
      (fun out => ∀ f ∈ out, ∀ v ∈ f, InRange verts.length v) := by
  induction k generalizing faces with
  | zero => exact .inr rfl
  | succ k ih =>
    unfold spikeLoop
    have hs := spikePass_safe (n := n) (faces := faces) (fi := 0) hr (by simp)
    rcases hx : spikePass verts n faces 0 faces with e | o
    · exact .inl (hs.err hx)
    · rw [ok_bind]
      cases o with
      | none => exact hr
      | some f =>
        obtain ⟨gone, -, hp⟩ := C39_pass_removes hx
        refine ih ?_
        intro g hg v hv
        have : v ∈ faces.flatten := hp.mem_iff.1 (List.mem_append_right _ (List.mem_flatten.2 ⟨g, hg, hv⟩))
        obtain ⟨g', hg', hv'⟩ := List.mem_flatten.1 this
        exact hr g' hg' v hv'

theorem removeSpikes_safe {verts : List (V3 S)} {n : Nat} {faces : List (List Int)}
    (hr : ∀ f ∈ faces, ∀ v ∈ f, InRange verts.length v) :
    Safe SpikeErr (removeSpikes verts n faces) (fun out => ∀ f ∈ out, ∀ v ∈ f, InRange verts.length v) := by
  have h := C39_spikes_terminate verts n faces
  have hs := spikeLoop_safe (n := n) (k := totalLen faces + 1) hr
  cases hx : removeSpikes verts n faces with
  | ok a => exact hs.val hx
  | error e =>
    rcases hs.err hx with h' | h'
    · exact h'
    · rw [hx, h'] at h; exact absurd rfl h

theorem parallelVerts_safe {verts : List (V3 S)} {n : Nat} {count : Int → Nat} {ts : List (Int × Int × Int)}
    (h : ∀ t ∈ ts, InRange verts.length t.1 ∧ InRange verts.length t.2.1 ∧ InRange verts.length t.2.2)
    (acc : List Int) : Safe (· = PyErr.zeroDivision) (parallelVerts verts n count acc ts) (fun _ => True) := by
  induction ts generalizing acc with
  | nil => trivial
  | cons t ts ih =>
    obtain ⟨p, t, x⟩ := t
    obtain ⟨a, b, c⟩ := h (p, t, x) (by simp)
    have ih' := ih fun t ht => h t (by simp [ht])
    unfold parallelVerts
    split
    · refine (pyGet_safe b).bind fun _ _ => (pyGet_safe a).bind fun _ _ => (pyGet_safe c).bind fun _ _ => ?_
      simp only
      split
      · refine (pydiv_safe _ _).bind fun _ _ => ?_
        split <;> exact ih' _
      · split <;> exact ih' _
    · exact ih' _

theorem removeItems_safe (items face : List Int) :
    Safe (· = PyErr.value) (removeItems face items) (fun _ => True) := by
  induction items generalizing face with
  | nil => trivial
  | cons i items ih =>
    unfold removeItems pyRemove
    split
    · exact ih _
    · rfl

theorem cleanFaces_safe {verts : List (V3 S)} {n : Nat} {faces : List (List Int)}
    (hr : ∀ f ∈ faces, ∀ v ∈ f, InRange verts.length v) :
    Safe SpikeErr (cleanFaces verts n faces) (fun _ => True) := by
  unfold cleanFaces
  refine (Safe.mapM (Q := fun _ => True) faces fun f hf => ?_).mono fun _ _ => trivial
  have htail : ∀ f : List Int, Safe SpikeErr (do let rm ← adjacentDups f; removeItems f rm) (fun _ => True) := by
    intro f
    have : Safe SpikeErr (adjacentDups f) (fun _ => True) := by
      unfold adjacentDups iterPrevNext
      split
      · exact .inr (.inl rfl)
      · trivial
    exact this.bind fun rm _ => (removeItems_safe rm f).weaken fun _ h => .inr (.inl h)
  unfold cleanFace
  simp only
  split
  · refine ((iterPrevThisNext_safe f).weaken fun _ h => .inr (.inl h)).bind fun ts hts => ?_
    refine ((parallelVerts_safe (fun t ht => ?_) []).weaken fun _ h => .inl h).bind fun rm _ => ?_
    · obtain ⟨a, b, c⟩ := hts t ht
      exact ⟨hr f hf _ a, hr f hf _ b, hr f hf _ c⟩
    · exact ((removeItems_safe rm f).weaken fun _ h => .inr (.inl h)).bind fun f' _ => htail f'
  · exact htail f

end Polyskel
