import Verif.Proofs.RoofWalk
import Verif.Props.FirstEdge
import Verif.Props.Cleanup
/-
The faces that are found in the graph of a roof: one for each edge of the polygon.  Used for C62.
-/
namespace Polyskel
open Scalar Real Geo Graph
set_option linter.unusedSectionVars false

/-- `us` is the border of the part of the roof that belongs to edge number `k` -/
structure IsPart (c : List (Edge2 ℝ)) (m : Nat) (pos : Nat → V2 ℝ) (hh : Nat → ℝ) (k : Nat)
    (us : List Nat) : Prop where
  lt : k < c.length
  len : 3 ≤ us.length
  nodup : us.Nodup
  first : us[0]? = some k
  second : us[1]? = some (nextIdx c.length k)
  vert : ∀ u ∈ us, u < c.length + m
  plane : ∀ u ∈ us, ∀ e, c[k]? = some e → hgt e (pos u) = hh u
  left : ∀ i a b d, us[i]? = some a → us[(i + 1) % us.length]? = some b →
    us[(i + 2) % us.length]? = some d → 0 < turn pos a b d ∧ (Blunt c → NotBack pos a b d)
  ridge : ∀ i a b, i ≠ 0 → us[i]? = some a → us[(i + 1) % us.length]? = some b → ∀ e, c[k]? = some e →
    ∃ g ∈ c, g.norm ≠ e.norm ∧ hgt g (pos a) = hh a ∧ hgt g (pos b) = hh b

theorem exists_map {α β : Type} (f : α → β) (P : α → Prop) :
    ∀ l : List β, (∀ x ∈ l, ∃ a, P a ∧ f a = x) → ∃ us : List α, us.map f = l ∧ ∀ a ∈ us, P a
  | [], _ => ⟨[], rfl, by simp⟩
  | x :: l, h => by
    obtain ⟨a, ha, rfl⟩ := h x (by simp)
    obtain ⟨us, rfl, hu⟩ := exists_map f P l (fun y hy => h y (by simp [hy]))
    exact ⟨a :: us, rfl, by simpa using ⟨ha, hu⟩⟩

theorem FaceCycle.rot {emb : Graph} {f : List Dart} (h : FaceCycle emb f) {k : Nat} (hk : k ≤ f.length) :
    FaceCycle emb (f.drop k ++ f.take k) := by
  have hp : 0 < f.length := List.length_pos_iff.2 h.1
  have hl : (f.drop k ++ f.take k).length = f.length := by simp; omega
  refine ⟨fun h0 => by rw [h0] at hl; simp at hl; omega, ?_⟩
  intro i a b ha hb
  have hi : i < f.length := by rw [← hl]; exact (List.getElem?_eq_some_iff.1 ha).1
  rw [hl, rot_getElem? f k _ hk (Nat.mod_lt _ hp)] at hb
  rw [rot_getElem? f k i hk hi] at ha
  refine h.2 ((i + k) % f.length) a b ha ?_
  rw [← hb, Nat.mod_add_mod, Nat.mod_add_mod]
  congr 2
  omega

section
variable {c : List (Edge2 ℝ)} {m : Nat} {pos : Nat → V2 ℝ} {hh : Nat → ℝ} {L R : Nat → Edge2 ℝ}
  {ch : Nat → List Nat} {gi : Nat → Int} {ds : List Dart} {rt : Rt} {verts : List (V3 ℝ)} {z : V2 ℝ}
  {emb : Graph}

/-- all connections of a face belong to the same edge -/
theorem RoofG.face_lab (h : RoofG c m pos hh L R ch gi ds rt verts z emb) {f : List Dart}
    (hf : FaceCycle emb f) (hd : ∀ d ∈ f, HasDart (addEdges rt [] ds) d) :
    ∃ o, ∀ d ∈ f, ∃ u v, d = (gi u, gi v) ∧ Lab c.length m ch L R u v o := by
  have hp : 0 < f.length := List.length_pos_iff.2 hf.1
  obtain ⟨u0, v0, o, e0, l0⟩ := h.dart_lab (hd f[0] (List.getElem_mem _))
  refine ⟨o, ?_⟩
  have key : ∀ i, (hi : i < f.length) → ∃ u v, f[i] = (gi u, gi v) ∧ Lab c.length m ch L R u v o := by
    intro i
    induction i with
    | zero => intro _; exact ⟨u0, v0, e0, l0⟩
    | succ i ih =>
      intro hi
      obtain ⟨u, v, e, l⟩ := ih (by omega)
      have ht := hf.2 i _ _ (List.getElem?_eq_getElem (by omega))
        (by rw [Nat.mod_eq_of_lt hi]; exact List.getElem?_eq_getElem hi)
      rw [e] at ht
      obtain ⟨w, e', l', -⟩ := h.turn l ht
      exact ⟨v, w, e', l'⟩
  intro d hd
  obtain ⟨i, hi, rfl⟩ := List.mem_iff_getElem.1 hd
  exact key i hi

theorem lab_side {n m : Nat} {u v : Nat} {e : Edge2 ℝ}
    (hl : Lab n m ch L R u v (some e)) (hu : u < n) (hv : v < n) : v = nextIdx n u ∧ e = R u := by
  rcases hl with ⟨k, hk, rfl, rfl, ho⟩ | ⟨k, hk, rfl, rfl, ho⟩ | ⟨k, j, hj, hk, rfl, rfl, ho⟩ |
    ⟨k, j, hj, hk, rfl, rfl, ho⟩
  · simp only [Option.some.injEq] at ho; exact ⟨rfl, ho.symm⟩
  · cases ho
  · omega
  · omega

theorem lab_of_side {n m : Nat} (hn : 3 ≤ n) {k : Nat} {o : Option (Edge2 ℝ)} (hk : k < n)
    (hl : Lab n m ch L R k (nextIdx n k) o) : o = some (R k) := by
  have := nextIdx_lt' hk
  rcases hl with ⟨i, hi, h1, h2, ho⟩ | ⟨i, hi, h1, h2, ho⟩ | ⟨i, j, hj, hi, h1, h2, ho⟩ |
    ⟨i, j, hj, hi, h1, h2, ho⟩
  · rw [← ho, h1]
  · exfalso
    unfold nextIdx at h1 h2
    split at h1 <;> split at h2 <;> omega
  · omega
  · omega

/-- the part of the roof of an edge has the edge on its border -/
theorem RoofG.face_side (h : RoofG c m pos hh L R ch gi ds rt verts z emb) {f : List Dart}
    (hf : FaceCycle emb f) {e : Edge2 ℝ}
    (hd : ∀ d ∈ f, ∃ u v, d = (gi u, gi v) ∧ Lab c.length m ch L R u v (some e)) :
    ∃ k < c.length, (gi k, gi (nextIdx c.length k)) ∈ f ∧ e = R k := by
  classical
  by_contra hno
  push Not at hno
  let φ : Dart → ℝ := fun d => match pyGet verts d.1 with
    | .ok p => e.norm.x * p.x + e.norm.y * p.y
    | .error _ => 0
  have hφ : ∀ u x, u < c.length + m → φ (gi u, x) = e.norm.x * ((pos u).x + z.x) + e.norm.y * ((pos u).y + z.y) := by
    intro u x hu
    obtain ⟨p, hp, e1, e2⟩ := h.placed.get u hu
    simp only [φ, hp, e1, e2]
  have hp : 0 < f.length := List.length_pos_iff.2 hf.1
  obtain ⟨d, hdm, hmin⟩ := Finset.exists_min_image f.toFinset φ
    ⟨f[0], by simp⟩
  rw [List.mem_toFinset] at hdm
  obtain ⟨i, hi, rfl⟩ := List.mem_iff_getElem.1 hdm
  obtain ⟨u, v, e1, l1⟩ := hd _ (List.getElem_mem hi)
  have ht := hf.2 i _ _ (List.getElem?_eq_getElem hi) (List.getElem?_eq_getElem (Nat.mod_lt _ hp))
  have hle := hmin (f[(i + 1) % f.length]'(Nat.mod_lt _ hp)) (by simp)
  rw [e1] at ht
  obtain ⟨w, e2, l2, -⟩ := h.turn l1 ht
  rw [e1, e2, hφ u _ (h.lab_lt l1).1, hφ v _ (h.lab_lt l1).2] at hle
  rcases h.lab_back l1 with ⟨b1, b2, b3⟩ | hb
  · exact hno u b1 (by rw [← b2, ← e1]; exact List.getElem_mem _) b3
  · linarith

theorem RoofG.side_inj (h : RoofG c m pos hh L R ch gi ds rt verts z emb) {k k' : Nat}
    (hk : k < c.length) (hk' : k' < c.length) (he : R k = R k') : k = k' := by
  rw [(h.tree.corner k hk).2.1, (h.tree.corner k' hk').2.1] at he
  have h1 : pos k = pos k' := by
    rw [(h.tree.corner k hk).1, (h.tree.corner k' hk').1, he]
  exact h.placed.inj _ _ (by omega) (by omega) h1

/-- one face: the border of an edge's part of the roof -/
theorem RoofG.face_part (h : RoofG c m pos hh L R ch gi ds rt verts z emb) {N : Nat}
    (hN : ∀ k, k < c.length + m → (gi k < (N : Int) ↔ k < c.length)) {f : List Dart}
    (hf : FaceCycle emb f) (hnd : f.Nodup) {e : Edge2 ℝ}
    (hd : ∀ d ∈ f, ∃ u v, d = (gi u, gi v) ∧ Lab c.length m ch L R u v (some e))
    {a b : Int} (ha : (f.map (·.1))[0]? = some a) (hb : (f.map (·.1))[1 % f.length]? = some b)
    (hao : a < N) (hbo : b < N) :
    ∃ k us, us.map gi = f.map (·.1) ∧ IsPart c m pos hh k us ∧
      (gi k, gi (nextIdx c.length k)) ∈ f ∧ e = R k := by
  have hsz := h.tree.three
  have hp : 0 < f.length := List.length_pos_iff.2 hf.1
  obtain ⟨us, hus, hlt⟩ := exists_map gi (fun u => u < c.length + m) (f.map (·.1)) (by
    intro x hx
    obtain ⟨d, hdm, rfl⟩ := List.mem_map.1 hx
    obtain ⟨u, v, rfl, l⟩ := hd d hdm
    exact ⟨u, (h.lab_lt l).1, rfl⟩)
  have hlen : us.length = f.length := by
    have := congrArg List.length hus
    simpa using this
  -- the numbers at a position
  have hget : ∀ (i : Nat) u, us[i]? = some u → ∃ v, f[i]? = some (gi u, gi v) ∧
      Lab c.length m ch L R u v (some e) := by
    intro i u hu
    have hi := (List.getElem?_eq_some_iff.1 hu).1
    have h1 : (f.map (·.1))[i]? = some (gi u) := by rw [← hus, List.getElem?_map, hu]; rfl
    rw [List.getElem?_map, List.getElem?_eq_getElem (by omega)] at h1
    simp only [Option.map_some, Option.some.injEq] at h1
    obtain ⟨u', v, e1, l⟩ := hd _ (List.getElem_mem (show i < f.length by omega))
    rw [e1] at h1
    have := h.placed.num _ _ (h.lab_lt l).1 (hlt u (List.mem_of_getElem? hu)) h1
    subst this
    exact ⟨v, by rw [List.getElem?_eq_getElem (by omega), e1], l⟩
  have hnext : ∀ (i : Nat) u u', us[i]? = some u → us[(i + 1) % us.length]? = some u' →
      f[i]? = some (gi u, gi u') ∧ Lab c.length m ch L R u u' (some e) := by
    intro i u u' hu hu'
    obtain ⟨v, h1, l1⟩ := hget i u hu
    obtain ⟨v', h2, l2⟩ := hget _ u' hu'
    rw [hlen] at h2
    obtain ⟨w, e2, l3, -⟩ := h.turn l1 (hf.2 _ _ _ h1 h2)
    simp only [Prod.mk.injEq] at e2
    have := h.placed.num _ _ (h.lab_lt l2).1 (h.lab_lt l3).1 e2.1
    subst this
    exact ⟨h1, l1⟩
  obtain ⟨k, hk0⟩ : ∃ k, us[0]? = some k := ⟨_, List.getElem?_eq_getElem (by omega)⟩
  obtain ⟨k', hk1⟩ : ∃ k, us[1 % us.length]? = some k :=
    ⟨_, List.getElem?_eq_getElem (Nat.mod_lt _ (by omega))⟩
  have ea : gi k = a := by
    rw [← hus, List.getElem?_map, hk0] at ha
    simpa using ha
  have eb : gi k' = b := by
    rw [← hus, List.getElem?_map, ← hlen, hk1] at hb
    simpa using hb
  have hkn : k < c.length := (hN k (hlt k (List.mem_of_getElem? hk0))).1 (by rw [ea]; exact hao)
  have hkn' : k' < c.length := (hN k' (hlt k' (List.mem_of_getElem? hk1))).1 (by rw [eb]; exact hbo)
  obtain ⟨g0, l0⟩ := hnext 0 k k' hk0 (by simpa using hk1)
  obtain ⟨q1, q2⟩ := lab_side l0 hkn hkn'
  have hkk : k' ≠ k := by
    rw [q1]; unfold nextIdx; split <;> omega
  have hlen1 : us.length ≠ 1 := by
    intro h1
    rw [h1] at hk1
    simp only [Nat.mod_self] at hk1
    rw [hk0] at hk1
    exact hkk (by simpa using hk1.symm)
  rw [Nat.mod_eq_of_lt (by omega)] at hk1
  obtain ⟨u2, hk2⟩ : ∃ k, us[2 % us.length]? = some k :=
    ⟨_, List.getElem?_eq_getElem (Nat.mod_lt _ (by omega))⟩
  obtain ⟨g1, l1⟩ := hnext 1 k' u2 hk1 hk2
  have hlen2 : us.length ≠ 2 := by
    intro h1
    rw [h1] at hk2
    simp only [Nat.mod_self] at hk2
    rw [hk0] at hk2
    simp only [Option.some.injEq] at hk2
    subst hk2
    obtain ⟨r1, r2⟩ := lab_side l1 hkn' hkn
    rw [q1] at r2
    have := h.side_inj hkn (by rw [← q1]; exact hkn') (q2.symm.trans r2)
    exact hkk (q1.trans this.symm)
  have hund : us.Nodup := by
    have hmn : (f.map (·.1)).Nodup := by
      rw [List.nodup_map_iff_inj_on hnd]
      intro x hx y hy hxy
      obtain ⟨u, v, rfl, l⟩ := hd x hx
      obtain ⟨u', v', rfl, l'⟩ := hd y hy
      have := h.placed.num _ _ (h.lab_lt l).1 (h.lab_lt l').1 hxy
      subst this
      rw [h.lab_end l l']
    rw [← hus] at hmn
    exact hmn.of_map _
  refine ⟨k, us, hus, ⟨hkn, by omega, ?_, hk0, ?_, hlt, ?_, ?_, ?_⟩, ?_, q2⟩
  · exact hund
  · rw [hk1, q1]
  · intro u hu e' he'
    obtain ⟨i, hi⟩ := List.mem_iff_getElem?.1 hu
    obtain ⟨v, -, l⟩ := hget i u hi
    rw [List.getElem?_eq_getElem hkn] at he'
    simp only [Option.some.injEq] at he'
    have := (h.lab_plane l).2
    rw [q2, (h.tree.corner k hkn).2.1, he'] at this
    exact this
  · intro i a b d h1 h2 h3
    obtain ⟨j1, m1⟩ := hnext i a b h1 h2
    obtain ⟨j2, m2⟩ := hnext _ b d h2 (by rw [Nat.mod_add_mod]; exact h3)
    rw [hlen] at j2
    obtain ⟨w, e2, l3, hw⟩ := h.turn m1 (hf.2 _ _ _ j1 j2)
    simp only [Prod.mk.injEq] at e2
    have := h.placed.num _ _ (h.lab_lt m2).2 (h.lab_lt l3).2 e2.2
    subst this
    exact hw (by simp)
  · intro i a b hi h1 h2 e' he'
    obtain ⟨-, l⟩ := hnext i a b h1 h2
    rw [List.getElem?_eq_getElem hkn] at he'
    simp only [Option.some.injEq] at he'
    have hee : e = e' := by rw [q2, (h.tree.corner k hkn).2.1, he']
    rcases h.lab_other l with ⟨hac, ha'⟩ | hg
    · exfalso
      have hak : a = k := h.side_inj hac hkn (ha'.symm.trans q2)
      rw [hak] at h1
      obtain ⟨i1, i2⟩ := List.getElem?_eq_some_iff.1 h1
      obtain ⟨j1, j2⟩ := List.getElem?_eq_some_iff.1 hk0
      exact hi ((hund.getElem_inj_iff).1 (i2.trans j2.symm))
    · rw [← hee]
      exact hg
  · rw [← q1]
    exact List.mem_of_getElem? g0

/-- the faces found in the graph of a roof -/
theorem RoofG.faces (h : RoofG c m pos hh L R ch gi ds rt verts z emb) {N : Nat}
    (hN : ∀ k, k < c.length + m → (gi k < (N : Int) ↔ k < c.length)) :
    ∃ out, Graph.faces rt (addEdges rt [] ds) emb N = .ok out ∧
      (∃ σ : List Nat, σ.Perm (List.range c.length) ∧
        List.Forall₂ (fun k r => ∃ us, r = us.map gi ∧ IsPart c m pos hh k us) σ out) ∧
      ∀ X, c.length ≤ X → X < c.length + m → 3 ≤ out.flatten.count (gi X) := by
  classical
  have hsz := h.tree.three
  obtain ⟨fs, hfs, hnd, hmem⟩ := C12_faces_partition rt _ emb h.simple h.embeds
  obtain ⟨out, hout, hall⟩ := C14_faces_filter rt _ emb h.simple h.embeds N fs hfs
  have hcyc := C15_face_cycle rt _ emb h.simple h.embeds fs hfs
  rw [List.nodup_flatten] at hnd
  set keep : List Dart → Bool := fun f => f.any (fun d => decide ((N : Int) ≤ d.1)) with hkeep
  -- each face
  have one : ∀ f ∈ fs.filter keep, ∃ k, k < c.length ∧ (gi k, gi (nextIdx c.length k)) ∈ f ∧
      ∀ r : List Int, ((∃ i, i ≤ f.length ∧ r = (f.drop i ++ f.take i).map (·.1)) ∧
        ((∃ d ∈ f, d.1 < (N : Int) ∧ d.2 < (N : Int)) →
          ∃ a b, r[0]? = some a ∧ r[1 % r.length]? = some b ∧ a < (N : Int) ∧ b < (N : Int))) →
        ∃ us, r = us.map gi ∧ IsPart c m pos hh k us := by
    intro f hf
    obtain ⟨hf, hk⟩ := List.mem_filter.1 hf
    obtain ⟨o, ho⟩ := h.face_lab (hcyc f hf) (fun d hd => (hmem d).1 (List.mem_flatten.2 ⟨f, hf, hd⟩))
    cases o with
    | none =>
      exfalso
      simp only [hkeep, List.any_eq_true, decide_eq_true_eq] at hk
      obtain ⟨d, hd, hlt⟩ := hk
      obtain ⟨u, v, rfl, l⟩ := ho d hd
      have : u < c.length := by
        rcases l with ⟨k, hk, rfl, rfl, ho⟩ | ⟨k, hk, rfl, rfl, ho⟩ | ⟨k, j, hj, hk, rfl, rfl, ho⟩ |
          ⟨k, j, hj, hk, rfl, rfl, ho⟩
        · cases ho
        · exact nextIdx_lt' hk
        · cases ho
        · cases ho
      have := (hN u (by omega)).2 this
      simp only at hlt
      omega
    | some e =>
      obtain ⟨k, hkn, hkm, hke⟩ := h.face_side (hcyc f hf) ho
      refine ⟨k, hkn, hkm, ?_⟩
      rintro r ⟨⟨i, hi, rfl⟩, hr⟩
      have hkn' := nextIdx_lt' hkn
      obtain ⟨a, b, ha, hb, ha', hb'⟩ := hr ⟨_, hkm, (hN k (by omega)).2 hkn, (hN _ (by omega)).2 hkn'⟩
      have hperm : (f.drop i ++ f.take i).Perm f := by
        have := List.perm_append_comm (l₁ := f.drop i) (l₂ := f.take i)
        rwa [List.take_append_drop] at this
      obtain ⟨k', us, hus, hpart, -, hk'⟩ := h.face_part hN ((hcyc f hf).rot hi)
        (hperm.nodup_iff.2 (hnd.1 f hf)) (fun d hd => ho d (hperm.mem_iff.1 hd)) ha
        (by simpa using hb) ha' hb'
      have := h.side_inj hkn hpart.lt (hke.symm.trans hk')
      subst this
      exact ⟨us, hus.symm, hpart⟩
  have one' : ∀ f, ∃ k, f ∈ fs.filter keep → k < c.length ∧ (gi k, gi (nextIdx c.length k)) ∈ f ∧
      ∀ r : List Int, ((∃ i, i ≤ f.length ∧ r = (f.drop i ++ f.take i).map (·.1)) ∧
        ((∃ d ∈ f, d.1 < (N : Int) ∧ d.2 < (N : Int)) →
          ∃ a b, r[0]? = some a ∧ r[1 % r.length]? = some b ∧ a < (N : Int) ∧ b < (N : Int))) →
        ∃ us, r = us.map gi ∧ IsPart c m pos hh k us := by
    intro f
    by_cases hf : f ∈ fs.filter keep
    · obtain ⟨k, hk⟩ := one f hf
      exact ⟨k, fun _ => hk⟩
    · exact ⟨0, fun h0 => absurd h0 hf⟩
  choose κ hκ using one'
  refine ⟨out, hout, ⟨(fs.filter keep).map κ, ?_, ?_⟩, ?_⟩
  · have hn : ((fs.filter keep).map κ).Nodup := by
      unfold List.Nodup
      rw [List.pairwise_map]
      have := hnd.2.sublist (List.filter_sublist (p := keep) (l := fs))
      refine (List.Pairwise.and_mem.1 this).imp ?_
      rintro f g ⟨hf, hg, hdis⟩ he
      obtain ⟨-, m1, -⟩ := hκ f hf
      obtain ⟨-, m2, -⟩ := hκ g hg
      rw [← he] at m2
      exact hdis m1 m2
    rw [List.perm_ext_iff_of_nodup hn List.nodup_range]
    intro k
    rw [List.mem_map, List.mem_range]
    constructor
    · rintro ⟨f, hf, rfl⟩
      exact (hκ f hf).1
    · intro hk
      have hl : Lab c.length m ch L R k (nextIdx c.length k) (some (R k)) := .side k hk
      obtain ⟨f, hf, hdf⟩ := List.mem_flatten.1 ((hmem _).2 (h.lab_dart hl))
      obtain ⟨o, ho⟩ := h.face_lab (hcyc f hf) (fun d hd => (hmem d).1 (List.mem_flatten.2 ⟨f, hf, hd⟩))
      obtain ⟨u, v, e, l⟩ := ho _ hdf
      simp only [Prod.mk.injEq] at e
      have e1 := h.placed.num _ _ (h.lab_lt hl).1 (h.lab_lt l).1 e.1
      have e2 := h.placed.num _ _ (h.lab_lt hl).2 (h.lab_lt l).2 e.2
      subst e1 e2
      have := lab_of_side (by omega) hk l
      subst this
      have hfk : f ∈ fs.filter keep := by
        rw [List.mem_filter]
        refine ⟨hf, ?_⟩
        simp only [hkeep, List.any_eq_true, decide_eq_true_eq]
        -- the walk leaves the polygon after the edge
        obtain ⟨i, hi, hid⟩ := List.mem_iff_getElem.1 hdf
        have hp : 0 < f.length := by omega
        have t1 := (hcyc f hf).2 i _ _ (List.getElem?_eq_getElem hi)
          (List.getElem?_eq_getElem (Nat.mod_lt _ hp))
        rw [hid] at t1
        obtain ⟨w, ew, lw, -⟩ := h.turn l t1
        have t2 := (hcyc f hf).2 ((i + 1) % f.length) _ _ (List.getElem?_eq_getElem (Nat.mod_lt _ hp))
          (List.getElem?_eq_getElem (Nat.mod_lt _ hp))
        rw [ew] at t2
        refine ⟨_, List.getElem_mem (Nat.mod_lt (((i + 1) % f.length) + 1) hp), ?_⟩
        rw [t2.1]
        by_contra hlt
        have hwn := (hN w (h.lab_lt lw).2).1 (by simpa using hlt)
        have hkn' := nextIdx_lt' hk
        obtain ⟨-, r2⟩ := lab_side lw hkn' hwn
        have := h.side_inj hk hkn' r2
        unfold nextIdx at this
        split at this <;> omega
      refine ⟨f, hfk, ?_⟩
      obtain ⟨k1, k2, -⟩ := hκ f hfk
      obtain ⟨u, v, e, l'⟩ := ho _ k2
      simp only [Prod.mk.injEq] at e
      have k3 := nextIdx_lt' k1
      have e1 := h.placed.num _ _ (by omega) (h.lab_lt l').1 e.1
      have e2 := h.placed.num _ _ (by omega) (h.lab_lt l').2 e.2
      subst e1 e2
      obtain ⟨-, r2⟩ := lab_side l' k1 k3
      exact (h.side_inj hk k1 r2).symm
  · rw [List.forall₂_map_left_iff]
    rw [List.forall₂_iff_zip] at hall ⊢
    refine ⟨hall.1, ?_⟩
    intro f r hz
    exact (hκ f (List.of_mem_zip hz).1).2.2 r (hall.2 hz)
  · intro X hX hXN
    -- the connections from the node
    have h3 : 3 ≤ (Graph.nbrs (addEdges rt [] ds) (gi X)).length := by
      obtain ⟨j, rfl⟩ : ∃ j, X = c.length + j := ⟨X - c.length, by omega⟩
      obtain ⟨l, E, q, hS, hlt, hE, hn, -⟩ :=
        h.tree.around (rt := rt) h.placed.inj h.placed.num h.darts (show j < m by omega)
      rw [hn.length_eq, List.length_map]
      exact hS.len
    have hD : ((Graph.nbrs (addEdges rt [] ds) (gi X)).map (fun w => (gi X, w))).Nodup :=
      (h.simple.nodup (gi X)).map (fun a b hab => by simpa using hab)
    have hsub : (Graph.nbrs (addEdges rt [] ds) (gi X)).map (fun w => (gi X, w)) ⊆
        (fs.filter keep).flatten := by
      intro d hd
      obtain ⟨w, hw, rfl⟩ := List.mem_map.1 hd
      obtain ⟨f, hf, hdf⟩ := List.mem_flatten.1 ((hmem (gi X, w)).2 hw)
      refine List.mem_flatten.2 ⟨f, List.mem_filter.2 ⟨hf, ?_⟩, hdf⟩
      simp only [hkeep, List.any_eq_true, decide_eq_true_eq]
      refine ⟨_, hdf, ?_⟩
      by_contra hlt
      have := (hN X hXN).1 (by simpa using hlt)
      omega
    have hcount := (List.subperm_of_subset hD hsub).countP_le (fun d => d.1 == gi X)
    rw [List.countP_map] at hcount
    have hc3 : List.countP ((fun d : Dart => d.1 == gi X) ∘ fun w => (gi X, w))
        (Graph.nbrs (addEdges rt [] ds) (gi X)) = (Graph.nbrs (addEdges rt [] ds) (gi X)).length := by
      rw [List.countP_eq_length]
      intro a _
      simp
    have hperm : out.flatten.Perm ((fs.filter keep).flatten.map (·.1)) := by
      rw [List.map_flatten]
      apply List.Perm.flatten_congr
      rw [List.forall₂_map_right_iff]
      refine List.Forall₂.flip (List.Forall₂.imp ?_ hall)
      rintro f r ⟨⟨i, hi, rfl⟩, -⟩
      apply List.Perm.map
      have := List.perm_append_comm (l₁ := f.drop i) (l₂ := f.take i)
      rwa [List.take_append_drop] at this
    rw [hperm.count_eq, List.count_eq_countP, List.countP_map]
    rw [hc3] at hcount
    exact h3.trans hcount

end
end Polyskel
