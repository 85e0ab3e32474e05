import Verif.Proofs.RoofCore
import Verif.Spec.Mesh
import Verif.Model.Demo
import Verif.Props.Basic
/-
Lemmas for C74: walls and roof fit together.
-/
namespace Polyskel
open Scalar Geo

theorem mem_polygonDarts {first num : Nat} {d : Int × Int} : d ∈ polygonDarts first num ↔
    ∃ k, k < num ∧ d = (((first + k : Nat) : Int), ((first + (k + 1) % num : Nat) : Int)) := by
  simp only [polygonDarts, List.mem_map, List.mem_range]
  constructor
  · rintro ⟨k, hk, rfl⟩; exact ⟨k, hk, rfl⟩
  · rintro ⟨k, hk, rfl⟩; exact ⟨k, hk, rfl⟩

theorem mem_meshDarts {fs : List (List Int)} {d : Int × Int} : d ∈ meshDarts fs ↔
    ∃ f ∈ fs, ∃ i, f[i]? = some d.1 ∧ f[(i + 1) % f.length]? = some d.2 := by
  simp only [meshDarts, List.mem_flatMap]
  constructor
  · rintro ⟨f, hf, hd⟩
    obtain ⟨i, hi⟩ := List.mem_iff_getElem?.1 hd
    rw [List.getElem?_zip_eq_some] at hi
    obtain ⟨h1, h2⟩ := hi
    have hl := (List.getElem?_eq_some_iff.1 h1).1
    rw [List.getElem?_rotate hl] at h2
    exact ⟨f, hf, i, h1, h2⟩
  · rintro ⟨f, hf, i, h1, h2⟩
    have hl := (List.getElem?_eq_some_iff.1 h1).1
    refine ⟨f, hf, List.mem_iff_getElem?.2 ⟨i, ?_⟩⟩
    rw [List.getElem?_zip_eq_some, List.getElem?_rotate hl]
    exact ⟨h1, h2⟩

/-- the same edge between vertices with other numbers -/
def renumber (t : Nat) (e : Edge2 ℝ) : Edge2 ℝ := { e with i1 := t + e.i1, i2 := t + e.i2 }

theorem sides_renumber (t n : Nat) (P : Nat → V2 ℝ) : sides t n P = (sides 0 n P).map (renumber t) := by
  simp [sides, renumber, Function.comp_def]

private theorem three_renumber {t : Nat} {c : List (Edge2 ℝ)} {p : V2 ℝ} {h : ℝ}
    (hn : ∃ e1 ∈ c.map (renumber t), ∃ e2 ∈ c.map (renumber t), ∃ e3 ∈ c.map (renumber t),
      e1 ≠ e2 ∧ e2 ≠ e3 ∧ e1 ≠ e3 ∧
      height e1.p1 e1.norm p = h ∧ height e2.p1 e2.norm p = h ∧ height e3.p1 e3.norm p = h) :
    ∃ e1 ∈ c, ∃ e2 ∈ c, ∃ e3 ∈ c, e1 ≠ e2 ∧ e2 ≠ e3 ∧ e1 ≠ e3 ∧
      height e1.p1 e1.norm p = h ∧ height e2.p1 e2.norm p = h ∧ height e3.p1 e3.norm p = h := by
  obtain ⟨e1, m1, e2, m2, e3, m3, n1, n2, n3, h1, h2, h3⟩ := hn
  obtain ⟨e1, q1, rfl⟩ := List.mem_map.1 m1
  obtain ⟨e2, q2, rfl⟩ := List.mem_map.1 m2
  obtain ⟨e3, q3, rfl⟩ := List.mem_map.1 m3
  exact ⟨e1, q1, e2, q2, e3, q3, fun h => n1 (by rw [h]), fun h => n2 (by rw [h]), fun h => n3 (by rw [h]),
    h1, h2, h3⟩

theorem Separated.renumber {c : List (Edge2 ℝ)} (hs : Separated c) (t : Nat) :
    Separated (c.map (renumber t)) := by
  rintro h h' ⟨p, h1⟩ ⟨q, h2⟩ h0 hlt
  exact hs h h' ⟨_, three_renumber h1⟩ ⟨_, three_renumber h2⟩ h0 hlt

theorem NodesApart.renumber {c : List (Edge2 ℝ)} (ha : NodesApart c) (t : Nat) :
    NodesApart (c.map (renumber t)) := by
  have hr : ∀ {p h}, RoofNode (c.map (Polyskel.renumber t)) p h → RoofNode c p h := fun hn =>
    ⟨fun e he => hn.least (Polyskel.renumber t e) (List.mem_map.2 ⟨e, he, rfl⟩), three_renumber hn.three⟩
  exact fun p h p' h' hn hn' hne => ha _ _ _ _ (hr hn) (hr hn') hne

theorem Blunt.renumber {c : List (Edge2 ℝ)} (hb : Blunt c) (t : Nat) : Blunt (c.map (renumber t)) := by
  refine ⟨?_, ?_⟩
  · intro e he f hf g hg h1 h2 h3
    obtain ⟨e, he', rfl⟩ := List.mem_map.1 he
    obtain ⟨f, hf', rfl⟩ := List.mem_map.1 hf
    obtain ⟨g, hg', rfl⟩ := List.mem_map.1 hg
    exact hb.1 e he' f hf' g hg' (fun h => h1 (by rw [h])) (fun h => h2 (by rw [h])) (fun h => h3 (by rw [h]))
  · intro e he f hf hef
    obtain ⟨e, he', rfl⟩ := List.mem_map.1 he
    obtain ⟨f, hf', rfl⟩ := List.mem_map.1 hf
    exact hb.2 e he' f hf' hef

/-- the roof over a convex polygon is a surface bounded by the polygon -/
theorem roof_bounded {a : PolyArgs ℝ} {c : List (Edge2 ℝ)} {z slope : ℝ} {verts : List (V3 ℝ)}
    {fs : List (List Int)} {σ : List Nat} (h3 : 3 ≤ a.num)
    (hfit : a.first + a.num ≤ a.verts.length)
    (hnd : (fs.flatMap (fun f => f.zip (f.rotate 1))).Nodup)
    (hpair : ∀ d ∈ fs.flatMap (fun f => f.zip (f.rotate 1)), (a.verts.length : Int) ≤ d.1 ∨
      (a.verts.length : Int) ≤ d.2 → (d.2, d.1) ∈ fs.flatMap (fun f => f.zip (f.rotate 1)))
    (hσ : σ.Perm (List.range a.num))
    (hF : List.Forall₂ (fun k f => ∃ e, RoofFace a c e z slope verts k f) σ fs) :
    Bounded fs (polygonDarts a.first a.num) ∧
      ∀ d ∈ meshDarts fs, (a.first : Int) ≤ d.1 ∧ (a.first : Int) ≤ d.2 := by
  have hface : ∀ f ∈ fs, ∃ k e, k < a.num ∧ RoofFace a c e z slope verts k f := by
    intro f hf
    obtain ⟨i, hi⟩ := List.mem_iff_getElem?.1 hf
    have hl := (List.getElem?_eq_some_iff.1 hi).1
    have hl' : i < σ.length := by rw [hF.length_eq]; exact hl
    obtain ⟨e, he⟩ := (List.forall₂_iff_get.1 hF).2 i hl' hl
    refine ⟨σ[i], e, ?_, ?_⟩
    · have := hσ.mem_iff.1 (List.getElem_mem hl')
      simpa using this
    · simpa [(List.getElem?_eq_some_iff.1 hi).2] using he
  have hof : ∀ k, k < a.num → ∃ f ∈ fs, ∃ e, RoofFace a c e z slope verts k f := by
    intro k hk
    obtain ⟨i, hi⟩ := List.mem_iff_getElem?.1 (hσ.mem_iff.2 (List.mem_range.2 hk))
    have hl := (List.getElem?_eq_some_iff.1 hi).1
    have hl' : i < fs.length := by rw [← hF.length_eq]; exact hl
    obtain ⟨e, he⟩ := (List.forall₂_iff_get.1 hF).2 i hl hl'
    refine ⟨fs[i], List.getElem_mem hl', e, ?_⟩
    simpa [(List.getElem?_eq_some_iff.1 hi).2] using he
  -- the directed edges
  have hdart : ∀ d ∈ meshDarts fs, (∃ k, k < a.num ∧
      d = (((a.first + k : Nat) : Int), ((a.first + (k + 1) % a.num : Nat) : Int))) ∨
      (((a.verts.length : Int) ≤ d.1 ∨ (a.verts.length : Int) ≤ d.2) ∧
        (a.first : Int) ≤ d.1 ∧ (a.first : Int) ≤ d.2) := by
    intro d hd
    obtain ⟨f, hf, i, h1, h2⟩ := mem_meshDarts.1 hd
    obtain ⟨k, e, hk, hr⟩ := hface f hf
    have hs := hr.size
    have hlow : ∀ v ∈ f, (a.first : Int) ≤ v := by
      intro v hv
      obtain ⟨j, hj⟩ := List.mem_iff_getElem?.1 hv
      rcases Nat.lt_or_ge j 2 with h | h
      · rcases (show j = 0 ∨ j = 1 by omega) with rfl | rfl
        · rw [hr.first] at hj; simp only [Option.some.injEq] at hj; omega
        · rw [hr.second] at hj; simp only [Option.some.injEq] at hj; omega
      · have := (hr.plane j v h hj).1
        omega
    have hb := And.intro (hlow _ (List.mem_of_getElem? h1)) (hlow _ (List.mem_of_getElem? h2))
    rcases Nat.lt_or_ge i 2 with h | h
    · rcases (show i = 0 ∨ i = 1 by omega) with rfl | rfl
      · left
        refine ⟨k, hk, ?_⟩
        rw [hr.first] at h1
        rw [Nat.mod_eq_of_lt (by omega), hr.second] at h2
        simp only [Option.some.injEq] at h1 h2
        exact Prod.ext h1.symm h2.symm
      · right
        rw [Nat.mod_eq_of_lt (by omega)] at h2
        exact ⟨.inr (hr.plane 2 _ le_rfl h2).1, hb⟩
    · exact .inr ⟨.inl (hr.plane i _ h h1).1, hb⟩
  refine ⟨⟨hnd, ?_, ?_⟩, ?_⟩
  · intro d hd
    obtain ⟨k, hk, rfl⟩ := mem_polygonDarts.1 hd
    obtain ⟨f, hf, e, hr⟩ := hof k hk
    have hs := hr.size
    refine mem_meshDarts.2 ⟨f, hf, 0, hr.first, ?_⟩
    rw [Nat.mod_eq_of_lt (by omega)]
    exact hr.second
  · intro d hd
    have hm : ∀ k, k < a.num → (k + 1) % a.num < a.num := fun k _ => Nat.mod_lt _ (by omega)
    constructor
    · intro hn
      rcases hdart d hd with h | ⟨h, -⟩
      · exact mem_polygonDarts.2 h
      · exact absurd (hpair d hd h) hn
    · intro hb hrev
      obtain ⟨k, hk, rfl⟩ := mem_polygonDarts.1 hb
      have hk' := hm k hk
      rcases hdart _ hrev with ⟨j, hj, h⟩ | ⟨h, -⟩
      · simp only [Prod.mk.injEq] at h
        have hj' := hm j hj
        rcases Nat.lt_or_ge (k + 1) a.num with h1 | h1
        · rw [Nat.mod_eq_of_lt h1] at h
          rcases Nat.lt_or_ge (j + 1) a.num with h2 | h2
          · rw [Nat.mod_eq_of_lt h2] at h; omega
          · rw [show j + 1 = a.num by omega, Nat.mod_self] at h; omega
        · rw [show k + 1 = a.num by omega, Nat.mod_self] at h
          rcases Nat.lt_or_ge (j + 1) a.num with h2 | h2
          · rw [Nat.mod_eq_of_lt h2] at h; omega
          · rw [show j + 1 = a.num by omega, Nat.mod_self] at h; omega
      · simp only at h
        omega
  · intro d hd
    rcases hdart d hd with ⟨k, hk, rfl⟩ | ⟨-, h⟩
    · simp only; omega
    · exact h

/-- the vertex before -/
def wallPrev (n i : Nat) : Nat := (i + n - 1) % n

theorem wallPrev_lt {n i : Nat} (h : i < n) : wallPrev n i < n := Nat.mod_lt _ (by omega)

theorem wallPrev_cases {n i : Nat} (h : i < n) : (i = 0 ∧ wallPrev n i = n - 1) ∨ (0 < i ∧ wallPrev n i = i - 1) := by
  unfold wallPrev
  rcases Nat.eq_zero_or_pos i with rfl | h0
  · left; exact ⟨rfl, by rw [Nat.mod_eq_of_lt (by omega)]; omega⟩
  · right; refine ⟨h0, ?_⟩
    rw [show i + n - 1 = (i - 1) + n by omega, Nat.add_mod_right, Nat.mod_eq_of_lt (by omega)]

theorem wallFaces_eq {first n : Nat} {W : List (List Int)} (h : wallFaces first n = .ok W) :
    W = (List.range n).map fun i => [(wallPrev n i : Int), (i : Int), (i : Int) + first, (wallPrev n i : Int) + first] := by
  have hi : ∀ l : List Nat, iterPrevThis l = iterPrevNext l := fun _ => rfl
  unfold wallFaces at h
  obtain ⟨ps, hps, h⟩ := bind_ok.1 h
  rw [hi] at hps
  have hne : List.range n ≠ [] := by
    rintro e
    rw [e] at hps
    cases hps
  obtain ⟨r, h1, h2, h3⟩ := C06_iterPrevNext _ hne
  rw [hps] at h1
  cases h1
  simp only [pure_ok, Except.ok.injEq] at h
  subst h
  apply List.ext_getElem?
  intro i
  simp only [List.getElem?_map]
  rcases Nat.lt_or_ge i n with hin | hin
  · rw [h3 i (by simpa using hin)]
    simp [hin, wallPrev]
  · rw [List.getElem?_eq_none (by rw [h2]; simpa using hin), List.getElem?_eq_none (by simpa using hin)]
    rfl

theorem wallFaces_some (first n : Nat) (hn : 0 < n) : ∃ W, wallFaces first n = .ok W := by
  unfold wallFaces
  obtain ⟨r, h1, -⟩ := C06_iterPrevNext (List.range n) (by simp; omega)
  exact ⟨_, by rw [show iterPrevThis (List.range n) = _ from h1, ok_bind]; rfl⟩

theorem mem_wallDarts {n : Nat} {d : Int × Int} :
    d ∈ meshDarts ((List.range n).map fun i =>
      [(wallPrev n i : Int), (i : Int), (i : Int) + n, (wallPrev n i : Int) + n]) ↔
    ∃ i, i < n ∧ (d = ((wallPrev n i : Int), (i : Int)) ∨ d = ((i : Int), (i : Int) + n) ∨
      d = ((i : Int) + n, (wallPrev n i : Int) + n) ∨ d = ((wallPrev n i : Int) + n, (wallPrev n i : Int))) := by
  simp only [meshDarts, List.mem_flatMap, List.mem_map, List.mem_range]
  constructor
  · rintro ⟨f, ⟨i, hi, rfl⟩, hd⟩
    refine ⟨i, hi, ?_⟩
    simpa [List.rotate] using hd
  · rintro ⟨i, hi, hd⟩
    refine ⟨_, ⟨i, hi, rfl⟩, ?_⟩
    simpa [List.rotate] using hd

theorem polygonDarts_prev {first n : Nat} {d : Int × Int} : d ∈ polygonDarts first n ↔
    ∃ i, i < n ∧ d = ((wallPrev n i : Int) + first, (i : Int) + first) := by
  rw [mem_polygonDarts]
  constructor
  · rintro ⟨k, hk, rfl⟩
    refine ⟨(k + 1) % n, Nat.mod_lt _ (by omega), ?_⟩
    rcases Nat.lt_or_ge (k + 1) n with h | h
    · rw [Nat.mod_eq_of_lt h]
      rcases wallPrev_cases h with ⟨h1, -⟩ | ⟨-, h2⟩
      · omega
      · rw [h2]; ext <;> (simp; try omega)
    · have hkn : k + 1 = n := by omega
      rw [hkn, Nat.mod_self]
      rcases wallPrev_cases (show 0 < n by omega) with ⟨-, h2⟩ | ⟨h1, -⟩
      · rw [h2]; ext <;> (simp; try omega)
      · omega
  · rintro ⟨i, hi, rfl⟩
    refine ⟨wallPrev n i, wallPrev_lt hi, ?_⟩
    rcases wallPrev_cases hi with ⟨rfl, h2⟩ | ⟨h1, h2⟩
    · rw [h2, show n - 1 + 1 = n by omega, Nat.mod_self]; ext <;> (simp; try omega)
    · rw [h2, Nat.mod_eq_of_lt (by omega)]; ext <;> (simp; try omega)

/-- a surface over the eaves, closed by walls, is bounded by the ground -/
theorem walls_bounded {n : Nat} (hn : 3 ≤ n) {W roof : List (List Int)} (hW : wallFaces n n = .ok W)
    (hr : Bounded roof (polygonDarts n n)) (hlow : ∀ d ∈ meshDarts roof, (n : Int) ≤ d.1 ∧ (n : Int) ≤ d.2) :
    Bounded (W ++ roof) (polygonDarts 0 n) := by
  have hsplit : meshDarts (W ++ roof) = meshDarts W ++ meshDarts roof := by simp [meshDarts]
  rw [wallFaces_eq hW] at hsplit ⊢
  have hnotroof : ∀ i, i < n → ((i : Int) + n, (wallPrev n i : Int) + n) ∉ meshDarts roof := by
    intro i hi hm
    have hb : ((wallPrev n i : Int) + n, (i : Int) + n) ∈ polygonDarts n n := polygonDarts_prev.2 ⟨i, hi, rfl⟩
    exact (hr.match_iff _ (hr.bord _ hb)).2 hb hm
  have hpp : ∀ i, i < n → ∀ j, j < n → wallPrev n i = j → wallPrev n j = i → False := by
    intro i hi j hj h1 h2
    rcases wallPrev_cases hi with h | h <;> rcases wallPrev_cases hj with h' | h' <;> omega
  have hpi : ∀ i, i < n → ∀ j, j < n → wallPrev n i = wallPrev n j → i = j := by
    intro i hi j hj h1
    rcases wallPrev_cases hi with h | h <;> rcases wallPrev_cases hj with h' | h' <;> omega
  have hpn : ∀ i, i < n → wallPrev n i ≠ i := by
    intro i hi h1
    rcases wallPrev_cases hi with h | h <;> omega
  have hpl : ∀ i, i < n → wallPrev n i < n := fun i hi => wallPrev_lt hi
  refine ⟨?_, ?_, ?_⟩
  · rw [hsplit, List.nodup_append]
    refine ⟨?_, hr.once, ?_⟩
    · unfold meshDarts
      rw [List.flatMap_map, List.nodup_flatMap]
      constructor
      · intro i hi
        have hi := List.mem_range.1 hi
        have := hpl i hi
        have := hpn i hi
        simp [List.rotate]
        omega
      · refine List.Pairwise.imp_of_mem ?_ (List.nodup_range (n := n))
        intro i j hi hj hij
        have hi := List.mem_range.1 hi
        have hj := List.mem_range.1 hj
        have h1 := hpl i hi
        have h2 := hpl j hj
        have h3 := hpp i hi j hj
        have h4 := hpi i hi j hj
        have h5 := hpn i hi
        have h6 := hpn j hj
        intro d hd1 hd2
        rcases d with ⟨x, y⟩
        simp [List.rotate] at hd1 hd2
        omega
    · intro d hd e he hde
      subst hde
      obtain ⟨i, hi, h⟩ := mem_wallDarts.1 hd
      have hl := hlow d he
      have := hpl i hi
      rcases h with rfl | rfl | rfl | rfl
      · simp only at hl; omega
      · simp only at hl; omega
      · exact hnotroof i hi he
      · simp only at hl; omega
  · intro d hd
    obtain ⟨i, hi, rfl⟩ := polygonDarts_prev.1 hd
    rw [hsplit, List.mem_append]
    left
    exact mem_wallDarts.2 ⟨i, hi, .inl (by simp)⟩
  · intro d hd
    rw [hsplit] at hd ⊢
    have hround : ∀ i, i < n → ∃ j, j < n ∧ wallPrev n j = i := by
      intro i hi
      rcases Nat.lt_or_ge (i + 1) n with h | h
      · refine ⟨i + 1, h, ?_⟩
        rcases wallPrev_cases h with h' | h' <;> omega
      · refine ⟨0, by omega, ?_⟩
        rcases wallPrev_cases (show 0 < n by omega) with h' | h' <;> omega
    rcases List.mem_append.1 hd with hd | hd
    · obtain ⟨i, hi, h⟩ := mem_wallDarts.1 hd
      have hpl' := hpl i hi
      rcases h with rfl | rfl | rfl | rfl
      · refine ⟨fun _ => polygonDarts_prev.2 ⟨i, hi, by simp⟩, fun _ hrev => ?_⟩
        rcases List.mem_append.1 hrev with h | h
        · obtain ⟨j, hj, h⟩ := mem_wallDarts.1 h
          have := hpl j hj
          simp only [Prod.mk.injEq] at h
          rcases h with h | h | h | h
          · exact hpp i hi j hj (by omega) (by omega)
          all_goals omega
        · have := hlow _ h
          simp only at this
          omega
      · refine ⟨fun h => absurd ?_ h, fun h => ?_⟩
        · obtain ⟨j, hj, he⟩ := hround i hi
          exact List.mem_append_left _ (mem_wallDarts.2 ⟨j, hj, .inr (.inr (.inr (by rw [he])))⟩)
        · obtain ⟨j, hj, h⟩ := polygonDarts_prev.1 h
          simp only [Prod.mk.injEq] at h
          omega
      · refine ⟨fun h => absurd ?_ h, fun h => ?_⟩
        · exact List.mem_append_right _ (hr.bord _ (polygonDarts_prev.2 ⟨i, hi, rfl⟩))
        · obtain ⟨j, hj, h⟩ := polygonDarts_prev.1 h
          simp only [Prod.mk.injEq] at h
          omega
      · refine ⟨fun h => absurd ?_ h, fun h => ?_⟩
        · exact List.mem_append_left _ (mem_wallDarts.2 ⟨_, hpl', .inr (.inl rfl)⟩)
        · obtain ⟨j, hj, h⟩ := polygonDarts_prev.1 h
          have := hpl j hj
          simp only [Prod.mk.injEq] at h
          omega
    · have hl := hlow _ hd
      refine ⟨fun h => absurd ?_ h, fun h => ?_⟩
      · by_cases hb : (d.2, d.1) ∈ meshDarts roof
        · exact List.mem_append_right _ hb
        · obtain ⟨i, hi, rfl⟩ := polygonDarts_prev.1 ((hr.match_iff d hd).1 hb)
          exact List.mem_append_left _ (mem_wallDarts.2 ⟨i, hi, .inr (.inr (.inl rfl))⟩)
      · obtain ⟨j, hj, rfl⟩ := polygonDarts_prev.1 h
        simp only at hl
        omega

end Polyskel
