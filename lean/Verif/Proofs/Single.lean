import Verif.Proofs.Shared
/-
The initial wavefront of one contour, vertex by vertex, and what becomes of it when the contour
starts at another vertex.
-/
namespace Polyskel
open Scalar
set_option linter.unusedSectionVars false
variable {S : Type} [Scalar S]

/-- the constant part of the vertex at corner `i` of the contour -/
def coreAt (c : List (Edge2 S)) (i : Nat) : Option (Core S) :=
  (c[(i + c.length - 1) % c.length]?).bind (fun p => (c[i]?).map (fun n => cornerCore (p, n)))

/-- the entry of `_original_edges` for the edge before corner `i` -/
def origAt (c : List (Edge2 S)) (i : Nat) : Option (OrigEdge S) :=
  (coreAt c ((i + c.length - 1) % c.length)).bind (fun p => (coreAt c i).map (fun v =>
    { edge := v.edgePrev, bisPrev := p.bisector, bisNext := v.bisector }))

theorem cornerPairs_coreAt {c : List (Edge2 S)} {i : Nat} (hi : i < c.length) :
    (cornerPairs c)[i]?.map cornerCore = coreAt c i := by
  rw [cornerPairs_getElem hi]
  unfold coreAt
  have e : (i + c.length - 1) % c.length = if i = 0 then c.length - 1 else i - 1 := by
    split
    · rename_i h; subst h; rw [Nat.mod_eq_of_lt (by omega)]; omega
    · rw [show i + c.length - 1 = i - 1 + c.length by omega, Nat.add_mod_right,
        Nat.mod_eq_of_lt (by omega)]
  have hlt : (if i = 0 then c.length - 1 else i - 1) < c.length := by split <;> omega
  simp only [e, List.getElem?_eq_getElem hlt, List.getElem?_eq_getElem hi, Option.bind_some,
    Option.map_some]

/-- the fields of the vertices of the initial wavefront of one contour -/
structure Initial (c : List (Edge2 S)) (st : St S) : Prop where
  len : st.vs.length = c.length
  slav : st.slav = [0]
  lavs : st.lavs = [{ head := 0, len := c.length }]
  vtx : ∀ i < c.length, ∃ v, st.vs[i]? = some v ∧ v.next = (i + 1) % c.length ∧
    v.prev = (i + c.length - 1) % c.length ∧ v.lav = some 0 ∧ v.valid = true ∧
    coreAt c i = some v.core
  olen : st.orig.length = c.length
  orig : ∀ i < c.length, st.orig[i]? = origAt c i

theorem mkSlav_initial {c : List (Edge2 S)} (h3 : 3 ≤ c.length) :
    ∃ st, mkSlav [c] = .ok st ∧ Initial c st := by
  have hne : c ≠ [] := by rintro rfl; simp at h3
  obtain ⟨st, R, h1, -, -, -, -, -, horig⟩ := mkSlav_loops (cs := [c]) (by simpa using h3)
  refine ⟨st, h1, ?_⟩
  obtain ⟨s1, hp, hb⟩ := fromPolygon_built ({ vs := [], lavs := [], slav := [], orig := [] } : St S) hne
  unfold mkSlav at h1
  obtain ⟨s, hs, h1⟩ := bind_ok.1 h1
  obtain ⟨ids, hids, h1⟩ := bind_ok.1 h1
  obtain ⟨oes, hoes, h1⟩ := bind_ok.1 h1
  simp only [pure_ok, Except.ok.injEq] at h1
  unfold fromContours at hs
  rw [hp, ok_bind] at hs
  simp only [fromContours, Except.ok.injEq] at hs
  subst hs
  have hvs : st.vs = s1.vs := by rw [← h1]
  have hcl := cornerPairs_length c
  have hlen : st.vs.length = c.length := by
    rw [hvs, hb.len, hcl]; simp
  have hvtx : ∀ i < c.length, ∃ v, st.vs[i]? = some v ∧ v.next = (i + 1) % c.length ∧
    v.prev = (i + c.length - 1) % c.length ∧ v.lav = some 0 ∧ v.valid = true ∧
    coreAt c i = some v.core := by
    intro i hi
    have hi' : i < (cornerPairs c).length := by omega
    obtain ⟨v, hv⟩ : ∃ v, st.vs[i]? = some v := ⟨_, List.getElem?_eq_getElem (by omega)⟩
    have hv1 : s1.vs[i]? = some v := by rw [← hvs]; exact hv
    have a1 := hb.nx i hi'
    have a2 := hb.pv i hi'
    have a3 := hb.lv i hi'
    have a4 := hb.vd i hi'
    have a5 := hb.co i hi'
    simp only [List.length_nil, Nat.zero_add] at a1 a2 a3 a4 a5
    simp only [St.nx, St.pv, St.lv, St.vd, St.co, hv1, Option.map_some, Option.some.injEq] at a1 a2 a3 a4
    rw [cornerPairs_coreAt hi] at a5
    simp only [St.co, hv1, Option.map_some] at a5
    refine ⟨v, hv, ?_, ?_, a3, a4, a5.symm⟩
    · rw [a1, hcl]
      split
      · rename_i h; rw [h, Nat.mod_self]
      · rw [Nat.mod_eq_of_lt (by omega)]
    · rw [a2, hcl]
      split
      · rename_i h; subst h; rw [Nat.mod_eq_of_lt (by omega)]; omega
      · rw [show i + c.length - 1 = i - 1 + c.length by omega, Nat.add_mod_right,
          Nat.mod_eq_of_lt (by omega)]
  have hF := mapM_ok horig
  have holen : st.orig.length = c.length := by
    rw [← hF.length_eq, List.length_range, hlen]
  refine ⟨hlen, ?_, ?_, hvtx, holen, ?_⟩
  · rw [← h1]
    show s1.slav ++ [0] = [0]
    rw [hb.slav]; rfl
  · rw [← h1]
    show s1.lavs = _
    rw [hb.lavs, if_neg (by intro e; rw [e] at hcl; simp at hcl; omega), hcl]
    rfl
  · intro i hi
    have hio : i < st.orig.length := by omega
    have := (List.forall₂_iff_get.1 hF).2 i (by simp; omega) hio
    simp only [List.get_eq_getElem, List.getElem_range] at this
    unfold origEdgeOf at this
    obtain ⟨v, hv, this⟩ := bind_ok.1 this
    obtain ⟨p, hp', this⟩ := bind_ok.1 this
    simp only [pure_ok, Except.ok.injEq] at this
    obtain ⟨w, hw, -, hwp, -, -, hwc⟩ := hvtx i hi
    rw [getV_ok, hw] at hv
    cases hv
    obtain ⟨q, hq, -, -, -, -, hqc⟩ := hvtx ((i + c.length - 1) % c.length)
      (Nat.mod_lt _ (by omega))
    rw [getV_ok, hwp, hq] at hp'
    cases hp'
    rw [List.getElem?_eq_getElem hio, ← this]
    unfold origAt
    rw [hwc, hqc]
    rfl

/-! ### Rotation -/

theorem coreAt_rotate (c : List (Edge2 S)) (k : Nat) {i : Nat} (hi : i < c.length) :
    coreAt (c.rotate k) i = coreAt c ((i + k) % c.length) := by
  have hn : 0 < c.length := by omega
  unfold coreAt
  rw [List.length_rotate, List.getElem?_rotate (Nat.mod_lt _ hn), List.getElem?_rotate hi]
  congr 2
  rw [Nat.mod_add_mod]
  have : (i + k) % c.length + c.length - 1 = (i + k) % c.length + (c.length - 1) := by omega
  rw [this, Nat.mod_add_mod]
  congr 1
  omega

theorem origAt_rotate (c : List (Edge2 S)) (k : Nat) {i : Nat} (hi : i < c.length) :
    origAt (c.rotate k) i = origAt c ((i + k) % c.length) := by
  have hn : 0 < c.length := by omega
  unfold origAt
  rw [List.length_rotate, coreAt_rotate c k hi, coreAt_rotate c k (Nat.mod_lt _ hn)]
  congr 2
  rw [Nat.mod_add_mod]
  have : (i + k) % c.length + c.length - 1 = (i + k) % c.length + (c.length - 1) := by omega
  rw [this, Nat.mod_add_mod]
  congr 1
  omega

end Polyskel
