import Verif.Spec.RunOff
import Verif.Props.ConvexUnique
import Verif.Props.RoofCells
import Mathlib.Logic.Relation
/-
For C78: the line straight down from a point of a face, and the lower neighbour of a node.
-/
namespace Polyskel
open Scalar Geo Real

/-! ### straight down -/

private theorem eucl_sq (p q : V2 ℝ) : eucl p q ^ 2 = (p.x - q.x) ^ 2 + (p.y - q.y) ^ 2 := by
  unfold eucl
  exact Real.sq_sqrt (by positivity)

/-- going outwards by `t` takes a point nearer to the own side by `t`, and to no other side by more -/
theorem sideDist_outwards {n k j : Nat} {P : Nat → V2 ℝ} {t : ℝ} {X : V2 ℝ}
    (hk : 0 < eucl (P k) (P ((k + 1) % n))) (hj : 0 < eucl (P j) (P ((j + 1) % n))) (ht : 0 ≤ t) :
    sideDist n P k (outwards n P k t X) = sideDist n P k X - t ∧
    sideDist n P j X - t ≤ sideDist n P j (outwards n P k t X) := by
  have qk := eucl_sq (P k) (P ((k + 1) % n))
  have qj := eucl_sq (P j) (P ((j + 1) % n))
  set lk := eucl (P k) (P ((k + 1) % n))
  set lj := eucl (P j) (P ((j + 1) % n))
  set ax := (P ((k + 1) % n)).x - (P k).x with hax
  set ay := (P ((k + 1) % n)).y - (P k).y with hay
  set bx := (P ((j + 1) % n)).x - (P j).x with hbx
  set bY := (P ((j + 1) % n)).y - (P j).y with hby
  have ek : lk ^ 2 = ax ^ 2 + ay ^ 2 := by rw [qk]; ring
  have ej : lj ^ 2 = bx ^ 2 + bY ^ 2 := by rw [qj]; ring
  have key : ∀ i, sideDist n P i (outwards n P k t X) = sideDist n P i X -
      t * ((((P ((i + 1) % n)).x - (P i).x) * ax + ((P ((i + 1) % n)).y - (P i).y) * ay) / lk) /
        eucl (P i) (P ((i + 1) % n)) := by
    intro i
    simp only [sideDist, outwards, area2]
    rw [← hax, ← hay]
    change _ = _
    have : eucl (P k) (P ((k + 1) % n)) = lk := rfl
    rw [this]
    ring
  constructor
  · rw [key k, ← hax, ← hay]
    change _ - t * _ / lk = _
    have : ax * ax + ay * ay = lk * lk := by nlinarith
    rw [this]
    field_simp
  · rw [key j, ← hbx, ← hby]
    change _ ≤ _ - t * _ / lj
    have hle : (bx * ax + bY * ay) ≤ lk * lj := by
      have hs : (bx * ax + bY * ay) ^ 2 ≤ (lk * lj) ^ 2 := by
        rw [mul_pow, ek, ej]
        nlinarith [sq_nonneg (bx * ay - bY * ax)]
      exact abs_le_of_sq_le_sq' hs (by positivity) |>.2
    have : (bx * ax + bY * ay) / lk / lj ≤ 1 := by
      rw [div_div, div_le_one (by positivity)]
      exact hle
    have h2 : t * ((bx * ax + bY * ay) / lk) / lj ≤ t := by
      rw [mul_div_assoc]
      nlinarith
    linarith

private theorem foot_between {n k : Nat} {P : Nat → V2 ℝ} (h3 : 3 ≤ n) (hk : k < n)
    (hleft : ∀ i j, i < n → j < n → j ≠ i → j ≠ (i + 1) % n → 0 < area2 (P i) (P ((i + 1) % n)) (P j))
    (hlen : ∀ k, k < n → 0 < eucl (P k) (P ((k + 1) % n))) {F : V2 ℝ} (h0 : sideDist n P k F = 0)
    (hF : ∀ j, j < n → 0 ≤ sideDist n P j F) :
    ∃ u, 0 ≤ u ∧ u ≤ 1 ∧ F = Geo.between (P k) (P ((k + 1) % n)) u := by
  have hl := hlen k hk
  have q := eucl_sq (P k) (P ((k + 1) % n))
  have harea : ∀ j, j < n → 0 ≤ area2 (P j) (P ((j + 1) % n)) F := by
    intro j hj
    have := hF j hj
    unfold sideDist at this
    by_contra hcon
    have := div_neg_of_neg_of_pos (not_le.1 hcon) (hlen j hj)
    linarith
  have hz : area2 (P k) (P ((k + 1) % n)) F = 0 := by
    unfold sideDist at h0
    rcases div_eq_zero_iff.1 h0 with h | h
    · exact h
    · exact absurd h hl.ne'
  -- the neighbouring sides
  have hk1 : (k + 1) % n < n := Nat.mod_lt _ (by omega)
  have hne1 : k ≠ (k + 1) % n := by
    rcases Nat.lt_or_ge (k + 1) n with h | h
    · rw [Nat.mod_eq_of_lt h]; omega
    · rw [show k + 1 = n by omega, Nat.mod_self]; omega
  have hne2 : k ≠ ((k + 1) % n + 1) % n := by
    rw [Nat.mod_add_mod]
    rcases Nat.lt_or_ge (k + 2) n with h | h
    · rw [Nat.mod_eq_of_lt (by omega)]; omega
    · rcases Nat.lt_or_ge (k + 1) n with h' | h'
      · rw [show k + 1 + 1 = n by omega, Nat.mod_self]; omega
      · rw [show k + 1 + 1 = n + 1 by omega, Nat.add_mod_left, Nat.mod_eq_of_lt (by omega)]; omega
  have a1 := hleft ((k + 1) % n) k hk1 hk hne1 hne2
  have b1 := harea ((k + 1) % n) hk1
  obtain ⟨m, hm, hmk⟩ : ∃ m < n, (m + 1) % n = k := by
    rcases Nat.eq_zero_or_pos k with h | h
    · exact ⟨n - 1, by omega, by rw [Nat.sub_add_cancel (by omega), Nat.mod_self, h]⟩
    · exact ⟨k - 1, by omega, by rw [Nat.sub_add_cancel (by omega), Nat.mod_eq_of_lt hk]⟩
  have hm1 : (k + 1) % n ≠ m := by
    rintro rfl
    exact hne2 hmk.symm
  have a2 := hleft m ((k + 1) % n) hm hk1 hm1 (by rw [hmk]; exact hne1.symm)
  have b2 := harea m hm
  rw [hmk] at a2 b2
  set A := P k
  set B := P ((k + 1) % n)
  set C := P (((k + 1) % n + 1) % n)
  set D := P m
  have hAB : 0 < (B.x - A.x) ^ 2 + (B.y - A.y) ^ 2 := by
    have : 0 < eucl A B ^ 2 := by positivity
    rw [q] at this
    linarith [this, show (A.x - B.x) ^ 2 + (A.y - B.y) ^ 2 = (B.x - A.x) ^ 2 + (B.y - A.y) ^ 2 by ring]
  set d := (B.x - A.x) ^ 2 + (B.y - A.y) ^ 2 with hd
  set u := ((F.x - A.x) * (B.x - A.x) + (F.y - A.y) * (B.y - A.y)) / d with hu
  have hud : u * d = (F.x - A.x) * (B.x - A.x) + (F.y - A.y) * (B.y - A.y) := by
    rw [hu]; field_simp
  unfold area2 at hz
  have fx : F.x = A.x + u * (B.x - A.x) := by
    apply mul_left_cancel₀ hAB.ne'
    have : d * (A.x + u * (B.x - A.x)) = d * A.x + (u * d) * (B.x - A.x) := by ring
    rw [this, hud, hd]
    linear_combination -(B.y - A.y) * hz
  have fy : F.y = A.y + u * (B.y - A.y) := by
    apply mul_left_cancel₀ hAB.ne'
    have : d * (A.y + u * (B.y - A.y)) = d * A.y + (u * d) * (B.y - A.y) := by ring
    rw [this, hud, hd]
    linear_combination (B.x - A.x) * hz
  refine ⟨u, ?_, ?_, ?_⟩
  · have : area2 D A F = u * area2 D A B := by
      unfold area2; rw [fx, fy]; ring
    rw [this] at b2
    exact nonneg_of_mul_nonneg_left b2 a2
  · have : area2 B C F = (1 - u) * area2 B C A := by
      unfold area2; rw [fx, fy]; ring
    rw [this] at b1
    linarith [nonneg_of_mul_nonneg_left b1 a1]
  · cases hF' : F
    rw [hF'] at fx fy
    simp only at fx fy
    unfold Geo.between
    rw [fx, fy]

/-- a face that covers what is nearest to its side is drained by it -/
theorem drained_of_cell {n k : Nat} {P : Nat → V2 ℝ} (h3 : 3 ≤ n) (hk : k < n)
    (hleft : ∀ i j, i < n → j < n → j ≠ i → j ≠ (i + 1) % n → 0 < area2 (P i) (P ((i + 1) % n)) (P j))
    (hlen : ∀ k, k < n → 0 < eucl (P k) (P ((k + 1) % n))) {verts : List (V3 ℝ)} {f : List Int}
    (h : ∀ X, OverFace verts f X ↔ 0 ≤ sideDist n P k X ∧ ∀ j, j < n → sideDist n P k X ≤ sideDist n P j X) :
    Drained n P verts k f := by
  intro X hX
  obtain ⟨h0, h1⟩ := (h X).1 hX
  have key : ∀ t, 0 ≤ t → t ≤ sideDist n P k X → OverFace verts f (outwards n P k t X) := by
    intro t ht hle
    refine (h _).2 ⟨?_, fun j hj => ?_⟩
    · rw [(sideDist_outwards (hlen k hk) (hlen k hk) ht).1]; linarith
    · obtain ⟨e1, e2⟩ := sideDist_outwards (X := X) (hlen k hk) (hlen j hj) ht
      rw [e1]
      linarith [h1 j hj]
  refine ⟨key, ?_⟩
  have hF := (h _).1 (key _ h0 le_rfl)
  have e0 := (sideDist_outwards (X := X) (hlen k hk) (hlen k hk) h0).1
  rw [sub_self] at e0
  exact foot_between h3 hk hleft hlen e0 fun j hj => hF.1.trans (hF.2 j hj)

/-! ### from node to node -/

/-- a corner of a cell that is not on the edge has a lower neighbour -/
theorem CellRing.lower {c : List (Edge2 ℝ)} {e : Edge2 ℝ} {n : Nat} {Q : Nat → V2 ℝ} (h : CellRing c e n Q)
    (hal : ∃ r > 0, e.p2.x - e.p1.x = r * e.norm.x ∧ e.p2.y - e.p1.y = r * e.norm.y)
    {i : Nat} (h2 : 2 ≤ i) (hi : i < n) :
    height e.p1 e.norm (Q (i - 1)) < height e.p1 e.norm (Q i) ∨
    height e.p1 e.norm (Q ((i + 1) % n)) < height e.p1 e.norm (Q i) := by
  by_contra hcon
  push Not at hcon
  obtain ⟨c1, c2⟩ := hcon
  have h0 : 0 < n := by omega
  have hQ0 : height e.p1 e.norm (Q 0) = 0 := by rw [h.first]; simp [height]
  have ho := (h.over hal (Q 0)).2 ⟨hQ0.ge, h.near 0 h0⟩
  have hl := h.left (i - 1) (by omega)
  have x1 := ho (i - 1) (by omega)
  have x2 := ho i hi
  rw [show i - 1 + 1 = i by omega, Nat.mod_eq_of_lt hi] at hl x1
  rw [show i - 1 + 2 = i + 1 by omega] at hl
  have hin := h.inside i h2 hi
  set U := Q (i - 1)
  set T := Q i
  set W := Q ((i + 1) % n)
  set E := Q 0
  have key : area2 U T W * (height e.p1 e.norm E - height e.p1 e.norm T) =
      area2 T W E * (height e.p1 e.norm U - height e.p1 e.norm T) +
      area2 U T E * (height e.p1 e.norm W - height e.p1 e.norm T) := by
    unfold area2 height; ring
  have t1 := mul_nonneg x2 (sub_nonneg.2 c1)
  have t2 := mul_nonneg x1 (sub_nonneg.2 c2)
  have := mul_pos hl (sub_pos.2 (by rw [hQ0]; exact hin :
    height e.p1 e.norm E < height e.p1 e.norm T))
  nlinarith

theorem eucl_of_left {n : Nat} {P : Nat → V2 ℝ} (h3 : 3 ≤ n)
    (hleft : ∀ i j, i < n → j < n → j ≠ i → j ≠ (i + 1) % n → 0 < area2 (P i) (P ((i + 1) % n)) (P j)) :
    ∀ k, k < n → 0 < eucl (P k) (P ((k + 1) % n)) := by
  intro k hk
  apply eucl_pos
  intro he
  have := points_distinct h3 hleft hk (Nat.mod_lt _ (by omega)) he
  rcases Nat.lt_or_ge (k + 1) n with h | h
  · rw [Nat.mod_eq_of_lt h] at this; omega
  · rw [show k + 1 = n by omega, Nat.mod_self] at this; omega

/-- from the properties of C62: all faces are drained, and every node of a face has a lower neighbour -/
theorem runoff_core {a : PolyArgs ℝ} {P : Nat → V2 ℝ} {z slope : ℝ} {V : List (V3 ℝ)} {fs : List (List Int)}
    {σ : List Nat} (h3 : 3 ≤ a.num)
    (hv : ∀ k, k < a.num → ∃ A, V[a.first + k]? = some A ∧ A.xy = P k ∧ A.z = z)
    (hfv : ∀ k, k < a.num → a.first + k < a.verts.length)
    (hleft : ∀ i j, i < a.num → j < a.num → j ≠ i → j ≠ (i + 1) % a.num →
      0 < area2 (P i) (P ((i + 1) % a.num)) (P j))
    (hσ : σ.Perm (List.range a.num))
    (h : List.Forall₂ (fun k f => ∃ e, (sides a.first a.num P)[k]? = some e ∧
        RoofFace a (sides a.first a.num P) e z slope V k f) σ fs) (hs : 0 < slope)
    (hon : ∀ v : Nat, a.verts.length ≤ v → v < V.length → ∃ f ∈ fs, (v : Int) ∈ f) :
    List.Forall₂ (fun k f => f[0]? = some ((a.first + k : Nat) : Int) ∧
      f[1]? = some ((a.first + (k + 1) % a.num : Nat) : Int) ∧ Drained a.num P V k f) σ fs ∧
    ∀ v : Nat, a.verts.length ≤ v → v < V.length → ∃ k, k < a.num ∧
      Relation.TransGen (Below V fs) v (a.first + k) := by
  have hV : ∀ k, k < a.num → ∃ A, V[a.first + k]? = some A ∧ A.xy = P k := fun k hk => by
    obtain ⟨A, h1, h2, -⟩ := hv k hk
    exact ⟨A, h1, h2⟩
  have ht := tiles_of_faces h3 hV hleft hσ h
  have hlen := eucl_of_left h3 hleft
  have hc := sides_convex (first := a.first) h3 hleft
  constructor
  · rw [List.forall₂_iff_get]
    refine ⟨h.length_eq, fun i h1 h2 => ?_⟩
    obtain ⟨e, he, hr⟩ := (List.forall₂_iff_get.1 h).2 i h1 h2
    exact ⟨hr.first, hr.second, drained_of_cell h3
      (List.mem_range.1 ((hσ.mem_iff).1 (List.getElem_mem h1))) hleft hlen
      ((List.forall₂_iff_get.1 ht.cell).2 i h1 h2)⟩
  -- one step down
  have step : ∀ v : Nat, a.verts.length ≤ v → v < V.length → ∃ w : Nat, Below V fs v w ∧
      ((∃ k, k < a.num ∧ w = a.first + k) ∨ (a.verts.length ≤ w ∧ w < V.length)) := by
    intro v hv1 hv2
    obtain ⟨f, hf, hvf⟩ := hon v hv1 hv2
    obtain ⟨i, hi, rfl⟩ := List.getElem_of_mem hf
    have hl := h.length_eq
    obtain ⟨e, he, hr⟩ := (List.forall₂_iff_get.1 h).2 i (by omega) hi
    simp only [List.get_eq_getElem] at he hr
    set k := σ[i]'(by omega) with hk
    have hkn : k < a.num := List.mem_range.1 ((hσ.mem_iff).1 (List.getElem_mem _))
    have hkn' : (k + 1) % a.num < a.num := Nat.mod_lt _ (by omega)
    obtain ⟨e', he', p1, p2⟩ := sides_get (first := a.first) (P := P) hkn
    rw [he] at he'
    cases he'
    obtain ⟨A, hA, hAP, hAz⟩ := hv k hkn
    obtain ⟨B, hB, hBP, hBz⟩ := hv _ hkn'
    have hal := hc.along e (List.mem_of_getElem? he)
    obtain ⟨Q, hQ, hQv⟩ := hr.ring hA hB (hAP.trans p1.symm) (hBP.trans p2.symm)
    obtain ⟨j, hj, hjv⟩ := List.getElem_of_mem hvf
    have hsz := hr.size
    -- all corners are in the plane
    have hz : ∀ m, m < fs[i].length → (Q m).z = z + slope * height e.p1 e.norm (Q m).xy := by
      intro m hm
      obtain ⟨p, hp, hpV⟩ := hQv m hm
      rcases m with _ | _ | m
      · rw [hr.first] at hp
        cases hp
        rw [Int.toNat_natCast, hA] at hpV
        cases hpV
        rw [hAz, show (Q 0).xy = e.p1 from hAP.trans p1.symm]; simp [height]
      · rw [hr.second] at hp
        cases hp
        rw [Int.toNat_natCast, hB] at hpV
        cases hpV
        obtain ⟨r, -, r1, r2⟩ := hal
        rw [hBz, show (Q 1).xy = e.p2 from hBP.trans p2.symm]; unfold height; rw [r1, r2]; ring
      · exact ((hr.plane _ p (by omega) hp).2 _ hpV).2
    have hfit : ∀ m p, m < 2 → fs[i][m]? = some p → ∃ q, q < a.num ∧ p = ((a.first + q : Nat) : Int) := by
      intro m p hm hp
      have : m = 0 ∨ m = 1 := by omega
      rcases this with rfl | rfl
      · rw [hr.first] at hp; cases hp; exact ⟨k, hkn, rfl⟩
      · rw [hr.second] at hp; cases hp; exact ⟨_, hkn', rfl⟩
    have hjs : fs[i][j]? = some (v : Int) := by rw [List.getElem?_eq_getElem hj, hjv]
    have hj2 : 2 ≤ j := by
      by_contra hcon
      obtain ⟨q, hq, hqv⟩ := hfit j _ (by omega) hjs
      have := hfv q hq
      omega
    have hQj : V[v]? = some (Q j) := by
      obtain ⟨p, hp, hpV⟩ := hQv j hj
      rw [hjs] at hp
      cases hp
      exact hpV
    -- the two neighbours
    have hnb : ∀ m, m < fs[i].length → height e.p1 e.norm (Q m).xy < height e.p1 e.norm (Q j).xy →
        ∃ w : Nat, fs[i][m]? = some (w : Int) ∧ V[w]? = some (Q m) ∧ (Q m).z < (Q j).z ∧
        ((∃ k, k < a.num ∧ w = a.first + k) ∨ (a.verts.length ≤ w ∧ w < V.length)) := by
      intro m hm hlt
      obtain ⟨p, hp, hpV⟩ := hQv m hm
      have hpi := hr.index p (List.mem_of_getElem? hp)
      have hp' : ((p.toNat : Nat) : Int) = p := Int.toNat_of_nonneg hpi.1
      refine ⟨p.toNat, by rw [hp', hp], hpV, ?_, ?_⟩
      · rw [hz m hm, hz j hj]
        have := mul_lt_mul_of_pos_left hlt hs
        linarith
      · rcases Nat.lt_or_ge m 2 with h2 | h2
        · obtain ⟨q, hq, hqp⟩ := hfit m p h2 hp
          exact Or.inl ⟨q, hq, by omega⟩
        · have := (hr.plane m p h2 hp).1
          exact Or.inr ⟨by omega, by omega⟩
    rcases hQ.lower hal hj2 hj with hlt | hlt
    · obtain ⟨w, w1, w2, w3, w4⟩ := hnb _ (by omega) hlt
      exact ⟨w, ⟨_, hf, j - 1, Or.inr ⟨w1, by
        rw [show j - 1 + 1 = j by omega, Nat.mod_eq_of_lt hj]; exact hjs⟩, _, _, hQj, w2, w3⟩, w4⟩
    · obtain ⟨w, w1, w2, w3, w4⟩ := hnb _ (Nat.mod_lt _ (by omega)) hlt
      exact ⟨w, ⟨_, hf, j, Or.inl ⟨hjs, w1⟩, _, _, hQj, w2, w3⟩, w4⟩
  -- a lowest vertex without a way down
  by_contra hcon
  push Not at hcon
  obtain ⟨v0, hv1, hv2, hv3⟩ := hcon
  classical
  let B : Finset Nat := (Finset.range V.length).filter fun v => a.verts.length ≤ v ∧
    ∀ k, k < a.num → ¬ Relation.TransGen (Below V fs) v (a.first + k)
  obtain ⟨v, hvB, hmin⟩ := B.exists_min_image (fun v => (V[v]?.map V3.z).getD 0)
    ⟨v0, Finset.mem_filter.2 ⟨Finset.mem_range.2 hv2, hv1, hv3⟩⟩
  obtain ⟨hvr, hva, hvn⟩ := Finset.mem_filter.1 hvB
  obtain ⟨w, hw, hw'⟩ := step v hva (Finset.mem_range.1 hvr)
  rcases hw' with ⟨k, hk, rfl⟩ | ⟨hwa, hwl⟩
  · exact hvn k hk (Relation.TransGen.single hw)
  · have hwB : w ∈ B := Finset.mem_filter.2 ⟨Finset.mem_range.2 hwl, hwa, fun k hk ht =>
      hvn k hk (Relation.TransGen.head hw ht)⟩
    have := hmin w hwB
    obtain ⟨-, -, -, -, A, C, hA, hC, hlt⟩ := hw
    rw [hA, hC] at this
    simp only [Option.map_some, Option.getD_some] at this
    linarith

/-- a point with the same distance from three sides, and no smaller one from any other, is a vertex of a face -/
theorem node_in_face {a : PolyArgs ℝ} {P : Nat → V2 ℝ} {z slope : ℝ} {V : List (V3 ℝ)} {fs : List (List Int)}
    {σ : List Nat} (h3 : 3 ≤ a.num) (hget : ∀ k, k < a.num → ∃ A, V[a.first + k]? = some A ∧ A.xy = P k)
    (hleft : ∀ i j, i < a.num → j < a.num → j ≠ i → j ≠ (i + 1) % a.num →
      0 < area2 (P i) (P ((i + 1) % a.num)) (P j))
    (hσ : σ.Perm (List.range a.num))
    (hF : List.Forall₂ (fun k f => ∃ e, (sides a.first a.num P)[k]? = some e ∧
        RoofFace a (sides a.first a.num P) e z slope V k f) σ fs) {X : V2 ℝ} {h : ℝ}
    (hn : RoofNode (sides a.first a.num P) X h) :
    ∃ f ∈ fs, ∃ p ∈ f, (a.verts.length : Int) ≤ p ∧ ∃ N, V[p.toNat]? = some N ∧ N.xy = X := by
  have hc := sides_convex (first := a.first) h3 hleft
  have hpos := hc.node_pos hn
  obtain ⟨e1, m1, e2, m2, e3, m3, n12, n23, n13, p1, p2, p3⟩ := hn.three
  obtain ⟨k, hk⟩ := List.mem_iff_getElem?.1 m1
  have hkn : k < a.num := by simpa [sides] using (List.getElem?_eq_some_iff.1 hk).1
  obtain ⟨i, hi⟩ := List.mem_iff_getElem?.1 ((hσ.mem_iff).2 (List.mem_range.2 hkn))
  obtain ⟨hi1, hi2⟩ := List.getElem?_eq_some_iff.1 hi
  have hl := hF.length_eq
  obtain ⟨e, he, hr⟩ := (List.forall₂_iff_get.1 hF).2 i hi1 (by omega)
  simp only [List.get_eq_getElem, hi2] at he hr
  rw [hk] at he
  cases he
  obtain ⟨e', he', q1, q2⟩ := sides_get (first := a.first) (P := P) hkn
  rw [hk] at he'
  cases he'
  obtain ⟨A, hA, hAP⟩ := hget k hkn
  obtain ⟨W, hW, hWP⟩ := hget ((k + 1) % a.num) (Nat.mod_lt _ (by omega))
  obtain ⟨Q, hQ, hQv⟩ := hr.ring hA hW (hAP.trans q1.symm) (hWP.trans q2.symm)
  have hne : ∀ {e f}, e ∈ sides a.first a.num P → f ∈ sides a.first a.num P → e ≠ f → e.norm ≠ f.norm :=
    fun he hf hn hn' => hn (hc.norm_inj he hf hn')
  obtain ⟨j, hj, hjX⟩ := hQ.corner (hc.along _ m1) (hc.unit _ m1) (by rw [p1]; exact hpos.le)
    (fun g hg => by rw [p1]; exact hn.least g hg) m2 m3 (hc.unit _ m2) (hc.unit _ m3)
    (hne m2 m1 (Ne.symm n12)) (hne m3 m1 (Ne.symm n13)) (hne m2 m3 n23) (p2.trans p1.symm)
    (p3.trans p1.symm)
  have hj2 : 2 ≤ j := by
    by_contra hcon
    have hz : height e1.p1 e1.norm (Q j).xy = 0 := by
      obtain ⟨r, -, r1, r2⟩ := hc.along _ m1
      have : j = 0 ∨ j = 1 := by omega
      rcases this with rfl | rfl
      · rw [show (Q 0).xy = e1.p1 from hQ.first]; simp [height]
      · rw [show (Q 1).xy = e1.p2 from hQ.second]; unfold height; rw [r1, r2]; ring
    rw [show (Q j).xy = X from hjX] at hz
    linarith
  obtain ⟨p, hfp, hvp⟩ := hQv j hj
  exact ⟨_, List.getElem_mem (by omega), p, List.mem_of_getElem? hfp, (hr.plane j p hj2 hfp).1, _, hvp, hjX⟩

end Polyskel
