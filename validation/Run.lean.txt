import Verif.Model.Polygonize
import Verif.Spec.Soft
import Verif.Spec.Runtime
/- Sanity run of the model on the literal inputs of the repository's own tests, with IEEE doubles
and single-precision vectors.  Not a proof, not part of the library; see DESIGN.md. -/
open Polyskel
def r32 (x : Float) : Float := x.toFloat32.toFloat
def feq32 (x y : Float) : Bool :=
  let a := x.toFloat32.toBits.toNat; let b := y.toFloat32.toBits.toNat
  let key (n : Nat) : Int := if n ≥ 2^31 then -((n - 2^31 : Nat) : Int) else n
  let d := key a - key b
  d ≤ 1 && d ≥ -1
instance : Scalar Float where
  add := (· + ·); sub := (· - ·); mul := (· * ·); div := (· / ·)
  neg := (- ·); abs := Float.abs; sqrt := Float.sqrt
  lt a b := decide (a < b); le a b := decide (a ≤ b); eq a b := a == b
  rnd := r32; feq := feq32
  lit n d := Float.ofInt n / Float.ofNat d
/-- a Float as a `Soft` number -/
def toSoft (x : Float) : Soft :=
  let b := x.toBits.toNat
  let e := (b / 2^52) % 2048
  let m := b % 2^52
  let k : Nat := if e = 0 then m else (m + 2^52) * 2^(e-1)
  ⟨if b ≥ 2^63 then -(k : Int) else k⟩
def soft2 (v : V2 Float) : V2 Soft := ⟨toSoft v.x, toSoft v.y⟩
def soft3 (v : V3 Float) : V3 Soft := ⟨toSoft v.x, toSoft v.y, toSoft v.z⟩
def softT (t : Subtree Float) : Subtree Soft := ⟨soft2 t.source, toSoft t.height, t.sinks.map soft2⟩
def main (args : List String) : IO Unit := do
  let s ← IO.FS.readFile args.head!
  let mut ok := 0
  let mut tot := 0
  let mut same := 0
  for line in s.splitOn "\n" do
    if line.isEmpty then continue
    let toks := (line.splitOn " ").toArray
    let name := toks[0]!
    let n i := toks[i]!.toNat!
    let first := n 1; let num := n 2; let nh := n 3
    let mut p := 4
    let mut holes := []
    for _ in [0:nh] do
      holes := holes ++ [(n p, n (p+1))]; p := p + 2
    let mut ls : Array (List (V3 Float)) := #[]
    for _ in [0:2] do
      let k := n p; p := p + 1
      let mut l : Array (V3 Float) := #[]
      for _ in [0:k] do
        let g i := r32 (Float.ofBits (n i).toUInt64)
        l := l.push ⟨g p, g (p+1), g (p+2)⟩; p := p + 3
      ls := ls.push l.toList
    let hs : Option (List (Nat × Nat)) := if nh = 0 then none else some holes
    let us : Option (List (V3 Float)) := if ls[1]!.isEmpty then none else some ls[1]!
    let a : PolyArgs Float :=
      { verts := ls[0]!, first := first, num := num, holes := hs, height := 0.0, tan := 0.5, units := us }
    tot := tot + 1
    if args.length > 1 then
      -- bit for bit comparison with the software arithmetic of Spec/Soft.lean
      let a' : PolyArgs Soft :=
        { verts := ls[0]!.map soft3, first := first, num := num, holes := hs, height := toSoft 0.0,
          tan := toSoft 0.5, units := us.map (·.map soft3) }
      match polygonize rt0 100000 a, polygonize rt0 100000 a' with
      | some o, some o' =>
        if (o.debug.getD []).map softT = o'.debug.getD [] && o.verts.map soft3 = o'.verts &&
          o.result.toOption = o'.result.toOption then same := same + 1
        else IO.println s!"{name}: software arithmetic differs"
      | none, none => same := same + 1
      | _, _ => IO.println s!"{name}: software arithmetic differs"
    match polygonize rt0 100000 a with
    | none => IO.println s!"{name}: out of fuel"
    | some o => match o.result with
      | .error e => IO.println s!"{name}: error {repr e}"
      | .ok fs =>
        let b1 := fs.all (fun f => f.length ≥ 3)
        let b2 := fs.all (fun f => f.Nodup)
        let b3 := checkEdgeCrossing (o.debug.getD [])
        let b4 := fs.all (fun f => match f with | x :: y :: _ => x < a.verts.length ∧ y < a.verts.length | _ => false)
        if b1 && b2 && b3 == 0 then ok := ok + 1
        IO.println s!"{name}: faces {fs.length} n={num} min3 {b1} nodup {b2} crossings {b3} firstOrig {b4} nodes {(o.debug.getD []).length}"
  if args.length > 1 then IO.println s!"software arithmetic agrees on {same} of {tot}"
  IO.println s!"passed {ok} of {tot}"
