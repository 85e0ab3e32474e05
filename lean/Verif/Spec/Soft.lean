import Verif.Model.Scalar
/-
IEEE arithmetic that the Lean kernel can compute: binary64 numbers, and binary32 for the
components of vectors.  A finite binary64 number is an integer multiple of 2^-1074; `Soft`
stores that integer.  Every operation computes the exact result and rounds it to the nearest
representable number, ties to even, with gradual underflow.  Not represented: signed zeros,
infinities and NaN (a division by zero yields 0; Python raises before it gets that far, except
inside mathutils), and overflow.

Used only for concrete runs: non-vacuity examples and refutations.
-/
namespace Polyskel

/-- a binary64 number, as a multiple of 2^-1074 -/
structure Soft where
  k : Int
  deriving DecidableEq, Repr, Inhabited

namespace Soft

/-- `f n`, written so that the kernel evaluates `n` before it substitutes it -/
def force {α : Type} (n : Nat) (f : Nat → α) : α :=
  match n with
  | 0 => f 0
  | m + 1 => f (Nat.succ m)

/-- one step of the binary search in `lg`: add `s` to the exponent if `2^(e+s) ≤ n` -/
def lgStep (n s e : Nat) : Nat :=
  cond (Nat.ble (Nat.shiftLeft 1 (Nat.add e s)) n) (Nat.add e s) e

/-- the binary logarithm (rounded down) of a positive number below `2^4096`.  The kernel has no
fast `Nat.log2`. -/
def lg (n : Nat) : Nat :=
  lgStep n 1 (lgStep n 2 (lgStep n 4 (lgStep n 8 (lgStep n 16 (lgStep n 32 (lgStep n 64
    (lgStep n 128 (lgStep n 256 (lgStep n 512 (lgStep n 1024 (lgStep n 2048 0)))))))))))

/-- the natural number nearest to `n / 2^k` that has at most `p` significant bits and is a
multiple of `2^q`; ties to even.  (Written with the Boolean comparisons of `Nat`, which the
kernel computes directly.) -/
def rn (p q k n : Nat) : Nat :=
  force (Nat.sub (Nat.succ (lg n)) p) (fun d =>
    force (cond (Nat.ble d (Nat.add k q)) (Nat.add k q) d) (fun s =>
      force (Nat.shiftRight n s) (fun r =>
        cond (roundUp (Nat.sub n (Nat.shiftLeft r s)) (Nat.div (Nat.shiftLeft 1 s) 2) s r)
          (Nat.shiftLeft (Nat.succ r) (Nat.sub s k))
          (Nat.shiftLeft r (Nat.sub s k)))))
where
  /-- `s` bits with the value `rem` were dropped from a number that leaves `r` -/
  roundUp (rem half s r : Nat) : Bool :=
    cond (Nat.beq s 0) false
      (cond (Nat.ble (Nat.succ half) rem) true
        (cond (Nat.beq half rem) (Nat.beq (Nat.mod r 2) 1) false))

/-- an integer from sign and magnitude -/
def sgn (neg : Bool) (n : Nat) : Soft :=
  force n (fun n => cond neg ⟨Int.neg (Int.ofNat n)⟩ ⟨Int.ofNat n⟩)

/-- sign of an integer -/
def isNeg : Int → Bool
  | .ofNat _ => false
  | .negSucc _ => true

/-- comparison of integers -/
def ilt : Int → Int → Bool
  | .ofNat a, .ofNat b => Nat.ble (Nat.succ a) b
  | .ofNat _, .negSucc _ => false
  | .negSucc _, .ofNat _ => true
  | .negSucc a, .negSucc b => Nat.ble (Nat.succ b) a

/-- round to binary64 the number with this sign and the magnitude `n / 2^k` -/
def mk64 (neg : Bool) (k n : Nat) : Soft := force n (fun n => sgn neg (rn 53 0 k n))

/-- round an integer -/
def ofInt64 : Int → Soft
  | .ofNat n => mk64 false 0 n
  | .negSucc n => mk64 true 0 (Nat.succ n)

/-- integer square root by Newton's method; `fuel` iterations suffice -/
def isqrtLoop (n : Nat) : Nat → Nat → Nat
  | 0, x => x
  | f + 1, x =>
    let y := Nat.div (Nat.add x (Nat.div n x)) 2
    cond (Nat.ble (Nat.succ y) x) (isqrtLoop n f y) x

/-- integer square root -/
def isqrt (n : Nat) : Nat :=
  cond (Nat.beq n 0) 0 (isqrtLoop n 64 (Nat.shiftLeft 1 (Nat.succ (Nat.div (lg n) 2))))

/-- twice `q`, plus one if the division or root that gave `q` was not exact -/
def sticky (q : Nat) (exact : Bool) : Nat := Nat.add (Nat.mul 2 q) (cond exact 0 1)

/-- the quotient `n / d` of magnitudes -/
def qdiv (neg : Bool) (n d : Nat) : Soft :=
  mk64 neg 61 (sticky (Nat.div n d) (Nat.beq (Nat.mul (Nat.div n d) d) n))

/-- the square root of a magnitude -/
def qsqrt (n : Nat) : Soft :=
  mk64 false 61 (sticky (isqrt n) (Nat.beq (Nat.mul (isqrt n) (isqrt n)) n))

/-- position of a non-negative binary32 number (a multiple of 2^-149) in the ordered sequence
of all binary32 numbers -/
def pos32 (n : Nat) : Nat :=
  cond (Nat.ble n 16777215) n
    (Nat.add (Nat.mul (Nat.sub (lg n) 23) 8388608)
      (Nat.shiftRight n (Nat.sub (lg n) 23)))

/-- position of a binary32 number in the ordered sequence of all binary32 numbers -/
def key32 (x : Soft) : Int := (sgn (isNeg x.k) (pos32 (Nat.shiftRight x.k.natAbs 925))).k

instance : Scalar Soft where
  add a b := ofInt64 (Int.add a.k b.k)
  sub a b := ofInt64 (Int.sub a.k b.k)
  mul a b := mk64 (isNeg (Int.mul a.k b.k)) 1074 (Int.natAbs (Int.mul a.k b.k))
  div a b := qdiv (isNeg a.k != isNeg b.k) (Nat.shiftLeft a.k.natAbs 1134) b.k.natAbs
  neg a := ⟨Int.neg a.k⟩
  abs a := ⟨Int.ofNat a.k.natAbs⟩
  sqrt a := qsqrt (Nat.shiftLeft a.k.toNat 1194)
  lt a b := ilt a.k b.k
  le a b := !(ilt b.k a.k)
  eq a b := !(ilt a.k b.k) && !(ilt b.k a.k)
  rnd a := sgn (isNeg a.k) (rn 24 925 0 a.k.natAbs)
  feq a b := Nat.ble (Int.sub (key32 a) (key32 b)).natAbs 1
  lit n d := qdiv (isNeg n) (Nat.shiftLeft n.natAbs 1134) d

end Soft
end Polyskel
