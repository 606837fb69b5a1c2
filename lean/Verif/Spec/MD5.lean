import Verif.Basic.Bytes

/-!
# MD5 (specification, written from RFC 1321)
-/

namespace CT.Spec.MD5

/-! ### Auxiliary functions (3.4) -/

def F (x y z : U32) : U32 := (x &&& y) ||| (~~~x &&& z)
def G (x y z : U32) : U32 := (x &&& z) ||| (y &&& ~~~z)
def H (x y z : U32) : U32 := x ^^^ y ^^^ z
def I (x y z : U32) : U32 := y ^^^ (x ||| ~~~z)

/-- `sin x` for a natural number `x` as a fraction: 120 terms of the Taylor series in Horner form,
`x (1 - x²/(2·3) (1 - x²/(4·5) (...)))`.  For `x ≤ 64` the remainder is below `10^-30`. -/
def sinFrac (x : Nat) : Nat → Nat → Int × Int
  | 0, _ => (x, 1)
  | n + 1, k =>
    let (p, q) := sinFrac x n (k + 1)
    -- x - x²/(2k(2k+1)) * (p/q)
    let d : Int := 2 * k * (2 * k + 1)
    (x * d * q - x * x * p, d * q)

/-- `T[i]`: the integer part of `2^32 * abs(sin(i))`, `i` in radians, `1 ≤ i ≤ 64`. -/
def T (i : Nat) : U32 :=
  let (p, q) := sinFrac i 120 1
  BitVec.ofNat 32 (2 ^ 32 * p.natAbs / q.natAbs)

/-! ### Padding (3.1, 3.2) -/

/-- Number of zero bytes: the smallest `k` with `len + 1 + k ≡ 56 (mod 64)`. -/
def zeros (len : Nat) : Nat := (119 - len % 64) % 64

/-- Little-endian bytes of the low 64 bits of a number. -/
def le64 (n : Nat) : List U8 :=
  [0, 8, 16, 24, 32, 40, 48, 56].map fun s => BitVec.ofNat 8 (n / 2 ^ s)

def pad (m : List U8) : List U8 :=
  m ++ [0x80] ++ List.replicate (zeros m.length) 0 ++ le64 (8 * m.length)

/-! ### Processing (3.4) -/

structure Regs where
  a : U32
  b : U32
  c : U32
  d : U32
  deriving DecidableEq

/-- Round function, message word index and shift amount of step `t`. -/
def fn (t : Nat) : U32 → U32 → U32 → U32 :=
  match t / 16 with
  | 0 => F
  | 1 => G
  | 2 => H
  | _ => I
def idx (t : Nat) : Nat :=
  match t / 16 with
  | 0 => t % 16
  | 1 => (1 + 5 * t) % 16
  | 2 => (5 + 3 * t) % 16
  | _ => 7 * t % 16
def shift (t : Nat) : Nat :=
  (match t / 16 with
   | 0 => [7, 12, 17, 22]
   | 1 => [5, 9, 14, 20]
   | 2 => [4, 11, 16, 23]
   | _ => [6, 10, 15, 21]).getD (t % 4) 0

/-- Step `t`: `a = b + ((a + f(b,c,d) + X[k] + T[t+1]) <<< s)`, then the registers change names. -/
def step (X : Nat → U32) (r : Regs) (t : Nat) : Regs :=
  { a := r.d, b := r.b + (r.a + fn t r.b r.c r.d + X (idx t) + T (t + 1)).rotateLeft (shift t),
    c := r.b, d := r.c }

/-- The 64 steps and the final additions. -/
def compress (r : Regs) (X : Nat → U32) : Regs :=
  let s := (List.range 64).foldl (step X) r
  { a := r.a + s.a, b := r.b + s.b, c := r.c + s.c, d := r.d + s.d }

/-- Word `k` of block `i`. -/
def word (p : List U8) (i k : Nat) : U32 :=
  let x := fun j => p.getD (64 * i + 4 * k + j) 0
  le32 (x 0) (x 1) (x 2) (x 3)

/-- Registers after `i` blocks. -/
def hashAt (p : List U8) : Nat → Regs
  | 0 => { a := 0x67452301, b := 0xefcdab89, c := 0x98badcfe, d := 0x10325476 }
  | i + 1 => compress (hashAt p i) (word p i)

def Regs.bytes (r : Regs) : List U8 := bytesLE32 r.a ++ bytesLE32 r.b ++ bytesLE32 r.c ++ bytesLE32 r.d

/-- The MD5 digest. -/
def digest (m : List U8) : List U8 := (hashAt (pad m) ((pad m).length / 64)).bytes

end CT.Spec.MD5
