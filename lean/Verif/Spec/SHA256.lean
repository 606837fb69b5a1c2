import Verif.Basic.Bytes

/-!
# SHA-256 (specification, written from FIPS 180-4) and HMAC (RFC 2104)
-/

namespace CT.Spec.SHA256

/-! ### Functions (4.1.2) and constants (4.2.2, 5.3.3) -/

def Ch (x y z : U32) : U32 := (x &&& y) ^^^ (~~~x &&& z)
def Maj (x y z : U32) : U32 := (x &&& y) ^^^ (x &&& z) ^^^ (y &&& z)
def bigSigma0 (x : U32) : U32 := x.rotateRight 2 ^^^ x.rotateRight 13 ^^^ x.rotateRight 22
def bigSigma1 (x : U32) : U32 := x.rotateRight 6 ^^^ x.rotateRight 11 ^^^ x.rotateRight 25
def smallSigma0 (x : U32) : U32 := x.rotateRight 7 ^^^ x.rotateRight 18 ^^^ (x >>> 3)
def smallSigma1 (x : U32) : U32 := x.rotateRight 17 ^^^ x.rotateRight 19 ^^^ (x >>> 10)

/-- The first sixty-four prime numbers. -/
def primes : List Nat :=
  (List.range 312).filter fun n => 2 ≤ n && (List.range n).all fun d => d < 2 || n % d != 0

/-- Integer root by bisection: the largest `r < 2^bits` with `r^e ≤ n`. -/
def iroot (e n : Nat) : Nat → Nat → Nat
  | 0, r => r
  | b + 1, r => if (r + 2 ^ b) ^ e ≤ n then iroot e n b (r + 2 ^ b) else iroot e n b r

/-- `K_t`: the first 32 bits of the fractional part of the cube root of the `t`-th prime. -/
def K (t : Nat) : U32 := BitVec.ofNat 32 (iroot 3 (primes.getD t 0 * 2 ^ 96) 36 0)

/-- `H^(0)_i`: the first 32 bits of the fractional part of the square root of the `i`-th prime. -/
def H0 (i : Nat) : U32 := BitVec.ofNat 32 (iroot 2 (primes.getD i 0 * 2 ^ 64) 38 0)

/-! ### Padding (5.1.1) -/

/-- Number of zero bytes: the smallest `k` with `len + 1 + k ≡ 56 (mod 64)`. -/
def zeros (len : Nat) : Nat := (119 - len % 64) % 64

/-- Big-endian bytes of a 64 bit number. -/
def be64 (n : Nat) : List U8 :=
  [56, 48, 40, 32, 24, 16, 8, 0].map fun s => BitVec.ofNat 8 (n / 2 ^ s)

/-- Message followed by the bit 1, zero bits and the length in bits. -/
def pad (m : List U8) : List U8 :=
  m ++ [0x80] ++ List.replicate (zeros m.length) 0 ++ be64 (8 * m.length)

/-! ### Hash computation (6.2.2) -/

/-- The working variables, or a hash value. -/
structure Vars where
  a : U32
  b : U32
  c : U32
  d : U32
  e : U32
  f : U32
  g : U32
  h : U32
  deriving DecidableEq

/-- Word `M^(i)_t` of the padded message. -/
def M (p : List U8) (i t : Nat) : U32 :=
  let x := fun k => p.getD (64 * i + 4 * t + k) 0
  be32 (x 0) (x 1) (x 2) (x 3)

/-- The message schedule. -/
def W (M : Nat → U32) (t : Nat) : U32 :=
  if _h : t < 16 then M t
  else smallSigma1 (W M (t - 2)) + W M (t - 7) + smallSigma0 (W M (t - 15)) + W M (t - 16)
termination_by t

/-- One round. -/
def round (v : Vars) (k w : U32) : Vars :=
  let T1 := v.h + bigSigma1 v.e + Ch v.e v.f v.g + k + w
  let T2 := bigSigma0 v.a + Maj v.a v.b v.c
  { h := v.g, g := v.f, f := v.e, e := v.d + T1, d := v.c, c := v.b, b := v.a, a := T1 + T2 }

/-- Working variables after `t` rounds. -/
def rounds (M : Nat → U32) (v : Vars) : Nat → Vars
  | 0 => v
  | t + 1 => round (rounds M v t) (K t) (W M t)

/-- Hash value after one more block. -/
def compress (H : Vars) (M : Nat → U32) : Vars :=
  let v := rounds M H 64
  { a := v.a + H.a, b := v.b + H.b, c := v.c + H.c, d := v.d + H.d,
    e := v.e + H.e, f := v.f + H.f, g := v.g + H.g, h := v.h + H.h }

/-- Hash value after `i` blocks of the padded message. -/
def hashAt (p : List U8) : Nat → Vars
  | 0 => { a := H0 0, b := H0 1, c := H0 2, d := H0 3, e := H0 4, f := H0 5, g := H0 6, h := H0 7 }
  | i + 1 => compress (hashAt p i) (M p i)

/-- The hash value as bytes. -/
def Vars.bytes (v : Vars) : List U8 :=
  bytesBE32 v.a ++ bytesBE32 v.b ++ bytesBE32 v.c ++ bytesBE32 v.d ++
  bytesBE32 v.e ++ bytesBE32 v.f ++ bytesBE32 v.g ++ bytesBE32 v.h

/-- The SHA-256 digest. -/
def digest (m : List U8) : List U8 := (hashAt (pad m) ((pad m).length / 64)).bytes

end CT.Spec.SHA256

namespace CT.Spec.HMAC
open CT.Spec.SHA256

/-- RFC 2104: keys longer than the block size are hashed, then zeros are appended up to 64 bytes. -/
def normKey (k : List U8) : List U8 :=
  let k' := if k.length > 64 then digest k else k
  k' ++ List.replicate (64 - k'.length) 0

/-- RFC 2104: `H((K xor opad) || H((K xor ipad) || text))`. -/
def hmac (k text : List U8) : List U8 :=
  digest ((normKey k).map (· ^^^ 0x5c) ++ digest ((normKey k).map (· ^^^ 0x36) ++ text))

end CT.Spec.HMAC
