import Verif.Basic.Bytes

/-!
# FIPS 197 (AES-128) and the modes of SP 800-38A

Written from the standards: the state is the array `s[r, c]` of FIPS 197 section 3.4, the S-box is
the multiplicative inverse in GF(2^8) followed by the affine map of section 5.1.1, and MixColumns is
the matrix product of section 5.1.3.  Nothing here refers to the tables of the code.
-/

namespace CT.Spec.AES

/-- Multiplication by `x` modulo `x^8 + x^4 + x^3 + x + 1` (FIPS 197, 4.2.1). -/
def xtime (b : U8) : U8 := if b.msb then (b <<< 1) ^^^ 0x1b else b <<< 1

/-- Shift-and-add multiplication in GF(2^8), `n` bits of the second factor left. -/
def gmulAux : Nat → U8 → U8 → U8
  | 0, _, _ => 0
  | n + 1, a, b => (if b.getLsbD 0 then a else 0) ^^^ gmulAux n (xtime a) (b >>> 1)

/-- Multiplication in GF(2^8) (FIPS 197, 4.2). -/
def gmul (a b : U8) : U8 := gmulAux 8 a b

/-- Multiplicative inverse, with `0` mapped to itself: `b^254`. -/
def ginv (b : U8) : U8 :=
  let b2 := gmul b b
  let b3 := gmul b2 b
  let b6 := gmul b3 b3
  let b12 := gmul b6 b6
  let b15 := gmul b12 b3
  let b30 := gmul b15 b15
  let b60 := gmul b30 b30
  let b120 := gmul b60 b60
  let b126 := gmul b120 b6
  let b127 := gmul b126 b
  gmul b127 b127

/-- The affine map of FIPS 197 (5.2): bit `i` is the sum of bits `i, i+4, i+5, i+6, i+7` (mod 8) of
the argument and of bit `i` of `0x63`. -/
def affine (b : U8) : U8 :=
  b ^^^ b.rotateLeft 1 ^^^ b.rotateLeft 2 ^^^ b.rotateLeft 3 ^^^ b.rotateLeft 4 ^^^ 0x63

/-- The S-box (FIPS 197, 5.1.1). -/
def sbox (b : U8) : U8 := affine (ginv b)

/-- The state array `s[r, c]` (FIPS 197, 3.4). -/
abbrev State := Fin 4 → Fin 4 → U8

/-- `s[r, c] = in[r + 4c]`. -/
def ofBytes (bs : List U8) : State := fun r c => bs.getD (r.val + 4 * c.val) 0

/-- `out[r + 4c] = s[r, c]`. -/
def toBytes (s : State) : List U8 :=
  [s 0 0, s 1 0, s 2 0, s 3 0, s 0 1, s 1 1, s 2 1, s 3 1,
   s 0 2, s 1 2, s 2 2, s 3 2, s 0 3, s 1 3, s 2 3, s 3 3]

/-- SubBytes. -/
def subBytes (s : State) : State := fun r c => sbox (s r c)

/-- ShiftRows: `s'[r, c] = s[r, c + r mod 4]`. -/
def shiftRows (s : State) : State := fun r c => s r (c + r)

/-- MixColumns: `s'[r, c] = 2 s[r, c] + 3 s[r+1, c] + s[r+2, c] + s[r+3, c]`. -/
def mixColumns (s : State) : State := fun r c =>
  gmul (s r c) 2 ^^^ gmul (s (r + 1) c) 3 ^^^ s (r + 2) c ^^^ s (r + 3) c

/-- AddRoundKey; the columns of `k` are the four words of the round key. -/
def addRoundKey (s k : State) : State := fun r c => s r c ^^^ k r c

/-- `Rcon[i] = x^(i-1)` (FIPS 197, 5.2). -/
def rcon : Nat → U8
  | 0 => 0
  | 1 => 1
  | n + 2 => xtime (rcon (n + 1))

/-- `SubWord(RotWord(w)) + Rcon[i]` for the word in column 3 of a round key. -/
def keyCore (i : Nat) (k : State) : Fin 4 → U8 := fun r =>
  sbox (k (r + 1) 3) ^^^ (if r = 0 then rcon i else 0)

/-- The words `w[4i .. 4i+3]` of the key expansion from `w[4i-4 .. 4i-1]` (FIPS 197, 5.2):
`w[4i] = w[4i-4] + keyCore`, `w[4i+j] = w[4i+j-4] + w[4i+j-1]`. -/
def nextKey (i : Nat) (k : State) : State := fun r c =>
  let w0 := k r 0 ^^^ keyCore i k r
  let w1 := k r 1 ^^^ w0
  let w2 := k r 2 ^^^ w1
  let w3 := k r 3 ^^^ w2
  match c with
  | 0 => w0
  | 1 => w1
  | 2 => w2
  | 3 => w3

/-- Round key `i`. -/
def roundKey (key : List U8) : Nat → State
  | 0 => ofBytes key
  | i + 1 => nextKey (i + 1) (roundKey key i)

/-- Rounds `1 .. n`. -/
def rounds (key : List U8) : Nat → State → State
  | 0, s => s
  | n + 1, s => addRoundKey (mixColumns (shiftRows (subBytes (rounds key n s)))) (roundKey key (n + 1))

/-- The cipher (FIPS 197, 5.1) with a 128 bit key. -/
def cipher (key block : List U8) : List U8 :=
  let s := addRoundKey (ofBytes block) (roundKey key 0)
  let s := rounds key 9 s
  toBytes (addRoundKey (shiftRows (subBytes s)) (roundKey key 10))

/-! ### Modes (SP 800-38A) -/

/-- Big-endian 32 bit counter field. -/
def ctrField (n : Nat) : List U8 := bytesBE32 (BitVec.ofNat 32 n)

/-- Counter mode keystream: the encryptions of `nonce || first`, `nonce || first + 1`, ... -/
def ctrStream (key nonce : List U8) : Nat → Nat → List U8
  | _, 0 => []
  | first, n + 1 => cipher key (nonce ++ ctrField first) ++ ctrStream key nonce (first + 1) n

/-- Counter mode (6.5) of a message whose first counter value is `first`. -/
def ctr (key nonce : List U8) (first : Nat) (msg : List U8) : List U8 :=
  xorBytes msg (ctrStream key nonce first ((msg.length + 15) / 16))

/-- Counter mode of a sequence of messages, each starting with a fresh block of the counter. -/
def ctrMany (key nonce : List U8) : Nat → List (List U8) → List (List U8)
  | _, [] => []
  | first, m :: ms => ctr key nonce first m :: ctrMany key nonce (first + (m.length + 15) / 16) ms

/-- CFB-128 encryption (6.3) of `n` blocks: `C = P xor E(previous C)`. -/
def cfbEnc (key : List U8) : Nat → List U8 → List U8 → List U8
  | 0, _, _ => []
  | n + 1, prev, msg =>
    let c := xorBytes (msg.take 16) (cipher key prev)
    c ++ cfbEnc key n c (msg.drop 16)

/-- CFB-128 decryption (6.3) of `n` blocks: `P = C xor E(previous C)`. -/
def cfbDec (key : List U8) : Nat → List U8 → List U8 → List U8
  | 0, _, _ => []
  | n + 1, prev, ct =>
    xorBytes (ct.take 16) (cipher key prev) ++ cfbDec key n (ct.take 16) (ct.drop 16)

end CT.Spec.AES
