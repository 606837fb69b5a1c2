import Verif.Spec.AES

/-!
# AEGIS-128

Wu and Preneel, "AEGIS: A Fast Authenticated Encryption Algorithm" (v1.1), section 2, for 128 bit
tags.  Blocks are lists of 16 bytes.
-/

namespace CT.Spec.AEGIS
open CT.Spec.AES (ofBytes toBytes subBytes shiftRows mixColumns addRoundKey)

/-- `AESRound(A, B)`: one round of AES without key schedule, `B` added at the end (2.1). -/
def aesRound (a b : List U8) : List U8 :=
  toBytes (addRoundKey (mixColumns (shiftRows (subBytes (ofBytes a)))) (ofBytes b))

/-- Bitwise and of two blocks. -/
def andBytes (a b : List U8) : List U8 := List.zipWith (· &&& ·) a b

/-- The 80 byte state. -/
structure State where
  s0 : List U8
  s1 : List U8
  s2 : List U8
  s3 : List U8
  s4 : List U8

/-- `StateUpdate128(S, m)` (2.2). -/
def update (s : State) (m : List U8) : State :=
  { s0 := aesRound s.s4 (xorBytes s.s0 m)
    s1 := aesRound s.s0 s.s1
    s2 := aesRound s.s1 s.s2
    s3 := aesRound s.s2 s.s3
    s4 := aesRound s.s3 s.s4 }

/-- The constants: the Fibonacci sequence modulo 256 (2.1). -/
def const0 : List U8 := [0x00, 0x01, 0x01, 0x02, 0x03, 0x05, 0x08, 0x0d, 0x15, 0x22, 0x37, 0x59, 0x90, 0xe9, 0x79, 0x62]
def const1 : List U8 := [0xdb, 0x3d, 0x18, 0x55, 0x6d, 0xc2, 0x2f, 0xf1, 0x20, 0x11, 0x31, 0x42, 0x73, 0xb5, 0x28, 0xdd]

/-- `n` pairs of updates with `key` and `key + iv`. -/
def initPairs (key iv : List U8) : Nat → State → State
  | 0, s => s
  | n + 1, s => initPairs key iv n (update (update s key) (xorBytes key iv))

/-- Initialization (2.3). -/
def initial (key iv : List U8) : State :=
  initPairs key iv 5
    { s0 := xorBytes key iv, s1 := const1, s2 := const0, s3 := xorBytes key const0, s4 := xorBytes key const1 }

/-- A block, the last one possibly incomplete, filled up with zeros. -/
def pad (b : List U8) : List U8 := b ++ List.replicate (16 - b.length) 0

/-- Absorb `n` blocks of associated data (2.4), the last one filled up with zeros. -/
def absorb : Nat → State → List U8 → State
  | 0, s, _ => s
  | n + 1, s, ad => absorb n (update s (pad (ad.take 16))) (ad.drop 16)

/-- Keystream block: `S1 + S4 + (S2 & S3)` (2.5). -/
def keyBlock (s : State) : List U8 := xorBytes (xorBytes s.s1 s.s4) (andBytes s.s2 s.s3)

/-- Encryption of `n` blocks (2.5), the last one possibly incomplete. -/
def encBlocks : Nat → State → List U8 → List U8 × State
  | 0, s, _ => ([], s)
  | n + 1, s, p =>
    let r := encBlocks n (update s (pad (p.take 16))) (p.drop 16)
    (xorBytes (p.take 16) (keyBlock s) ++ r.1, r.2)

/-- Eight bytes, least significant first. -/
def bytes64 (n : Nat) : List U8 := (List.range 8).map fun i => BitVec.ofNat 8 (n / 256 ^ i)

/-- `n` updates with the same block. -/
def updates (m : List U8) : Nat → State → State
  | 0, s => s
  | n + 1, s => updates m n (update s m)

/-- Finalization (2.6): the lengths are in bits. -/
def finish (s : State) (adlen msglen : Nat) : List U8 :=
  let s := updates (xorBytes s.s3 (bytes64 (8 * adlen) ++ bytes64 (8 * msglen))) 7 s
  xorBytes (xorBytes (xorBytes (xorBytes s.s0 s.s1) s.s2) s.s3) s.s4

/-- Number of blocks of a message. -/
def blocks (l : List U8) : Nat := (l.length + 15) / 16

/-- Ciphertext and tag. -/
def encrypt (key iv ad p : List U8) : List U8 × List U8 :=
  let s := absorb (blocks ad) (initial key iv) ad
  let r := encBlocks (blocks p) s p
  (r.1, finish r.2 ad.length p.length)

end CT.Spec.AEGIS
