import Verif.Basic.Bytes

/-!
# Rabbit (specification, written from RFC 4503)

RFC 4503 describes Rabbit on integers: a 128 bit key, a 64 bit IV, 128 bit output blocks.  The
library's readme fixes the order of the bytes as least significant byte first (the reverse of the
octet order that RFC 4503 uses for printing), so `leNat` converts.
-/

namespace CT.Spec.Rabbit

/-- The integer denoted by a byte string, least significant byte first. -/
def leNat : List U8 → Nat
  | [] => 0
  | b :: bs => b.toNat + 256 * leNat bs

/-- Bits `hi..lo` of an integer as a number (`hi = lo + w - 1`). -/
def bits (n lo w : Nat) : Nat := n / 2 ^ lo % 2 ^ w

/-- Concatenation `a || b` of two 16 bit pieces to a word. -/
def cat16 (a b : Nat) : U32 := BitVec.ofNat 32 (a * 2 ^ 16 + b)

/-- Inner state: eight state variables, eight counters, the counter carry bit (2.1). -/
structure St where
  X : Vector U32 8
  C : Vector U32 8
  b : Nat
  deriving DecidableEq

/-- The constants of the counter system (2.5). -/
def A : Vector U32 8 := #v[0x4D34D34D, 0xD34D34D3, 0x34D34D34, 0x4D34D34D,
  0xD34D34D3, 0x34D34D34, 0x4D34D34D, 0xD34D34D3]

/-- `temp = C_j + A_j + b` (2.5). -/
def temp (s : St) (j : Fin 8) : Nat := s.C[j].toNat + A[j].toNat + s.b

/-- One iteration of the loop of the counter system (2.5). -/
def counterStep (s : St) (j : Fin 8) : St :=
  { s with C := s.C.set j (BitVec.ofNat 32 (temp s j)), b := temp s j / 2 ^ 32 }

/-- The counter system (2.5). -/
def counter (s : St) : St := [0, 1, 2, 3, 4, 5, 6, 7].foldl counterStep s

/-- `g(u,v) = LSW(square(u+v)) XOR MSW(square(u+v))` (2.6). -/
def g (u v : U32) : U32 :=
  let sq := ((u.toNat + v.toNat) % 2 ^ 32) ^ 2
  BitVec.ofNat 32 (sq % 2 ^ 32) ^^^ BitVec.ofNat 32 (sq / 2 ^ 32)

/-- The next-state function (2.6). -/
def next (s : St) : St :=
  let G := fun j : Fin 8 => g s.X[j] s.C[j]
  { s with X := #v[
      G 0 + (G 7).rotateLeft 16 + (G 6).rotateLeft 16,
      G 1 + (G 0).rotateLeft 8 + G 7,
      G 2 + (G 1).rotateLeft 16 + (G 0).rotateLeft 16,
      G 3 + (G 2).rotateLeft 8 + G 1,
      G 4 + (G 3).rotateLeft 16 + (G 2).rotateLeft 16,
      G 5 + (G 4).rotateLeft 8 + G 3,
      G 6 + (G 5).rotateLeft 16 + (G 4).rotateLeft 16,
      G 7 + (G 6).rotateLeft 8 + G 5] }

/-- One iteration of the system: counter system, then next-state function. -/
def iter (s : St) : St := next (counter s)

/-- `n` iterations. -/
def iters : Nat → St → St
  | 0, s => s
  | n + 1, s => iters n (iter s)

/-- Key expansion (2.3), subkeys `K_i = K[16 i + 15 .. 16 i]`. -/
def keyExpand (K : Nat) : St :=
  let k := fun i : Nat => bits K (16 * (i % 8)) 16
  { X := Vector.ofFn fun j : Fin 8 =>
      if j.val % 2 = 0 then cat16 (k (j + 1)) (k j) else cat16 (k (j + 5)) (k (j + 4))
    C := Vector.ofFn fun j : Fin 8 =>
      if j.val % 2 = 0 then cat16 (k (j + 4)) (k (j + 5)) else cat16 (k j) (k (j + 1))
    b := 0 }

/-- Key setup (2.3): the master state. -/
def keySetup (K : Nat) : St :=
  let s := iters 4 (keyExpand K)
  { s with C := Vector.ofFn fun j : Fin 8 => s.C[j] ^^^ s.X[(j.val + 4) % 8]'(by omega) }

/-- The words that the IV setup (2.4) mixes into the counters: `IV[31..0]`,
`IV[63..48] || IV[31..16]`, `IV[63..32]`, `IV[47..32] || IV[15..0]`. -/
def ivWords (IV : Nat) : Vector U32 4 :=
  #v[BitVec.ofNat 32 (bits IV 0 32), cat16 (bits IV 48 16) (bits IV 16 16),
     BitVec.ofNat 32 (bits IV 32 32), cat16 (bits IV 32 16) (bits IV 0 16)]

/-- The first part of the IV setup (2.4): the IV is mixed into the counters. -/
def ivMix (IV : Nat) (s : St) : St :=
  { s with C := Vector.ofFn fun j : Fin 8 => s.C[j] ^^^ (ivWords IV)[j.val % 4]'(by omega) }

/-- IV setup (2.4). -/
def ivSetup (IV : Nat) (s : St) : St := iters 4 (ivMix IV s)

/-- Low and high half of a state variable. -/
def lo (x : U32) : Nat := bits x.toNat 0 16
def hi (x : U32) : Nat := bits x.toNat 16 16

/-- The extraction scheme (2.7): the eight 16 bit pieces of the output block, `S[15..0]` first. -/
def pieces (s : St) : List Nat :=
  [lo s.X[0] ^^^ hi s.X[5], hi s.X[0] ^^^ lo s.X[3], lo s.X[2] ^^^ hi s.X[7], hi s.X[2] ^^^ lo s.X[5],
   lo s.X[4] ^^^ hi s.X[1], hi s.X[4] ^^^ lo s.X[7], lo s.X[6] ^^^ hi s.X[3], hi s.X[6] ^^^ lo s.X[1]]

/-- The output block as sixteen bytes, least significant byte first. -/
def out (s : St) : List U8 := (pieces s).flatMap fun p => [BitVec.ofNat 8 p, BitVec.ofNat 8 (p / 256)]

/-- The output of `n` iterations. -/
def blocks : Nat → St → List U8
  | 0, _ => []
  | n + 1, s => out (iter s) ++ blocks n (iter s)

/-- The first `n` keystream bytes for a key and an IV. -/
def keystream (key iv : List U8) (n : Nat) : List U8 :=
  (blocks ((n + 15) / 16) (ivSetup (leNat iv) (keySetup (leNat key)))).take n

/-! The additions of the counter system whose sum is exactly 2^32. -/

/-- During one run of the counter system some `temp` is exactly `2^32`. -/
def hit : List (Fin 8) → St → Bool
  | [], _ => false
  | j :: js, s => temp s j == 2 ^ 32 || hit js (counterStep s j)

/-- No `temp` is exactly `2^32` during the next `n` iterations. -/
def clean : Nat → St → Bool
  | 0, _ => true
  | n + 1, s => !hit [0, 1, 2, 3, 4, 5, 6, 7] s && clean n (iter s)

/-- No counter addition gives exactly `2^32` from key setup up to output block `m`. -/
def cleanRun (key iv : List U8) (m : Nat) : Bool :=
  clean 4 (keyExpand (leNat key)) && clean (4 + m) (ivMix (leNat iv) (keySetup (leNat key)))

end CT.Spec.Rabbit
