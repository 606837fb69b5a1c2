import Verif.Basic.Bytes

/-!
# DES (specification, written from FIPS 46-3)

Blocks and keys are lists of bits, the leftmost bit (number 1 in the standard) first.
-/

namespace CT.Spec.DES

abbrev Bits := List Bool

/-- Select the bits with the given numbers (counted from 1). -/
def perm (t : List Nat) (b : Bits) : Bits := t.map fun i => b.getD (i - 1) false

def xor (a b : Bits) : Bits := List.zipWith Bool.xor a b

def IP : List Nat := [
  58, 50, 42, 34, 26, 18, 10, 2, 60, 52, 44, 36, 28, 20, 12, 4,
  62, 54, 46, 38, 30, 22, 14, 6, 64, 56, 48, 40, 32, 24, 16, 8,
  57, 49, 41, 33, 25, 17, 9, 1, 59, 51, 43, 35, 27, 19, 11, 3,
  61, 53, 45, 37, 29, 21, 13, 5, 63, 55, 47, 39, 31, 23, 15, 7]

def FP : List Nat := [
  40, 8, 48, 16, 56, 24, 64, 32, 39, 7, 47, 15, 55, 23, 63, 31,
  38, 6, 46, 14, 54, 22, 62, 30, 37, 5, 45, 13, 53, 21, 61, 29,
  36, 4, 44, 12, 52, 20, 60, 28, 35, 3, 43, 11, 51, 19, 59, 27,
  34, 2, 42, 10, 50, 18, 58, 26, 33, 1, 41, 9, 49, 17, 57, 25]

def E : List Nat := [
  32, 1, 2, 3, 4, 5, 4, 5, 6, 7, 8, 9, 8, 9, 10, 11, 12, 13, 12, 13, 14, 15, 16, 17,
  16, 17, 18, 19, 20, 21, 20, 21, 22, 23, 24, 25, 24, 25, 26, 27, 28, 29, 28, 29, 30, 31, 32, 1]

def P : List Nat := [
  16, 7, 20, 21, 29, 12, 28, 17, 1, 15, 23, 26, 5, 18, 31, 10,
  2, 8, 24, 14, 32, 27, 3, 9, 19, 13, 30, 6, 22, 11, 4, 25]

def PC1 : List Nat := [
  57, 49, 41, 33, 25, 17, 9, 1, 58, 50, 42, 34, 26, 18, 10, 2, 59, 51, 43, 35, 27, 19, 11, 3, 60, 52, 44, 36,
  63, 55, 47, 39, 31, 23, 15, 7, 62, 54, 46, 38, 30, 22, 14, 6, 61, 53, 45, 37, 29, 21, 13, 5, 28, 20, 12, 4]

def PC2 : List Nat := [
  14, 17, 11, 24, 1, 5, 3, 28, 15, 6, 21, 10, 23, 19, 12, 4, 26, 8, 16, 7, 27, 20, 13, 2,
  41, 52, 31, 37, 47, 55, 30, 40, 51, 45, 33, 48, 44, 49, 39, 56, 34, 53, 46, 42, 50, 36, 29, 32]

/-- Left shifts before each round key. -/
def shifts : List Nat := [1, 1, 2, 2, 2, 2, 2, 2, 1, 2, 2, 2, 2, 2, 2, 1]

/-- The S-boxes, each as four rows of sixteen. -/
def S : List (List Nat) := [
  [14, 4, 13, 1, 2, 15, 11, 8, 3, 10, 6, 12, 5, 9, 0, 7,
   0, 15, 7, 4, 14, 2, 13, 1, 10, 6, 12, 11, 9, 5, 3, 8,
   4, 1, 14, 8, 13, 6, 2, 11, 15, 12, 9, 7, 3, 10, 5, 0,
   15, 12, 8, 2, 4, 9, 1, 7, 5, 11, 3, 14, 10, 0, 6, 13],
  [15, 1, 8, 14, 6, 11, 3, 4, 9, 7, 2, 13, 12, 0, 5, 10,
   3, 13, 4, 7, 15, 2, 8, 14, 12, 0, 1, 10, 6, 9, 11, 5,
   0, 14, 7, 11, 10, 4, 13, 1, 5, 8, 12, 6, 9, 3, 2, 15,
   13, 8, 10, 1, 3, 15, 4, 2, 11, 6, 7, 12, 0, 5, 14, 9],
  [10, 0, 9, 14, 6, 3, 15, 5, 1, 13, 12, 7, 11, 4, 2, 8,
   13, 7, 0, 9, 3, 4, 6, 10, 2, 8, 5, 14, 12, 11, 15, 1,
   13, 6, 4, 9, 8, 15, 3, 0, 11, 1, 2, 12, 5, 10, 14, 7,
   1, 10, 13, 0, 6, 9, 8, 7, 4, 15, 14, 3, 11, 5, 2, 12],
  [7, 13, 14, 3, 0, 6, 9, 10, 1, 2, 8, 5, 11, 12, 4, 15,
   13, 8, 11, 5, 6, 15, 0, 3, 4, 7, 2, 12, 1, 10, 14, 9,
   10, 6, 9, 0, 12, 11, 7, 13, 15, 1, 3, 14, 5, 2, 8, 4,
   3, 15, 0, 6, 10, 1, 13, 8, 9, 4, 5, 11, 12, 7, 2, 14],
  [2, 12, 4, 1, 7, 10, 11, 6, 8, 5, 3, 15, 13, 0, 14, 9,
   14, 11, 2, 12, 4, 7, 13, 1, 5, 0, 15, 10, 3, 9, 8, 6,
   4, 2, 1, 11, 10, 13, 7, 8, 15, 9, 12, 5, 6, 3, 0, 14,
   11, 8, 12, 7, 1, 14, 2, 13, 6, 15, 0, 9, 10, 4, 5, 3],
  [12, 1, 10, 15, 9, 2, 6, 8, 0, 13, 3, 4, 14, 7, 5, 11,
   10, 15, 4, 2, 7, 12, 9, 5, 6, 1, 13, 14, 0, 11, 3, 8,
   9, 14, 15, 5, 2, 8, 12, 3, 7, 0, 4, 10, 1, 13, 11, 6,
   4, 3, 2, 12, 9, 5, 15, 10, 11, 14, 1, 7, 6, 0, 8, 13],
  [4, 11, 2, 14, 15, 0, 8, 13, 3, 12, 9, 7, 5, 10, 6, 1,
   13, 0, 11, 7, 4, 9, 1, 10, 14, 3, 5, 12, 2, 15, 8, 6,
   1, 4, 11, 13, 12, 3, 7, 14, 10, 15, 6, 8, 0, 5, 9, 2,
   6, 11, 13, 8, 1, 4, 10, 7, 9, 5, 0, 15, 14, 2, 3, 12],
  [13, 2, 8, 4, 6, 15, 11, 1, 10, 9, 3, 14, 5, 0, 12, 7,
   1, 15, 13, 8, 10, 3, 7, 4, 12, 5, 6, 11, 0, 14, 9, 2,
   7, 11, 4, 1, 9, 12, 14, 2, 0, 6, 10, 13, 15, 3, 5, 8,
   2, 1, 14, 7, 4, 10, 8, 13, 15, 12, 9, 0, 3, 5, 6, 11]]

/-- The four bits of a number below 16. -/
def nib (n : Nat) : Bits := [n.testBit 3, n.testBit 2, n.testBit 1, n.testBit 0]

/-- S-box `i` (from 0) on six bits: the outer bits select the row, the inner ones the column. -/
def sbox (i : Nat) (b0 b1 b2 b3 b4 b5 : Bool) : Bits :=
  nib ((S.getD i []).getD (32 * b0.toNat + 16 * b5.toNat + 8 * b1.toNat + 4 * b2.toNat + 2 * b3.toNat + b4.toNat) 0)

/-- All S-boxes on 48 bits, starting with S-box `i`. -/
def sboxes : Nat → Bits → Bits
  | i, b0 :: b1 :: b2 :: b3 :: b4 :: b5 :: bs => sbox i b0 b1 b2 b3 b4 b5 ++ sboxes (i + 1) bs
  | _, _ => []

/-- The cipher function `f(R, K)`. -/
def f (R K : Bits) : Bits := perm P (sboxes 0 (xor (perm E R) K))

/-- Left rotation by `n`. -/
def rotl (n : Nat) (b : Bits) : Bits := b.drop n ++ b.take n

/-- The round keys from `C`, `D` on, for the given shifts. -/
def subkeys (C D : Bits) : List Nat → List Bits
  | [] => []
  | n :: ns => perm PC2 (rotl n C ++ rotl n D) :: subkeys (rotl n C) (rotl n D) ns

/-- The key schedule `K_1, ..., K_16`. -/
def keySchedule (key : Bits) : List Bits :=
  let cd := perm PC1 key
  subkeys (cd.take 28) (cd.drop 28) shifts

/-- The rounds `L' = R`, `R' = L xor f(R, K)`. -/
def rounds : List Bits → Bits × Bits → Bits × Bits
  | [], p => p
  | k :: ks, p => rounds ks (p.2, xor p.1 (f p.2 k))

/-- The block cipher for a list of round keys. -/
def cipher (ks : List Bits) (block : Bits) : Bits :=
  let b := perm IP block
  let p := rounds ks (b.take 32, b.drop 32)
  perm FP (p.2 ++ p.1)

def encrypt (key block : Bits) : Bits := cipher (keySchedule key) block
def decrypt (key block : Bits) : Bits := cipher (keySchedule key).reverse block

/-- Bits of a byte string, the most significant bit of each byte first. -/
def ofBytes (bs : List U8) : Bits :=
  bs.flatMap fun b => [b.getLsbD 7, b.getLsbD 6, b.getLsbD 5, b.getLsbD 4, b.getLsbD 3, b.getLsbD 2, b.getLsbD 1, b.getLsbD 0]

/-- Bits of a word, the most significant one first. -/
def ofWord (w : U32) : Bits := (List.range 32).map fun i => w.getLsbD (31 - i)

end CT.Spec.DES
