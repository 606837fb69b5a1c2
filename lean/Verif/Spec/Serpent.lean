import Verif.Basic.Blocks

/-!
# Serpent

Anderson, Biham and Knudsen, "Serpent: A Proposal for the Advanced Encryption Standard", in bitslice mode
(sections 3 and 4), and Serpent24 as defined in section 2.2 of the Sosemanuk specification.  A block or round
key is four words; column `i` is made of bit `i` of each word, that of word 0 being the least significant.
-/

namespace CT.Spec.Serpent

/-- The eight S-boxes. -/
def sboxes : List (List Nat) :=
  [[3, 8, 15, 1, 10, 6, 5, 11, 14, 13, 4, 2, 7, 0, 9, 12],
   [15, 12, 2, 7, 9, 0, 5, 10, 1, 11, 14, 8, 6, 13, 3, 4],
   [8, 6, 7, 9, 3, 12, 10, 15, 13, 1, 14, 4, 0, 11, 5, 2],
   [0, 15, 11, 8, 12, 9, 6, 3, 13, 1, 2, 4, 10, 7, 5, 14],
   [1, 15, 8, 3, 12, 0, 11, 6, 2, 5, 4, 10, 9, 14, 7, 13],
   [15, 5, 2, 11, 4, 10, 9, 12, 0, 3, 14, 8, 13, 6, 7, 1],
   [7, 2, 12, 5, 8, 4, 6, 11, 14, 9, 1, 15, 13, 3, 10, 0],
   [1, 13, 15, 0, 14, 8, 2, 11, 7, 4, 12, 10, 9, 3, 5, 6]]

/-- S-box `n` modulo 8. -/
def sbox (n x : Nat) : Nat := (sboxes.getD (n % 8) []).getD x 0

/-- The four bits of a column as a number. -/
def col (b0 b1 b2 b3 : Bool) : Nat := b0.toNat + 2 * b1.toNat + 4 * b2.toNat + 8 * b3.toNat

/-- Column `i`. -/
def column (x : Quad) (i : Nat) : Nat := col (x.w0.getLsbD i) (x.w1.getLsbD i) (x.w2.getLsbD i) (x.w3.getLsbD i)

/-- The word of `n` bits with bit `i` equal to `f i`. -/
def ofBits (f : Nat → Bool) : (n : Nat) → BitVec n
  | 0 => 0#0
  | n + 1 => BitVec.cons (f n) (ofBits f n)

/-- S-box `n` applied to all columns. -/
def sboxLayer (n : Nat) (x : Quad) : Quad :=
  let word := fun k => ofBits (fun i => (sbox n (column x i)).testBit k) 32
  ⟨word 0, word 1, word 2, word 3⟩

/-- The linear transformation. -/
def lt (x : Quad) : Quad :=
  let x0 := x.w0.rotateLeft 13
  let x2 := x.w2.rotateLeft 3
  let x1 := x.w1 ^^^ x0 ^^^ x2
  let x3 := x.w3 ^^^ x2 ^^^ (x0 <<< 3)
  let x1 := x1.rotateLeft 1
  let x3 := x3.rotateLeft 7
  let x0 := x0 ^^^ x1 ^^^ x3
  let x2 := x2 ^^^ x3 ^^^ (x1 <<< 7)
  ⟨x0.rotateLeft 5, x1, x2.rotateLeft 22, x3⟩

/-- Key mixing. -/
def mix (x k : Quad) : Quad := ⟨x.w0 ^^^ k.w0, x.w1 ^^^ k.w1, x.w2 ^^^ k.w2, x.w3 ^^^ k.w3⟩

/-- Keys shorter than 256 bits are filled up with a "1" bit and zeros at the most significant end; bytes are
least significant first. -/
def pad (key : List U8) : List U8 := if key.length < 32 then key ++ 1 :: List.replicate (31 - key.length) 0 else key

/-- The words `w_{-8}, ..., w_{n-1}`, where `l` is `w_{-8}, ..., w_{-1}`:
`w_i = (w_{i-8} + w_{i-5} + w_{i-3} + w_{i-1} + phi + i) <<< 11`. -/
def prekeys (l : List U32) : Nat → List U32
  | 0 => l
  | i + 1 =>
    let w := prekeys l i
    w ++ [(w.getD i 0 ^^^ w.getD (i + 3) 0 ^^^ w.getD (i + 5) 0 ^^^ w.getD (i + 7) 0 ^^^ 0x9e3779b9 ^^^ BitVec.ofNat 32 i).rotateLeft 11]

/-- Round key `i` of `n` round keys, for a key of 32 bytes: S-box `3 - i` applied to `w_{4i}, ..., w_{4i+3}`. -/
def roundKey (n : Nat) (key : List U8) (i : Nat) : Quad :=
  let w := (prekeys (bytesToWordsLE key) (4 * n)).drop 8
  sboxLayer (7 * i + 3) ⟨w.getD (4 * i) 0, w.getD (4 * i + 1) 0, w.getD (4 * i + 2) 0, w.getD (4 * i + 3) 0⟩

/-- State after `r` rounds (key mixing, S-boxes, linear transformation). -/
def after (k : Nat → Quad) (x : Quad) : Nat → Quad
  | 0 => x
  | r + 1 => lt (sboxLayer r (mix (after k x r) (k r)))

/-- A block as words. -/
def ofBytes (b : List U8) : Quad :=
  let w := bytesToWordsLE b
  ⟨w.getD 0 0, w.getD 1 0, w.getD 2 0, w.getD 3 0⟩

/-- Serpent24: the outputs after rounds 12, 18, and 24 (with the final key mixing). -/
def serpent24 (key block : List U8) : Quad × Quad × Quad :=
  let k := roundKey 25 key
  let x := ofBytes block
  (after k x 12, after k x 18, mix (after k x 24) (k 24))

/-- The three blocks one after the other. -/
def outWords (x : Quad × Quad × Quad) : List U32 :=
  [x.1.w0, x.1.w1, x.1.w2, x.1.w3, x.2.1.w0, x.2.1.w1, x.2.1.w2, x.2.1.w3, x.2.2.w0, x.2.2.w1, x.2.2.w2, x.2.2.w3]

/-- A block as bytes. -/
def toBytes (x : Quad) : List U8 := wordsToBytesLE [x.w0, x.w1, x.w2, x.w3]

/-- Serpent: 32 rounds, the linear transformation of the last one replaced by another key mixing. -/
def serpent (key block : List U8) : List U8 :=
  let k := roundKey 33 key
  let x := after k (ofBytes block) 31
  toBytes (mix (sboxLayer 31 (mix x (k 31))) (k 32))

end CT.Spec.Serpent
