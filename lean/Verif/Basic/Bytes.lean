import Verif.Basic.Res

/-!
# Bytes, words and byte orders

`U8`, `U32`, `U64` are the fixed width unsigned types of C++ (`uint8_t`, `uint32_t`, `uint64_t`).
The machine that the code targets (x86-64, AArch64) is little endian: reading a `uint32_t` through
a cast byte pointer is `le32`, storing one is `bytesLE32`.
-/

namespace CT

abbrev U8 := BitVec 8
abbrev U16 := BitVec 16
abbrev U32 := BitVec 32
abbrev U64 := BitVec 64

/-- Little-endian load of four bytes (`*(uint32_t*)p`, `memcpy` into a `uint32_t`). -/
def le32 (b0 b1 b2 b3 : U8) : U32 := b3 ++ b2 ++ b1 ++ b0

/-- Big-endian value of four bytes. -/
def be32 (b0 b1 b2 b3 : U8) : U32 := b0 ++ b1 ++ b2 ++ b3

/-- `n`-th byte of a word, counted from the least significant one. -/
def byteN (w : U32) (n : Nat) : U8 := w.extractLsb' (8 * n) 8

/-- Memory image of a word on a little-endian machine. -/
def bytesLE32 (w : U32) : List U8 := [byteN w 0, byteN w 1, byteN w 2, byteN w 3]

/-- Big-endian byte string of a word. -/
def bytesBE32 (w : U32) : List U8 := [byteN w 3, byteN w 2, byteN w 1, byteN w 0]

/-- Memory image of an array of words. -/
def wordsToBytesLE (ws : List U32) : List U8 := ws.flatMap bytesLE32

/-- The words whose memory image is the byte list (a partial last word is dropped). -/
def bytesToWordsLE : List U8 → List U32
  | b0 :: b1 :: b2 :: b3 :: bs => le32 b0 b1 b2 b3 :: bytesToWordsLE bs
  | _ => []

/-- Bitwise exclusive or of byte strings, as long as both last. -/
def xorBytes (a b : List U8) : List U8 := List.zipWith (· ^^^ ·) a b

/-! ### Lemmas -/

theorem bytesLE32_length (w : U32) : (bytesLE32 w).length = 4 := rfl
theorem bytesBE32_length (w : U32) : (bytesBE32 w).length = 4 := rfl

theorem le32_toNat (b0 b1 b2 b3 : U8) : (le32 b0 b1 b2 b3).toNat =
    b0.toNat + 2 ^ 8 * b1.toNat + 2 ^ 16 * b2.toNat + 2 ^ 24 * b3.toNat := by
  have h0 := b0.isLt
  have h1 := b1.isLt
  have h2 := b2.isLt
  simp only [le32]
  rw [BitVec.toNat_append, ← Nat.shiftLeft_add_eq_or_of_lt h0, BitVec.toNat_append,
    ← Nat.shiftLeft_add_eq_or_of_lt h1, BitVec.toNat_append, ← Nat.shiftLeft_add_eq_or_of_lt h2]
  simp only [Nat.shiftLeft_eq]
  omega

theorem byteN_le32 (b0 b1 b2 b3 : U8) :
    byteN (le32 b0 b1 b2 b3) 0 = b0 ∧ byteN (le32 b0 b1 b2 b3) 1 = b1 ∧
    byteN (le32 b0 b1 b2 b3) 2 = b2 ∧ byteN (le32 b0 b1 b2 b3) 3 = b3 := by
  refine ⟨?_, ?_, ?_, ?_⟩ <;>
  · apply BitVec.eq_of_getLsbD_eq
    intro i hi
    simp only [byteN, le32, BitVec.getLsbD_extractLsb', BitVec.getLsbD_append, hi, decide_true, Bool.true_and]
    repeat' split
    all_goals first | omega | (congr 1; omega) | skip

theorem bytesLE32_le32 (b0 b1 b2 b3 : U8) : bytesLE32 (le32 b0 b1 b2 b3) = [b0, b1, b2, b3] := by
  obtain ⟨h0, h1, h2, h3⟩ := byteN_le32 b0 b1 b2 b3
  simp [bytesLE32, h0, h1, h2, h3]

theorem le32_byteN (w : U32) : le32 (byteN w 0) (byteN w 1) (byteN w 2) (byteN w 3) = w := by
  apply BitVec.eq_of_getLsbD_eq
  intro i hi
  simp only [byteN, le32, BitVec.getLsbD_extractLsb', BitVec.getLsbD_append]
  repeat' split
  all_goals
    have : ∀ a b : Bool, a = true → (a && b) = b := by decide
    rw [this _ _ (by simp only [decide_eq_true_eq]; omega)]
    congr 1; omega

@[simp] theorem byteN_xor (a b : U32) (n : Nat) : byteN (a ^^^ b) n = byteN a n ^^^ byteN b n := by
  apply BitVec.eq_of_getLsbD_eq
  intro i hi
  simp [byteN, hi]

theorem byteN_inj {a b : U32} (h0 : byteN a 0 = byteN b 0) (h1 : byteN a 1 = byteN b 1)
    (h2 : byteN a 2 = byteN b 2) (h3 : byteN a 3 = byteN b 3) : a = b := by
  rw [← le32_byteN a, ← le32_byteN b, h0, h1, h2, h3]

theorem bytesLE32_inj {a b : U32} (h : bytesLE32 a = bytesLE32 b) : a = b := by
  simp only [bytesLE32, List.cons.injEq, and_true] at h
  exact byteN_inj h.1 h.2.1 h.2.2.1 h.2.2.2

@[simp] theorem wordsToBytesLE_nil : wordsToBytesLE [] = [] := rfl
@[simp] theorem wordsToBytesLE_cons (w : U32) (ws : List U32) :
    wordsToBytesLE (w :: ws) = bytesLE32 w ++ wordsToBytesLE ws := rfl
@[simp] theorem wordsToBytesLE_append (a b : List U32) :
    wordsToBytesLE (a ++ b) = wordsToBytesLE a ++ wordsToBytesLE b := by
  simp [wordsToBytesLE, List.flatMap_append]
theorem wordsToBytesLE_length (ws : List U32) : (wordsToBytesLE ws).length = 4 * ws.length := by
  induction ws with
  | nil => rfl
  | cons w ws ih => simp [bytesLE32_length, ih]; omega

theorem bytesToWordsLE_wordsToBytesLE (ws : List U32) : bytesToWordsLE (wordsToBytesLE ws) = ws := by
  induction ws with
  | nil => rfl
  | cons w ws ih =>
    simp only [wordsToBytesLE_cons, bytesLE32, List.cons_append, List.nil_append, bytesToWordsLE, ih,
      le32_byteN]

/-- The memory image of an array determines the array. -/
theorem wordsToBytesLE_bytesToWordsLE : ∀ (n : Nat) (bs : List U8), bs.length = 4 * n →
    wordsToBytesLE (bytesToWordsLE bs) = bs
  | 0, bs, h => by
    have : bs = [] := List.length_eq_zero_iff.mp (by omega)
    subst this; rfl
  | n + 1, b0 :: b1 :: b2 :: b3 :: bs, h => by
    have ih := wordsToBytesLE_bytesToWordsLE n bs (by simp at h; omega)
    simp [bytesToWordsLE, bytesLE32_le32, ih]
  | n + 1, [], h => by simp at h
  | n + 1, [_], h => by simp at h; omega
  | n + 1, [_, _], h => by simp at h; omega
  | n + 1, [_, _, _], h => by simp at h; omega

@[simp] theorem xorBytes_nil_left (b : List U8) : xorBytes [] b = [] := by simp [xorBytes]
@[simp] theorem xorBytes_nil_right (a : List U8) : xorBytes a [] = [] := by simp [xorBytes]
@[simp] theorem xorBytes_cons (x y : U8) (a b : List U8) :
    xorBytes (x :: a) (y :: b) = (x ^^^ y) :: xorBytes a b := by simp [xorBytes]
@[simp] theorem xorBytes_length (a b : List U8) : (xorBytes a b).length = min a.length b.length := by
  simp [xorBytes]

theorem xorBytes_append {a b c d : List U8} (h : a.length = c.length) :
    xorBytes (a ++ b) (c ++ d) = xorBytes a c ++ xorBytes b d := by
  simp [xorBytes, List.zipWith_append h]

/-- Exclusive or with the same string twice is the identity. -/
theorem xorBytes_xorBytes : ∀ (a k : List U8), a.length ≤ k.length → xorBytes (xorBytes a k) k = a
  | [], _, _ => by simp
  | _ :: _, [], h => by simp at h
  | x :: a, y :: k, h => by
    simp only [xorBytes_cons]
    rw [xorBytes_xorBytes a k (by simpa using h), BitVec.xor_assoc, BitVec.xor_self, BitVec.xor_zero]

/-- Two strings encrypted with one keystream: the keystream cancels. -/
theorem xorBytes_cancel : ∀ (a b k : List U8), a.length ≤ k.length → b.length ≤ k.length →
    xorBytes (xorBytes a k) (xorBytes b k) = xorBytes a b
  | [], _, _, _, _ => by simp
  | _ :: _, [], _, _, _ => by simp
  | x :: a, y :: b, [], h, _ => by simp at h
  | x :: a, y :: b, z :: k, h1, h2 => by
    simp only [xorBytes_cons]
    rw [xorBytes_cancel a b k (by simpa using h1) (by simpa using h2)]
    congr 1
    rw [BitVec.xor_comm y z, BitVec.xor_assoc, ← BitVec.xor_assoc z z y, BitVec.xor_self, BitVec.zero_xor]

theorem xorBytes_take_right (a k : List U8) : xorBytes a (k.take a.length) = xorBytes a k := by
  induction a generalizing k with
  | nil => simp
  | cons x a ih => cases k <;> simp [ih]

theorem xorBytes_take_take (a k : List U8) (n : Nat) :
    xorBytes (a.take n) (k.take n) = (xorBytes a k).take n := by
  simp [xorBytes, List.take_zipWith]

theorem xorBytes_comm (a b : List U8) : xorBytes a b = xorBytes b a := by
  induction a generalizing b with
  | nil => simp
  | cons x a ih => cases b <;> simp [ih, BitVec.xor_comm]

end CT
