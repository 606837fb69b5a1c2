import Verif.Basic.Bytes

/-! # Rotations as the code's macros write them -/

namespace CT

/-- `#define ROTR_32(x,n) ( (x >> (n)) | (x << (32-(n)) ) )` -
same text in chacha.h:21, hc128.h, rabbit.h, serpent.h, sha-256.h. -/
def rotr32 (x : U32) (n : Nat) : U32 := (x >>> n) ||| (x <<< (32 - n))

/-- `#define ROTL_32(x,n) ROTR_32(x,(32-(n)))` (chacha.h:22). -/
def rotl32 (x : U32) (n : Nat) : U32 := rotr32 x (32 - n)

theorem rotr32_eq (x : U32) {n : Nat} (_h0 : 0 < n) (h : n < 32) : rotr32 x n = x.rotateRight n := by
  simp [rotr32, BitVec.rotateRight_def, Nat.mod_eq_of_lt h]

theorem rotl32_eq (x : U32) {n : Nat} (h0 : 0 < n) (h : n < 32) : rotl32 x n = x.rotateLeft n := by
  have : 32 - (32 - n) = n := by omega
  simp [rotl32, rotr32, BitVec.rotateLeft_def, Nat.mod_eq_of_lt h, this, BitVec.or_comm]

end CT
