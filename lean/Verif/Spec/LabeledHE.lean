import Verif.Spec.HC128
import Verif.Basic.Bytes
import Mathlib.Algebra.BigOperators.Group.List.Basic

/-!
# Label values of labeled homomorphic encryption

The function of key and label the code comments describe: the label, written as an array of `n` bytes,
is encrypted with HC-128 and the array is read back as a number.
-/

namespace CT.Spec.LHE

/-- The label as `n` bytes, most significant first. -/
def labelBytes (n label : ℕ) : List U8 :=
  (List.range n).map fun i => BitVec.ofNat 8 (label / 256 ^ (n - 1 - i))

/-- Little-endian value of four bytes from position `i` on. -/
def word (bs : List U8) (i : ℕ) : ℕ :=
  (bs.getD i 0).toNat + 256 * (bs.getD (i + 1) 0).toNat + 256 ^ 2 * (bs.getD (i + 2) 0).toNat
    + 256 ^ 3 * (bs.getD (i + 3) 0).toNat

/-- The number with the `n` words of `bs` as digits, most significant word first. -/
def value (n : ℕ) (bs : List U8) : ℕ :=
  ((List.range n).map fun j => word bs (4 * j) * 2 ^ (32 * (n - 1 - j))).sum

/-- The label value for messages of `k` bits. -/
def labelValue (key iv : List U8) (label k : ℕ) : ℕ :=
  value (k / 32) (xorBytes (labelBytes (k / 8) label) (HC128.keystream key iv (k / 8)))

end CT.Spec.LHE
