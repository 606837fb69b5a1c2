import Verif.Basic.Bytes

/-! # Hexadecimal text (specification): ASCII codes of digits, two per byte, high digit first -/

namespace CT.Spec.Hex

/-- The sixteen upper-case digits. -/
def upperDigits : List Char := "0123456789ABCDEF".toList

/-- ASCII code of a character. -/
def ascii (c : Char) : U8 := BitVec.ofNat 8 c.toNat

/-- The upper-case digit for a value below 16. -/
def digit (n : Nat) : U8 := ascii (upperDigits.getD n '0')

/-- The upper-case hexadecimal text of a byte string. -/
def encode : List U8 → List U8
  | [] => []
  | b :: bs => digit (b.toNat / 16) :: digit (b.toNat % 16) :: encode bs

/-- The value of a hexadecimal digit, upper or lower case. -/
def value (c : U8) : Option Nat :=
  if 48 ≤ c.toNat ∧ c.toNat ≤ 57 then some (c.toNat - 48)
  else if 65 ≤ c.toNat ∧ c.toNat ≤ 70 then some (c.toNat - 55)
  else if 97 ≤ c.toNat ∧ c.toNat ≤ 102 then some (c.toNat - 87)
  else none

/-- The bytes a hexadecimal text denotes, if it is one (an even number of digits). -/
def denotes : List U8 → Option (List U8)
  | [] => some []
  | [_] => none
  | c :: d :: cs => do
    let h ← value c
    let l ← value d
    let r ← denotes cs
    return BitVec.ofNat 8 (16 * h + l) :: r

/-- The text contains no lower-case letter. -/
def noLower (cs : List U8) : Prop := ∀ c ∈ cs, ¬ (97 ≤ c.toNat ∧ c.toNat ≤ 102)

end CT.Spec.Hex
