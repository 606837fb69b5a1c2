import Verif.Spec.AES

/-!
# AES with fewer rounds

The transformations are those of FIPS 197; which round keys are used, and how many rounds there are,
is a parameter.  The modes are those of SP 800-38A over any block function.
-/

namespace CT.Spec.AESReduced
open CT.Spec.AES

/-- `n` rounds with MixColumns; round `i` uses round key `idx i`. -/
def rounds (idx : Nat → Nat) (key : List U8) : Nat → State → State
  | 0, s => s
  | n + 1, s => addRoundKey (mixColumns (shiftRows (subBytes (rounds idx key n s)))) (roundKey key (idx (n + 1)))

/-- AES of `n + 1` rounds: the last one is without MixColumns. -/
def cipher (idx : Nat → Nat) (n : Nat) (key block : List U8) : List U8 :=
  let s := rounds idx key n (addRoundKey (ofBytes block) (roundKey key (idx 0)))
  toBytes (addRoundKey (shiftRows (subBytes s)) (roundKey key (idx (n + 1))))

/-- Six rounds with the first seven round keys: AES-128 broken off after its sixth round. -/
def firstSix : List U8 → List U8 → List U8 := cipher id 5

/-- Six rounds with round key 0 and the last six round keys: AES-128 with rounds 1 to 4 left out. -/
def lastSix : List U8 → List U8 → List U8 := cipher (fun i => if i = 0 then 0 else i + 4) 5

/-- CFB-128 encryption (SP 800-38A, 6.3) of `n` blocks with block function `E`. -/
def cfbEnc (E : List U8 → List U8) : Nat → List U8 → List U8 → List U8
  | 0, _, _ => []
  | n + 1, prev, msg =>
    let c := xorBytes (msg.take 16) (E prev)
    c ++ cfbEnc E n c (msg.drop 16)

/-- CFB-128 decryption (6.3) of `n` blocks. -/
def cfbDec (E : List U8 → List U8) : Nat → List U8 → List U8 → List U8
  | 0, _, _ => []
  | n + 1, prev, ct => xorBytes (ct.take 16) (E prev) ++ cfbDec E n (ct.take 16) (ct.drop 16)

/-- Counter mode keystream (6.5). -/
def ctrStream (E : List U8 → List U8) (nonce : List U8) : Nat → Nat → List U8
  | _, 0 => []
  | first, n + 1 => E (nonce ++ ctrField first) ++ ctrStream E nonce (first + 1) n

/-- Counter mode of a sequence of messages, each starting with a fresh block of the counter. -/
def ctrMany (E : List U8 → List U8) (nonce : List U8) : Nat → List (List U8) → List (List U8)
  | _, [] => []
  | first, m :: ms =>
    let n := (m.length + 15) / 16
    xorBytes m (ctrStream E nonce first n) :: ctrMany E nonce (first + n) ms

end CT.Spec.AESReduced
