import Verif.Model.HMAC
import Verif.Model.AEGIS

/-!
# Tag comparisons with a count of the steps

The functions that check tags once more, with the number of comparisons they make, which is what an
observer of their running time learns.
-/

namespace CT.HMAC

/-- Comparison loop of `hmac_tag_validation` (hmac.cpp:95-100), `n` iterations from index `i` on; `k`
comparisons have been made before.  The result is the return value and the number of comparisons. -/
def compareLoopT (tag newTag : List U8) : Nat → Nat → Nat → Res (Int × Nat)
  | 0, _, k => .ok (1, k)
  | n + 1, i, k => do
    let a ← Mem.rd tag i
    let b ← Mem.rd newTag i
    if a ≠ b then .ok (0, k + 1) else compareLoopT tag newTag n (i + 1) (k + 1)

/-- `hmac_tag_validation` (hmac.cpp:87-101): the return value and the number of comparisons. -/
def tagValidationT (junk : Nat → U8) (cs : State) (tag message : List U8) (dataLength : Nat) (tagLength : Int) :
    Res (Int × Nat) := do
  if tagLength < 0 then .ub .outOfBounds
  else
    let newTag := (List.range tagLength.toNat).map junk
    let newTag ← tagGeneration junk cs newTag message dataLength tagLength
    compareLoopT tag newTag tagLength.toNat 0 0

end CT.HMAC

namespace CT.AEGIS
open CT.AES (quadOf)

/-- The loop of `aegis_decrypt_packet` (aegis_128.cpp:279-282), over the pairs of words still to be
compared: the flag and the number of comparisons. -/
def compareWordsT : List (U32 × U32) → Bool → Nat → Bool × Nat
  | [], flag, k => (flag, k)
  | (a, b) :: ws, flag, k => compareWordsT ws (if a ≠ b then true else flag) (k + 1)

/-- `aegis_decrypt_packet` (aegis_128.cpp:260-291) with the comparison loop as it is written: new state,
buffers, tag buffer and return value, and the number of comparisons. -/
def decryptPacketT (rnd : Quad → Quad → Quad) (cs : State) (io : Io) (ad iv tag : List U8) (adlen msglen : Nat) :
    Res ((State × Io × List U8 × Int) × Nat) := do
  let cs := initState rnd cs iv
  let cs ← processAd rnd cs ad adlen
  let (cs, io) ← crypt rnd true cs io msglen
  let (cs, reTag) := finalize rnd cs adlen msglen
  let (flag, k) := compareWordsT (reTag.toList.zip (quadOf tag).toList) false 0
  if flag then do
    let out ← Mem.wrs io.out 0 (List.replicate msglen 0)
    let tag ← Mem.wrs tag 0 (List.replicate 16 0)
    .ok ((cs, { io with out := out }, tag, 0), k)
  else .ok ((cs, io, tag, 1), k)

end CT.AEGIS
