import Verif.Model.HMAC
import Verif.Model.ChaCha
import Verif.Model.AEGIS
import Verif.Model.Sosemanuk

/-!
# Heap blocks that the functions give back

The functions of hmac.cpp, chacha.cpp, aegis_128.cpp and serpent.cpp that call `new`, and their callers, once more with the list of the
blocks that they give back with `delete`: the bytes that are in each block at that moment, in the order of the calls.  None of the
functions overwrites a block before.  Arrays on the stack are not in the list.  Words are little endian.
-/

namespace CT

/-- The contents of the blocks given back (hmac.cpp:84, chacha.cpp:113, aegis_128.cpp:101, serpent.cpp:22, 97, 401). -/
abbrev Freed := List (List U8)

namespace HMAC
open CT.SHA256 (hmacCopy)

/-- `hmac_tag_generation` (hmac.cpp:56-85); `inner_computation` is given back in line 84. -/
def tagGenerationF (junk : Nat → U8) (cs : State) (tag message : List U8) (dataLength : Nat) (tagLength : Int) :
    Res (List U8 × Freed) := do
  if dataLength < 1 then .ok (tag, [])
  else
    let inner := (List.range (dataLength + 64)).map junk
    let inner ← Mem.wrs inner 0 (cs.innerKey.take 64)
    if message.length < dataLength then .ub .outOfBounds
    else
      let inner ← Mem.wrs inner 64 (message.take dataLength)
      let innerHash ← hmacCopy junk ((List.range 32).map junk) inner (dataLength + 64)
      let outer := List.replicate 96 0
      let outer ← Mem.wrs outer 0 (cs.outerKey.take 64)
      let outer ← Mem.wrs outer 64 (innerHash.take 32)
      let outerHash ← hmacCopy junk ((List.range 32).map junk) outer 96
      let tag ← memcpyInt tag 0 outerHash tagLength
      .ok (tag, [inner])

/-- `hmac_tag_validation` (hmac.cpp:87-101). -/
def tagValidationF (junk : Nat → U8) (cs : State) (tag message : List U8) (dataLength : Nat) (tagLength : Int) :
    Res (Int × Freed) := do
  if tagLength < 0 then .ub .outOfBounds
  else
    let newTag := (List.range tagLength.toNat).map junk
    let (newTag, l) ← tagGenerationF junk cs newTag message dataLength tagLength
    let v ← compareLoop tag newTag tagLength.toNat 0
    .ok (v, l)

end HMAC

namespace ChaCha

/-- `chacha_process_packet` (chacha.cpp:77-114); `keystream` is given back in line 113. -/
def processPacketF (rounds : Nat) (cs : State) (io : Io) (size : U64) : Res ((State × Io) × Freed) :=
  let nWords := (size.toNat + 3) / 4
  if 2 ^ 31 ≤ nWords then .ub .badConversion else
  let nIterations := (nWords + 15) / 16
  if 2 ^ 31 ≤ nIterations * 16 then .ub .signedOverflow else
  let r := ksLoop rounds nIterations cs 1 []
  let nBytes : Int := (size.setWidth 32).toInt
  do
    let (rest, idx, off, io) ← Io.wordLoop r.2 (nBytes.toNat + 1) nBytes.toNat 0 0 io
    let io ← Io.byteLoop r.2 rest (4 * idx) off io
    return ((r.1, io), [wordsToBytesLE r.2])

end ChaCha

namespace AEGIS
open CT.AES

/-- `aegis_process_ad` (aegis_128.cpp:79-110); `padded_ad` exists only when the size is not a multiple of sixteen and is given back in
line 101. -/
def processAdF (rnd : Quad → Quad → Quad) (cs : State) (ad : List U8) (adlen : Nat) : Res (State × Freed) :=
  if adlen = 0 then .ok (cs, [])
  else if ad.length < adlen then .ub .outOfBounds
  else if 2 ^ 29 < (adlen + 15) / 16 then .ub .signedOverflow
  else if adlen % 16 ≠ 0 then
    let padded := ad.take adlen ++ List.replicate (16 - adlen % 16) 0
    .ok (adLoop rnd ((adlen + 15) / 16) cs padded, [padded])
  else .ok (adLoop rnd ((adlen + 15) / 16) cs (ad.take adlen), [])

/-- `aegis_encrypt_packet` (aegis_128.cpp:249-258). -/
def encryptPacketF (rnd : Quad → Quad → Quad) (cs : State) (io : Io) (ad iv : List U8) (adlen msglen : Nat) :
    Res ((State × Io × List U8) × Freed) := do
  let cs := initState rnd cs iv
  let (cs, l) ← processAdF rnd cs ad adlen
  let (cs, io) ← crypt rnd false cs io msglen
  let (cs, tag) := finalize rnd cs adlen msglen
  .ok ((cs, io, tag.bytes), l)

/-- `aegis_decrypt_packet` (aegis_128.cpp:260-291). -/
def decryptPacketF (rnd : Quad → Quad → Quad) (cs : State) (io : Io) (ad iv tag : List U8) (adlen msglen : Nat) :
    Res ((State × Io × List U8 × Int) × Freed) := do
  let cs := initState rnd cs iv
  let (cs, l) ← processAdF rnd cs ad adlen
  let (cs, io) ← crypt rnd true cs io msglen
  let (cs, reTag) := finalize rnd cs adlen msglen
  if reTag ≠ quadOf tag then do
    let out ← Mem.wrs io.out 0 (List.replicate msglen 0)
    let tag ← Mem.wrs tag 0 (List.replicate 16 0)
    .ok ((cs, { io with out := out }, tag, 0), l)
  else .ok ((cs, io, tag, 1), l)

end AEGIS

namespace Serpent

/-- `serpent1` (serpent.cpp:10-23); `r4` is given back in line 22. -/
def serpent1F (r0 r1 r2 r3 : U32) : Quad × Freed :=
  let ⟨_, r1, r2, r3, r4⟩ := S2 r0 r1 r2 r3
  let r0 := r2
  let r2 := r1
  let r1 := r3
  let r3 := r4
  (⟨r0, r1, r2, r3⟩, [bytesLE32 r4])

/-- `rounds` (serpent.cpp:27-99); `r4` is given back in line 97. -/
def roundsF (rk : List U32) (t0 t1 t2 t3 : U32) : List U32 × Freed :=
  let x : Regs := ⟨t0, t1, t2, t3, 0⟩
  let x := round0 rk x
  let x := round1 rk x
  let x := round2 rk x
  let x := round3 rk x
  let x := round4 rk x
  let x := round5 rk x
  let x := round6 rk x
  let x := round7 rk x
  let x := round8 rk x
  let x := round9 rk x
  let x := round10 rk x
  let x := round11 rk x
  let out := [x.r3, x.r1, x.r0, x.r2]
  let x := round12 rk x
  let x := round13 rk x
  let x := round14 rk x
  let x := round15 rk x
  let x := round16 rk x
  let x := round17 rk x
  let out := out ++ [x.r2, x.r1, x.r3, x.r0]
  let x := round18 rk x
  let x := round19 rk x
  let x := round20 rk x
  let x := round21 rk x
  let x := round22 rk x
  let x := round23 rk x
  let x := lastKey rk x
  (out ++ [x.r0, x.r1, x.r2, x.r3], [bytesLE32 x.r4])

/-- `serpent_process_packet` (serpent.cpp:100-116). -/
def processPacketF (rk : List U32) (input : List U8) (size : Nat) : Res (List U32 × Freed) :=
  if input.length < size then .ub .outOfBounds
  else if 16 < size then .ub .outOfBounds
  else if size = 0 then .ok ([], [])
  else if size < 16 then .ub .uninitRead
  else
    match bytesToWordsLE (input.take 16) with
    | [t0, t1, t2, t3] => .ok (roundsF rk t0 t1 t2 t3)
    | _ => .ub .outOfBounds

/-- `serpent_key_schedule` (serpent.cpp:118-424); `r4` was written last by the S-box of the words 96 to 99 (line 336) and is given back
in line 401.  With `exit(1)` there is no block yet. -/
def keyScheduleF (key : List U8) (size : Int) : Res (Option (List U32) × Freed) :=
  if 32 < size then .ok (none, [])
  else if size < 0 ∨ key.length < size.toNat then .ub .outOfBounds
  else
    let w := words (key.take size.toNat)
    .ok (some (rkLoop 25 0 w), [bytesLE32 (S3 (w.getD 96 0) (w.getD 97 0) (w.getD 98 0) (w.getD 99 0)).r4])

end Serpent

namespace Sosemanuk

/-- `sosemanuk_load_key` (sosemanuk.cpp:5-10). -/
def loadKeyF (cs : State) (key : List U8) (size : Int) : Res (Option State × Freed) := do
  let (r, l) ← Serpent.keyScheduleF key size
  return (r.map fun rk => { cs with rk := rk }, l)

/-- `sosemanuk_load_iv` (sosemanuk.cpp:12-36). -/
def loadIvF (cs : State) (iv : List U8) : Res (State × Freed) := do
  let (i, l) ← Serpent.processPacketF cs.rk iv 16
  match i with
  | [i0, i1, i2, i3, i4, i5, i6, i7, i8, i9, i10, i11] =>
    .ok ({ rk := cs.rk, s9 := i0, s8 := i1, s7 := i2, s6 := i3, R1 := i4, R2 := i6, s5 := i7, s4 := i5, s3 := i8, s2 := i9, s1 := i10, s0 := i11 }, l)
  | _ => .ub .outOfBounds

/-- Sixteen bytes of keystream (sosemanuk.cpp:52-71 and 83-100); `serpent1` is called in lines 66 and 94.  The blocks given back so far
are carried with the state. -/
def blockF (s : State × Freed) : (State × Freed) × Quad :=
  let (cs, f0) := fsmUpdate s.1
  let (cs, s0) := lfsrUpdate cs
  let (cs, f1) := fsmUpdate cs
  let (cs, s1) := lfsrUpdate cs
  let (cs, f2) := fsmUpdate cs
  let (cs, s2) := lfsrUpdate cs
  let (cs, f3) := fsmUpdate cs
  let (cs, s3) := lfsrUpdate cs
  let f := Serpent.serpent1F f0 f1 f2 f3
  ((cs, s.2 ++ f.2), ⟨s0 ^^^ f.1.w0, s1 ^^^ f.1.w1, s2 ^^^ f.1.w2, s3 ^^^ f.1.w3⟩)

/-- `sosemanuk_process_packet` (sosemanuk.cpp:38-117). -/
def processPacketF (cs : State) (io : Io) (size : Nat) : Res ((State × Io) × Freed) := do
  let (n, off, cs, io) ← Io.blockLoop blockF (size + 1) size 0 (cs, []) io
  let (cs, ks) := blockF cs
  let (rest, i, off, io) ← Io.wordLoop ks.toList (n + 1) n 0 off io
  let io ← Io.byteLoop ks.toList rest (4 * i) off io
  return ((cs.1, io), cs.2)

end Sosemanuk

end CT
