import Verif.Model.ChaCha
import Verif.Model.HC128
import Verif.Model.HMAC

/-!
# ChaCha, HC-128, SHA-256 and HMAC on a big-endian machine

The other models are those of little-endian machines.  The code goes back and forth between bytes and words through cast pointers and
`memcpy`; here are the functions that do, with the most significant byte of a word at the lowest address.  Functions on words only
(`ksLoop`, `gen`, the compression function) do not depend on the byte order and are those of the other models.
-/

namespace CT

/-- Words whose memory image on a big-endian machine is the byte list (a partial last word is dropped); the `memcpy` of
chacha.cpp:38, 43 and the pointer casts of hc128.cpp:21-22. -/
def bytesToWordsBE : List U8 → List U32
  | b0 :: b1 :: b2 :: b3 :: bs => be32 b0 b1 b2 b3 :: bytesToWordsBE bs
  | _ => []

/-- Memory image of an array of words on a big-endian machine (`memcpy` of chacha.cpp:72, sha-256.cpp:136-143). -/
def wordsToBytesBE (ws : List U32) : List U8 := ws.flatMap bytesBE32

namespace Io

/-- Read the big-endian word at byte offset `i` from the input pointer (chacha.cpp:98-103, hc128.cpp:102-107). -/
def rd32BE (io : Io) (i : Nat) : Res U32 := do
  let b0 ← io.rd8 i
  let b1 ← io.rd8 (i + 1)
  let b2 ← io.rd8 (i + 2)
  let b3 ← io.rd8 (i + 3)
  return be32 b0 b1 b2 b3

/-- Write a big-endian word at byte offset `i` through the output pointer (chacha.cpp:98-103, hc128.cpp:102-107). -/
def wr32BE (io : Io) (i : Nat) (w : U32) : Res Io := do
  let io ← io.wr8 i (byteN w 3)
  let io ← io.wr8 (i + 1) (byteN w 2)
  let io ← io.wr8 (i + 2) (byteN w 1)
  io.wr8 (i + 3) (byteN w 0)

/-- `((uint32_t*)(out+i))[0] = ((uint32_t*)(in+i))[0] ^ k` (chacha.cpp:98-103, hc128.cpp:102-107). -/
def xor32BE (io : Io) (i : Nat) (k : U32) : Res Io := do
  let w ← io.rd32BE i
  io.wr32BE i (w ^^^ k)

/-- The word loops (chacha.cpp:98-103, hc128.cpp:102-107). -/
def wordLoopBE (ks : List U32) : Nat → Nat → Nat → Nat → Io → Res (Nat × Nat × Nat × Io)
  | 0, _, _, _, _ => .ub .diverges
  | fuel + 1, n, idx, off, io =>
    if n > 3 then do
      let k ← ksGet ks idx
      let io ← io.xor32BE off k
      wordLoopBE ks fuel (n - 4) (idx + 1) (off + 4) io
    else .ok (n, idx, off, io)

/-- The byte loops (chacha.cpp:107-112, hc128.cpp:109-114): bytes of the memory image of `ks`. -/
def byteLoopBE (ks : List U32) : Nat → Nat → Nat → Io → Res Io
  | 0, _, _, io => .ok io
  | n + 1, j, off, io => do
    let k ← ksGet ks (j / 4)
    let io ← io.xor8 off (byteN k (3 - j % 4))
    byteLoopBE ks n (j + 1) (off + 1) io

end Io

namespace ChaCha

/-- `chacha_initialize` (chacha.cpp:29-44). -/
def initBE (key nonce : List U8) : State :=
  let s : Words := Vector.replicate 16 0
  let s := s.set 0 0x61707865#32
  let s := s.set 1 0x3320646e#32
  let s := s.set 2 0x79622d32#32
  let s := s.set 3 0x6b206574#32
  let s := loadWords s 4 (bytesToWordsBE key)
  let s := s.set 12 1#32
  ⟨loadWords s 13 (bytesToWordsBE nonce)⟩

/-- `chacha_process_packet` (chacha.cpp:77-114). -/
def processPacketBE (rounds : Nat) (cs : State) (io : Io) (size : U64) : Res (State × Io) :=
  let nWords := (size.toNat + 3) / 4
  if 2 ^ 31 ≤ nWords then .ub .badConversion else
  let nIterations := (nWords + 15) / 16
  if 2 ^ 31 ≤ nIterations * 16 then .ub .signedOverflow else
  let r := ksLoop rounds nIterations cs 1 []
  let nBytes : Int := (size.setWidth 32).toInt
  do
    let (rest, idx, off, io) ← Io.wordLoopBE r.2 (nBytes.toNat + 1) nBytes.toNat 0 0 io
    let io ← Io.byteLoopBE r.2 rest (4 * idx) off io
    return (r.1, io)

end ChaCha

namespace HC128

/-- `W[0..1279]` (hc128.cpp:18-31); key and iv are the 16 bytes read. -/
def wArrayBE (key iv : List U8) : List U32 :=
  let k := bytesToWordsBE key
  let v := bytesToWordsBE iv
  (expand 1264 16 (k ++ k ++ v ++ v).reverse).reverse

/-- `hc128_initialize` (hc128.cpp:14-62). -/
def initBE (key iv : List U8) : State :=
  let w := wArrayBE key iv
  let cs : State :=
    { P := Vector.ofFn fun i => w.getD (i + 256) 0
      Q := Vector.ofFn fun i => w.getD (i + 768) 0 }
  mixQ 512 0 (mixP 512 0 cs)

/-- `hc128_process_packet` (hc128.cpp:89-115). -/
def processPacketBE (cs : State) (io : Io) (size : Nat) : Res (State × Io) :=
  if size < 1 then .ok (cs, io) else
  if 2 ^ 31 - 1 ≤ (size - 1) / 4 then .ub .signedOverflow else
  let r := gen ((size - 1) / 4 + 1) 0 cs
  do
    let (rest, idx, off, io) ← Io.wordLoopBE r.2 (size + 1) size 0 0 io
    let io ← Io.byteLoopBE r.2 rest (4 * idx) off io
    return (r.1, io)

end HC128

namespace SHA256

/-- `sha256_process_message` (sha-256.cpp:47-145): the words of the digest are stored through a word pointer. -/
def processWithBE (grow : Nat → Bool) (junk : Nat → U8) (digest message : List U8) (size : Nat) : Res (List U8) := do
  let n := if grow size then size / 64 * 64 + 128 else size / 64 * 64 + 64
  if 2 ^ 31 ≤ n then .ub .outOfBounds
  else if message.length < size then .ub .outOfBounds
  else
    let msg ← Mem.wrs ((List.range n).map junk) 0 (message.take size)
    let msg ← padMessage msg size
    let H ← blockLoop msg (n / 64) 0 H0
    Mem.wrs digest 0 (wordsToBytesBE (H.toList.map swapWord))

/-- The copy in Hash/SHA/SHA-2/SHA-256/sha-256.cpp:51. -/
def hashCopyBE := processWithBE fun size => (size + 1) % 64 > 56

/-- The copy in Authentication/HMAC-SHA-256/sha-256.cpp:51. -/
def hmacCopyBE := processWithBE fun size => size % 64 ≥ 56

end SHA256

namespace HMAC
open CT.SHA256 (hmacCopyBE)

/-- `hmac_load_key` (hmac.cpp:24-54). -/
def loadKeyBE (junk : Nat → U8) (key : List U8) (keysize : Int) : Res State := do
  let localKey := (List.range 64).map junk
  let (localKey, keysize) ←
    (if keysize > 64 then do
        let hashedKey ← hmacCopyBE junk ((List.range 32).map junk) key keysize.toNat
        let localKey ← Mem.wrs localKey 0 (hashedKey.take 32)
        .ok (localKey, 32)
      else do
        let localKey ← memcpyInt localKey 0 key keysize
        .ok (localKey, keysize.toNat) : Res (List U8 × Nat))
  let localKey ← Mem.wrs localKey keysize (List.replicate (64 - keysize) 0)
  .ok { innerKey := localKey.map (0x36 ^^^ ·), outerKey := localKey.map (0x5c ^^^ ·) }

/-- `hmac_tag_generation` (hmac.cpp:56-85). -/
def tagGenerationBE (junk : Nat → U8) (cs : State) (tag message : List U8) (dataLength : Nat) (tagLength : Int) :
    Res (List U8) := do
  if dataLength < 1 then .ok tag
  else
    let inner := (List.range (dataLength + 64)).map junk
    let inner ← Mem.wrs inner 0 (cs.innerKey.take 64)
    if message.length < dataLength then .ub .outOfBounds
    else
      let inner ← Mem.wrs inner 64 (message.take dataLength)
      let innerHash ← hmacCopyBE junk ((List.range 32).map junk) inner (dataLength + 64)
      let outer := List.replicate 96 0
      let outer ← Mem.wrs outer 0 (cs.outerKey.take 64)
      let outer ← Mem.wrs outer 64 (innerHash.take 32)
      let outerHash ← hmacCopyBE junk ((List.range 32).map junk) outer 96
      memcpyInt tag 0 outerHash tagLength

end HMAC

end CT
