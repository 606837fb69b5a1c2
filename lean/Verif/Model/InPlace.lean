import Verif.Model.HMAC
import Verif.Model.MD5

/-!
# Digests and tags written into the memory that the message is read from

`digest` and `message` of SHA-256, HMAC and MD5 are places in one array.  The functions are those of the other models with every read
of the message from, and every write of the result to, that array.
-/

namespace CT

/-- `sha256_process_message` (sha-256.cpp:47-145) with `digest = mem + d` and `message = mem + m`; the message is copied by the
`memcpy` in line 62, the words of the digest are stored one after the other by lines 136-143. -/
def SHA256.processIn (grow : Nat → Bool) (junk : Nat → U8) (mem : List U8) (d m size : Nat) : Res (List U8) := do
  let n := if grow size then size / 64 * 64 + 128 else size / 64 * 64 + 64
  if 2 ^ 31 ≤ n then .ub .outOfBounds
  else if mem.length < m + size then .ub .outOfBounds
  else
    let msg ← Mem.wrs ((List.range n).map junk) 0 ((mem.drop m).take size)
    let msg ← padMessage msg size
    let H ← blockLoop msg (n / 64) 0 H0
    Mem.wrs mem d (wordsToBytesLE (H.toList.map swapWord))

/-- The copy in Hash/SHA/SHA-2/SHA-256/sha-256.cpp:51. -/
def SHA256.hashCopyIn := SHA256.processIn fun size => (size + 1) % 64 > 56

/-- The copy in Authentication/HMAC-SHA-256/sha-256.cpp:51. -/
def SHA256.hmacCopyIn := SHA256.processIn fun size => size % 64 ≥ 56

/-- `hmac_tag_generation` (hmac.cpp:56-85) with `tag = mem + t` and `message = mem + m`. -/
def HMAC.tagGenerationIn (junk : Nat → U8) (cs : HMAC.State) (mem : List U8) (t m dataLength : Nat) (tagLength : Int) :
    Res (List U8) := do
  if dataLength < 1 then .ok mem
  else
    let inner := (List.range (dataLength + 64)).map junk
    let inner ← Mem.wrs inner 0 (cs.innerKey.take 64)
    if mem.length < m + dataLength then .ub .outOfBounds
    else
      let inner ← Mem.wrs inner 64 ((mem.drop m).take dataLength)
      let innerHash ← SHA256.hmacCopy junk ((List.range 32).map junk) inner (dataLength + 64)
      let outer := List.replicate 96 0
      let outer ← Mem.wrs outer 0 (cs.outerKey.take 64)
      let outer ← Mem.wrs outer 64 (innerHash.take 32)
      let outerHash ← SHA256.hmacCopy junk ((List.range 32).map junk) outer 96
      HMAC.memcpyInt mem t outerHash tagLength

/-- `MD5_process_packet` (md5.cpp:172-177) with `digest = mem + d` and `input = mem + m`.  `MD5Update` only reads the input, `MD5Final`
writes the digest (md5.cpp:165) after all blocks are processed. -/
def MD5.processPacketIn (c : MD5.Ctx) (mem : List U8) (d m : Nat) (size : U32) : Res (List U8 × MD5.Ctx) := do
  let c ← MD5.update (MD5.init c) (mem.drop m) size
  let bits := MD5.encodeWord c.count0 ++ MD5.encodeWord c.count1
  let index := (c.count0 >>> 3) &&& 0x3f
  let padLen := if index < 56 then 56 - index else 120 - index
  let c ← MD5.update c MD5.PADDING padLen
  let c ← MD5.update c bits 8
  let mem ← Mem.wrs mem d (MD5.encodeWord c.s0 ++ MD5.encodeWord c.s1 ++ MD5.encodeWord c.s2 ++ MD5.encodeWord c.s3)
  .ok (mem, { s0 := 0, s1 := 0, s2 := 0, s3 := 0, count0 := 0, count1 := 0, buffer := List.replicate 64 0 })

end CT
