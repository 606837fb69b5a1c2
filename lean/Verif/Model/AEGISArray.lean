import Verif.Model.OverlapBlock

/-!
# AEGIS with all buffers in one array

`aegis_encrypt_packet` and `aegis_decrypt_packet` with message, ciphertext, associated data, IV and tag anywhere in one array, as in a
packet that is put together or taken apart where it is.  The state is a separate object.  Reads and writes are in the order of the code.
-/

namespace CT.AEGIS

/-- An array with the five pointers of the packet functions (aegis_128.cpp:249, 260) into it. -/
structure Parts where
  mem : List U8
  pt : Nat
  ct : Nat
  ad : Nat
  iv : Nat
  tag : Nat
  deriving DecidableEq, Repr

/-- `aegis_encrypt_packet` (aegis_128.cpp:249-258).  The IV is read by `aegis_initialize` (24-77), the associated data by
`aegis_process_ad` (79-110), both before `aegis_encrypt` writes; `aegis_finalize` (243-246) writes the tag last. -/
def encryptParts (rnd : Quad → Quad → Quad) (cs : State) (p : Parts) (adlen msglen : Nat) : Res (State × List U8) := do
  let iv ← copy (Mem.rd p.mem) 16 p.iv
  let cs := initState rnd cs iv
  let cs ← processAd rnd cs (p.mem.drop p.ad) adlen
  let (cs, v) ← Ov.aegisCrypt rnd false cs ⟨p.mem, p.ct, p.pt⟩ msglen
  let (cs, tag) := finalize rnd cs adlen msglen
  let mem ← Mem.wrs v.mem p.tag tag.bytes
  .ok (cs, mem)

/-- `aegis_decrypt_packet` (aegis_128.cpp:260-291).  The tag is copied first (265).  `v.o` is the pointer `pt`. -/
def decryptParts (rnd : Quad → Quad → Quad) (cs : State) (p : Parts) (adlen msglen : Nat) : Res (State × List U8 × Int) := do
  let tag ← copy (Mem.rd p.mem) 16 p.tag
  let iv ← copy (Mem.rd p.mem) 16 p.iv
  let cs := initState rnd cs iv
  let cs ← processAd rnd cs (p.mem.drop p.ad) adlen
  let (cs, v) ← Ov.aegisCrypt rnd true cs ⟨p.mem, p.pt, p.ct⟩ msglen
  let (cs, reTag) := finalize rnd cs adlen msglen
  if reTag ≠ AES.quadOf tag then do
    let mem ← Mem.wrs v.mem v.o (List.replicate msglen 0)
    let mem ← Mem.wrs mem p.tag (List.replicate 16 0)
    .ok (cs, mem, 0)
  else .ok (cs, v.mem, 1)

end CT.AEGIS
