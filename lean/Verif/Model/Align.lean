import Verif.Model.ChaCha
import Verif.Model.HC128
import Verif.Model.Rabbit
import Verif.Model.Sosemanuk
import Verif.Model.AES
import Verif.Model.AEGIS

/-!
# Packet functions with the addresses of the buffers

The packet functions read and write their buffers through pointers that were converted from `uint8_t*` to `uint32_t*`.
Such an access is defined only at addresses that are multiples of four.  Here are the packet functions once more with the
addresses of the two buffers and this condition; the other models treat an access at any address as an access to the four
bytes.  (By the letter of the standard the access has undefined behaviour anyway if no `uint32_t` was stored there before;
that is not modelled.)  Keys, IVs, associated data and tags are not part of this model.
-/

namespace CT

/-- The addresses of the output and of the input buffer (the parameters of chacha.cpp:77 and the other packet functions). -/
structure Ad where
  o : Nat
  i : Nat
  deriving DecidableEq, Repr

namespace Ad

/-- `*w_ptr_out = *w_ptr_in ^ k` at byte offset `j` (chacha.cpp:98-103 and the other word loops). -/
def xor32 (d : Ad) (io : Io) (j : Nat) (k : U32) : Res Io :=
  if (d.i + j) % 4 ≠ 0 ∨ (d.o + j) % 4 ≠ 0 then .ub .misaligned else io.xor32 j k

/-- Reading a word through `w_state_ptr`, `ctxt` (aes_cfb.cpp:85-117, 253-266) or `pt_w_ptr` (aegis_128.cpp:116-133, 168-181). -/
def ctRd32 (d : Ad) (mode : Bool) (io : Io) (j : Nat) : Res U32 :=
  if ((if mode then d.i else d.o) + j) % 4 ≠ 0 then .ub .misaligned else AES.ctRd32 mode io j

/-- The word loop (chacha.cpp:98-103, hc128.cpp:102-107, sosemanuk.cpp:101-107, aes_ctr.cpp:169-173). -/
def wordLoop (d : Ad) (ks : List U32) : Nat → Nat → Nat → Nat → Io → Res (Nat × Nat × Nat × Io)
  | 0, _, _, _, _ => .ub .diverges
  | fuel + 1, n, idx, off, io =>
    if n > 3 then do
      let k ← ksGet ks idx
      let io ← d.xor32 io off k
      wordLoop d ks fuel (n - 4) (idx + 1) (off + 4) io
    else .ok (n, idx, off, io)

/-- The block loop (rabbit.cpp:161-179, sosemanuk.cpp:46-81, aes_ctr.cpp and its variants). -/
def blockLoop {σ : Type} (d : Ad) (blk : σ → σ × Quad) : Nat → Nat → Nat → σ → Io → Res (Nat × Nat × σ × Io)
  | 0, _, _, _, _ => .ub .diverges
  | fuel + 1, n, off, s, io =>
    if n > 15 then do
      let r := blk s
      let io ← d.xor32 io off r.2.w0
      let io ← d.xor32 io (off + 4) r.2.w1
      let io ← d.xor32 io (off + 8) r.2.w2
      let io ← d.xor32 io (off + 12) r.2.w3
      blockLoop d blk fuel (n - 16) (off + 16) r.1 io
    else .ok (n, off, s, io)

/-- The words and then the bytes of an incomplete block (aes_ctr.cpp:168-186, aes_cfb.cpp:290-308). -/
def tailLoops (d : Ad) (ws : List U32) (n off : Nat) (io : Io) : Res Io := do
  let (m, k, off, io) ← d.wordLoop ws 16 n 0 off io
  if m > 0 then
    let w ← ksGet ws k
    AES.tailBytes w m 0 off io
  else return io

/-- `chacha_process_packet` (chacha.cpp:77-114). -/
def chacha (d : Ad) (rounds : Nat) (cs : ChaCha.State) (io : Io) (size : U64) : Res (ChaCha.State × Io) :=
  let nWords := (size.toNat + 3) / 4
  if 2 ^ 31 ≤ nWords then .ub .badConversion else
  let nIterations := (nWords + 15) / 16
  if 2 ^ 31 ≤ nIterations * 16 then .ub .signedOverflow else
  let r := ChaCha.ksLoop rounds nIterations cs 1 []
  let nBytes : Int := (size.setWidth 32).toInt
  do
    let (rest, idx, off, io) ← d.wordLoop r.2 (nBytes.toNat + 1) nBytes.toNat 0 0 io
    let io ← Io.byteLoop r.2 rest (4 * idx) off io
    return (r.1, io)

/-- `hc128_process_packet` (hc128.cpp:89-115). -/
def hc128 (d : Ad) (cs : HC128.State) (io : Io) (size : Nat) : Res (HC128.State × Io) :=
  if size < 1 then .ok (cs, io) else
  if 2 ^ 31 - 1 ≤ (size - 1) / 4 then .ub .signedOverflow else
  let r := HC128.gen ((size - 1) / 4 + 1) 0 cs
  do
    let (rest, idx, off, io) ← d.wordLoop r.2 (size + 1) size 0 0 io
    let io ← Io.byteLoop r.2 rest (4 * idx) off io
    return (r.1, io)

/-- `rabbit_process_packet` (rabbit.cpp:155-196): words in whole blocks, bytes in the rest. -/
def rabbit (d : Ad) (cs : Rabbit.State) (io : Io) (size : Nat) : Res (Rabbit.State × Io) := do
  let (left, off, cs, io) ← d.blockLoop Rabbit.extract (size + 1) size 0 cs io
  if left > 0 then
    let r := Rabbit.extract cs
    let io ← Io.byteLoop r.2.toList left 0 off io
    return (r.1, io)
  else return (cs, io)

/-- `sosemanuk_process_packet` (sosemanuk.cpp:38-117). -/
def sosemanuk (d : Ad) (cs : Sosemanuk.State) (io : Io) (size : Nat) : Res (Sosemanuk.State × Io) := do
  let (n, off, cs, io) ← d.blockLoop Sosemanuk.block (size + 1) size 0 cs io
  let (cs, ks) := Sosemanuk.block cs
  let (rest, i, off, io) ← d.wordLoop ks.toList (n + 1) n 0 off io
  let io ← Io.byteLoop ks.toList rest (4 * i) off io
  return (cs, io)

/-- `aes_ctr_process_packet` (aes_ctr.cpp:127-192; AES_x86 and AES_ARM aes_ctr.cpp:163-227). -/
def aesCtr {σ : Type} (d : Ad) (blk : σ → σ × Quad) (cs : σ) (io : Io) (size : Int) : Res (σ × Io) := do
  let (left, off, cs, io) ← d.blockLoop blk (size.toNat + 1) size.toNat 0 cs io
  if left > 0 then
    let r := blk cs
    let io ← d.tailLoops r.2.toList left off io
    return (r.1, io)
  else return (cs, io)

/-- The loop of `aes_cfb_process_packet` (aes_cfb.cpp:242-314; AES_x86: 277-349; AES_ARM: 278-350). -/
def cfbLoop (d : Ad) (va : AES.CfbVariant) (mode : Bool) : Nat → Nat → Nat → AES.State → Io → Res (AES.State × Io)
  | 0, _, _, _, _ => .ub .diverges
  | fuel + 1, size, off, cs, io =>
    if size > 0 then
      let r := AES.cfbEncrypt va cs
      let cs := r.1
      let ks := r.2
      if size ≥ 16 then do
        let io ← d.xor32 io off ks.w0
        let io ← d.xor32 io (off + 4) ks.w1
        let io ← d.xor32 io (off + 8) ks.w2
        let io ← d.xor32 io (off + 12) ks.w3
        let reg ← AES.fullStateUpdate (fun i => d.ctRd32 mode io (off + i))
        cfbLoop d va mode fuel (size - 16) (off + 16) { cs with reg := reg } io
      else do
        let io ← d.tailLoops [ks.w3, ks.w2, ks.w1, ks.w0] size off io
        let reg ← AES.partialStateUpdate (fun i => AES.ctRd8 mode io (off + i)) (fun i => d.ctRd32 mode io (off + i)) cs.reg size
        .ok ({ cs with reg := reg }, io)
    else .ok (cs, io)

/-- `aes_cfb_process_packet` (aes_cfb.cpp:242-314); a negative `int size` is an empty packet. -/
def cfb (d : Ad) (va : AES.CfbVariant) (mode : Bool) (cs : AES.State) (io : Io) (size : Int) : Res (AES.State × Io) :=
  d.cfbLoop va mode (size.toNat + 1) size.toNat 0 cs io

/-- The loops over whole blocks of AEGIS (aegis_128.cpp:121-133, 172-181). -/
def aegisLoop (d : Ad) (rnd : Quad → Quad → Quad) (dec : Bool) (bound : Nat) :
    Nat → Nat → AEGIS.State → Io → Res (Nat × AEGIS.State × Io)
  | 0, _, _, _ => .ub .diverges
  | fuel + 1, tmp, cs, io =>
    if tmp < bound then do
      let k := AEGIS.keyQuad cs
      let io ← d.xor32 io tmp k.w0
      let io ← d.xor32 io (tmp + 4) k.w1
      let io ← d.xor32 io (tmp + 8) k.w2
      let io ← d.xor32 io (tmp + 12) k.w3
      let m ← AEGIS.rdQuad (fun i => d.ctRd32 (!dec) io (tmp + i))
      aegisLoop d rnd dec bound fuel (tmp + 16) (AEGIS.stateUpdate rnd cs m) io
    else .ok (tmp, cs, io)

/-- The rest of the message (aegis_128.cpp:135-161, 183-213). -/
def aegisLast (d : Ad) (rnd : Quad → Quad → Quad) (dec : Bool) (n off : Nat) (cs : AEGIS.State) (io : Io) :
    Res (AEGIS.State × Io) := do
  let before ← (if dec then .ok [] else AEGIS.copy io.rd8 n off : Res _)
  let ks := (AEGIS.keyQuad cs).toList
  let (rest, i, off', io) ← d.wordLoop ks 16 n 0 off io
  let io ← Io.byteLoop ks rest (4 * i) off' io
  let block ← (if dec then AEGIS.copy io.rdOut8 n off else .ok before : Res _)
  .ok (AEGIS.stateUpdate rnd cs (AES.quadOf (block ++ List.replicate (16 - n) 0)), io)

/-- `aegis_encrypt` and `aegis_decrypt` (aegis_128.cpp:112-214). -/
def aegisCrypt (d : Ad) (rnd : Quad → Quad → Quad) (dec : Bool) (cs : AEGIS.State) (io : Io) (msglen : Nat) :
    Res (AEGIS.State × Io) :=
  if msglen = 0 then .ok (cs, io)
  else do
    let bound := (msglen + (2 ^ 64 - 15)) % 2 ^ 64
    let (tmp, cs, io) ← d.aegisLoop rnd dec bound (2 ^ 60) 0 cs io
    if tmp = msglen then .ok (cs, io)
    else d.aegisLast rnd dec (msglen - tmp) tmp cs io

/-- `aegis_encrypt_packet` (aegis_128.cpp:249-258). -/
def aegisEncrypt (d : Ad) (rnd : Quad → Quad → Quad) (cs : AEGIS.State) (io : Io) (ad iv : List U8) (adlen msglen : Nat) :
    Res (AEGIS.State × Io × List U8) := do
  let cs := AEGIS.initState rnd cs iv
  let cs ← AEGIS.processAd rnd cs ad adlen
  let (cs, io) ← d.aegisCrypt rnd false cs io msglen
  let (cs, tag) := AEGIS.finalize rnd cs adlen msglen
  .ok (cs, io, tag.bytes)

/-- `aegis_decrypt_packet` (aegis_128.cpp:260-291). -/
def aegisDecrypt (d : Ad) (rnd : Quad → Quad → Quad) (cs : AEGIS.State) (io : Io) (ad iv tag : List U8) (adlen msglen : Nat) :
    Res (AEGIS.State × Io × List U8 × Int) := do
  let cs := AEGIS.initState rnd cs iv
  let cs ← AEGIS.processAd rnd cs ad adlen
  let (cs, io) ← d.aegisCrypt rnd true cs io msglen
  let (cs, reTag) := AEGIS.finalize rnd cs adlen msglen
  if reTag ≠ AES.quadOf tag then do
    let out ← Mem.wrs io.out 0 (List.replicate msglen 0)
    let tag ← Mem.wrs tag 0 (List.replicate 16 0)
    .ok (cs, { io with out := out }, tag, 0)
  else .ok (cs, io, tag, 1)

end Ad

end CT
