import Verif.Model.Overlap
import Verif.Model.AEGIS
import Verif.Model.DES

/-!
# AES-CFB, AEGIS and DES on buffers that overlap

The packet functions of `Verif.Model.AES`, `Verif.Model.AEGIS` and `Verif.Model.DES` with both pointers into one array, at any two
offsets.  The other buffers of AEGIS (state, key, IV, associated data and tag) are separate objects.
-/

namespace CT

namespace Ov

/-- Read byte `j` back from the output pointer (aes_cfb.cpp:93-240, aegis_128.cpp:211). -/
def rdOut8 (v : Ov) (j : Nat) : Res U8 :=
  match v.mem[v.o + j]? with
  | some b => .ok b
  | none => .ub .outOfBounds

/-- Read the little-endian word at byte offset `j` back from the output pointer (aes_cfb.cpp:85-117, aegis_128.cpp:172-181). -/
def rdOut32 (v : Ov) (j : Nat) : Res U32 := do
  let b0 ← v.rdOut8 j
  let b1 ← v.rdOut8 (j + 1)
  let b2 ← v.rdOut8 (j + 2)
  let b3 ← v.rdOut8 (j + 3)
  return le32 b0 b1 b2 b3

/-- Read through `w_state_ptr` / `tmp_ptr` (aes_cfb.cpp:253-266). -/
def ctRd8 (mode : Bool) (v : Ov) (i : Nat) : Res U8 := if mode then v.rd8 i else v.rdOut8 i
def ctRd32 (mode : Bool) (v : Ov) (i : Nat) : Res U32 := if mode then v.rd32 i else v.rdOut32 i

/-- The loop of `aes_cfb_process_packet` (aes_cfb.cpp:242-314; AES_x86: 277-349; AES_ARM: 278-350). -/
def cfbLoop (va : AES.CfbVariant) (mode : Bool) : Nat → Nat → Nat → AES.State → Ov → Res (AES.State × Ov)
  | 0, _, _, _, _ => .ub .diverges
  | fuel + 1, size, off, cs, v =>
    if size > 0 then
      let r := AES.cfbEncrypt va cs
      let cs := r.1
      let ks := r.2
      if size ≥ 16 then do
        let v ← v.xor32 off ks.w0
        let v ← v.xor32 (off + 4) ks.w1
        let v ← v.xor32 (off + 8) ks.w2
        let v ← v.xor32 (off + 12) ks.w3
        let reg ← AES.fullStateUpdate (fun i => v.ctRd32 mode (off + i))
        cfbLoop va mode fuel (size - 16) (off + 16) { cs with reg := reg } v
      else do
        let v ← tailLoops [ks.w3, ks.w2, ks.w1, ks.w0] size off v
        let reg ← AES.partialStateUpdate (fun i => v.ctRd8 mode (off + i)) (fun i => v.ctRd32 mode (off + i)) cs.reg size
        .ok ({ cs with reg := reg }, v)
    else .ok (cs, v)

/-- `aes_cfb_process_packet` (aes_cfb.cpp:242-314); a negative `int size` is an empty packet. -/
def cfb (va : AES.CfbVariant) (mode : Bool) (cs : AES.State) (v : Ov) (size : Int) : Res (AES.State × Ov) :=
  cfbLoop va mode (size.toNat + 1) size.toNat 0 cs v

/-- The loops over whole blocks of AEGIS (aegis_128.cpp:121-133, 172-181). -/
def aegisLoop (rnd : Quad → Quad → Quad) (dec : Bool) (bound : Nat) : Nat → Nat → AEGIS.State → Ov → Res (Nat × AEGIS.State × Ov)
  | 0, _, _, _ => .ub .diverges
  | fuel + 1, tmp, cs, v =>
    if tmp < bound then do
      let k := AEGIS.keyQuad cs
      let v ← v.xor32 tmp k.w0
      let v ← v.xor32 (tmp + 4) k.w1
      let v ← v.xor32 (tmp + 8) k.w2
      let v ← v.xor32 (tmp + 12) k.w3
      let m ← AEGIS.rdQuad (fun i => v.ctRd32 (!dec) (tmp + i))
      aegisLoop rnd dec bound fuel (tmp + 16) (AEGIS.stateUpdate rnd cs m) v
    else .ok (tmp, cs, v)

/-- The rest of the message (aegis_128.cpp:135-161, 183-213). -/
def aegisLast (rnd : Quad → Quad → Quad) (dec : Bool) (n off : Nat) (cs : AEGIS.State) (v : Ov) : Res (AEGIS.State × Ov) := do
  let before ← (if dec then .ok [] else AEGIS.copy v.rd8 n off : Res _)
  let ks := (AEGIS.keyQuad cs).toList
  let (rest, i, off', v) ← wordLoop ks 16 n 0 off v
  let v ← byteLoop ks rest (4 * i) off' v
  let block ← (if dec then AEGIS.copy v.rdOut8 n off else .ok before : Res _)
  .ok (AEGIS.stateUpdate rnd cs (AES.quadOf (block ++ List.replicate (16 - n) 0)), v)

/-- `aegis_encrypt` and `aegis_decrypt` (aegis_128.cpp:112-214). -/
def aegisCrypt (rnd : Quad → Quad → Quad) (dec : Bool) (cs : AEGIS.State) (v : Ov) (msglen : Nat) : Res (AEGIS.State × Ov) :=
  if msglen = 0 then .ok (cs, v)
  else do
    let bound := (msglen + (2 ^ 64 - 15)) % 2 ^ 64
    let (tmp, cs, v) ← aegisLoop rnd dec bound (2 ^ 60) 0 cs v
    if tmp = msglen then .ok (cs, v)
    else aegisLast rnd dec (msglen - tmp) tmp cs v

/-- `aegis_encrypt_packet` (aegis_128.cpp:249-258). -/
def aegisEncrypt (rnd : Quad → Quad → Quad) (cs : AEGIS.State) (v : Ov) (ad iv : List U8) (adlen msglen : Nat) :
    Res (AEGIS.State × Ov × List U8) := do
  let cs := AEGIS.initState rnd cs iv
  let cs ← AEGIS.processAd rnd cs ad adlen
  let (cs, v) ← aegisCrypt rnd false cs v msglen
  let (cs, tag) := AEGIS.finalize rnd cs adlen msglen
  .ok (cs, v, tag.bytes)

/-- `aegis_decrypt_packet` (aegis_128.cpp:260-291). -/
def aegisDecrypt (rnd : Quad → Quad → Quad) (cs : AEGIS.State) (v : Ov) (ad iv tag : List U8) (adlen msglen : Nat) :
    Res (AEGIS.State × Ov × List U8 × Int) := do
  let cs := AEGIS.initState rnd cs iv
  let cs ← AEGIS.processAd rnd cs ad adlen
  let (cs, v) ← aegisCrypt rnd true cs v msglen
  let (cs, reTag) := AEGIS.finalize rnd cs adlen msglen
  if reTag ≠ AES.quadOf tag then do
    let mem ← Mem.wrs v.mem v.o (List.replicate msglen 0)
    let tag ← Mem.wrs tag 0 (List.replicate 16 0)
    .ok (cs, { v with mem := mem }, tag, 0)
  else .ok (cs, v, tag, 1)

end Ov

/-- An array of words with two pointers into it (the parameters of des.cpp:106, 116). -/
structure OvW where
  mem : List U32
  o : Nat
  i : Nat
  deriving DecidableEq, Repr

namespace OvW

/-- `input[j]` (des.cpp:91, 128, 131) -/
def rd (v : OvW) (j : Nat) : Res U32 :=
  match v.mem[v.i + j]? with
  | some w => .ok w
  | none => .ub .outOfBounds

/-- `output[j] = w` (des.cpp:103, 128, 131) -/
def wr (v : OvW) (j : Nat) (w : U32) : Res OvW :=
  if v.o + j < v.mem.length then .ok { v with mem := v.mem.set (v.o + j) w } else .ub .outOfBounds

/-- The loop of `des_process_packet_ecb` (des.cpp:109-113); `des_ecb_block` reads both words before it writes
(des.cpp:87-104). -/
def ecbLoop (rk : List U32) : Nat → Nat → Nat → OvW → Res OvW
  | 0, _, _, _ => .ub .diverges
  | fuel + 1, size, j, v =>
    if size > 0 then do
      let x ← v.rd j
      let y ← v.rd (j + 1)
      let p := DES.ecbBlock rk (x, y)
      let v ← v.wr j p.1
      let v ← v.wr (j + 1) p.2
      ecbLoop rk fuel ((size + 2 ^ 64 - 8) % 2 ^ 64) (j + 2) v
    else .ok v

/-- `des_process_packet_ecb` (des.cpp:106-114). -/
def ecb (rk : List U32) (v : OvW) (size : Nat) : Res OvW := ecbLoop rk (v.mem.length - v.o + 1) size 0 v

/-- The loop of `des_process_packet_ctr` (des.cpp:123-135). -/
def ctrLoop (rk : List U32) (iv0 iv1 : U32) : Nat → U32 → Nat → Nat → OvW → Res OvW
  | 0, _, _, _, _ => .ub .diverges
  | fuel + 1, iv3, size, j, v =>
    if size > 0 then do
      let ks := DES.ecbBlock rk (iv0, iv1)
      let x ← v.rd j
      let v ← v.wr j (x ^^^ ks.1)
      let y ← v.rd (j + 1)
      let v ← v.wr (j + 1) (y ^^^ ks.2)
      ctrLoop rk iv0 iv1 fuel (iv3 + 1) ((size + 2 ^ 64 - 8) % 2 ^ 64) (j + 2) v
    else .ok v

/-- `des_process_packet_ctr` (des.cpp:116-136); the nonce is a separate array. -/
def ctr (rk : List U32) (v : OvW) (nonce : List U32) (size : Nat) : Res OvW :=
  match nonce with
  | n0 :: n1 :: _ :: _ => ctrLoop rk n0 n1 (v.mem.length - v.o + 1) 0 size 0 v
  | _ => .ub .outOfBounds

end OvW

end CT
