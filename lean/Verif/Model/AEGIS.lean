import Verif.Model.AES
import Verif.Basic.Mem

/-!
# Model of StreamCiphers/AEGIS: AEGIS, AEGIS_x86 and AEGIS_ARM

The three copies of aegis_128.cpp are the same up to white space; the copies of aegis_128.h differ in
the round function, which is a parameter here.  The tables of tables.h are those of the AES code.
Buffers other than plaintext and ciphertext (state, key, IV, associated data, tag) are separate
objects.
-/

namespace CT.AEGIS
open CT.AES (quadOf ctRd32)

/-- `struct aegis_state` (aegis_128.h:21-32) without the unused member `w`. -/
structure State where
  key : Quad
  s0 : Quad
  s1 : Quad
  s2 : Quad
  s3 : Quad
  s4 : Quad
  deriving DecidableEq

/-- `^` on arrays of four words (aegis_128.cpp:30-33 and 124-127). -/
def qxor (a b : Quad) : Quad := ⟨a.w0 ^^^ b.w0, a.w1 ^^^ b.w1, a.w2 ^^^ b.w2, a.w3 ^^^ b.w3⟩
/-- `&` on arrays of four words (aegis_128.cpp:124-127). -/
def qand (a b : Quad) : Quad := ⟨a.w0 &&& b.w0, a.w1 &&& b.w1, a.w2 &&& b.w2, a.w3 &&& b.w3⟩

/-- Round function of the portable code (aegis_128.h:37-90), which is that of the AES code. -/
def rndPortable (s k : Quad) : Quad := AES.round s k
/-- With `x86_INTRINSICS` (AEGIS_x86/aegis_128.h:135, 154, 176, 196, 220). -/
def rndX86 (s k : Quad) : Quad := AES.aesenc s k
/-- With `ARM_INTRINSICS` (AEGIS_ARM/aegis_128.h:138-142, 163-167, 190-194, 215-217, 242-246). -/
def rndArm (s k : Quad) : Quad := AES.xor128 (AES.aesmc (AES.aese (AES.xor128 s k) k)) k

/-- `aegis_state_update` (aegis_128.h:93-151; x86: 98-227; ARM: 99-253). -/
def stateUpdate (rnd : Quad → Quad → Quad) (cs : State) (m : Quad) : State :=
  { cs with
    s0 := rnd cs.s4 (qxor cs.s0 m)
    s1 := rnd cs.s0 cs.s1
    s2 := rnd cs.s1 cs.s2
    s3 := rnd cs.s2 cs.s3
    s4 := rnd cs.s3 cs.s4 }

/-- `constant` (tables.h:26-30). -/
def constant : List U8 :=
  [0x00, 0x01, 0x01, 0x02, 0x03, 0x05, 0x08, 0x0d, 0x15, 0x22, 0x37, 0x59, 0x90, 0xe9, 0x79, 0x62,
   0xdb, 0x3d, 0x18, 0x55, 0x6d, 0xc2, 0x2f, 0xf1, 0x20, 0x11, 0x31, 0x42, 0x73, 0xb5, 0x28, 0xdd]

/-- `aegis_load_key` (aegis_128.cpp:19-22); `key` is the 16 bytes read. -/
def loadKey (cs : State) (key : List U8) : State := { cs with key := quadOf key }

/-- `aegis_initialize` (aegis_128.cpp:24-77); `iv` is the 16 bytes read. -/
def initState (rnd : Quad → Quad → Quad) (cs : State) (iv : List U8) : State :=
  let tmp := qxor cs.key (quadOf iv)
  let c0 := quadOf constant
  let c1 := quadOf (constant.drop 16)
  let cs := { cs with s0 := tmp, s1 := c1, s2 := c0, s3 := qxor cs.key c0, s4 := qxor cs.key c1 }
  let cs := stateUpdate rnd cs cs.key
  let cs := stateUpdate rnd cs tmp
  let cs := stateUpdate rnd cs cs.key
  let cs := stateUpdate rnd cs tmp
  let cs := stateUpdate rnd cs cs.key
  let cs := stateUpdate rnd cs tmp
  let cs := stateUpdate rnd cs cs.key
  let cs := stateUpdate rnd cs tmp
  let cs := stateUpdate rnd cs cs.key
  stateUpdate rnd cs tmp

/-- The loop of `aegis_process_ad` (aegis_128.cpp:97-100, 105-108): `n` blocks. -/
def adLoop (rnd : Quad → Quad → Quad) : Nat → State → List U8 → State
  | 0, cs, _ => cs
  | n + 1, cs, bs => adLoop rnd n (stateUpdate rnd cs (quadOf bs)) (bs.drop 16)

/-- `aegis_process_ad` (aegis_128.cpp:79-110).  The `int` product `4*i` in lines 99 and 107 overflows
from `i = 2^29` on; below that `ceil(double(adlen)/16)` is exact. -/
def processAd (rnd : Quad → Quad → Quad) (cs : State) (ad : List U8) (adlen : Nat) : Res State :=
  if adlen = 0 then .ok cs
  else if ad.length < adlen then .ub .outOfBounds
  else if 2 ^ 29 < (adlen + 15) / 16 then .ub .signedOverflow
  else
    let data := if adlen % 16 ≠ 0 then ad.take adlen ++ List.replicate (16 - adlen % 16) 0 else ad.take adlen
    .ok (adLoop rnd ((adlen + 15) / 16) cs data)

/-- The words `cs->s1[i] ^ cs->s4[i] ^ (cs->s2[i] & cs->s3[i])` (aegis_128.cpp:125-128, 175-178). -/
def keyQuad (cs : State) : Quad := qxor (qxor cs.s1 cs.s4) (qand cs.s2 cs.s3)

/-- The four words of `message_block` read by `aegis_state_update` (aegis_128.h:104-107). -/
def rdQuad (rd : Nat → Res U32) : Res Quad := do
  let a ← rd 0
  let b ← rd 4
  let c ← rd 8
  let d ← rd 12
  return ⟨a, b, c, d⟩

/-- The loop over whole blocks in `aegis_encrypt` (aegis_128.cpp:121-133) and `aegis_decrypt`
(172-181): `for (tmp; tmp < bound; tmp = tmp+16)`.  `tmp` is also the offset of the two pointers.  The
state is updated with the words behind `pt_w_ptr` after the ciphertext was written; the plaintext is
the input of encryption and the output of decryption.  (`tmp` cannot wrap around: the memory accesses
come first.) -/
def blockLoop (rnd : Quad → Quad → Quad) (dec : Bool) (bound : Nat) : Nat → Nat → State → Io → Res (Nat × State × Io)
  | 0, _, _, _ => .ub .diverges
  | fuel + 1, tmp, cs, io =>
    if tmp < bound then do
      let k := keyQuad cs
      let io ← io.xor32 tmp k.w0
      let io ← io.xor32 (tmp + 4) k.w1
      let io ← io.xor32 (tmp + 8) k.w2
      let io ← io.xor32 (tmp + 12) k.w3
      let m ← rdQuad (fun i => ctRd32 (!dec) io (tmp + i))
      blockLoop rnd dec bound fuel (tmp + 16) (stateUpdate rnd cs m) io
    else .ok (tmp, cs, io)

/-- `memcpy` of `n` bytes from offset `off` (aegis_128.cpp:139, 211). -/
def copy (rd : Nat → Res U8) : Nat → Nat → Res (List U8)
  | 0, _ => .ok []
  | n + 1, off => do
    let b ← rd off
    let bs ← copy rd n (off + 1)
    return b :: bs

/-- The rest of `aegis_encrypt` (aegis_128.cpp:135-161) and `aegis_decrypt` (183-213): `n > 0` bytes at
offset `off`.  `padded_block` is filled before the encryption, after the decryption. -/
def lastBlock (rnd : Quad → Quad → Quad) (dec : Bool) (n off : Nat) (cs : State) (io : Io) : Res (State × Io) := do
  let before ← (if dec then .ok [] else copy io.rd8 n off : Res _)
  let ks := (keyQuad cs).toList
  let (rest, i, off', io) ← Io.wordLoop ks 16 n 0 off io
  let io ← Io.byteLoop ks rest (4 * i) off' io
  let block ← (if dec then copy io.rdOut8 n off else .ok before : Res _)
  .ok (stateUpdate rnd cs (quadOf (block ++ List.replicate (16 - n) 0)), io)

/-- `aegis_encrypt` (aegis_128.cpp:112-163) and `aegis_decrypt` (165-214), `dec` for the second.
`msglen-15` is computed in `uint64_t`.  (The word loop has the bound `msglen-3`; it is reached with
`msglen ≥ 15` only.) -/
def crypt (rnd : Quad → Quad → Quad) (dec : Bool) (cs : State) (io : Io) (msglen : Nat) : Res (State × Io) :=
  if msglen = 0 then .ok (cs, io)
  else do
    let bound := (msglen + (2 ^ 64 - 15)) % 2 ^ 64
    let (tmp, cs, io) ← blockLoop rnd dec bound (2 ^ 60) 0 cs io
    if tmp = msglen then .ok (cs, io)
    else lastBlock rnd dec (msglen - tmp) tmp cs io

/-- The first word of a `uint64_t` in memory (aegis_128.cpp:222-226). -/
def lo64 (n : Nat) : U32 := BitVec.ofNat 32 (n % 2 ^ 64)
/-- The second word of a `uint64_t` in memory (aegis_128.cpp:222-226). -/
def hi64 (n : Nat) : U32 := BitVec.ofNat 32 (n % 2 ^ 64 / 2 ^ 32)

/-- `aegis_finalize` (aegis_128.cpp:216-247): new state and tag. -/
def finalize (rnd : Quad → Quad → Quad) (cs : State) (adlen msglen : Nat) : State × Quad :=
  let tmp : Quad := qxor ⟨lo64 (adlen * 8), hi64 (adlen * 8), lo64 (msglen * 8), hi64 (msglen * 8)⟩ cs.s3
  let cs := stateUpdate rnd cs tmp
  let cs := stateUpdate rnd cs tmp
  let cs := stateUpdate rnd cs tmp
  let cs := stateUpdate rnd cs tmp
  let cs := stateUpdate rnd cs tmp
  let cs := stateUpdate rnd cs tmp
  let cs := stateUpdate rnd cs tmp
  (cs, qxor (qxor (qxor (qxor cs.s0 cs.s1) cs.s2) cs.s3) cs.s4)

/-- `aegis_encrypt_packet` (aegis_128.cpp:249-258): new state, buffers and tag. -/
def encryptPacket (rnd : Quad → Quad → Quad) (cs : State) (io : Io) (ad iv : List U8) (adlen msglen : Nat) :
    Res (State × Io × List U8) := do
  let cs := initState rnd cs iv
  let cs ← processAd rnd cs ad adlen
  let (cs, io) ← crypt rnd false cs io msglen
  let (cs, tag) := finalize rnd cs adlen msglen
  .ok (cs, io, tag.bytes)

/-- `aegis_decrypt_packet` (aegis_128.cpp:260-291): new state, buffers, tag buffer and return value. -/
def decryptPacket (rnd : Quad → Quad → Quad) (cs : State) (io : Io) (ad iv tag : List U8) (adlen msglen : Nat) :
    Res (State × Io × List U8 × Int) := do
  let cs := initState rnd cs iv
  let cs ← processAd rnd cs ad adlen
  let (cs, io) ← crypt rnd true cs io msglen
  let (cs, reTag) := finalize rnd cs adlen msglen
  if reTag ≠ quadOf tag then do
    let out ← Mem.wrs io.out 0 (List.replicate msglen 0)
    let tag ← Mem.wrs tag 0 (List.replicate 16 0)
    .ok (cs, { io with out := out }, tag, 0)
  else .ok (cs, io, tag, 1)

end CT.AEGIS
