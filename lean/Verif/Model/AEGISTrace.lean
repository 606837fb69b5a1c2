import Verif.Model.AEGIS
import Verif.Model.AESTrace

/-!
# Table reads of the portable AEGIS code

The functions of `Verif.Model.AEGIS` for the portable build (StreamCiphers/AEGIS/AEGIS) once more, with a record of the
entries of `T0` to `T3` that they read.  The state is a pair of the state and the record.  The builds with AES
instructions read no tables.
-/

namespace CT.AEGIS.Cache
open CT.AES (quadOf ctRd32 Reads roundT)

/-- `aegis_state_update` (AEGIS/aegis_128.h:93-151): the rounds in the order of the code. -/
def stateUpdateT (s : State × Reads) (m : Quad) : State × Reads :=
  let cs := s.1
  let r0 := roundT cs.s4 (qxor cs.s0 m)                       -- 111
  let r1 := roundT cs.s0 cs.s1                                -- 119
  let r2 := roundT cs.s1 cs.s2                                -- 129
  let r3 := roundT cs.s2 cs.s3                                -- 139
  let r4 := roundT cs.s3 cs.s4                                -- 149
  ({ cs with s0 := r0.val, s1 := r1.val, s2 := r2.val, s3 := r3.val, s4 := r4.val },
    s.2 ++ (r0.reads ++ (r1.reads ++ (r2.reads ++ (r3.reads ++ r4.reads)))))

/-- `aegis_initialize` (aegis_128.cpp:24-77). -/
def initStateT (s : State × Reads) (iv : List U8) : State × Reads :=
  let key := s.1.key
  let tmp := qxor key (quadOf iv)
  let c0 := quadOf constant
  let c1 := quadOf (constant.drop 16)
  let s : State × Reads := ({ s.1 with s0 := tmp, s1 := c1, s2 := c0, s3 := qxor key c0, s4 := qxor key c1 }, s.2)
  let s := stateUpdateT s key
  let s := stateUpdateT s tmp
  let s := stateUpdateT s key
  let s := stateUpdateT s tmp
  let s := stateUpdateT s key
  let s := stateUpdateT s tmp
  let s := stateUpdateT s key
  let s := stateUpdateT s tmp
  let s := stateUpdateT s key
  stateUpdateT s tmp

/-- The loop of `aegis_process_ad` (aegis_128.cpp:97-100, 105-108). -/
def adLoopT : Nat → State × Reads → List U8 → State × Reads
  | 0, s, _ => s
  | n + 1, s, bs => adLoopT n (stateUpdateT s (quadOf bs)) (bs.drop 16)

/-- `aegis_process_ad` (aegis_128.cpp:79-110). -/
def processAdT (s : State × Reads) (ad : List U8) (adlen : Nat) : Res (State × Reads) :=
  if adlen = 0 then .ok s
  else if ad.length < adlen then .ub .outOfBounds
  else if 2 ^ 29 < (adlen + 15) / 16 then .ub .signedOverflow
  else
    let data := if adlen % 16 ≠ 0 then ad.take adlen ++ List.replicate (16 - adlen % 16) 0 else ad.take adlen
    .ok (adLoopT ((adlen + 15) / 16) s data)

/-- The loops over whole blocks (aegis_128.cpp:121-133, 172-181). -/
def blockLoopT (dec : Bool) (bound : Nat) : Nat → Nat → State × Reads → Io → Res (Nat × (State × Reads) × Io)
  | 0, _, _, _ => .ub .diverges
  | fuel + 1, tmp, s, io =>
    if tmp < bound then do
      let k := keyQuad s.1
      let io ← io.xor32 tmp k.w0
      let io ← io.xor32 (tmp + 4) k.w1
      let io ← io.xor32 (tmp + 8) k.w2
      let io ← io.xor32 (tmp + 12) k.w3
      let m ← rdQuad (fun i => ctRd32 (!dec) io (tmp + i))
      blockLoopT dec bound fuel (tmp + 16) (stateUpdateT s m) io
    else .ok (tmp, s, io)

/-- The rest of the message (aegis_128.cpp:135-161, 183-213). -/
def lastBlockT (dec : Bool) (n off : Nat) (s : State × Reads) (io : Io) : Res ((State × Reads) × Io) := do
  let before ← (if dec then .ok [] else copy io.rd8 n off : Res _)
  let ks := (keyQuad s.1).toList
  let (rest, i, off', io) ← Io.wordLoop ks 16 n 0 off io
  let io ← Io.byteLoop ks rest (4 * i) off' io
  let block ← (if dec then copy io.rdOut8 n off else .ok before : Res _)
  .ok (stateUpdateT s (quadOf (block ++ List.replicate (16 - n) 0)), io)

/-- `aegis_encrypt` and `aegis_decrypt` (aegis_128.cpp:112-214). -/
def cryptT (dec : Bool) (s : State × Reads) (io : Io) (msglen : Nat) : Res ((State × Reads) × Io) :=
  if msglen = 0 then .ok (s, io)
  else do
    let bound := (msglen + (2 ^ 64 - 15)) % 2 ^ 64
    let (tmp, s, io) ← blockLoopT dec bound (2 ^ 60) 0 s io
    if tmp = msglen then .ok (s, io)
    else lastBlockT dec (msglen - tmp) tmp s io

/-- `aegis_finalize` (aegis_128.cpp:216-247). -/
def finalizeT (s : State × Reads) (adlen msglen : Nat) : (State × Reads) × Quad :=
  let tmp : Quad := qxor ⟨lo64 (adlen * 8), hi64 (adlen * 8), lo64 (msglen * 8), hi64 (msglen * 8)⟩ s.1.s3
  let s := stateUpdateT s tmp
  let s := stateUpdateT s tmp
  let s := stateUpdateT s tmp
  let s := stateUpdateT s tmp
  let s := stateUpdateT s tmp
  let s := stateUpdateT s tmp
  let s := stateUpdateT s tmp
  (s, qxor (qxor (qxor (qxor s.1.s0 s.1.s1) s.1.s2) s.1.s3) s.1.s4)

/-- `aegis_encrypt_packet` (aegis_128.cpp:249-258). -/
def encryptPacketT (s : State × Reads) (io : Io) (ad iv : List U8) (adlen msglen : Nat) :
    Res ((State × Reads) × Io × List U8) := do
  let s := initStateT s iv
  let s ← processAdT s ad adlen
  let (s, io) ← cryptT false s io msglen
  let (s, tag) := finalizeT s adlen msglen
  .ok (s, io, tag.bytes)

/-- `aegis_decrypt_packet` (aegis_128.cpp:260-291). -/
def decryptPacketT (s : State × Reads) (io : Io) (ad iv tag : List U8) (adlen msglen : Nat) :
    Res ((State × Reads) × Io × List U8 × Int) := do
  let s := initStateT s iv
  let s ← processAdT s ad adlen
  let (s, io) ← cryptT true s io msglen
  let (s, reTag) := finalizeT s adlen msglen
  if reTag ≠ quadOf tag then do
    let out ← Mem.wrs io.out 0 (List.replicate msglen 0)
    let tag ← Mem.wrs tag 0 (List.replicate 16 0)
    .ok (s, { io with out := out }, tag, 0)
  else .ok (s, io, tag, 1)

end CT.AEGIS.Cache
