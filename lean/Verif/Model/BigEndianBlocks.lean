import Verif.Model.BigEndian
import Verif.Model.AES
import Verif.Model.Sosemanuk

/-!
# AES counter mode and Sosemanuk on a big-endian machine

As in `Verif.Model.BigEndian`.  The AES key expansion, the block function and `state_update` do not depend on the byte order: they take
words apart with shifts.  The same holds for the updates of the Sosemanuk state.
-/

namespace CT

/-- The block loops (aes_ctr.cpp:135-161, sosemanuk.cpp:46-81) with words stored most significant byte first. -/
def Io.blockLoopBE {σ : Type} (blk : σ → σ × Quad) : Nat → Nat → Nat → σ → Io → Res (Nat × Nat × σ × Io)
  | 0, _, _, _, _ => .ub .diverges
  | fuel + 1, n, off, s, io =>
    if n > 15 then do
      let r := blk s
      let io ← io.xor32BE off r.2.w0
      let io ← io.xor32BE (off + 4) r.2.w1
      let io ← io.xor32BE (off + 8) r.2.w2
      let io ← io.xor32BE (off + 12) r.2.w3
      blockLoopBE blk fuel (n - 16) (off + 16) r.1 io
    else .ok (n, off, s, io)

namespace AES

/-- `aes_load_iv` (aes_ctr.cpp:60-70): the words of the nonce and the memory image `00 00 00 01` of the counter. -/
def ctrLoadIvBE (cs : State) (nonce : List U8) : State :=
  let w := fun i => be32 (nonce.getD (4 * i) 0) (nonce.getD (4 * i + 1) 0) (nonce.getD (4 * i + 2) 0) (nonce.getD (4 * i + 3) 0)
  { cs with reg := ⟨w 0, w 1, w 2, be32 0x00 0x00 0x00 0x01⟩ }

/-- The words and then the bytes of an incomplete block (aes_ctr.cpp:168-186); the bytes are taken with shifts. -/
def tailLoopsBE (ws : List U32) (n off : Nat) (io : Io) : Res Io := do
  let (m, k, off, io) ← Io.wordLoopBE ws 16 n 0 off io
  if m > 0 then
    let w ← ksGet ws k
    tailBytes w m 0 off io
  else return io

/-- `aes_ctr_process_packet` (aes_ctr.cpp:127-192), the portable code. -/
def ctrPacketBE (cs : State) (io : Io) (size : Int) : Res (State × Io) := do
  let (left, off, cs, io) ← Io.blockLoopBE (ctrBlk (encrypt false)) (size.toNat + 1) size.toNat 0 cs io
  if left > 0 then
    let r := ctrBlk (encrypt false) cs
    let io ← tailLoopsBE r.2.toList left off io
    return (r.1, io)
  else return (cs, io)

end AES

namespace Serpent

/-- `w` (serpent.cpp:142-224): the padded key read through a cast pointer. -/
def wordsBE (key : List U8) : List U32 :=
  match bytesToWordsBE (padKey key) with
  | [k0, k1, k2, k3, k4, k5, k6, k7] => wLoop 92 8 (firstWords k0 k1 k2 k3 k4 k5 k6 k7)
  | _ => []

/-- `serpent_key_schedule` (serpent.cpp:118-424). -/
def keyScheduleBE (key : List U8) (size : Int) : Res (Option (List U32)) :=
  if 32 < size then .ok none
  else if size < 0 ∨ key.length < size.toNat then .ub .outOfBounds
  else .ok (some (rkLoop 25 0 (wordsBE (key.take size.toNat))))

/-- `serpent_process_packet` (serpent.cpp:100-116): `memcpy` of the block into words. -/
def processPacketBE (rk : List U32) (input : List U8) (size : Nat) : Res (List U32) :=
  if input.length < size then .ub .outOfBounds
  else if 16 < size then .ub .outOfBounds
  else if size = 0 then .ok []
  else if size < 16 then .ub .uninitRead
  else
    match bytesToWordsBE (input.take 16) with
    | [t0, t1, t2, t3] => .ok (rounds rk t0 t1 t2 t3)
    | _ => .ub .outOfBounds

end Serpent

namespace Sosemanuk

/-- `sosemanuk_load_key` (sosemanuk.cpp:5-10). -/
def loadKeyBE (cs : State) (key : List U8) (size : Int) : Res (Option State) := do
  let r ← Serpent.keyScheduleBE key size
  return r.map fun rk => { cs with rk := rk }

/-- `sosemanuk_load_iv` (sosemanuk.cpp:12-36). -/
def loadIvBE (cs : State) (iv : List U8) : Res State := do
  let i ← Serpent.processPacketBE cs.rk iv 16
  match i with
  | [i0, i1, i2, i3, i4, i5, i6, i7, i8, i9, i10, i11] =>
    .ok { rk := cs.rk, s9 := i0, s8 := i1, s7 := i2, s6 := i3, R1 := i4, R2 := i6, s5 := i7, s4 := i5, s3 := i8, s2 := i9, s1 := i10, s0 := i11 }
  | _ => .ub .outOfBounds

/-- `sosemanuk_process_packet` (sosemanuk.cpp:38-117); the last bytes are taken with shifts (line 114), as on any machine. -/
def processPacketBE (cs : State) (io : Io) (size : Nat) : Res (State × Io) := do
  let (n, off, cs, io) ← Io.blockLoopBE block (size + 1) size 0 cs io
  let (cs, ks) := block cs
  let (rest, i, off, io) ← Io.wordLoopBE ks.toList (n + 1) n 0 off io
  let io ← Io.byteLoop ks.toList rest (4 * i) off io
  return (cs, io)

end Sosemanuk

end CT
