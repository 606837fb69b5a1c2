import Verif.Model.Serpent
import Verif.Model.SosemanukTables
import Verif.Basic.Loops

/-! # Model of StreamCiphers/Sosemanuk/sosemanuk.h and sosemanuk.cpp -/

namespace CT.Sosemanuk

/-- `struct sosemanuk_state` (sosemanuk.h:11-19). -/
structure State where
  rk : List U32
  s0 : U32
  s1 : U32
  s2 : U32
  s3 : U32
  s4 : U32
  s5 : U32
  s6 : U32
  s7 : U32
  s8 : U32
  s9 : U32
  R1 : U32
  R2 : U32
  deriving DecidableEq

/-- `mux` (sosemanuk.h:37-43). -/
def mux (R1 arg1 arg2 : U32) : U32 := if R1 &&& 0x1 ≠ 0 then arg2 else arg1

/-- `Trans` (sosemanuk.h:45-49). -/
def Trans (R1 : U32) : U32 :=
  let R1 := 0x54655307 * R1
  rotl32 R1 7

/-- `sosemanuk_fsm_update` (sosemanuk.h:51-58): new state and `*f_buf`. -/
def fsmUpdate (cs : State) : State × U32 :=
  let cs := { cs with R1 := cs.R2 + mux cs.R1 cs.s1 (cs.s8 ^^^ cs.s9) }
  let cs := { cs with R2 := Trans cs.R1 }
  (cs, (cs.s9 + cs.R1) ^^^ cs.R2)

/-- `sosemanuk_lfsr_update` (sosemanuk.h:60-77): new state and `*s_buf`. -/
def lfsrUpdate (cs : State) : State × U32 :=
  let tmp := (((cs.s3 >>> 8) ^^^ invAlpha.getD (byteN cs.s3 0).toNat 0)
    ^^^ ((cs.s0 <<< 8) ^^^ alpha.getD (byteN (cs.s0 >>> 24) 0).toNat 0)) ^^^ cs.s9
  let sBuf := cs.s0
  let cs := { cs with s0 := cs.s1, s1 := cs.s2, s2 := cs.s3 }
  let cs := { cs with s3 := cs.s4, s4 := cs.s5, s5 := cs.s6 }
  let cs := { cs with s6 := cs.s7, s7 := cs.s8, s8 := cs.s9 }
  ({ cs with s9 := tmp }, sBuf)

/-- `sosemanuk_load_key` (sosemanuk.cpp:5-10); `none` is `exit(1)`. -/
def loadKey (cs : State) (key : List U8) (size : Int) : Res (Option State) := do
  let r ← Serpent.keySchedule key size
  return r.map fun rk => { cs with rk := rk }

/-- `sosemanuk_load_iv` (sosemanuk.cpp:12-36). -/
def loadIv (cs : State) (iv : List U8) : Res State := do
  let i ← Serpent.processPacket cs.rk iv 16
  match i with
  | [i0, i1, i2, i3, i4, i5, i6, i7, i8, i9, i10, i11] =>
    .ok { rk := cs.rk, s9 := i0, s8 := i1, s7 := i2, s6 := i3, R1 := i4, R2 := i6, s5 := i7, s4 := i5, s3 := i8, s2 := i9, s1 := i10, s0 := i11 }
  | _ => .ub .outOfBounds

/-- Sixteen bytes of keystream, `s_buf` (sosemanuk.cpp:52-71 and again 83-100). -/
def block (cs : State) : State × Quad :=
  let (cs, f0) := fsmUpdate cs
  let (cs, s0) := lfsrUpdate cs
  let (cs, f1) := fsmUpdate cs
  let (cs, s1) := lfsrUpdate cs
  let (cs, f2) := fsmUpdate cs
  let (cs, s2) := lfsrUpdate cs
  let (cs, f3) := fsmUpdate cs
  let (cs, s3) := lfsrUpdate cs
  let f := Serpent.serpent1 f0 f1 f2 f3
  (cs, ⟨s0 ^^^ f.w0, s1 ^^^ f.w1, s2 ^^^ f.w2, s3 ^^^ f.w3⟩)

/-- `sosemanuk_process_packet` (sosemanuk.cpp:38-117). -/
def processPacket (cs : State) (io : Io) (size : Nat) : Res (State × Io) := do
  let (n, off, cs, io) ← Io.blockLoop block (size + 1) size 0 cs io
  let (cs, ks) := block cs
  let (rest, i, off, io) ← Io.wordLoop ks.toList (n + 1) n 0 off io
  let io ← Io.byteLoop ks.toList rest (4 * i) off io
  return (cs, io)

end CT.Sosemanuk
