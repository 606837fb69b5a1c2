import Verif.Model.Sosemanuk

/-!
# The condition in the Sosemanuk code

The functions of `Verif.Model.Sosemanuk` that run the generator once more, with a record of the outcomes of the conditional expression in
`mux` (sosemanuk.h:42).  It is the only condition in the library's ciphers that is not about sizes or counters; whether a compiler makes a
branch of it is not modelled.
-/

namespace CT.Sosemanuk

/-- `mux` (sosemanuk.h:37-43): the value and the outcome of the condition. -/
def muxB (R1 arg1 arg2 : U32) : U32 × Bool := if R1 &&& 0x1 ≠ 0 then (arg2, true) else (arg1, false)

/-- `sosemanuk_fsm_update` (sosemanuk.h:51-58). -/
def fsmUpdateB (s : State × List Bool) : (State × List Bool) × U32 :=
  let m := muxB s.1.R1 s.1.s1 (s.1.s8 ^^^ s.1.s9)
  let cs := { s.1 with R1 := s.1.R2 + m.1 }
  let cs := { cs with R2 := Trans cs.R1 }
  ((cs, s.2 ++ [m.2]), (cs.s9 + cs.R1) ^^^ cs.R2)

/-- `sosemanuk_lfsr_update` (sosemanuk.h:60-77): no condition. -/
def lfsrUpdateB (s : State × List Bool) : (State × List Bool) × U32 :=
  let r := lfsrUpdate s.1
  ((r.1, s.2), r.2)

/-- Sixteen bytes of keystream (sosemanuk.cpp:52-71 and 83-100). -/
def blockB (cs : State × List Bool) : (State × List Bool) × Quad :=
  let (cs, f0) := fsmUpdateB cs
  let (cs, s0) := lfsrUpdateB cs
  let (cs, f1) := fsmUpdateB cs
  let (cs, s1) := lfsrUpdateB cs
  let (cs, f2) := fsmUpdateB cs
  let (cs, s2) := lfsrUpdateB cs
  let (cs, f3) := fsmUpdateB cs
  let (cs, s3) := lfsrUpdateB cs
  let f := Serpent.serpent1 f0 f1 f2 f3
  (cs, ⟨s0 ^^^ f.w0, s1 ^^^ f.w1, s2 ^^^ f.w2, s3 ^^^ f.w3⟩)

/-- `sosemanuk_process_packet` (sosemanuk.cpp:38-117). -/
def processPacketB (cs : State × List Bool) (io : Io) (size : Nat) : Res ((State × List Bool) × Io) := do
  let (n, off, cs, io) ← Io.blockLoop blockB (size + 1) size 0 cs io
  let (cs, ks) := blockB cs
  let (rest, i, off, io) ← Io.wordLoop ks.toList (n + 1) n 0 off io
  let io ← Io.byteLoop ks.toList rest (4 * i) off io
  return (cs, io)

end CT.Sosemanuk
