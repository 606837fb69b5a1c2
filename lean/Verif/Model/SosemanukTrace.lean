import Verif.Model.Sosemanuk

/-!
# Table reads of the Sosemanuk code

The functions of `Verif.Model.Sosemanuk` once more, with a record of the entries of the tables `alpha` and `inv_alpha`
that they read, as part of the state.  The key and IV setup (Serpent) reads no tables at positions that depend on data;
the conditional expression in `mux` is not recorded.
-/

namespace CT.Sosemanuk

/-- The tables of sosemanuk_tables.h:14-147. -/
inductive Table where
  | invAlpha | alpha
  deriving DecidableEq, Repr

/-- The entries of sosemanuk_tables.h:14-147 read, in order. -/
abbrev Reads := List (Table × U8)

/-- `sosemanuk_fsm_update` (sosemanuk.h:51-58): no tables. -/
def fsmUpdateT (s : State × Reads) : (State × Reads) × U32 :=
  let r := fsmUpdate s.1
  ((r.1, s.2), r.2)

/-- `sosemanuk_lfsr_update` (sosemanuk.h:60-77); the reads are in line 64-65. -/
def lfsrUpdateT (s : State × Reads) : (State × Reads) × U32 :=
  let r := lfsrUpdate s.1
  ((r.1, s.2 ++ [(.invAlpha, byteN s.1.s3 0), (.alpha, byteN (s.1.s0 >>> 24) 0)]), r.2)

/-- Sixteen bytes of keystream (sosemanuk.cpp:52-71 and 83-100). -/
def blockT (cs : State × Reads) : (State × Reads) × Quad :=
  let (cs, f0) := fsmUpdateT cs
  let (cs, s0) := lfsrUpdateT cs
  let (cs, f1) := fsmUpdateT cs
  let (cs, s1) := lfsrUpdateT cs
  let (cs, f2) := fsmUpdateT cs
  let (cs, s2) := lfsrUpdateT cs
  let (cs, f3) := fsmUpdateT cs
  let (cs, s3) := lfsrUpdateT cs
  let f := Serpent.serpent1 f0 f1 f2 f3
  (cs, ⟨s0 ^^^ f.w0, s1 ^^^ f.w1, s2 ^^^ f.w2, s3 ^^^ f.w3⟩)

/-- `sosemanuk_process_packet` (sosemanuk.cpp:38-117). -/
def processPacketT (cs : State × Reads) (io : Io) (size : Nat) : Res ((State × Reads) × Io) := do
  let (n, off, cs, io) ← Io.blockLoop blockT (size + 1) size 0 cs io
  let (cs, ks) := blockT cs
  let (rest, i, off, io) ← Io.wordLoop ks.toList (n + 1) n 0 off io
  let io ← Io.byteLoop ks.toList rest (4 * i) off io
  return (cs, io)

end CT.Sosemanuk
