import Verif.Model.HC128

/-!
# Table reads of the HC-128 code

The functions of `Verif.Model.HC128` once more, with a record of the entries of the tables `P` and `Q` that they read after
the key expansion.  The order within one statement is that of the text; C++ leaves it open.  The expansion of the key into
`W` and the copy of `W` into the tables go through the arrays in order and are not recorded.
-/

namespace CT.HC128

/-- The tables of `hc128_state` (hc128.h:37-40). -/
inductive Tab where
  | P | Q
  deriving DecidableEq, Repr

/-- The entries of `P` and `Q` (hc128.h:37-40) read, in order. -/
abbrev Reads := List (Tab × Fin 512)

/-- The reads of `T[j] + g(T[(j-3)&0x1FF], T[(j-10)&0x1FF], T[(j-511)&0x1FF])` (hc128.cpp:48-50, 56-58, 73-75, 80-82). -/
def feedReads (t : Tab) (j : Fin 512) : Reads := [(t, j), (t, back j 3), (t, back j 10), (t, back j 511)]

/-- The reads of `h1` (hc128.h:66-70) and `h2` (hc128.h:72-76). -/
def hReads (t : Tab) (x : U32) : Reads := [(t, lowIdx x), (t, highIdx x)]

/-- Stage 3, P (hc128.cpp:46-52). -/
def mixPT : Nat → Nat → State × Reads → State × Reads
  | 0, _, s => s
  | n + 1, i, (cs, log) =>
    if hi : i < 512 then
      let x := cs.P.get (back i 12)
      let v := feed g1 cs.P ⟨i, hi⟩ ^^^ h cs.Q x
      mixPT n (i + 1) ({ cs with P := cs.P.set i v hi }, log ++ (feedReads .P ⟨i, hi⟩ ++ (.P, back i 12) :: hReads .Q x))
    else (cs, log)

/-- Stage 3, Q (hc128.cpp:54-60). -/
def mixQT : Nat → Nat → State × Reads → State × Reads
  | 0, _, s => s
  | n + 1, i, (cs, log) =>
    if hi : i < 512 then
      let x := cs.Q.get (back i 12)
      let v := feed g2 cs.Q ⟨i, hi⟩ ^^^ h cs.P x
      mixQT n (i + 1) ({ cs with Q := cs.Q.set i v hi }, log ++ (feedReads .Q ⟨i, hi⟩ ++ (.Q, back i 12) :: hReads .P x))
    else (cs, log)

/-- `hc128_initialize` (hc128.cpp:14-62). -/
def initT (key iv : List U8) : State × Reads :=
  let w := wArray key iv
  let cs : State :=
    { P := Vector.ofFn fun i => w.getD (i + 256) 0
      Q := Vector.ofFn fun i => w.getD (i + 768) 0 }
  mixQT 512 0 (mixPT 512 0 (cs, []))

/-- One iteration of the loop of `hc128_generate_keystream` (hc128.cpp:69-85) for loop counter `i`. -/
def stepT (s : State × Reads) (i : Nat) : (State × Reads) × U32 :=
  let (cs, log) := s
  let j : Fin 512 := ⟨i % 512, Nat.mod_lt _ (by decide)⟩
  if i % 1024 < 512 then
    let P := cs.P.set j.val (feed g1 cs.P j) j.isLt
    let x := P.get (back j 12)
    (({ cs with P := P }, log ++ (feedReads .P j ++ (.P, back j 12) :: hReads .Q x ++ [(.P, j)])), h cs.Q x ^^^ P.get j)
  else
    let Q := cs.Q.set j.val (feed g2 cs.Q j) j.isLt
    let x := Q.get (back j 12)
    (({ cs with Q := Q }, log ++ (feedReads .Q j ++ (.Q, back j 12) :: hReads .P x ++ [(.Q, j)])), h cs.P x ^^^ Q.get j)

/-- The loop of `hc128_generate_keystream` (hc128.cpp:67-86): `n` iterations from counter `i` on. -/
def genT : Nat → Nat → State × Reads → (State × Reads) × List U32
  | 0, _, s => (s, [])
  | n + 1, i, s =>
    let r := stepT s i
    let q := genT n (i + 1) r.1
    (q.1, r.2 :: q.2)

/-- `hc128_process_packet` (hc128.cpp:89-115). -/
def processPacketT (s : State × Reads) (io : Io) (size : Nat) : Res ((State × Reads) × Io) :=
  if size < 1 then .ok (s, io) else
  if 2 ^ 31 - 1 ≤ (size - 1) / 4 then .ub .signedOverflow else
  let r := genT ((size - 1) / 4 + 1) 0 s
  do
    let (rest, idx, off, io) ← Io.wordLoop r.2 (size + 1) size 0 0 io
    let io ← Io.byteLoop r.2 rest (4 * idx) off io
    return (r.1, io)

end CT.HC128
