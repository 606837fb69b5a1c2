import Verif.Basic.Loops
import Verif.Basic.Rot

/-!
# Model of StreamCiphers/HC-128/hc128.h and hc128.cpp
-/

namespace CT.HC128

/-- `uint32_t P[512]`, `uint32_t Q[512]` (hc128.h:37-40). -/
abbrev Table := Vector U32 512

/-- `struct hc128_state` (hc128.h:37-40). -/
structure State where
  P : Table
  Q : Table
  deriving DecidableEq

/-- `f1` (hc128.h:46-49). -/
def f1 (x : U32) : U32 := rotr32 x 7 ^^^ rotr32 x 18 ^^^ (x >>> 3)
/-- `f2` (hc128.h:51-54). -/
def f2 (x : U32) : U32 := rotr32 x 17 ^^^ rotr32 x 19 ^^^ (x >>> 10)
/-- `g1` (hc128.h:56-59). -/
def g1 (x y z : U32) : U32 := (rotr32 x 10 ^^^ rotr32 z 23) + rotr32 y 8
/-- `g2` (hc128.h:61-64). -/
def g2 (x y z : U32) : U32 := (rotl32 x 10 ^^^ rotl32 z 23) + rotl32 y 8

/-- `(uint8_t)x` as an index (hc128.h:66-76). -/
def lowIdx (x : U32) : Fin 512 := ⟨(x.setWidth 8).toNat, by have := (x.setWidth 8).isLt; omega⟩

/-- `256 + (uint8_t)(x >> 16)` as an index (hc128.h:66-76). -/
def highIdx (x : U32) : Fin 512 :=
  ⟨256 + ((x >>> 16).setWidth 8).toNat, by have := ((x >>> 16).setWidth 8).isLt; omega⟩

/-- `T[(uint8_t)x] + T[256 + (uint8_t)(x >> 16)]`: `h1` with `T = Q` (hc128.h:66-70),
`h2` with `T = P` (hc128.h:72-76). -/
def h (T : Table) (x : U32) : U32 := T.get (lowIdx x) + T.get (highIdx x)

/-- `(j - k) & 0x1FF` for `int` `j` in `[0, 512)`: reduction mod 512 of a two's complement number
(hc128.cpp:48-59, 73-83). -/
def back (j k : Nat) : Fin 512 := ⟨(j + 512 - k) % 512, Nat.mod_lt _ (by decide)⟩

/-- `T[j] + g(T[(j-3)&0x1FF], T[(j-10)&0x1FF], T[(j-511)&0x1FF])` (hc128.cpp:48-50, 56-58, 73-75, 80-82). -/
def feed (g : U32 → U32 → U32 → U32) (T : Table) (j : Fin 512) : U32 :=
  T.get j + g (T.get (back j 3)) (T.get (back j 10)) (T.get (back j 511))

/-- Stage 1 loop (hc128.cpp:28-31), `W` kept newest word first: `W[i-k]` is element `k-1`. -/
def expand : Nat → Nat → List U32 → List U32
  | 0, _, w => w
  | n + 1, i, w =>
    expand n (i + 1)
      ((f2 (w.getD 1 0) + w.getD 6 0 + f1 (w.getD 14 0) + w.getD 15 0 + BitVec.ofNat 32 i) :: w)

/-- `W[0..1279]` (hc128.cpp:18-31); key and iv are the 16 bytes read. -/
def wArray (key iv : List U8) : List U32 :=
  let k := bytesToWordsLE key
  let v := bytesToWordsLE iv
  (expand 1264 16 (k ++ k ++ v ++ v).reverse).reverse

/-- Stage 3, P (hc128.cpp:46-52): steps `i, i+1, ...` while `n` last. -/
def mixP : Nat → Nat → State → State
  | 0, _, cs => cs
  | n + 1, i, cs =>
    if hi : i < 512 then
      let v := feed g1 cs.P ⟨i, hi⟩ ^^^ h cs.Q (cs.P.get (back i 12))
      mixP n (i + 1) { cs with P := cs.P.set i v hi }
    else cs

/-- Stage 3, Q (hc128.cpp:54-60). -/
def mixQ : Nat → Nat → State → State
  | 0, _, cs => cs
  | n + 1, i, cs =>
    if hi : i < 512 then
      let v := feed g2 cs.Q ⟨i, hi⟩ ^^^ h cs.P (cs.Q.get (back i 12))
      mixQ n (i + 1) { cs with Q := cs.Q.set i v hi }
    else cs

/-- `hc128_initialize` (hc128.cpp:14-62). -/
def init (key iv : List U8) : State :=
  let w := wArray key iv
  let cs : State :=
    { P := Vector.ofFn fun i => w.getD (i + 256) 0
      Q := Vector.ofFn fun i => w.getD (i + 768) 0 }
  mixQ 512 0 (mixP 512 0 cs)

/-- One iteration of the loop of `hc128_generate_keystream` (hc128.cpp:69-85) for loop counter `i`. -/
def step (cs : State) (i : Nat) : State × U32 :=
  let j : Fin 512 := ⟨i % 512, Nat.mod_lt _ (by decide)⟩
  if i % 1024 < 512 then
    let P := cs.P.set j.val (feed g1 cs.P j) j.isLt
    ({ cs with P := P }, h cs.Q (P.get (back j 12)) ^^^ P.get j)
  else
    let Q := cs.Q.set j.val (feed g2 cs.Q j) j.isLt
    ({ cs with Q := Q }, h cs.P (Q.get (back j 12)) ^^^ Q.get j)

/-- The loop of `hc128_generate_keystream` (hc128.cpp:67-86): `n` iterations from counter `i` on. -/
def gen : Nat → Nat → State → State × List U32
  | 0, _, cs => (cs, [])
  | n + 1, i, cs =>
    let r := step cs i
    let q := gen n (i + 1) r.1
    (q.1, r.2 :: q.2)

/-- `hc128_process_packet` (hc128.cpp:89-115).  The `int i` of the keystream loop overflows when
`(size-1)/4` reaches 2^31-1. -/
def processPacket (cs : State) (io : Io) (size : Nat) : Res (State × Io) :=
  if size < 1 then .ok (cs, io) else
  if 2 ^ 31 - 1 ≤ (size - 1) / 4 then .ub .signedOverflow else
  let r := gen ((size - 1) / 4 + 1) 0 cs
  do
    let (rest, idx, off, io) ← Io.wordLoop r.2 (size + 1) size 0 0 io
    let io ← Io.byteLoop r.2 rest (4 * idx) off io
    return (r.1, io)

end CT.HC128
