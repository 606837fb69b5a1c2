import Verif.Basic.Blocks
import Verif.Basic.Rot

/-!
# Model of StreamCiphers/Rabbit/rabbit.h and rabbit.cpp

Simplification: in `g` (rabbit.h:40-46) the constant `WORDSIZE` has type `long`, so the product is a
signed multiplication that overflows when `u+v` is about 2^31.5 or more.  The model computes the
product modulo 2^64 (what compilers emit); `overflows` is the exact condition under which the
C++ standard leaves the behaviour undefined.  The `% WORDSIZE` applied to 32 bit sums is the
identity and omitted.
-/

namespace CT.Rabbit

/-- `A[8]` (rabbit.h:27-30). -/
def A : Vector U32 8 := #v[0x4d34d34d, 0xd34d34d3, 0x34d34d34, 0x4d34d34d,
  0xd34d34d3, 0x34d34d34, 0x4d34d34d, 0xd34d34d3]

/-- `struct rabbit_state` (rabbit.h:32-38). -/
structure State where
  MX : Vector U32 8
  MC : Vector U32 8
  X : Vector U32 8
  C : Vector U32 8
  carry : U8
  deriving DecidableEq

/-- `g` (rabbit.h:40-46). -/
def g (u v : U32) : U32 :=
  let hold : U64 := (u + v).setWidth 64 * (u + v).setWidth 64
  (hold &&& 0xffffffff).setWidth 32 ^^^ ((hold >>> 32) &&& 0xffffffff).setWidth 32

/-- The signed product in `g` overflows (rabbit.h:42). -/
def overflows (u v : U32) : Bool := 2 ^ 63 ≤ (u + v).toNat * (u + v).toNat

/-- One iteration of the loop of `rabbit_counter` (rabbit.h:63-70). -/
def counterStep (cs : State) (j : Fin 8) : State :=
  let temp : U64 := cs.C[j].setWidth 64 + A[j].setWidth 64 + cs.carry.setWidth 64
  { cs with
    carry := if 0x100000000#64 < temp then 1 else 0
    C := cs.C.set j ((temp % 0x100000000#64).setWidth 32) }

/-- `rabbit_counter` (rabbit.h:58-72). -/
def counter (cs : State) : State := [0, 1, 2, 3, 4, 5, 6, 7].foldl counterStep cs

/-- `rabbit_next_state` (rabbit.h:74-90). -/
def nextState (cs : State) : State :=
  let G := fun j : Fin 8 => g cs.X[j] cs.C[j]
  { cs with X := #v[
      G 0 + rotl32 (G 7) 16 + rotl32 (G 6) 16,
      G 1 + rotl32 (G 0) 8 + G 7,
      G 2 + rotl32 (G 1) 16 + rotl32 (G 0) 16,
      G 3 + rotl32 (G 2) 8 + G 1,
      G 4 + rotl32 (G 3) 16 + rotl32 (G 2) 16,
      G 5 + rotl32 (G 4) 8 + G 3,
      G 6 + rotl32 (G 5) 16 + rotl32 (G 4) 16,
      G 7 + rotl32 (G 6) 8 + G 5] }

/-- Some product of the next call of `rabbit_next_state` (rabbit.h:74-90) overflows. -/
def nextOverflows (cs : State) : Bool := [0, 1, 2, 3, 4, 5, 6, 7].any fun j : Fin 8 => overflows cs.X[j] cs.C[j]

/-- `rabbit_counter(cs); rabbit_next_state(cs);` (rabbit.cpp:76-77, 131-132, 139-140) -/
def update (cs : State) : State := nextState (counter cs)

/-- The loops of four updates (rabbit.cpp:74-82, 129-133). -/
def update4 (cs : State) : State := update (update (update (update cs)))

/-- `((uint16_t*)p)[i]` widened to 32 bits (rabbit.cpp:29, 118). -/
def u16 (p : List U8) (i : Nat) : U32 :=
  (p.getD (2 * i) 0).setWidth 32 ||| ((p.getD (2 * i + 1) 0).setWidth 32 <<< 8)

/-- `rabbit_load_key`, first loop (rabbit.cpp:25-67). -/
def loadKeyExpand (key : List U8) : State :=
  let X := Vector.ofFn fun j : Fin 8 =>
    if j.val % 2 ≠ 0 then u16 key ((j + 5) % 8) <<< 16 ||| u16 key ((j + 4) % 8)
    else u16 key ((j + 1) % 8) <<< 16 ||| u16 key j
  let C := Vector.ofFn fun j : Fin 8 =>
    if j.val % 2 ≠ 0 then u16 key j <<< 16 ||| u16 key ((j + 1) % 8)
    else u16 key ((j + 4) % 8) <<< 16 ||| u16 key ((j + 5) % 8)
  { MX := X, MC := C, X := X, C := C, carry := 0 }

/-- `rabbit_load_key` (rabbit.cpp:23-99); `key` is the 16 bytes read.  (The master fields hold
garbage until the last loop stores them; the model starts them with `X` and `C`.) -/
def loadKey (key : List U8) : State :=
  let cs := update4 (loadKeyExpand key)
  let C := Vector.ofFn fun j : Fin 8 => cs.C[j] ^^^ cs.X[(j.val + 4) % 8]'(by omega)
  { cs with C := C, MC := C, MX := cs.X }

/-- `rabbit_load_iv` up to the loop (rabbit.cpp:108-127); `iv` is the 8 bytes read. -/
def ivMix (cs : State) (iv : List U8) : State :=
  let iv0 := le32 (iv.getD 0 0) (iv.getD 1 0) (iv.getD 2 0) (iv.getD 3 0)
  let iv1 := le32 (iv.getD 4 0) (iv.getD 5 0) (iv.getD 6 0) (iv.getD 7 0)
  let a := u16 iv 3 <<< 16 ||| u16 iv 1
  let b := u16 iv 2 <<< 16 ||| u16 iv 0
  { cs with
    X := cs.MX
    C := #v[cs.MC[0] ^^^ iv0, cs.MC[1] ^^^ a, cs.MC[2] ^^^ iv1, cs.MC[3] ^^^ b,
      cs.MC[4] ^^^ iv0, cs.MC[5] ^^^ a, cs.MC[6] ^^^ iv1, cs.MC[7] ^^^ b] }

/-- `rabbit_load_iv` (rabbit.cpp:105-134).  The carry bit is not restored. -/
def loadIv (cs : State) (iv : List U8) : State := update4 (ivMix cs iv)

/-- `x & 0xffff` (rabbit.cpp:144-151). -/
def lo (x : U32) : U32 := x &&& 0xffff
/-- `(x >> 16) & 0xffff` (rabbit.cpp:144-151). -/
def hi (x : U32) : U32 := (x >>> 16) &&& 0xffff

/-- `rabbit_extract_keystream` (rabbit.cpp:136-153): the eight 16 bit stores seen as four words. -/
def extract (cs : State) : State × Quad :=
  let cs := update cs
  let X := cs.X
  (cs, { w0 := (lo X[0] ^^^ hi X[5]) ||| ((hi X[0] ^^^ lo X[3]) <<< 16)
         w1 := (lo X[2] ^^^ hi X[7]) ||| ((hi X[2] ^^^ lo X[5]) <<< 16)
         w2 := (lo X[4] ^^^ hi X[1]) ||| ((hi X[4] ^^^ lo X[7]) <<< 16)
         w3 := (lo X[6] ^^^ hi X[3]) ||| ((hi X[6] ^^^ lo X[1]) <<< 16) })

/-- `rabbit_process_packet` (rabbit.cpp:155-196). -/
def processPacket (cs : State) (io : Io) (size : Nat) : Res (State × Io) := do
  let (left, off, cs, io) ← Io.blockLoop extract (size + 1) size 0 cs io
  if left > 0 then
    let r := extract cs
    let io ← Io.byteLoop r.2.toList left 0 off io
    return (r.1, io)
  else return (cs, io)

end CT.Rabbit
