import Verif.Basic.Blocks
import Verif.Model.ChaCha
import Verif.Model.HC128
import Verif.Model.Rabbit
import Verif.Model.Sosemanuk
import Verif.Model.AES

/-!
# Packet functions on buffers that overlap

The packet functions of the stream ciphers with both pointers into one array, at any two offsets; `Verif.Model.ChaCha`
and the others have only the cases of separate arrays and of equal pointers.  The loops are those of
`Verif.Basic.Loops` and `Verif.Basic.Blocks`, the accesses go to the one array.
-/

namespace CT

/-- An array with two pointers into it (the parameters of chacha.cpp:77, hc128.cpp:89, rabbit.cpp:155, sosemanuk.cpp:38,
aes_ctr.cpp:127). -/
structure Ov where
  mem : List U8
  /-- offset of the output pointer -/
  o : Nat
  /-- offset of the input pointer -/
  i : Nat
  deriving DecidableEq, Repr

namespace Ov

/-- Read byte `j` from the input pointer (chacha.cpp:107-112 and the other byte loops). -/
def rd8 (v : Ov) (j : Nat) : Res U8 :=
  match v.mem[v.i + j]? with
  | some b => .ok b
  | none => .ub .outOfBounds

/-- Write byte `j` through the output pointer (chacha.cpp:107-112 and the other byte loops). -/
def wr8 (v : Ov) (j : Nat) (b : U8) : Res Ov :=
  if v.o + j < v.mem.length then .ok { v with mem := v.mem.set (v.o + j) b } else .ub .outOfBounds

/-- Read the little-endian word at byte offset `j` from the input pointer (chacha.cpp:98-103 and the other word loops). -/
def rd32 (v : Ov) (j : Nat) : Res U32 := do
  let b0 ← v.rd8 j
  let b1 ← v.rd8 (j + 1)
  let b2 ← v.rd8 (j + 2)
  let b3 ← v.rd8 (j + 3)
  return le32 b0 b1 b2 b3

/-- Write a little-endian word at byte offset `j` through the output pointer (chacha.cpp:98-103 and the other word loops). -/
def wr32 (v : Ov) (j : Nat) (w : U32) : Res Ov := do
  let v ← v.wr8 j (byteN w 0)
  let v ← v.wr8 (j + 1) (byteN w 1)
  let v ← v.wr8 (j + 2) (byteN w 2)
  v.wr8 (j + 3) (byteN w 3)

/-- `out[j] = in[j] ^ k` for one byte (chacha.cpp:107-112 and the other byte loops). -/
def xor8 (v : Ov) (j : Nat) (k : U8) : Res Ov := do
  let b ← v.rd8 j
  v.wr8 j (b ^^^ k)

/-- `((uint32_t*)(out+j))[0] = ((uint32_t*)(in+j))[0] ^ k`: the word is read before any of its bytes is written
(chacha.cpp:98-103 and the other word loops). -/
def xor32 (v : Ov) (j : Nat) (k : U32) : Res Ov := do
  let w ← v.rd32 j
  v.wr32 j (w ^^^ k)

/-- The word loop (chacha.cpp:98-103, hc128.cpp:102-107, sosemanuk.cpp:101-107, aes_ctr.cpp:169-173). -/
def wordLoop (ks : List U32) : Nat → Nat → Nat → Nat → Ov → Res (Nat × Nat × Nat × Ov)
  | 0, _, _, _, _ => .ub .diverges
  | fuel + 1, n, idx, off, v =>
    if n > 3 then do
      let k ← ksGet ks idx
      let v ← v.xor32 off k
      wordLoop ks fuel (n - 4) (idx + 1) (off + 4) v
    else .ok (n, idx, off, v)

/-- The byte loop (chacha.cpp:107-112, hc128.cpp:109-114, rabbit.cpp:188-193). -/
def byteLoop (ks : List U32) : Nat → Nat → Nat → Ov → Res Ov
  | 0, _, _, v => .ok v
  | n + 1, j, off, v => do
    let k ← ksGet ks (j / 4)
    let v ← v.xor8 off (byteN k (j % 4))
    byteLoop ks n (j + 1) (off + 1) v

/-- The block loop (rabbit.cpp:161-179, sosemanuk.cpp:46-81, aes_ctr.cpp and its variants). -/
def blockLoop {σ : Type} (blk : σ → σ × Quad) : Nat → Nat → Nat → σ → Ov → Res (Nat × Nat × σ × Ov)
  | 0, _, _, _, _ => .ub .diverges
  | fuel + 1, n, off, s, v =>
    if n > 15 then do
      let r := blk s
      let v ← v.xor32 off r.2.w0
      let v ← v.xor32 (off + 4) r.2.w1
      let v ← v.xor32 (off + 8) r.2.w2
      let v ← v.xor32 (off + 12) r.2.w3
      blockLoop blk fuel (n - 16) (off + 16) r.1 v
    else .ok (n, off, s, v)

/-- The byte loop of aes_ctr.cpp:180-185. -/
def tailBytes (k : U32) : Nat → Nat → Nat → Ov → Res Ov
  | 0, _, _, v => .ok v
  | n + 1, t, off, v =>
    let shift := 24 + 8 * t
    if 32 ≤ shift then .ub .badShift else do
      let v ← v.xor8 off (AES.cut k shift)
      tailBytes k n (t + 1) (off + 1) v

/-- The words and then the bytes of an incomplete block (aes_ctr.cpp:168-186). -/
def tailLoops (ws : List U32) (n off : Nat) (v : Ov) : Res Ov := do
  let (m, k, off, v) ← wordLoop ws 16 n 0 off v
  if m > 0 then
    let w ← ksGet ws k
    tailBytes w m 0 off v
  else return v

/-- `chacha_process_packet` (chacha.cpp:77-114). -/
def chacha (rounds : Nat) (cs : ChaCha.State) (v : Ov) (size : U64) : Res (ChaCha.State × Ov) :=
  let nWords := (size.toNat + 3) / 4
  if 2 ^ 31 ≤ nWords then .ub .badConversion else
  let nIterations := (nWords + 15) / 16
  if 2 ^ 31 ≤ nIterations * 16 then .ub .signedOverflow else
  let r := ChaCha.ksLoop rounds nIterations cs 1 []
  let nBytes : Int := (size.setWidth 32).toInt
  do
    let (rest, idx, off, v) ← wordLoop r.2 (nBytes.toNat + 1) nBytes.toNat 0 0 v
    let v ← byteLoop r.2 rest (4 * idx) off v
    return (r.1, v)

/-- `hc128_process_packet` (hc128.cpp:89-115). -/
def hc128 (cs : HC128.State) (v : Ov) (size : Nat) : Res (HC128.State × Ov) :=
  if size < 1 then .ok (cs, v) else
  if 2 ^ 31 - 1 ≤ (size - 1) / 4 then .ub .signedOverflow else
  let r := HC128.gen ((size - 1) / 4 + 1) 0 cs
  do
    let (rest, idx, off, v) ← wordLoop r.2 (size + 1) size 0 0 v
    let v ← byteLoop r.2 rest (4 * idx) off v
    return (r.1, v)

/-- `rabbit_process_packet` (rabbit.cpp:155-196). -/
def rabbit (cs : Rabbit.State) (v : Ov) (size : Nat) : Res (Rabbit.State × Ov) := do
  let (left, off, cs, v) ← blockLoop Rabbit.extract (size + 1) size 0 cs v
  if left > 0 then
    let r := Rabbit.extract cs
    let v ← byteLoop r.2.toList left 0 off v
    return (r.1, v)
  else return (cs, v)

/-- `sosemanuk_process_packet` (sosemanuk.cpp:38-117). -/
def sosemanuk (cs : Sosemanuk.State) (v : Ov) (size : Nat) : Res (Sosemanuk.State × Ov) := do
  let (n, off, cs, v) ← blockLoop Sosemanuk.block (size + 1) size 0 cs v
  let (cs, ks) := Sosemanuk.block cs
  let (rest, i, off, v) ← wordLoop ks.toList (n + 1) n 0 off v
  let v ← byteLoop ks.toList rest (4 * i) off v
  return (cs, v)

/-- `aes_ctr_process_packet` (aes_ctr.cpp:127-192; AES_x86 and AES_ARM aes_ctr.cpp:163-227) for the block function of
one of the variants. -/
def aesCtr {σ : Type} (blk : σ → σ × Quad) (cs : σ) (v : Ov) (size : Int) : Res (σ × Ov) := do
  let (left, off, cs, v) ← blockLoop blk (size.toNat + 1) size.toNat 0 cs v
  if left > 0 then
    let r := blk cs
    let v ← tailLoops r.2.toList left off v
    return (r.1, v)
  else return (cs, v)

end Ov

end CT
