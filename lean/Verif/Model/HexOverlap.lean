import Verif.Model.Hex

/-!
# Encoders/Hex/encoder.cpp on buffers that overlap

The two functions of `Verif.Model.Hex` with both pointers into one array: the output pointer at offset `o` and the input
pointer at offset `i`.
-/

namespace CT.Hex

/-- The loop of `hex_encode` (encoder.cpp:22-29); `input[loop]` is an argument of `sprintf` and therefore read before the
three characters are stored. -/
def encodeLoopOv (o i : Nat) (size : Int) : Nat → Nat → Nat → List U8 → Res (List U8)
  | 0, _, _, _ => .ub .diverges
  | fuel + 1, loop, k, mem =>
    if (loop : Int) = size then Mem.wr mem (o + k) 0
    else do
      let b ← Mem.rd mem (i + loop)
      let mem ← Mem.wrs mem (o + k) (sprintf02X b)
      if 2 ^ 31 ≤ k + 2 then .ub .signedOverflow
      else encodeLoopOv o i size fuel (loop + 1) (k + 2) mem

/-- `hex_encode(mem + o, mem + i, size)` (encoder.cpp:14-30). -/
def encodeOv (mem : List U8) (o i : Nat) (size : Int) : Res (List U8) :=
  encodeLoopOv o i size (mem.length + 1) 0 0 mem

/-- The loop of `hex_decode` (encoder.cpp:53-65): `n` iterations from `j` on; `o` is the offset of the output pointer. -/
def decodeLoopOv (i : Nat) : Nat → Nat → Nat → U8 → List U8 → Res (List U8)
  | 0, _, _, _, mem => .ok mem
  | n + 1, j, o, buf, mem =>
    if j % 2 ≠ 0 then do
      let c ← Mem.rd mem (i + j)
      let mem ← Mem.wr mem o (BitVec.ofInt 8 (hexToAscii buf c))
      decodeLoopOv i n (j + 1) (o + 1) buf mem
    else do
      let c ← Mem.rd mem (i + j)
      decodeLoopOv i n (j + 1) o c mem

/-- `hex_decode(mem + o, mem + i, size)` (encoder.cpp:48-66). -/
def decodeOv (mem : List U8) (o i : Nat) (size : Int) : Res (List U8) := decodeLoopOv i size.toNat 0 o 0 mem

end CT.Hex
