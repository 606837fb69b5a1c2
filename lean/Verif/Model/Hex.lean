import Verif.Basic.Mem

/-!
# Model of Encoders/Hex/encoder.cpp
-/

namespace CT.Hex

/-- One digit as `%02X` prints it (C standard library; called in encoder.cpp:25). -/
def sprintfDigit (n : Nat) : U8 := if n < 10 then BitVec.ofNat 8 (48 + n) else BitVec.ofNat 8 (55 + n)

/-- The characters `sprintf("%02X", b)` stores: two digits and the terminating zero
(C standard library, as called in encoder.cpp:25). -/
def sprintf02X (b : U8) : List U8 := [sprintfDigit (b.toNat / 16), sprintfDigit (b.toNat % 16), 0]

/-- The loop of `hex_encode` (encoder.cpp:22-29).  `i` is an `int`, so `i += 2` may overflow. -/
def encodeLoop (inp : List U8) (size : Int) : Nat → Nat → Nat → List U8 → Res (List U8)
  | 0, _, _, _ => .ub .diverges
  | fuel + 1, loop, i, out =>
    if (loop : Int) = size then Mem.wr out i 0
    else do
      let b ← Mem.rd inp loop
      let out ← Mem.wrs out i (sprintf02X b)
      if 2 ^ 31 ≤ i + 2 then .ub .signedOverflow
      else encodeLoop inp size fuel (loop + 1) (i + 2) out

/-- `hex_encode` (encoder.cpp:14-30): `out`, `inp` are the bytes reachable from the two pointers. -/
def encode (out inp : List U8) (size : Int) : Res (List U8) := encodeLoop inp size (inp.length + 1) 0 0 out

/-- `hex_to_int` (encoder.cpp:32-39). -/
def hexToInt (c : U8) : Int :=
  let first : Int := (c.toNat / 16 : Nat) - 3
  let second : Int := (c.toNat % 16 : Nat)
  let result := first * 10 + second
  if result > 9 then result - 1 else result

/-- `hex_to_ascii` (encoder.cpp:41-46). -/
def hexToAscii (c d : U8) : Int := hexToInt c * 16 + hexToInt d

/-- The loop of `hex_decode` (encoder.cpp:53-65): `n` iterations from `i` on; `o` is the offset of
the output pointer. -/
def decodeLoop (inp : List U8) : Nat → Nat → Nat → U8 → List U8 → Res (List U8)
  | 0, _, _, _, out => .ok out
  | n + 1, i, o, buf, out =>
    if i % 2 ≠ 0 then do
      let c ← Mem.rd inp i
      let out ← Mem.wr out o (BitVec.ofInt 8 (hexToAscii buf c))
      decodeLoop inp n (i + 1) (o + 1) buf out
    else do
      let c ← Mem.rd inp i
      decodeLoop inp n (i + 1) o c out

/-- `hex_decode` (encoder.cpp:48-66). -/
def decode (out inp : List U8) (size : Int) : Res (List U8) := decodeLoop inp size.toNat 0 0 0 out

end CT.Hex
