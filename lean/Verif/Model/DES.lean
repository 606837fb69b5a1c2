import Verif.Basic.Res
import Verif.Basic.Bytes

/-!
# Model of Legacy/DES/des.h and des.cpp
-/

namespace CT.DES

/-- `LHs` (des.h:60-66) -/
def lHs : List U32 :=
  [0x00000000, 0x00000001, 0x00000100, 0x00000101, 0x00010000, 0x00010001, 0x00010100, 0x00010101,
   0x01000000, 0x01000001, 0x01000100, 0x01000101, 0x01010000, 0x01010001, 0x01010100, 0x01010101]

/-- `RHs` (des.h:68-74) -/
def rHs : List U32 :=
  [0x00000000, 0x01000000, 0x00010000, 0x01010000, 0x00000100, 0x01000100, 0x00010100, 0x01010100,
   0x00000001, 0x01000001, 0x00010001, 0x01010001, 0x00000101, 0x01000101, 0x00010101, 0x01010101]

/-- `Sbox1` (des.h:78-96) -/
def sbox1 : List U32 :=
  [0x01010400, 0x00000000, 0x00010000, 0x01010404, 0x01010004, 0x00010404, 0x00000004, 0x00010000,
   0x00000400, 0x01010400, 0x01010404, 0x00000400, 0x01000404, 0x01010004, 0x01000000, 0x00000004,
   0x00000404, 0x01000400, 0x01000400, 0x00010400, 0x00010400, 0x01010000, 0x01010000, 0x01000404,
   0x00010004, 0x01000004, 0x01000004, 0x00010004, 0x00000000, 0x00000404, 0x00010404, 0x01000000,
   0x00010000, 0x01010404, 0x00000004, 0x01010000, 0x01010400, 0x01000000, 0x01000000, 0x00000400,
   0x01010004, 0x00010000, 0x00010400, 0x01000004, 0x00000400, 0x00000004, 0x01000404, 0x00010404,
   0x01010404, 0x00010004, 0x01010000, 0x01000404, 0x01000004, 0x00000404, 0x00010404, 0x01010400,
   0x00000404, 0x01000400, 0x01000400, 0x00000000, 0x00010004, 0x00010400, 0x00000000, 0x01010004]

/-- `Sbox2` (des.h:98-116) -/
def sbox2 : List U32 :=
  [0x80108020, 0x80008000, 0x00008000, 0x00108020, 0x00100000, 0x00000020, 0x80100020, 0x80008020,
   0x80000020, 0x80108020, 0x80108000, 0x80000000, 0x80008000, 0x00100000, 0x00000020, 0x80100020,
   0x00108000, 0x00100020, 0x80008020, 0x00000000, 0x80000000, 0x00008000, 0x00108020, 0x80100000,
   0x00100020, 0x80000020, 0x00000000, 0x00108000, 0x00008020, 0x80108000, 0x80100000, 0x00008020,
   0x00000000, 0x00108020, 0x80100020, 0x00100000, 0x80008020, 0x80100000, 0x80108000, 0x00008000,
   0x80100000, 0x80008000, 0x00000020, 0x80108020, 0x00108020, 0x00000020, 0x00008000, 0x80000000,
   0x00008020, 0x80108000, 0x00100000, 0x80000020, 0x00100020, 0x80008020, 0x80000020, 0x00100020,
   0x00108000, 0x00000000, 0x80008000, 0x00008020, 0x80000000, 0x80100020, 0x80108020, 0x00108000]

/-- `Sbox3` (des.h:118-136) -/
def sbox3 : List U32 :=
  [0x00000208, 0x08020200, 0x00000000, 0x08020008, 0x08000200, 0x00000000, 0x00020208, 0x08000200,
   0x00020008, 0x08000008, 0x08000008, 0x00020000, 0x08020208, 0x00020008, 0x08020000, 0x00000208,
   0x08000000, 0x00000008, 0x08020200, 0x00000200, 0x00020200, 0x08020000, 0x08020008, 0x00020208,
   0x08000208, 0x00020200, 0x00020000, 0x08000208, 0x00000008, 0x08020208, 0x00000200, 0x08000000,
   0x08020200, 0x08000000, 0x00020008, 0x00000208, 0x00020000, 0x08020200, 0x08000200, 0x00000000,
   0x00000200, 0x00020008, 0x08020208, 0x08000200, 0x08000008, 0x00000200, 0x00000000, 0x08020008,
   0x08000208, 0x00020000, 0x08000000, 0x08020208, 0x00000008, 0x00020208, 0x00020200, 0x08000008,
   0x08020000, 0x08000208, 0x00000208, 0x08020000, 0x00020208, 0x00000008, 0x08020008, 0x00020200]

/-- `Sbox4` (des.h:138-156) -/
def sbox4 : List U32 :=
  [0x00802001, 0x00002081, 0x00002081, 0x00000080, 0x00802080, 0x00800081, 0x00800001, 0x00002001,
   0x00000000, 0x00802000, 0x00802000, 0x00802081, 0x00000081, 0x00000000, 0x00800080, 0x00800001,
   0x00000001, 0x00002000, 0x00800000, 0x00802001, 0x00000080, 0x00800000, 0x00002001, 0x00002080,
   0x00800081, 0x00000001, 0x00002080, 0x00800080, 0x00002000, 0x00802080, 0x00802081, 0x00000081,
   0x00800080, 0x00800001, 0x00802000, 0x00802081, 0x00000081, 0x00000000, 0x00000000, 0x00802000,
   0x00002080, 0x00800080, 0x00800081, 0x00000001, 0x00802001, 0x00002081, 0x00002081, 0x00000080,
   0x00802081, 0x00000081, 0x00000001, 0x00002000, 0x00800001, 0x00002001, 0x00802080, 0x00800081,
   0x00002001, 0x00002080, 0x00800000, 0x00802001, 0x00000080, 0x00800000, 0x00002000, 0x00802080]

/-- `Sbox5` (des.h:158-176) -/
def sbox5 : List U32 :=
  [0x00000100, 0x02080100, 0x02080000, 0x42000100, 0x00080000, 0x00000100, 0x40000000, 0x02080000,
   0x40080100, 0x00080000, 0x02000100, 0x40080100, 0x42000100, 0x42080000, 0x00080100, 0x40000000,
   0x02000000, 0x40080000, 0x40080000, 0x00000000, 0x40000100, 0x42080100, 0x42080100, 0x02000100,
   0x42080000, 0x40000100, 0x00000000, 0x42000000, 0x02080100, 0x02000000, 0x42000000, 0x00080100,
   0x00080000, 0x42000100, 0x00000100, 0x02000000, 0x40000000, 0x02080000, 0x42000100, 0x40080100,
   0x02000100, 0x40000000, 0x42080000, 0x02080100, 0x40080100, 0x00000100, 0x02000000, 0x42080000,
   0x42080100, 0x00080100, 0x42000000, 0x42080100, 0x02080000, 0x00000000, 0x40080000, 0x42000000,
   0x00080100, 0x02000100, 0x40000100, 0x00080000, 0x00000000, 0x40080000, 0x02080100, 0x40000100]

/-- `Sbox6` (des.h:178-196) -/
def sbox6 : List U32 :=
  [0x20000010, 0x20400000, 0x00004000, 0x20404010, 0x20400000, 0x00000010, 0x20404010, 0x00400000,
   0x20004000, 0x00404010, 0x00400000, 0x20000010, 0x00400010, 0x20004000, 0x20000000, 0x00004010,
   0x00000000, 0x00400010, 0x20004010, 0x00004000, 0x00404000, 0x20004010, 0x00000010, 0x20400010,
   0x20400010, 0x00000000, 0x00404010, 0x20404000, 0x00004010, 0x00404000, 0x20404000, 0x20000000,
   0x20004000, 0x00000010, 0x20400010, 0x00404000, 0x20404010, 0x00400000, 0x00004010, 0x20000010,
   0x00400000, 0x20004000, 0x20000000, 0x00004010, 0x20000010, 0x20404010, 0x00404000, 0x20400000,
   0x00404010, 0x20404000, 0x00000000, 0x20400010, 0x00000010, 0x00004000, 0x20400000, 0x00404010,
   0x00004000, 0x00400010, 0x20004010, 0x00000000, 0x20404000, 0x20000000, 0x00400010, 0x20004010]

/-- `Sbox7` (des.h:198-216) -/
def sbox7 : List U32 :=
  [0x00200000, 0x04200002, 0x04000802, 0x00000000, 0x00000800, 0x04000802, 0x00200802, 0x04200800,
   0x04200802, 0x00200000, 0x00000000, 0x04000002, 0x00000002, 0x04000000, 0x04200002, 0x00000802,
   0x04000800, 0x00200802, 0x00200002, 0x04000800, 0x04000002, 0x04200000, 0x04200800, 0x00200002,
   0x04200000, 0x00000800, 0x00000802, 0x04200802, 0x00200800, 0x00000002, 0x04000000, 0x00200800,
   0x04000000, 0x00200800, 0x00200000, 0x04000802, 0x04000802, 0x04200002, 0x04200002, 0x00000002,
   0x00200002, 0x04000000, 0x04000800, 0x00200000, 0x04200800, 0x00000802, 0x00200802, 0x04200800,
   0x00000802, 0x04000002, 0x04200802, 0x04200000, 0x00200800, 0x00000000, 0x00000002, 0x04200802,
   0x00000000, 0x00200802, 0x04200000, 0x00000800, 0x04000002, 0x04000800, 0x00000800, 0x00200002]

/-- `Sbox8` (des.h:218-236) -/
def sbox8 : List U32 :=
  [0x10001040, 0x00001000, 0x00040000, 0x10041040, 0x10000000, 0x10001040, 0x00000040, 0x10000000,
   0x00040040, 0x10040000, 0x10041040, 0x00041000, 0x10041000, 0x00041040, 0x00001000, 0x00000040,
   0x10040000, 0x10000040, 0x10001000, 0x00001040, 0x00041000, 0x00040040, 0x10040040, 0x10041000,
   0x00001040, 0x00000000, 0x00000000, 0x10040040, 0x10000040, 0x10001000, 0x00041040, 0x00040000,
   0x00041040, 0x00040000, 0x10041000, 0x00001000, 0x00000040, 0x10040040, 0x00001000, 0x00041040,
   0x10001000, 0x00000040, 0x10000040, 0x10040000, 0x10040040, 0x10000000, 0x00040000, 0x10001040,
   0x00000000, 0x10041040, 0x00040040, 0x10000040, 0x10040000, 0x10001000, 0x10001040, 0x00000000,
   0x10041040, 0x00041000, 0x00041000, 0x00001040, 0x00001040, 0x00040040, 0x10000000, 0x10041000]

/-- Table access with a masked index (des.h:252-262); the index is always below the table's length. -/
def tab (t : List U32) (i : U32) : U32 := t.getD i.toNat 0

/-- Permuted choice 1 (des.cpp:16-30) on the key words `X`, `Y` (read little-endian from the key bytes,
des.cpp:9-12). -/
def pc1 (X Y : U32) : U32 × U32 :=
  let T := ((Y >>> 4) ^^^ X) &&& 0x0f0f0f0f
  let X := X ^^^ T
  let Y := Y ^^^ (T <<< 4)
  let T := (Y ^^^ X) &&& 0x10101010
  let X := X ^^^ T
  let Y := Y ^^^ T
  let X := (tab lHs (X &&& 0xf) <<< 3) ||| (tab lHs ((X >>> 8) &&& 0xf) <<< 2)
    ||| (tab lHs ((X >>> 16) &&& 0xf) <<< 1) ||| tab lHs ((X >>> 24) &&& 0xf)
    ||| (tab lHs ((X >>> 5) &&& 0xf) <<< 7) ||| (tab lHs ((X >>> 13) &&& 0xf) <<< 6)
    ||| (tab lHs ((X >>> 21) &&& 0xf) <<< 5) ||| (tab lHs ((X >>> 29) &&& 0xf) <<< 4)
  let Y := (tab rHs ((Y >>> 1) &&& 0xf) <<< 3) ||| (tab rHs ((Y >>> 9) &&& 0xf) <<< 2)
    ||| (tab rHs ((Y >>> 17) &&& 0xf) <<< 1) ||| tab rHs ((Y >>> 25) &&& 0xf)
    ||| (tab rHs ((Y >>> 4) &&& 0xf) <<< 7) ||| (tab rHs ((Y >>> 12) &&& 0xf) <<< 6)
    ||| (tab rHs ((Y >>> 20) &&& 0xf) <<< 5) ||| (tab rHs ((Y >>> 28) &&& 0xf) <<< 4)
  (X &&& 0x0fffffff, Y &&& 0x0fffffff)

/-- One iteration's rotation (des.cpp:37-46). -/
def rotKey (i : Nat) (X : U32) : U32 :=
  if i < 2 ∨ i = 8 ∨ i = 15 then ((X <<< 1) ||| (X >>> 27)) &&& 0x0fffffff
  else ((X <<< 2) ||| (X >>> 26)) &&& 0x0fffffff

/-- First word of a round key (des.cpp:48-58). -/
def rkWord0 (X Y : U32) : U32 :=
    ((X <<< 4) &&& 0x24000000) ||| ((X <<< 28) &&& 0x10000000) ||| ((X <<< 14) &&& 0x08000000) |||
    ((X <<< 18) &&& 0x02080000) ||| ((X <<< 6) &&& 0x01000000) ||| ((X <<< 9) &&& 0x00200000) |||
    ((X >>> 1) &&& 0x00100000) ||| ((X <<< 10) &&& 0x00040000) ||| ((X <<< 2) &&& 0x00020000) |||
    ((X >>> 10) &&& 0x00010000) ||| ((Y >>> 13) &&& 0x00002000) ||| ((Y >>> 4) &&& 0x00001000) |||
    ((Y <<< 6) &&& 0x00000800) ||| ((Y >>> 1) &&& 0x00000400) ||| ((Y >>> 14) &&& 0x00000200) |||
    (Y &&& 0x00000100) ||| ((Y >>> 5) &&& 0x00000020) ||| ((Y >>> 10) &&& 0x00000010) |||
    ((Y >>> 3) &&& 0x00000008) ||| ((Y >>> 18) &&& 0x00000004) ||| ((Y >>> 26) &&& 0x00000002) |||
    ((Y >>> 24) &&& 0x00000001)

/-- Second word of a round key (des.cpp:60-70). -/
def rkWord1 (X Y : U32) : U32 :=
    ((X <<< 15) &&& 0x20000000) ||| ((X <<< 17) &&& 0x10000000) ||| ((X <<< 10) &&& 0x08000000) |||
    ((X <<< 22) &&& 0x04000000) ||| ((X >>> 2) &&& 0x02000000) ||| ((X <<< 1) &&& 0x01000000) |||
    ((X <<< 16) &&& 0x00200000) ||| ((X <<< 11) &&& 0x00100000) ||| ((X <<< 3) &&& 0x00080000) |||
    ((X >>> 6) &&& 0x00040000) ||| ((X <<< 15) &&& 0x00020000) ||| ((X >>> 4) &&& 0x00010000) |||
    ((Y >>> 2) &&& 0x00002000) ||| ((Y <<< 8) &&& 0x00001000) ||| ((Y >>> 14) &&& 0x00000808) |||
    ((Y >>> 9) &&& 0x00000400) ||| (Y &&& 0x00000200) ||| ((Y <<< 7) &&& 0x00000100) |||
    ((Y >>> 7) &&& 0x00000020) ||| ((Y >>> 3) &&& 0x00000011) ||| ((Y <<< 2) &&& 0x00000004) |||
    ((Y >>> 21) &&& 0x00000002)

/-- The loop of the key schedule (des.cpp:35-71): `n` iterations from iteration `i` on; the words
stored. -/
def ksLoop : Nat → Nat → U32 → U32 → List U32
  | 0, _, _, _ => []
  | n + 1, i, X, Y =>
    let X := rotKey i X
    let Y := rotKey i Y
    rkWord0 X Y :: rkWord1 X Y :: ksLoop n (i + 1) X Y

/-- `des_key_schedule_encrypt` (des.cpp:4-72): the 32 words of `cs->rk`. -/
def keyScheduleEncrypt (key : List U8) : Res (List U32) :=
  match key with
  | k0 :: k1 :: k2 :: k3 :: k4 :: k5 :: k6 :: k7 :: _ =>
    let p := pc1 (le32 k0 k1 k2 k3) (le32 k4 k5 k6 k7)
    .ok (ksLoop 16 0 p.1 p.2)
  | _ => .ub .outOfBounds

/-- Exchange of two entries (des.cpp:82). -/
def swapAt (rk : List U32) (i j : Nat) : List U32 :=
  (rk.set i (rk.getD j 0)).set j (rk.getD i 0)

/-- `des_key_schedule_decrypt` (des.cpp:74-85). -/
def keyScheduleDecrypt (key : List U8) : Res (List U32) := do
  let rk ← keyScheduleEncrypt key
  .ok ([0, 2, 4, 6, 8, 10, 12, 14].foldl (fun rk i => swapAt (swapAt rk i (30 - i)) (i + 1) (31 - i)) rk)

/-- `T = ((X >> k) ^ Y) & m; Y ^= T; X ^= (T << k)`: the step of `DES_IP` and `DES_FP`
(des.h:240-241, 272-273). -/
def swapMove (k : Nat) (m : U32) (p : U32 × U32) : U32 × U32 :=
  let T := ((p.1 >>> k) ^^^ p.2) &&& m
  (p.1 ^^^ (T <<< k), p.2 ^^^ T)

/-- The same step with the roles of the words exchanged (des.h:242-243, 270-271). -/
def swapMove' (k : Nat) (m : U32) (p : U32 × U32) : U32 × U32 :=
  let q := swapMove k m (p.2, p.1)
  (q.2, q.1)

/-- `((X << 1) | (X >> 31)) & 0xffffffff` (des.h:244, 246) -/
def rol1 (x : U32) : U32 := ((x <<< 1) ||| (x >>> 31)) &&& 0xffffffff
/-- `((X << 31) | (X >> 1)) & 0xffffffff` (des.h:267, 269) -/
def ror1 (x : U32) : U32 := ((x <<< 31) ||| (x >>> 1)) &&& 0xffffffff

/-- `DES_IP` (des.h:238-247) -/
def ip (p : U32 × U32) : U32 × U32 :=
  let p := swapMove 4 0x0f0f0f0f p
  let p := swapMove 16 0x0000ffff p
  let p := swapMove' 2 0x33333333 p
  let p := swapMove' 8 0x00ff00ff p
  let p := (p.1, rol1 p.2)
  let p := swapMove 0 0xaaaaaaaa p
  (rol1 p.1, p.2)

/-- `DES_FP` (des.h:265-274) -/
def fp (p : U32 × U32) : U32 × U32 :=
  let p := (ror1 p.1, p.2)
  let p := swapMove 0 0xaaaaaaaa p
  let p := (p.1, ror1 p.2)
  let p := swapMove' 8 0x00ff00ff p
  let p := swapMove' 2 0x33333333 p
  let p := swapMove 16 0x0000ffff p
  swapMove 4 0x0f0f0f0f p

/-- What `DES_ROUND` (des.h:249-263) xors to the other half: always with `rk[0]` and `rk[1]`, because
`rk_ptr` is a local variable that starts at `cs->rk` in every call. -/
def roundF (rk : List U32) (X : U32) : U32 :=
  let T := rk.getD 0 0 ^^^ X
  let a := tab sbox8 (T &&& 0x3f) ^^^ tab sbox6 ((T >>> 8) &&& 0x3f) ^^^ tab sbox4 ((T >>> 16) &&& 0x3f) ^^^
    tab sbox2 ((T >>> 24) &&& 0x3f)
  let T := rk.getD 1 0 ^^^ ((X <<< 28) ||| (X >>> 4))
  let b := tab sbox7 (T &&& 0x3f) ^^^ tab sbox5 ((T >>> 8) &&& 0x3f) ^^^ tab sbox3 ((T >>> 16) &&& 0x3f) ^^^
    tab sbox1 ((T >>> 24) &&& 0x3f)
  a ^^^ b

/-- The eight double rounds of `des_ecb_block` (des.cpp:95-99). -/
def rounds (rk : List U32) : Nat → U32 × U32 → U32 × U32
  | 0, p => p
  | n + 1, p =>
    let X := p.1 ^^^ roundF rk p.2
    let Y := p.2 ^^^ roundF rk X
    rounds rk n (X, Y)

/-- `des_ecb_block` (des.cpp:87-104) on the words `input[0]`, `input[1]`. -/
def ecbBlock (rk : List U32) (input : U32 × U32) : U32 × U32 :=
  let p := rounds rk 8 (ip input)
  fp (p.2, p.1)

/-- The word arrays behind `output` and `input`; `alias` when both are the same array (the parameters of
des.cpp:106, 116). -/
structure Arrs where
  inp : List U32
  out : List U32
  alias : Bool
  deriving DecidableEq

/-- `input[i]` (des.cpp:91, 128, 131) -/
def Arrs.rd (a : Arrs) (i : Nat) : Res U32 :=
  match (if a.alias then a.out else a.inp)[i]? with
  | some w => .ok w
  | none => .ub .outOfBounds

/-- `output[i] = w` (des.cpp:103, 128, 131) -/
def Arrs.wr (a : Arrs) (i : Nat) (w : U32) : Res Arrs :=
  if i < a.out.length then .ok { a with out := a.out.set i w } else .ub .outOfBounds

/-- The loop of `des_process_packet_ecb` (des.cpp:109-113) at word offset `o`; `size` is a `u64`. -/
def ecbLoop (rk : List U32) : Nat → Nat → Nat → Arrs → Res Arrs
  | 0, _, _, _ => .ub .diverges
  | fuel + 1, size, o, a =>
    if size > 0 then do
      let x ← a.rd o
      let y ← a.rd (o + 1)
      let p := ecbBlock rk (x, y)
      let a ← a.wr o p.1
      let a ← a.wr (o + 1) p.2
      ecbLoop rk fuel ((size + 2 ^ 64 - 8) % 2 ^ 64) (o + 2) a
    else .ok a

/-- `des_process_packet_ecb` (des.cpp:106-114).  The loop cannot run longer than the output array
without leaving it. -/
def processPacketEcb (rk : List U32) (a : Arrs) (size : Nat) : Res Arrs :=
  ecbLoop rk (a.out.length + 1) size 0 a

/-- The loop of `des_process_packet_ctr` (des.cpp:123-135); only `iv[0]` and `iv[1]` enter the block cipher
(`des_ecb_block` reads two words), `iv[3]` is the counter. -/
def ctrLoop (rk : List U32) (iv0 iv1 : U32) : Nat → U32 → Nat → Nat → Arrs → Res Arrs
  | 0, _, _, _, _ => .ub .diverges
  | fuel + 1, iv3, size, o, a =>
    if size > 0 then do
      let ks := ecbBlock rk (iv0, iv1)
      let x ← a.rd o
      let a ← a.wr o (x ^^^ ks.1)
      let y ← a.rd (o + 1)
      let a ← a.wr (o + 1) (y ^^^ ks.2)
      ctrLoop rk iv0 iv1 fuel (iv3 + 1) ((size + 2 ^ 64 - 8) % 2 ^ 64) (o + 2) a
    else .ok a

/-- `des_process_packet_ctr` (des.cpp:116-136); `nonce` gives access to at least three words. -/
def processPacketCtr (rk : List U32) (a : Arrs) (nonce : List U32) (size : Nat) : Res Arrs :=
  match nonce with
  | n0 :: n1 :: _ :: _ => ctrLoop rk n0 n1 (a.out.length + 1) 0 size 0 a
  | _ => .ub .outOfBounds

end CT.DES
