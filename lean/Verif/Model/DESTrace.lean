import Verif.Model.DES

/-!
# Table reads of the DES code

The functions of `Verif.Model.DES` once more, with a record of the table entries that they read.  Which entries are
read is what an observer of the processor's cache learns.  The order of the reads within one C++ expression is that of
its text; nothing below depends on it.
-/

namespace CT.DES

/-- The tables of des.h:60-236. -/
inductive Table where
  | LHs | RHs | S1 | S2 | S3 | S4 | S5 | S6 | S7 | S8
  deriving DecidableEq, Repr

/-- The entries of des.h:60-236 read, in order. -/
abbrev Reads := List (Table × U32)

/-- A value and the entries of des.h:60-236 read for it. -/
structure Tr (α : Type) where
  val : α
  reads : Reads

instance : Monad Tr where
  pure a := ⟨a, []⟩
  bind x f := ⟨(f x.val).val, x.reads ++ (f x.val).reads⟩

/-- The contents of a table (des.h:60-236). -/
def Table.list : Table → List U32
  | .LHs => lHs
  | .RHs => rHs
  | .S1 => sbox1
  | .S2 => sbox2
  | .S3 => sbox3
  | .S4 => sbox4
  | .S5 => sbox5
  | .S6 => sbox6
  | .S7 => sbox7
  | .S8 => sbox8

/-- `T[i]`, as in des.h:252-262 and des.cpp:19-27. -/
def readTab (t : Table) (i : U32) : Tr U32 := ⟨tab t.list i, [(t, i)]⟩

/-- Permuted choice 1 (des.cpp:16-30). -/
def pc1T (X Y : U32) : Tr (U32 × U32) :=
  let T := ((Y >>> 4) ^^^ X) &&& 0x0f0f0f0f
  let X := X ^^^ T
  let Y := Y ^^^ (T <<< 4)
  let T := (Y ^^^ X) &&& 0x10101010
  let X := X ^^^ T
  let Y := Y ^^^ T
  do
    let x0 ← readTab .LHs (X &&& 0xf)
    let x1 ← readTab .LHs ((X >>> 8) &&& 0xf)
    let x2 ← readTab .LHs ((X >>> 16) &&& 0xf)
    let x3 ← readTab .LHs ((X >>> 24) &&& 0xf)
    let x4 ← readTab .LHs ((X >>> 5) &&& 0xf)
    let x5 ← readTab .LHs ((X >>> 13) &&& 0xf)
    let x6 ← readTab .LHs ((X >>> 21) &&& 0xf)
    let x7 ← readTab .LHs ((X >>> 29) &&& 0xf)
    let y0 ← readTab .RHs ((Y >>> 1) &&& 0xf)
    let y1 ← readTab .RHs ((Y >>> 9) &&& 0xf)
    let y2 ← readTab .RHs ((Y >>> 17) &&& 0xf)
    let y3 ← readTab .RHs ((Y >>> 25) &&& 0xf)
    let y4 ← readTab .RHs ((Y >>> 4) &&& 0xf)
    let y5 ← readTab .RHs ((Y >>> 12) &&& 0xf)
    let y6 ← readTab .RHs ((Y >>> 20) &&& 0xf)
    let y7 ← readTab .RHs ((Y >>> 28) &&& 0xf)
    let X := (x0 <<< 3) ||| (x1 <<< 2) ||| (x2 <<< 1) ||| x3 ||| (x4 <<< 7) ||| (x5 <<< 6) ||| (x6 <<< 5) ||| (x7 <<< 4)
    let Y := (y0 <<< 3) ||| (y1 <<< 2) ||| (y2 <<< 1) ||| y3 ||| (y4 <<< 7) ||| (y5 <<< 6) ||| (y6 <<< 5) ||| (y7 <<< 4)
    return (X &&& 0x0fffffff, Y &&& 0x0fffffff)

/-- `des_key_schedule_encrypt` (des.cpp:4-72); the loop (des.cpp:35-71) reads no table. -/
def keyScheduleEncryptT (key : List U8) : Res (List U32 × Reads) :=
  match key with
  | k0 :: k1 :: k2 :: k3 :: k4 :: k5 :: k6 :: k7 :: _ =>
    let p := pc1T (le32 k0 k1 k2 k3) (le32 k4 k5 k6 k7)
    .ok (ksLoop 16 0 p.val.1 p.val.2, p.reads)
  | _ => .ub .outOfBounds

/-- `DES_ROUND` (des.h:249-263). -/
def roundFT (rk : List U32) (X : U32) : Tr U32 := do
  let T := rk.getD 0 0 ^^^ X
  let a8 ← readTab .S8 (T &&& 0x3f)
  let a6 ← readTab .S6 ((T >>> 8) &&& 0x3f)
  let a4 ← readTab .S4 ((T >>> 16) &&& 0x3f)
  let a2 ← readTab .S2 ((T >>> 24) &&& 0x3f)
  let T := rk.getD 1 0 ^^^ ((X <<< 28) ||| (X >>> 4))
  let b7 ← readTab .S7 (T &&& 0x3f)
  let b5 ← readTab .S5 ((T >>> 8) &&& 0x3f)
  let b3 ← readTab .S3 ((T >>> 16) &&& 0x3f)
  let b1 ← readTab .S1 ((T >>> 24) &&& 0x3f)
  return (a8 ^^^ a6 ^^^ a4 ^^^ a2) ^^^ (b7 ^^^ b5 ^^^ b3 ^^^ b1)

/-- The eight double rounds of `des_ecb_block` (des.cpp:95-99). -/
def roundsT (rk : List U32) : Nat → U32 × U32 → Tr (U32 × U32)
  | 0, p => pure p
  | n + 1, p => do
    let f ← roundFT rk p.2
    let X := p.1 ^^^ f
    let g ← roundFT rk X
    let Y := p.2 ^^^ g
    roundsT rk n (X, Y)

/-- `des_ecb_block` (des.cpp:87-104). -/
def ecbBlockT (rk : List U32) (input : U32 × U32) : Tr (U32 × U32) := do
  let p ← roundsT rk 8 (ip input)
  return fp (p.2, p.1)

/-- The loop of `des_process_packet_ecb` (des.cpp:109-113). -/
def ecbLoopT (rk : List U32) : Nat → Nat → Nat → Arrs → Reads → Res (Arrs × Reads)
  | 0, _, _, _, _ => .ub .diverges
  | fuel + 1, size, o, a, log =>
    if size > 0 then do
      let x ← a.rd o
      let y ← a.rd (o + 1)
      let p := ecbBlockT rk (x, y)
      let a ← a.wr o p.val.1
      let a ← a.wr (o + 1) p.val.2
      ecbLoopT rk fuel ((size + 2 ^ 64 - 8) % 2 ^ 64) (o + 2) a (log ++ p.reads)
    else .ok (a, log)

/-- `des_process_packet_ecb` (des.cpp:106-114). -/
def processPacketEcbT (rk : List U32) (a : Arrs) (size : Nat) : Res (Arrs × Reads) :=
  ecbLoopT rk (a.out.length + 1) size 0 a []

/-- The loop of `des_process_packet_ctr` (des.cpp:123-135). -/
def ctrLoopT (rk : List U32) (iv0 iv1 : U32) : Nat → U32 → Nat → Nat → Arrs → Reads → Res (Arrs × Reads)
  | 0, _, _, _, _, _ => .ub .diverges
  | fuel + 1, iv3, size, o, a, log =>
    if size > 0 then do
      let ks := ecbBlockT rk (iv0, iv1)
      let x ← a.rd o
      let a ← a.wr o (x ^^^ ks.val.1)
      let y ← a.rd (o + 1)
      let a ← a.wr (o + 1) (y ^^^ ks.val.2)
      ctrLoopT rk iv0 iv1 fuel (iv3 + 1) ((size + 2 ^ 64 - 8) % 2 ^ 64) (o + 2) a (log ++ ks.reads)
    else .ok (a, log)

/-- `des_process_packet_ctr` (des.cpp:116-136). -/
def processPacketCtrT (rk : List U32) (a : Arrs) (nonce : List U32) (size : Nat) : Res (Arrs × Reads) :=
  match nonce with
  | n0 :: n1 :: _ :: _ => ctrLoopT rk n0 n1 (a.out.length + 1) 0 size 0 a []
  | _ => .ub .outOfBounds

end CT.DES
