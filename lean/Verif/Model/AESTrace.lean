import Verif.Model.AES

/-!
# Table reads of the AES code

The functions of `Verif.Model.AES` once more, with a record of the table entries that they read, in
the order of the statements.  Which entries are read is what an observer of the processor's cache
learns.  Line numbers are those of BlockCiphers/AES/AES/AES_CTR/{aes_ctr.h, aes_ctr.cpp}.
-/

namespace CT.AES

/-- The tables of tables.h:26-326. -/
inductive Table where
  | T0 | T1 | T2 | T3 | Sbox
  deriving DecidableEq, Repr

/-- The entries of tables.h:26-326 read, in order. -/
abbrev Reads := List (Table × U8)

/-- A value and the entries of tables.h:26-326 read for it. -/
structure Tr (α : Type) where
  val : α
  reads : Reads

instance : Monad Tr where
  pure a := ⟨a, []⟩
  bind x f := ⟨(f x.val).val, x.reads ++ (f x.val).reads⟩

/-- `T[b]`, as in aes_ctr.h:54-166 and aes_ctr.cpp:25-33. -/
def readTab (t : Table) (b : U8) : Tr U32 :=
  ⟨match t with
    | .T0 => tab t0 b
    | .T1 => tab t1 b
    | .T2 => tab t2 b
    | .T3 => tab t3 b
    | .Sbox => sboxW b, [(t, b)]⟩

/-- One output word of `round` (aes_ctr.h:54-108). -/
def roundWordT (a b c d k : U32) : Tr U32 := do
  let x ← readTab .T0 (cut a 0)
  let y ← readTab .T1 (cut b 8)
  let z ← readTab .T2 (cut c 16)
  let u ← readTab .T3 (cut d 24)
  return x ^^^ y ^^^ z ^^^ u ^^^ k

/-- `round` (aes_ctr.h:54-108). -/
def roundT (s k : Quad) : Tr Quad := do
  let a ← roundWordT s.w0 s.w1 s.w2 s.w3 k.w0
  let b ← roundWordT s.w1 s.w2 s.w3 s.w0 k.w1
  let c ← roundWordT s.w2 s.w3 s.w0 s.w1 k.w2
  let d ← roundWordT s.w3 s.w0 s.w1 s.w2 k.w3
  return ⟨a, b, c, d⟩

/-- One output word of `final_round` (aes_ctr.h:110-166). -/
def finalWordT (a b c d k : U32) : Tr U32 := do
  let x ← readTab .Sbox (cut a 0)
  let y ← readTab .Sbox (cut b 8)
  let z ← readTab .Sbox (cut c 16)
  let u ← readTab .Sbox (cut d 24)
  return x ^^^ (y <<< 8) ^^^ (z <<< 16) ^^^ (u <<< 24) ^^^ k

/-- `final_round` (aes_ctr.h:110-166). -/
def finalRoundT (s k : Quad) : Tr Quad := do
  let a ← finalWordT s.w0 s.w1 s.w2 s.w3 k.w0
  let b ← finalWordT s.w1 s.w2 s.w3 s.w0 k.w1
  let c ← finalWordT s.w2 s.w3 s.w0 s.w1 k.w2
  let d ← finalWordT s.w3 s.w0 s.w1 s.w2 k.w3
  return ⟨a, b, c, d⟩

/-- `SubByte` (aes_ctr.cpp:25-33). -/
def subByteT (w : U32) : Tr U32 := do
  let x ← readTab .Sbox (cut w 0)
  let y ← readTab .Sbox (cut w 8)
  let z ← readTab .Sbox (cut w 16)
  let u ← readTab .Sbox (cut w 24)
  return x ^^^ (y <<< 8) ^^^ (z <<< 16) ^^^ (u <<< 24)

/-- `temp` in iteration `i` of the loop of the key expansion (aes_ctr.cpp:50-54). -/
def expandTempT (i : Nat) (temp : U32) : Tr U32 :=
  if i % 4 = 0 then do
    let s ← subByteT (rotByte temp)
    return s ^^^ (rconTab.getD (i / 4) 0).setWidth 32
  else pure temp

/-- The loop of aes_ctr.cpp:48-57, `n` more words starting with word `i`. -/
def expandLoopT : Nat → Nat → List U32 → Tr (List U32)
  | 0, _, ks => pure ks
  | n + 1, i, ks => do
    let temp ← expandTempT i (ks.getD (i - 1) 0)
    expandLoopT n (i + 1) (ks ++ [ks.getD (i - 4) 0 ^^^ temp])

/-- `aes_key_expansion` (aes_ctr.cpp:35-58 and the five other copies). -/
def keyExpansionT (key : List U8) : Tr (List U32) :=
  expandLoopT 40 4 [keyWord key 0, keyWord key 1, keyWord key 2, keyWord key 3]

/-- The four rounds that `ROUND_REDUCED` leaves out (aes_ctr.cpp:92-95). -/
def firstRoundsT (rk : List U32) (s : Quad) : Tr Quad := do
  let s ← roundT s (rkAt rk 4)
  let s ← roundT s (rkAt rk 8)
  let s ← roundT s (rkAt rk 12)
  roundT s (rkAt rk 16)

/-- The other rounds (aes_ctr.cpp:97-102). -/
def lastRoundsT (rk : List U32) (s : Quad) : Tr Quad := do
  let s ← roundT s (rkAt rk 20)
  let s ← roundT s (rkAt rk 24)
  let s ← roundT s (rkAt rk 28)
  let s ← roundT s (rkAt rk 32)
  let s ← roundT s (rkAt rk 36)
  finalRoundT s (rkAt rk 40)

/-- The block function of the portable code (aes_ctr.cpp:90-104, AES_CFB/aes_cfb.cpp:68-82). -/
def encryptT (reduced : Bool) (rk : List U32) (s : Quad) : Tr Quad :=
  if reduced then lastRoundsT rk (initialRound s (rkAt rk 0))
  else do
    let s ← firstRoundsT rk (initialRound s (rkAt rk 0))
    lastRoundsT rk s

/-- `aes_encrypt` and `state_update` of the counter mode code (aes_ctr.cpp:84-125), with the record in the state. -/
def ctrBlkT (s : State × Reads) : (State × Reads) × Quad :=
  let r := encryptT false s.1.rk s.1.reg
  ((stateUpdate s.1, s.2 ++ r.reads), r.val)

/-- `aes_load_key` (aes_ctr.cpp:72-75), with the record in the state. -/
def loadKeyT (s : State × Reads) (key : List U8) : State × Reads :=
  let r := keyExpansionT key
  ({ s.1 with rk := r.val }, s.2 ++ r.reads)

/-- `aes_ctr_process_packet` (aes_ctr.cpp:127-192), with the record in the state. -/
def ctrPacketT (s : State × Reads) (io : Io) (size : Int) : Res ((State × Reads) × Io) := ctrWith ctrBlkT s io size

end CT.AES
