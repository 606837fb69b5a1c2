import Verif.Basic.Loops
import Verif.Basic.Mem
import Verif.Basic.Rot

/-!
# Model of StreamCiphers/ChaCha/chacha.h and chacha.cpp

The build flags `TWELVE_ROUNDS` / `EIGHT_ROUNDS` (chacha.cpp:55-61) are the parameter `rounds`
(20 without a flag).
-/

namespace CT.ChaCha

/-- `struct chacha_state` (chacha.h:24-26). -/
structure State where
  state : Vector U32 16
  deriving DecidableEq

/-- `cs->state[i]` (chacha.h:24-26); the indexes are literals in the code. -/
abbrev Words := Vector U32 16

/-- `q_round` (chacha.h:34-51), statement by statement on the array. -/
def qRound (s : Words) (a b c d : Fin 16) : Words :=
  let s := s.set a (s[a] + s[b])
  let s := s.set d (s[d] ^^^ s[a])
  let s := s.set d (rotl32 s[d] 16)
  let s := s.set c (s[c] + s[d])
  let s := s.set b (s[b] ^^^ s[c])
  let s := s.set b (rotl32 s[b] 12)
  let s := s.set a (s[a] + s[b])
  let s := s.set d (s[d] ^^^ s[a])
  let s := s.set d (rotl32 s[d] 8)
  let s := s.set c (s[c] + s[d])
  let s := s.set b (s[b] ^^^ s[c])
  s.set b (rotl32 s[b] 7)

/-- `inner_block` (chacha.h:53-63). -/
def innerBlock (s : Words) : Words :=
  let s := qRound s 0 4 8 12
  let s := qRound s 1 5 9 13
  let s := qRound s 2 6 10 14
  let s := qRound s 3 7 11 15
  let s := qRound s 0 5 10 15
  let s := qRound s 1 6 11 12
  let s := qRound s 2 7 8 13
  qRound s 3 4 9 14

/-- `memcpy` of `n` bytes into words `[at, at+n/4)` of the array, little endian (chacha.cpp:38, 43). -/
def loadWords (s : Words) (at_ : Nat) : List U32 → Words
  | [] => s
  | w :: ws => loadWords (s.setIfInBounds at_ w) (at_ + 1) ws

/-- `chacha_initialize` (chacha.cpp:29-44): `key` are the 32 and `nonce` the 12 bytes copied. -/
def init (key nonce : List U8) : State :=
  let s : Words := Vector.replicate 16 0
  let s := s.set 0 0x61707865#32
  let s := s.set 1 0x3320646e#32
  let s := s.set 2 0x79622d32#32
  let s := s.set 3 0x6b206574#32
  let s := loadWords s 4 (bytesToWordsLE key)
  let s := s.set 12 1#32
  ⟨loadWords s 13 (bytesToWordsLE nonce)⟩

/-- The loop of chacha.cpp:63-66. -/
def rounds2 : Nat → Words → Words
  | 0, s => s
  | n + 1, s => rounds2 n (innerBlock s)

/-- `chacha_block` (chacha.cpp:46-75): updates the counter word of the state and produces 16
keystream words. -/
def block (rounds : Nat) (cs : State) (counter : U32) : State × Words :=
  let cs : State := ⟨cs.state.set 12 counter⟩
  let work := rounds2 (rounds / 2) cs.state
  (cs, Vector.ofFn fun i : Fin 16 => work[i] + cs.state[i])

/-- Keystream generation loop (chacha.cpp:88-92): `n` more blocks. -/
def ksLoop (rounds : Nat) : Nat → State → U32 → List U32 → State × List U32
  | 0, cs, _, acc => (cs, acc)
  | n + 1, cs, counter, acc =>
    let r := block rounds cs counter
    ksLoop rounds n r.1 (counter + 1) (acc ++ r.2.toList)

/-- `chacha_process_packet` (chacha.cpp:77-114).

`int n_words = std::ceil(double(size)/4)`: the conversion to `int` is undefined when the value does
not fit (the double is exact below 2^53 and far out of range above).  `int n_bytes = size` reduces
modulo 2^32 into the range of `int`; both loops compare `n_bytes` only with `> 3` and `i <`, so a
negative value behaves like zero and the loops run on `n_bytes.toNat`. -/
def processPacket (rounds : Nat) (cs : State) (io : Io) (size : U64) : Res (State × Io) :=
  let nWords := (size.toNat + 3) / 4
  if 2 ^ 31 ≤ nWords then .ub .badConversion else
  let nIterations := (nWords + 15) / 16
  if 2 ^ 31 ≤ nIterations * 16 then .ub .signedOverflow else
  let r := ksLoop rounds nIterations cs 1 []
  let nBytes : Int := (size.setWidth 32).toInt
  do
    let (rest, idx, off, io) ← Io.wordLoop r.2 (nBytes.toNat + 1) nBytes.toNat 0 0 io
    let io ← Io.byteLoop r.2 rest (4 * idx) off io
    return (r.1, io)

/-- `test_q` (chacha.cpp:7-16). -/
def testQ (s : Words) : Words := qRound s 2 7 8 13

/-- The swapped word of `byte_swap` (chacha.cpp:23-24). -/
def swap32 (num : U32) : U32 :=
  ((num >>> 24) &&& 0xff) ||| ((num <<< 8) &&& 0xff0000) ||| ((num >>> 8) &&& 0xff00) |||
    ((num <<< 24) &&& 0xff000000)

/-- `((uint32_t*)input)[i] = w`: a store through the *input* pointer (chacha.cpp:25). -/
def storeIn (io : Io) (i : Nat) (w : U32) : Res Io := do
  let bs ← Mem.wrs io.src (4 * i) (bytesLE32 w)
  return if io.alias then { io with out := bs } else { io with inp := bs }

/-- The loop of `byte_swap` (chacha.cpp:20-26): `n` iterations from `i` on. -/
def byteSwapLoop : Nat → Nat → Io → Res Io
  | 0, _, io => .ok io
  | n + 1, i, io => do
    let num ← io.rd32 (4 * i)
    let io ← storeIn io i (swap32 num)
    byteSwapLoop n (i + 1) io

/-- `byte_swap` (chacha.cpp:18-27; the same code in rabbit.cpp:11-20 under `DEBUG`).  The loop is empty
for a negative `size`. -/
def byteSwap (io : Io) (size : Int) : Res Io := byteSwapLoop (size.toNat / 4) 0 io

end CT.ChaCha
