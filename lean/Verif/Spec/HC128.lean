import Verif.Basic.Bytes

/-!
# HC-128 (specification, written from Hongjun Wu, "The Stream Cipher HC-128", eSTREAM)

The two tables are functions from indexes, `⊟` is subtraction modulo 512.
-/

namespace CT.Spec.HC128

/-- The internal state: tables P and Q (only indexes below 512 are used). -/
structure St where
  P : Nat → U32
  Q : Nat → U32

/-- `x ⊟ y` of the paper. -/
def bsub (x y : Nat) : Nat := (x + 512 - y) % 512

def f1 (x : U32) : U32 := x.rotateRight 7 ^^^ x.rotateRight 18 ^^^ (x >>> 3)
def f2 (x : U32) : U32 := x.rotateRight 17 ^^^ x.rotateRight 19 ^^^ (x >>> 10)
def g1 (x y z : U32) : U32 := (x.rotateRight 10 ^^^ z.rotateRight 23) + y.rotateRight 8
def g2 (x y z : U32) : U32 := (x.rotateLeft 10 ^^^ z.rotateLeft 23) + y.rotateLeft 8

/-- Byte `n` of a word (`x_0` is the least significant byte). -/
def byte (x : U32) (n : Nat) : Nat := x.toNat / 256 ^ n % 256

/-- `h1(x) = Q[x_0] + Q[256 + x_2]`, `h2(x) = P[x_0] + P[256 + x_2]`. -/
def h (T : Nat → U32) (x : U32) : U32 := T (byte x 0) + T (256 + byte x 2)

def upd (T : Nat → U32) (j : Nat) (v : U32) : Nat → U32 := fun k => if k = j then v else T k

/-- One step of the keystream generation algorithm: step `i` outputs `s_i`. -/
def step (s : St) (i : Nat) : St × U32 :=
  let j := i % 512
  if i % 1024 < 512 then
    let P := upd s.P j (s.P j + g1 (s.P (bsub j 3)) (s.P (bsub j 10)) (s.P (bsub j 511)))
    ({ s with P := P }, h s.Q (P (bsub j 12)) ^^^ P j)
  else
    let Q := upd s.Q j (s.Q j + g2 (s.Q (bsub j 3)) (s.Q (bsub j 10)) (s.Q (bsub j 511)))
    ({ s with Q := Q }, h s.P (Q (bsub j 12)) ^^^ Q j)

/-- Key and IV expansion: `W_i`, with key words `K_0..K_3` and IV words `IV_0..IV_3`
repeated (`K_{i+4} = K_i`, `IV_{i+4} = IV_i`). -/
def W (key iv : List U8) (i : Nat) : U32 :=
  if i < 8 then (bytesToWordsLE key).getD (i % 4) 0
  else if i < 16 then (bytesToWordsLE iv).getD (i % 4) 0
  else if _h : 16 ≤ i then
    f2 (W key iv (i - 2)) + W key iv (i - 7) + f1 (W key iv (i - 15)) + W key iv (i - 16)
      + BitVec.ofNat 32 i
  else 0
termination_by i

/-- Table contents before the 1024 initialisation steps. -/
def table0 (key iv : List U8) : St := { P := fun i => W key iv (i + 256), Q := fun i => W key iv (i + 768) }

/-- Run the cipher 512 steps and use the outputs to replace the elements of P. -/
def initP : Nat → St → St
  | 0, s => s
  | n + 1, s =>
    let s := initP n s
    { s with P := upd s.P n ((s.P n + g1 (s.P (bsub n 3)) (s.P (bsub n 10)) (s.P (bsub n 511))) ^^^
        h s.Q (s.P (bsub n 12))) }

/-- The same for Q. -/
def initQ : Nat → St → St
  | 0, s => s
  | n + 1, s =>
    let s := initQ n s
    { s with Q := upd s.Q n ((s.Q n + g2 (s.Q (bsub n 3)) (s.Q (bsub n 10)) (s.Q (bsub n 511))) ^^^
        h s.P (s.Q (bsub n 12))) }

/-- The initialised state. -/
def initial (key iv : List U8) : St := initQ 512 (initP 512 (table0 key iv))

/-- The state after steps `0 .. n-1`. -/
def stateAt (s : St) : Nat → St
  | 0 => s
  | n + 1 => (step (stateAt s n) n).1

/-- The keystream word `s_i`. -/
def word (key iv : List U8) (i : Nat) : U32 := (step (stateAt (initial key iv) i) i).2

/-- The first `n` bytes of the keystream. -/
def keystream (key iv : List U8) (n : Nat) : List U8 :=
  (wordsToBytesLE ((List.range ((n + 3) / 4)).map (word key iv))).take n

end CT.Spec.HC128
