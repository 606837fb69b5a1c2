import Verif.Basic.Blocks
import Verif.Basic.Rot

/-!
# Model of serpent.h and serpent.cpp (BlockCiphers/Serpent and StreamCiphers/Sosemanuk)

The two copies are the same up to the order of two includes.  Both define `SOSEMANUK_H`, so the code that is
compiled is Serpent24: 24 rounds, 25 round keys, output after rounds 12, 18 and 24.  The code for 32 rounds
is not compiled; it is modelled in `Verif.Model.Serpent32`.  The heap allocation of the fifth register is not modelled; the
register is written before it is read.
-/

set_option linter.unusedVariables false

namespace CT.Serpent

/-- The registers behind the five pointers, in the order of the arguments of `S0`, ..., `S7`
(serpent.h:43-163). -/
structure Regs where
  r0 : U32
  r1 : U32
  r2 : U32
  r3 : U32
  r4 : U32
  deriving DecidableEq

/-- `S0` (serpent.h:43-56). -/
def S0 (r0 r1 r2 r3 : U32) : Regs :=
  let r3 := r3 ^^^ r0; let r4 := r1
  let r1 := r1 &&& r3; let r4 := r4 ^^^ r2
  let r1 := r1 ^^^ r0; let r0 := r0 ||| r3
  let r0 := r0 ^^^ r4; let r4 := r4 ^^^ r3
  let r3 := r3 ^^^ r2; let r2 := r2 ||| r1
  let r2 := r2 ^^^ r4; let r4 := ~~~r4
  let r4 := r4 ||| r1; let r1 := r1 ^^^ r3
  let r1 := r1 ^^^ r4; let r3 := r3 ||| r0
  let r1 := r1 ^^^ r3; let r4 := r4 ^^^ r3
  ⟨r0, r1, r2, r3, r4⟩

/-- `S1` (serpent.h:58-72). -/
def S1 (r0 r1 r2 r3 : U32) : Regs :=
  let r0 := ~~~r0; let r2 := ~~~r2
  let r4 := r0; let r0 := r0 &&& r1
  let r2 := r2 ^^^ r0; let r0 := r0 ||| r3
  let r3 := r3 ^^^ r2; let r1 := r1 ^^^ r0
  let r0 := r0 ^^^ r4; let r4 := r4 ||| r1
  let r1 := r1 ^^^ r3; let r2 := r2 ||| r0
  let r2 := r2 &&& r4; let r0 := r0 ^^^ r1
  let r1 := r1 &&& r2; let r1 := r1 ^^^ r0
  let r0 := r0 &&& r2; let r0 := r0 ^^^ r4
  ⟨r0, r1, r2, r3, r4⟩

/-- `S2` (serpent.h:74-87). -/
def S2 (r0 r1 r2 r3 : U32) : Regs :=
  let r4 := r0; let r0 := r0 &&& r2
  let r0 := r0 ^^^ r3; let r2 := r2 ^^^ r1
  let r2 := r2 ^^^ r0; let r3 := r3 ||| r4
  let r3 := r3 ^^^ r1; let r4 := r4 ^^^ r2
  let r1 := r3; let r3 := r3 ||| r4
  let r3 := r3 ^^^ r0; let r0 := r0 &&& r1
  let r4 := r4 ^^^ r0; let r1 := r1 ^^^ r3
  let r1 := r1 ^^^ r4; let r4 := ~~~r4
  ⟨r0, r1, r2, r3, r4⟩

/-- `S3` (serpent.h:89-104). -/
def S3 (r0 r1 r2 r3 : U32) : Regs :=
  let r4 := r0; let r0 := r0 ||| r3
  let r3 := r3 ^^^ r1; let r1 := r1 &&& r4
  let r4 := r4 ^^^ r2; let r2 := r2 ^^^ r3
  let r3 := r3 &&& r0; let r4 := r4 ||| r1
  let r3 := r3 ^^^ r4; let r0 := r0 ^^^ r1
  let r4 := r4 &&& r0; let r1 := r1 ^^^ r3
  let r4 := r4 ^^^ r2; let r1 := r1 ||| r0
  let r1 := r1 ^^^ r2; let r0 := r0 ^^^ r3
  let r2 := r1; let r1 := r1 ||| r3
  let r1 := r1 ^^^ r0
  ⟨r0, r1, r2, r3, r4⟩

/-- `S4` (serpent.h:106-119). -/
def S4 (r0 r1 r2 r3 : U32) : Regs :=
  let r1 := r1 ^^^ r3; let r3 := ~~~r3
  let r2 := r2 ^^^ r3; let r3 := r3 ^^^ r0
  let r4 := r1; let r1 := r1 &&& r3
  let r1 := r1 ^^^ r2; let r4 := r4 ^^^ r3
  let r0 := r0 ^^^ r4; let r2 := r2 &&& r4
  let r2 := r2 ^^^ r0; let r0 := r0 &&& r1
  let r3 := r3 ^^^ r0; let r4 := r4 ||| r1
  let r4 := r4 ^^^ r0; let r0 := r0 ||| r3
  let r0 := r0 ^^^ r2; let r2 := r2 &&& r3
  let r0 := ~~~r0; let r4 := r4 ^^^ r2
  ⟨r0, r1, r2, r3, r4⟩

/-- `S5` (serpent.h:121-136). -/
def S5 (r0 r1 r2 r3 : U32) : Regs :=
  let r0 := r0 ^^^ r1; let r1 := r1 ^^^ r3
  let r3 := ~~~r3; let r4 := r1
  let r1 := r1 &&& r0; let r2 := r2 ^^^ r3
  let r1 := r1 ^^^ r2; let r2 := r2 ||| r4
  let r4 := r4 ^^^ r3; let r3 := r3 &&& r1
  let r3 := r3 ^^^ r0; let r4 := r4 ^^^ r1
  let r4 := r4 ^^^ r2; let r2 := r2 ^^^ r0
  let r0 := r0 &&& r3; let r2 := ~~~r2
  let r0 := r0 ^^^ r4; let r4 := r4 ||| r3
  let r2 := r2 ^^^ r4
  ⟨r0, r1, r2, r3, r4⟩

/-- `S6` (serpent.h:138-149). -/
def S6 (r0 r1 r2 r3 : U32) : Regs :=
  let r2 := ~~~r2; let r4 := r3
  let r3 := r3 &&& r0; let r0 := r0 ^^^ r4
  let r3 := r3 ^^^ r2; let r2 := r2 ||| r4
  let r1 := r1 ^^^ r3; let r2 := r2 ^^^ r0
  let r0 := r0 ||| r1; let r2 := r2 ^^^ r1
  let r4 := r4 ^^^ r0; let r0 := r0 ||| r3
  let r0 := r0 ^^^ r2; let r4 := r4 ^^^ r3
  let r4 := r4 ^^^ r0; let r3 := ~~~r3
  let r2 := r2 &&& r4; let r2 := r2 ^^^ r3
  ⟨r0, r1, r2, r3, r4⟩

/-- `S7` (serpent.h:151-163). -/
def S7 (r0 r1 r2 r3 : U32) : Regs :=
  let r4 := r1; let r1 := r1 ||| r2
  let r1 := r1 ^^^ r3; let r4 := r4 ^^^ r2
  let r2 := r2 ^^^ r1; let r3 := r3 ||| r4
  let r3 := r3 &&& r0; let r4 := r4 ^^^ r2
  let r3 := r3 ^^^ r1; let r1 := r1 ||| r4
  let r1 := r1 ^^^ r0; let r0 := r0 ||| r4
  let r0 := r0 ^^^ r2; let r1 := r1 ^^^ r4
  let r2 := r2 ^^^ r1; let r1 := r1 &&& r0
  let r1 := r1 ^^^ r4; let r2 := ~~~r2
  let r2 := r2 ||| r0; let r4 := r4 ^^^ r2
  ⟨r0, r1, r2, r3, r4⟩

/-- `LT` (serpent.h:165-177). -/
def LT (r0 r1 r2 r3 : U32) : Quad :=
  let r0 := rotl32 r0 13
  let r2 := rotl32 r2 3
  let r1 := r1 ^^^ r0 ^^^ r2
  let r3 := r3 ^^^ r2 ^^^ (r0 <<< 3)
  let r1 := rotl32 r1 1
  let r3 := rotl32 r3 7
  let r0 := r0 ^^^ r1 ^^^ r3
  let r2 := r2 ^^^ r3 ^^^ (r1 <<< 7)
  let r0 := rotl32 r0 5
  let r2 := rotl32 r2 22
  ⟨r0, r1, r2, r3⟩

/-- `ARK` (serpent.h:179-186). -/
def ARK (rk : List U32) (r0 r1 r2 r3 : U32) (n : Nat) : Quad :=
  ⟨r0 ^^^ rk.getD (4 * n) 0, r1 ^^^ rk.getD (4 * n + 1) 0, r2 ^^^ rk.getD (4 * n + 2) 0, r3 ^^^ rk.getD (4 * n + 3) 0⟩

/-! ### The rounds (serpent.cpp:27-99), one definition per line -/

/-- Round 0 (serpent.cpp:36). -/
def round0 (rk : List U32) (x : Regs) : Regs :=
  let ⟨r0, r1, r2, r3, r4⟩ := x
  let ⟨r0, r1, r2, r3⟩ := ARK rk r0 r1 r2 r3 0
  let ⟨r0, r1, r2, r3, r4⟩ := S0 r0 r1 r2 r3
  let ⟨r1, r4, r2, r0⟩ := LT r1 r4 r2 r0
  ⟨r0, r1, r2, r3, r4⟩

/-- Round 1 (serpent.cpp:37). -/
def round1 (rk : List U32) (x : Regs) : Regs :=
  let ⟨r0, r1, r2, r3, r4⟩ := x
  let ⟨r1, r4, r2, r0⟩ := ARK rk r1 r4 r2 r0 1
  let ⟨r1, r4, r2, r0, r3⟩ := S1 r1 r4 r2 r0
  let ⟨r2, r1, r0, r4⟩ := LT r2 r1 r0 r4
  ⟨r0, r1, r2, r3, r4⟩

/-- Round 2 (serpent.cpp:38). -/
def round2 (rk : List U32) (x : Regs) : Regs :=
  let ⟨r0, r1, r2, r3, r4⟩ := x
  let ⟨r2, r1, r0, r4⟩ := ARK rk r2 r1 r0 r4 2
  let ⟨r2, r1, r0, r4, r3⟩ := S2 r2 r1 r0 r4
  let ⟨r0, r4, r1, r3⟩ := LT r0 r4 r1 r3
  ⟨r0, r1, r2, r3, r4⟩

/-- Round 3 (serpent.cpp:39). -/
def round3 (rk : List U32) (x : Regs) : Regs :=
  let ⟨r0, r1, r2, r3, r4⟩ := x
  let ⟨r0, r4, r1, r3⟩ := ARK rk r0 r4 r1 r3 3
  let ⟨r0, r4, r1, r3, r2⟩ := S3 r0 r4 r1 r3
  let ⟨r4, r1, r3, r2⟩ := LT r4 r1 r3 r2
  ⟨r0, r1, r2, r3, r4⟩

/-- Round 4 (serpent.cpp:40). -/
def round4 (rk : List U32) (x : Regs) : Regs :=
  let ⟨r0, r1, r2, r3, r4⟩ := x
  let ⟨r4, r1, r3, r2⟩ := ARK rk r4 r1 r3 r2 4
  let ⟨r4, r1, r3, r2, r0⟩ := S4 r4 r1 r3 r2
  let ⟨r1, r0, r4, r2⟩ := LT r1 r0 r4 r2
  ⟨r0, r1, r2, r3, r4⟩

/-- Round 5 (serpent.cpp:41). -/
def round5 (rk : List U32) (x : Regs) : Regs :=
  let ⟨r0, r1, r2, r3, r4⟩ := x
  let ⟨r1, r0, r4, r2⟩ := ARK rk r1 r0 r4 r2 5
  let ⟨r1, r0, r4, r2, r3⟩ := S5 r1 r0 r4 r2
  let ⟨r0, r2, r1, r4⟩ := LT r0 r2 r1 r4
  ⟨r0, r1, r2, r3, r4⟩

/-- Round 6 (serpent.cpp:42). -/
def round6 (rk : List U32) (x : Regs) : Regs :=
  let ⟨r0, r1, r2, r3, r4⟩ := x
  let ⟨r0, r2, r1, r4⟩ := ARK rk r0 r2 r1 r4 6
  let ⟨r0, r2, r1, r4, r3⟩ := S6 r0 r2 r1 r4
  let ⟨r0, r2, r3, r1⟩ := LT r0 r2 r3 r1
  ⟨r0, r1, r2, r3, r4⟩

/-- Round 7 (serpent.cpp:43). -/
def round7 (rk : List U32) (x : Regs) : Regs :=
  let ⟨r0, r1, r2, r3, r4⟩ := x
  let ⟨r0, r2, r3, r1⟩ := ARK rk r0 r2 r3 r1 7
  let ⟨r0, r2, r3, r1, r4⟩ := S7 r0 r2 r3 r1
  let ⟨r4, r1, r2, r0⟩ := LT r4 r1 r2 r0
  ⟨r0, r1, r2, r3, r4⟩

/-- Round 8 (serpent.cpp:45). -/
def round8 (rk : List U32) (x : Regs) : Regs :=
  let ⟨r0, r1, r2, r3, r4⟩ := x
  let ⟨r4, r1, r2, r0⟩ := ARK rk r4 r1 r2 r0 8
  let ⟨r4, r1, r2, r0, r3⟩ := S0 r4 r1 r2 r0
  let ⟨r1, r3, r2, r4⟩ := LT r1 r3 r2 r4
  ⟨r0, r1, r2, r3, r4⟩

/-- Round 9 (serpent.cpp:46). -/
def round9 (rk : List U32) (x : Regs) : Regs :=
  let ⟨r0, r1, r2, r3, r4⟩ := x
  let ⟨r1, r3, r2, r4⟩ := ARK rk r1 r3 r2 r4 9
  let ⟨r1, r3, r2, r4, r0⟩ := S1 r1 r3 r2 r4
  let ⟨r2, r1, r4, r3⟩ := LT r2 r1 r4 r3
  ⟨r0, r1, r2, r3, r4⟩

/-- Round 10 (serpent.cpp:47). -/
def round10 (rk : List U32) (x : Regs) : Regs :=
  let ⟨r0, r1, r2, r3, r4⟩ := x
  let ⟨r2, r1, r4, r3⟩ := ARK rk r2 r1 r4 r3 10
  let ⟨r2, r1, r4, r3, r0⟩ := S2 r2 r1 r4 r3
  let ⟨r4, r3, r1, r0⟩ := LT r4 r3 r1 r0
  ⟨r0, r1, r2, r3, r4⟩

/-- Round 11 (serpent.cpp:48). -/
def round11 (rk : List U32) (x : Regs) : Regs :=
  let ⟨r0, r1, r2, r3, r4⟩ := x
  let ⟨r4, r3, r1, r0⟩ := ARK rk r4 r3 r1 r0 11
  let ⟨r4, r3, r1, r0, r2⟩ := S3 r4 r3 r1 r0
  let ⟨r3, r1, r0, r2⟩ := LT r3 r1 r0 r2
  ⟨r0, r1, r2, r3, r4⟩

/-- Round 12 (serpent.cpp:54). -/
def round12 (rk : List U32) (x : Regs) : Regs :=
  let ⟨r0, r1, r2, r3, r4⟩ := x
  let ⟨r3, r1, r0, r2⟩ := ARK rk r3 r1 r0 r2 12
  let ⟨r3, r1, r0, r2, r4⟩ := S4 r3 r1 r0 r2
  let ⟨r1, r4, r3, r2⟩ := LT r1 r4 r3 r2
  ⟨r0, r1, r2, r3, r4⟩

/-- Round 13 (serpent.cpp:55). -/
def round13 (rk : List U32) (x : Regs) : Regs :=
  let ⟨r0, r1, r2, r3, r4⟩ := x
  let ⟨r1, r4, r3, r2⟩ := ARK rk r1 r4 r3 r2 13
  let ⟨r1, r4, r3, r2, r0⟩ := S5 r1 r4 r3 r2
  let ⟨r4, r2, r1, r3⟩ := LT r4 r2 r1 r3
  ⟨r0, r1, r2, r3, r4⟩

/-- Round 14 (serpent.cpp:56). -/
def round14 (rk : List U32) (x : Regs) : Regs :=
  let ⟨r0, r1, r2, r3, r4⟩ := x
  let ⟨r4, r2, r1, r3⟩ := ARK rk r4 r2 r1 r3 14
  let ⟨r4, r2, r1, r3, r0⟩ := S6 r4 r2 r1 r3
  let ⟨r4, r2, r0, r1⟩ := LT r4 r2 r0 r1
  ⟨r0, r1, r2, r3, r4⟩

/-- Round 15 (serpent.cpp:57). -/
def round15 (rk : List U32) (x : Regs) : Regs :=
  let ⟨r0, r1, r2, r3, r4⟩ := x
  let ⟨r4, r2, r0, r1⟩ := ARK rk r4 r2 r0 r1 15
  let ⟨r4, r2, r0, r1, r3⟩ := S7 r4 r2 r0 r1
  let ⟨r3, r1, r2, r4⟩ := LT r3 r1 r2 r4
  ⟨r0, r1, r2, r3, r4⟩

/-- Round 16 (serpent.cpp:59). -/
def round16 (rk : List U32) (x : Regs) : Regs :=
  let ⟨r0, r1, r2, r3, r4⟩ := x
  let ⟨r3, r1, r2, r4⟩ := ARK rk r3 r1 r2 r4 16
  let ⟨r3, r1, r2, r4, r0⟩ := S0 r3 r1 r2 r4
  let ⟨r1, r0, r2, r3⟩ := LT r1 r0 r2 r3
  ⟨r0, r1, r2, r3, r4⟩

/-- Round 17 (serpent.cpp:60). -/
def round17 (rk : List U32) (x : Regs) : Regs :=
  let ⟨r0, r1, r2, r3, r4⟩ := x
  let ⟨r1, r0, r2, r3⟩ := ARK rk r1 r0 r2 r3 17
  let ⟨r1, r0, r2, r3, r4⟩ := S1 r1 r0 r2 r3
  let ⟨r2, r1, r3, r0⟩ := LT r2 r1 r3 r0
  ⟨r0, r1, r2, r3, r4⟩

/-- Round 18 (serpent.cpp:66). -/
def round18 (rk : List U32) (x : Regs) : Regs :=
  let ⟨r0, r1, r2, r3, r4⟩ := x
  let ⟨r2, r1, r3, r0⟩ := ARK rk r2 r1 r3 r0 18
  let ⟨r2, r1, r3, r0, r4⟩ := S2 r2 r1 r3 r0
  let ⟨r3, r0, r1, r4⟩ := LT r3 r0 r1 r4
  ⟨r0, r1, r2, r3, r4⟩

/-- Round 19 (serpent.cpp:67). -/
def round19 (rk : List U32) (x : Regs) : Regs :=
  let ⟨r0, r1, r2, r3, r4⟩ := x
  let ⟨r3, r0, r1, r4⟩ := ARK rk r3 r0 r1 r4 19
  let ⟨r3, r0, r1, r4, r2⟩ := S3 r3 r0 r1 r4
  let ⟨r0, r1, r4, r2⟩ := LT r0 r1 r4 r2
  ⟨r0, r1, r2, r3, r4⟩

/-- Round 20 (serpent.cpp:68). -/
def round20 (rk : List U32) (x : Regs) : Regs :=
  let ⟨r0, r1, r2, r3, r4⟩ := x
  let ⟨r0, r1, r4, r2⟩ := ARK rk r0 r1 r4 r2 20
  let ⟨r0, r1, r4, r2, r3⟩ := S4 r0 r1 r4 r2
  let ⟨r1, r3, r0, r2⟩ := LT r1 r3 r0 r2
  ⟨r0, r1, r2, r3, r4⟩

/-- Round 21 (serpent.cpp:69). -/
def round21 (rk : List U32) (x : Regs) : Regs :=
  let ⟨r0, r1, r2, r3, r4⟩ := x
  let ⟨r1, r3, r0, r2⟩ := ARK rk r1 r3 r0 r2 21
  let ⟨r1, r3, r0, r2, r4⟩ := S5 r1 r3 r0 r2
  let ⟨r3, r2, r1, r0⟩ := LT r3 r2 r1 r0
  ⟨r0, r1, r2, r3, r4⟩

/-- Round 22 (serpent.cpp:70). -/
def round22 (rk : List U32) (x : Regs) : Regs :=
  let ⟨r0, r1, r2, r3, r4⟩ := x
  let ⟨r3, r2, r1, r0⟩ := ARK rk r3 r2 r1 r0 22
  let ⟨r3, r2, r1, r0, r4⟩ := S6 r3 r2 r1 r0
  let ⟨r3, r2, r4, r1⟩ := LT r3 r2 r4 r1
  ⟨r0, r1, r2, r3, r4⟩

/-- Round 23 (serpent.cpp:74). -/
def round23 (rk : List U32) (x : Regs) : Regs :=
  let ⟨r0, r1, r2, r3, r4⟩ := x
  let ⟨r3, r2, r4, r1⟩ := ARK rk r3 r2 r4 r1 23
  let ⟨r3, r2, r4, r1, r0⟩ := S7 r3 r2 r4 r1
  let ⟨r0, r1, r2, r3⟩ := LT r0 r1 r2 r3
  ⟨r0, r1, r2, r3, r4⟩

/-- The final key addition (serpent.cpp:75). -/
def lastKey (rk : List U32) (x : Regs) : Regs :=
  let ⟨r0, r1, r2, r3, r4⟩ := x
  let ⟨r0, r1, r2, r3⟩ := ARK rk r0 r1 r2 r3 24
  ⟨r0, r1, r2, r3, r4⟩

/-- `rounds` (serpent.cpp:27-99): the twelve words written to `output_buffer`. -/
def rounds (rk : List U32) (t0 t1 t2 t3 : U32) : List U32 :=
  let x : Regs := ⟨t0, t1, t2, t3, 0⟩
  let x := round0 rk x
  let x := round1 rk x
  let x := round2 rk x
  let x := round3 rk x
  let x := round4 rk x
  let x := round5 rk x
  let x := round6 rk x
  let x := round7 rk x
  let x := round8 rk x
  let x := round9 rk x
  let x := round10 rk x
  let x := round11 rk x
  let out := [x.r3, x.r1, x.r0, x.r2]
  let x := round12 rk x
  let x := round13 rk x
  let x := round14 rk x
  let x := round15 rk x
  let x := round16 rk x
  let x := round17 rk x
  let out := out ++ [x.r2, x.r1, x.r3, x.r0]
  let x := round18 rk x
  let x := round19 rk x
  let x := round20 rk x
  let x := round21 rk x
  let x := round22 rk x
  let x := round23 rk x
  let x := lastKey rk x
  out ++ [x.r0, x.r1, x.r2, x.r3]

/-- `serpent_process_packet` (serpent.cpp:100-116), with `SOSEMANUK_H`: the words written to `out`.  More than
16 bytes overflow the array `tmp`; with fewer than 16 the rounds read the uninitialised rest of it. -/
def processPacket (rk : List U32) (input : List U8) (size : Nat) : Res (List U32) :=
  if input.length < size then .ub .outOfBounds
  else if 16 < size then .ub .outOfBounds
  else if size = 0 then .ok []
  else if size < 16 then .ub .uninitRead
  else
    match bytesToWordsLE (input.take 16) with
    | [t0, t1, t2, t3] => .ok (rounds rk t0 t1 t2 t3)
    | _ => .ub .outOfBounds

/-! ### Key schedule -/

/-- `phi` (serpent.cpp:5). -/
def phi : U32 := 0x9e3779b9

/-- Four round key words from four words of `w` (serpent.cpp:190-340): block `b` of the 25 blocks; the eight
patterns of lines 192-238 repeat. -/
def keyBlock (b : Nat) (w0 w1 w2 w3 : U32) : List U32 :=
  match b % 8 with
  | 0 => let x := S3 w0 w1 w2 w3; [x.r1, x.r2, x.r3, x.r4]
  | 1 => let x := S2 w0 w1 w2 w3; [x.r2, x.r3, x.r1, x.r4]
  | 2 => let x := S1 w0 w1 w2 w3; [x.r2, x.r0, x.r3, x.r1]
  | 3 => let x := S0 w0 w1 w2 w3; [x.r1, x.r4, x.r2, x.r0]
  | 4 => let x := S7 w0 w1 w2 w3; [x.r4, x.r3, x.r1, x.r0]
  | 5 => let x := S6 w0 w1 w2 w3; [x.r0, x.r1, x.r4, x.r2]
  | 6 => let x := S5 w0 w1 w2 w3; [x.r1, x.r3, x.r0, x.r2]
  | _ => let x := S4 w0 w1 w2 w3; [x.r1, x.r4, x.r0, x.r3]

/-- The padding of short keys (serpent.cpp:124-140); `size ≤ 32`. -/
def padKey (key : List U8) : List U8 :=
  if key.length < 32 then key ++ 0x80 :: List.replicate (31 - key.length) 0 else key

/-- `w[0]` to `w[7]` (serpent.cpp:144-159). -/
def firstWords (k0 k1 k2 k3 k4 k5 k6 k7 : U32) : List U32 :=
  let w0 := rotl32 (k0 ^^^ k3 ^^^ k5 ^^^ k7 ^^^ phi ^^^ 0) 11
  let w1 := rotl32 (k1 ^^^ k4 ^^^ k6 ^^^ w0 ^^^ phi ^^^ 1) 11
  let w2 := rotl32 (k2 ^^^ k5 ^^^ k7 ^^^ w1 ^^^ phi ^^^ 2) 11
  let w3 := rotl32 (k3 ^^^ k6 ^^^ w0 ^^^ w2 ^^^ phi ^^^ 3) 11
  let w4 := rotl32 (k4 ^^^ k7 ^^^ w1 ^^^ w3 ^^^ phi ^^^ 4) 11
  let w5 := rotl32 (k5 ^^^ w0 ^^^ w2 ^^^ w4 ^^^ phi ^^^ 5) 11
  let w6 := rotl32 (k6 ^^^ w1 ^^^ w3 ^^^ w5 ^^^ phi ^^^ 6) 11
  let w7 := rotl32 (k7 ^^^ w2 ^^^ w4 ^^^ w6 ^^^ phi ^^^ 7) 11
  [w0, w1, w2, w3, w4, w5, w6, w7]

/-- One iteration of the loop in serpent.cpp:161-164; the list holds `w[0]`, ..., `w[i-1]`. -/
def wStep (w : List U32) (i : Nat) : List U32 :=
  w ++ [rotl32 (w.getD (i - 8) 0 ^^^ w.getD (i - 5) 0 ^^^ w.getD (i - 3) 0 ^^^ w.getD (i - 1) 0 ^^^ phi ^^^ BitVec.ofNat 32 i) 11]

/-- `n` iterations from `i` on (serpent.cpp:161-164). -/
def wLoop : Nat → Nat → List U32 → List U32
  | 0, _, w => w
  | n + 1, i, w => wLoop n (i + 1) (wStep w i)

/-- The array `w` (serpent.cpp:142-164). -/
def words (key : List U8) : List U32 :=
  match bytesToWordsLE (padKey key) with
  | [k0, k1, k2, k3, k4, k5, k6, k7] => wLoop 92 8 (firstWords k0 k1 k2 k3 k4 k5 k6 k7)
  | _ => []

/-- `RK` after `n` blocks from block `b` on (serpent.cpp:190-420). -/
def rkLoop : Nat → Nat → List U32 → List U32
  | 0, _, _ => []
  | n + 1, b, w =>
    keyBlock b (w.getD 0 0) (w.getD 1 0) (w.getD 2 0) (w.getD 3 0) ++ rkLoop n (b + 1) (w.drop 4)

/-- Round keys for a key of at most 32 bytes (serpent.cpp:124-420). -/
def schedule (key : List U8) : List U32 := rkLoop 25 0 (words key)

/-- `serpent_key_schedule` (serpent.cpp:118-424); `none` is `exit(1)`. A negative size is a huge `memcpy`. -/
def keySchedule (key : List U8) (size : Int) : Res (Option (List U32)) :=
  if 32 < size then .ok none
  else if size < 0 ∨ key.length < size.toNat then .ub .outOfBounds
  else .ok (some (schedule (key.take size.toNat)))

/-- `serpent1` (serpent.cpp:10-23). -/
def serpent1 (r0 r1 r2 r3 : U32) : Quad :=
  let ⟨_, r1, r2, r3, r4⟩ := S2 r0 r1 r2 r3
  let r0 := r2
  let r2 := r1
  let r1 := r3
  let r3 := r4
  ⟨r0, r1, r2, r3⟩

end CT.Serpent
