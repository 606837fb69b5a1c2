import Verif.Model.Serpent

/-!
# Model of serpent.cpp (BlockCiphers/Serpent) without `SOSEMANUK_H`

The code under `#else`: Serpent with 32 rounds.  It is compiled after removing the line `#define SOSEMANUK_H` from
serpent.h:8 and serpent.cpp:7.  Rounds 0 to 22 are those of `Verif.Model.Serpent`, and line 81 (round 23) is the
same as line 74.  Again transcribed by a script.
-/

set_option linter.unusedVariables false

namespace CT.Serpent32
open CT.Serpent

/-- Round 24 (serpent.cpp:83). -/
def round24 (rk : List U32) (x : Regs) : Regs :=
  let ⟨r0, r1, r2, r3, r4⟩ := x
  let ⟨r0, r1, r2, r3⟩ := ARK rk r0 r1 r2 r3 24
  let ⟨r0, r1, r2, r3, r4⟩ := S0 r0 r1 r2 r3
  let ⟨r1, r4, r2, r0⟩ := LT r1 r4 r2 r0
  ⟨r0, r1, r2, r3, r4⟩

/-- Round 25 (serpent.cpp:84). -/
def round25 (rk : List U32) (x : Regs) : Regs :=
  let ⟨r0, r1, r2, r3, r4⟩ := x
  let ⟨r1, r4, r2, r0⟩ := ARK rk r1 r4 r2 r0 25
  let ⟨r1, r4, r2, r0, r3⟩ := S1 r1 r4 r2 r0
  let ⟨r2, r1, r0, r4⟩ := LT r2 r1 r0 r4
  ⟨r0, r1, r2, r3, r4⟩

/-- Round 26 (serpent.cpp:85). -/
def round26 (rk : List U32) (x : Regs) : Regs :=
  let ⟨r0, r1, r2, r3, r4⟩ := x
  let ⟨r2, r1, r0, r4⟩ := ARK rk r2 r1 r0 r4 26
  let ⟨r2, r1, r0, r4, r3⟩ := S2 r2 r1 r0 r4
  let ⟨r0, r4, r1, r3⟩ := LT r0 r4 r1 r3
  ⟨r0, r1, r2, r3, r4⟩

/-- Round 27 (serpent.cpp:86). -/
def round27 (rk : List U32) (x : Regs) : Regs :=
  let ⟨r0, r1, r2, r3, r4⟩ := x
  let ⟨r0, r4, r1, r3⟩ := ARK rk r0 r4 r1 r3 27
  let ⟨r0, r4, r1, r3, r2⟩ := S3 r0 r4 r1 r3
  let ⟨r4, r1, r3, r2⟩ := LT r4 r1 r3 r2
  ⟨r0, r1, r2, r3, r4⟩

/-- Round 28 (serpent.cpp:87). -/
def round28 (rk : List U32) (x : Regs) : Regs :=
  let ⟨r0, r1, r2, r3, r4⟩ := x
  let ⟨r4, r1, r3, r2⟩ := ARK rk r4 r1 r3 r2 28
  let ⟨r4, r1, r3, r2, r0⟩ := S4 r4 r1 r3 r2
  let ⟨r1, r0, r4, r2⟩ := LT r1 r0 r4 r2
  ⟨r0, r1, r2, r3, r4⟩

/-- Round 29 (serpent.cpp:88). -/
def round29 (rk : List U32) (x : Regs) : Regs :=
  let ⟨r0, r1, r2, r3, r4⟩ := x
  let ⟨r1, r0, r4, r2⟩ := ARK rk r1 r0 r4 r2 29
  let ⟨r1, r0, r4, r2, r3⟩ := S5 r1 r0 r4 r2
  let ⟨r0, r2, r1, r4⟩ := LT r0 r2 r1 r4
  ⟨r0, r1, r2, r3, r4⟩

/-- Round 30 (serpent.cpp:89). -/
def round30 (rk : List U32) (x : Regs) : Regs :=
  let ⟨r0, r1, r2, r3, r4⟩ := x
  let ⟨r0, r2, r1, r4⟩ := ARK rk r0 r2 r1 r4 30
  let ⟨r0, r2, r1, r4, r3⟩ := S6 r0 r2 r1 r4
  let ⟨r0, r2, r3, r1⟩ := LT r0 r2 r3 r1
  ⟨r0, r1, r2, r3, r4⟩

/-- Round 31 (serpent.cpp:91). -/
def round31 (rk : List U32) (x : Regs) : Regs :=
  let ⟨r0, r1, r2, r3, r4⟩ := x
  let ⟨r0, r2, r3, r1⟩ := ARK rk r0 r2 r3 r1 31
  let ⟨r0, r2, r3, r1, r4⟩ := S7 r0 r2 r3 r1
  let ⟨r4, r1, r2, r0⟩ := ARK rk r4 r1 r2 r0 32
  ⟨r0, r1, r2, r3, r4⟩

/-- `rounds` (serpent.cpp:29-99): the contents of `tmp` afterwards. -/
def rounds (rk : List U32) (t0 t1 t2 t3 : U32) : List U32 :=
  let x : Regs := ⟨t0, t1, t2, t3, 0⟩
  let x := round0 rk x
  let x := round1 rk x
  let x := round2 rk x
  let x := round3 rk x
  let x := round4 rk x
  let x := round5 rk x
  let x := round6 rk x
  let x := round7 rk x
  let x := round8 rk x
  let x := round9 rk x
  let x := round10 rk x
  let x := round11 rk x
  let x := round12 rk x
  let x := round13 rk x
  let x := round14 rk x
  let x := round15 rk x
  let x := round16 rk x
  let x := round17 rk x
  let x := round18 rk x
  let x := round19 rk x
  let x := round20 rk x
  let x := round21 rk x
  let x := round22 rk x
  let x := round23 rk x
  let x := round24 rk x
  let x := round25 rk x
  let x := round26 rk x
  let x := round27 rk x
  let x := round28 rk x
  let x := round29 rk x
  let x := round30 rk x
  let x := round31 rk x
  let x := { x with r3 := x.r0 }                          -- lines 94-95
  let x := { x with r0 := x.r4 }
  [x.r0, x.r1, x.r2, x.r3]

/-- `serpent_process_packet` (serpent.cpp:100-116): the bytes written to `out`.  More than 16 bytes overflow
the array `tmp`; with fewer than 16 the rounds read the uninitialised rest of it. -/
def processPacket (rk : List U32) (input : List U8) (size : Nat) : Res (List U8) :=
  if input.length < size then .ub .outOfBounds
  else if 16 < size then .ub .outOfBounds
  else if size = 0 then .ok []
  else if size < 16 then .ub .uninitRead
  else
    match bytesToWordsLE (input.take 16) with
    | [t0, t1, t2, t3] => .ok ((wordsToBytesLE (rounds rk t0 t1 t2 t3)).take (size + 16 * 0))
    | _ => .ub .outOfBounds

/-- The array `w` (serpent.cpp:142-164), with `N_ROUNDS` 33. -/
def words (key : List U8) : List U32 :=
  match bytesToWordsLE (padKey key) with
  | [k0, k1, k2, k3, k4, k5, k6, k7] => wLoop 124 8 (firstWords k0 k1 k2 k3 k4 k5 k6 k7)
  | _ => []

/-- Round keys for a key of at most 32 bytes: the 33 blocks of serpent.cpp:190-397, whose patterns repeat. -/
def schedule (key : List U8) : List U32 := rkLoop 33 0 (words key)

/-- `serpent_key_schedule` (serpent.cpp:118-424); `none` is `exit(1)`. -/
def keySchedule (key : List U8) (size : Int) : Res (Option (List U32)) :=
  if 32 < size then .ok none
  else if size < 0 ∨ key.length < size.toNat then .ub .outOfBounds
  else .ok (some (schedule (key.take size.toNat)))

end CT.Serpent32
