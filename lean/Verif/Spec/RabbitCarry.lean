import Verif.Spec.Rabbit
import Verif.Basic.Lockstep

/-!
# Rabbit with two rules left open

RFC 4503 as in `Verif.Spec.Rabbit`, with two details as parameters: which carry bit a sum of the counter system gives, and
whether the IV setup starts from the carry bit of the master state or from the current one.
-/

namespace CT.Spec.Rabbit

/-- The two details. -/
structure Rules where
  /-- The carry bit for a sum `C_j + A_j + b`. -/
  carry : Nat → Nat
  /-- The IV setup restores the carry bit of the master state. -/
  restore : Bool

/-- RFC 4503: `b = temp div WORDSIZE` (2.5), the IV setup works on a copy of the master state (2.4). -/
def rfc : Rules := ⟨fun t => t / 2 ^ 32, true⟩

/-- A carry from sums above `2^32` only, and the current carry bit. -/
def strict : Rules := ⟨fun t => if 2 ^ 32 < t then 1 else 0, false⟩

/-- One iteration of the loop of the counter system. -/
def stepBy (r : Rules) (s : St) (j : Fin 8) : St :=
  { s with C := s.C.set j (BitVec.ofNat 32 (temp s j)), b := r.carry (temp s j) }

/-- Counter system, then next-state function. -/
def iterBy (r : Rules) (s : St) : St := next ([0, 1, 2, 3, 4, 5, 6, 7].foldl (stepBy r) s)

/-- `n` iterations. -/
def itersBy (r : Rules) : Nat → St → St
  | 0, s => s
  | n + 1, s => itersBy r n (iterBy r s)

/-- Key setup. -/
def keySetupBy (r : Rules) (K : Nat) : St :=
  let s := itersBy r 4 (keyExpand K)
  { s with C := Vector.ofFn fun j : Fin 8 => s.C[j] ^^^ s.X[(j.val + 4) % 8]'(by omega) }

/-- IV setup from the master state `m`, `s` being the current state. -/
def ivSetupBy (r : Rules) (IV : Nat) (m s : St) : St :=
  itersBy r 4 (ivMix IV (if r.restore then m else { m with b := s.b }))

/-- The output of `n` iterations. -/
def blocksBy (r : Rules) : Nat → St → List U8
  | 0, _ => []
  | n + 1, s => out (iterBy r s) ++ blocksBy r n (iterBy r s)

/-- A session: IV setups and packets, from the current state `s` on; every packet starts with a fresh block. -/
def session (r : Rules) (m : St) : St → List Cmd → List Cmd
  | _, [] => []
  | s, .load iv :: cs => .load iv :: session r m (ivSetupBy r (leNat iv) m s) cs
  | s, .packet p :: cs =>
    let n := (p.length + 15) / 16
    .packet (xorBytes p (blocksBy r n s)) :: session r m (itersBy r n s) cs

/-- A session under a key, from the key setup on. -/
def keySession (r : Rules) (key : List U8) (cs : List Cmd) : List Cmd :=
  session r (keySetupBy r (leNat key)) (keySetupBy r (leNat key)) cs

/-- No sum during the next `n` iterations is exactly `2^32`, and no IV setup finds another carry bit than that of the master
state: then the two rules cannot be told apart. -/
def cleanSession (m : St) : St → List Cmd → Bool
  | _, [] => true
  | s, .load iv :: cs => s.b == m.b && (clean 4 (ivMix (leNat iv) m) && cleanSession m (ivSetup (leNat iv) m) cs)
  | s, .packet p :: cs => clean ((p.length + 15) / 16) s && cleanSession m (iters ((p.length + 15) / 16) s) cs

end CT.Spec.Rabbit
