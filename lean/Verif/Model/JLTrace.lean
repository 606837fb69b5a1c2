import Verif.Model.JoyeLibert

/-!
# Branches of Joye-Libert decryption

The functions of `Verif.Model.JoyeLibert` that decrypt once more, with a record of the outcomes of the
conditions they test, which is what an observer of the sequence of operations learns: a modular
multiplication is made in an iteration exactly if the condition holds.
-/

namespace CT.JL
open CT.Gmp

/-- The loop of `joye_libert_decrypt` (joye_libert.cpp:236-251), `n` more iterations, and the last
condition (254-257): the message and the outcomes of the conditions (`true`: not equal to 1). -/
def decLoopT (p : Int) : Nat → (m B C D : Int) → Res (Int × List Bool)
  | 0, m, B, C, _ => .ok (if C ≠ 1 then (m + B, [true]) else (m, [false]))
  | n + 1, m, B, C, D => do
    let z ← powm C (2 ^ (n + 1)) p
    let D' ← powm D 2 p
    if z ≠ 1 then
      let C' ← Gmp.mod (C * D) p
      let r ← decLoopT p n (m + B) (B + B) C' D'
      return (r.1, true :: r.2)
    else
      let r ← decLoopT p n m (B + B) C D'
      return (r.1, false :: r.2)

/-- `joye_libert_decrypt` (joye_libert.cpp:201-258): the message and the outcomes of the conditions. -/
def decryptT (same : Bool) (c p y : Int) (msgsize : Nat) : Res (Int × List Bool) := do
  let c := if same then 0 else c
  let e ← divexact (p - 1) (2 ^ msgsize)
  let D ← powm y (-e) p
  let C ← powm c e p
  decLoopT p (msgsize - 1) 0 1 C D

end CT.JL
