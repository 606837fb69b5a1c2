import Verif.Model.Gmp
import Mathlib.NumberTheory.LegendreSymbol.JacobiSymbol

/-!
# Joye-Libert encryption (AsymmetricCryptography/Joye_libert/joye_libert.cpp)

Loops without a bound in the code (rejection sampling, search for primes) take a number of
iterations `fuel`; running out of it is the outcome `diverges`.
-/

namespace CT.JL
open CT.Gmp

/-- The search for `p` (joye_libert.cpp:70-98): the first number `p_test + i*2^k` that passes the
primality test and whose `(p-1)/2^k` passes it too. -/
def findP (g : Env) (d : Int) : Nat → Int → Res Int
  | 0, _ => .ub .diverges
  | f + 1, p => do
    if g.probabPrime p then
      let t ← divexact (p - 1) d
      if g.probabPrime t then return p
      else findP g d f (p + d)
    else findP g d f (p + d)

/-- The search for `q` (joye_libert.cpp:106-126). -/
def findQ (g : Env) : Nat → Int → Res Int
  | 0, _ => .ub .diverges
  | f + 1, q =>
    if g.probabPrime q ∧ q % 4 = 3 then .ok q else findQ g f (g.nextprime q)

/-- The search for `y` (joye_libert.cpp:143-148); `y` is the value tested by the loop condition.
`mpz_legendre` is the Jacobi symbol. -/
def findY (g : Env) (p q N : Int) : Nat → Int → g.State → Res (Int × g.State)
  | 0, _, _ => .ub .diverges
  | f + 1, y, s =>
    if jacobiSym y p.toNat ≠ -1 ∨ jacobiSym y q.toNat ≠ -1 then
      let r := g.urandomm s N
      findY g p q N f r.1 r.2
    else .ok (y, s)

/-- `joye_libert_keygen` (joye_libert.cpp:13-160): `(N, y, p)`, and `q` which the code drops. -/
def keygen (g : Env) (fuel : Nat) (msgsize keysize : Nat) : Res ((Int × Int × Int) × Int) := do
  let d : Int := 2 ^ msgsize                            -- 42
  let r := g.urandomb g.init (keysize / 2)              -- 45
  let m ← Gmp.mod r.1 d                                 -- 50
  let p ← findP g d fuel (r.1 - m + 1)                  -- 52-98
  let r2 := g.urandomb r.2 (keysize / 2)                -- 104
  let q ← findQ g fuel (g.nextprime r2.1)               -- 105-126
  let N := p * q                                        -- 129
  let (y, _) ← findY g p q N fuel 0 r2.2                -- 143-148
  return ((N, y, p), q)

/-- The sampling loop of `joye_libert_encrypt` (joye_libert.cpp:170-176): the first non-zero value
below `N`.  Nothing checks that it is coprime to `N`. -/
def pickX (g : Env) (N : Int) : Nat → g.State → Res (Int × g.State)
  | 0, _ => .ub .diverges
  | f + 1, s =>
    let r := g.urandomm s N
    if r.1 = 0 then pickX g N f r.2 else .ok r

/-- `joye_libert_encrypt` (joye_libert.cpp:162-199).  `c` is written last, so `c` and `m` may be the
same variable. -/
def encrypt (g : Env) (fuel : Nat) (s : g.State) (m y N : Int) (msgsize : Nat) :
    Res (Int × g.State) := do
  let (x, s) ← pickX g N fuel s                         -- 170-176
  let t1 ← powm y m N                                   -- 190
  let t2 ← powm x (2 ^ msgsize) N                       -- 191
  let c ← Gmp.mod (t1 * t2) N                           -- 193-194
  return (c, s)

/-- The loop and the last step of `joye_libert_decrypt` (joye_libert.cpp:237-257): `n` is the number
of iterations left, so `msgsize - j = n`. -/
def decLoop (p : Int) : Nat → (m B C D : Int) → Res Int
  | 0, m, B, C, _ => .ok (if C ≠ 1 then m + B else m)
  | n + 1, m, B, C, D => do
    let z ← powm C (2 ^ (n + 1)) p
    let D' ← powm D 2 p
    if z ≠ 1 then
      let C' ← Gmp.mod (C * D) p
      decLoop p n (m + B) (B + B) C' D'
    else decLoop p n m (B + B) C D'

/-- `joye_libert_decrypt` (joye_libert.cpp:201-258).  `m` is set to zero before `c` is read, so when
both are the same variable (`same`) the ciphertext read is 0. -/
def decrypt (same : Bool) (c p y : Int) (msgsize : Nat) : Res Int := do
  let c := if same then 0 else c                        -- 211
  let e ← divexact (p - 1) (2 ^ msgsize)                -- 222-226
  let D ← powm y (-e) p                                 -- 227-228
  let C ← powm c e p                                    -- 230
  decLoop p (msgsize - 1) 0 1 C D

end CT.JL
