import Mathlib.Data.ZMod.Basic
import Mathlib.Algebra.Group.Even
import Mathlib.RingTheory.Coprime.Basic

/-!
# Joye-Libert cryptosystem (EUROCRYPT 2013)

Conditions on the keys, and what it means for a number to be a ciphertext of a message, without
reference to any algorithm.
-/

namespace CT.Spec.JL

/-- `k`-bit messages; the primes `p`, `q` and the public element `y`: `p ≡ 1 (mod 2^k)`, and `y` is
not a square modulo either prime. -/
structure Key (k p q : ℕ) (y : ℤ) : Prop where
  p_prime : p.Prime
  q_prime : q.Prime
  p_mod : p ≡ 1 [MOD 2 ^ k]
  y_p : ¬ IsSquare (y : ZMod p)
  y_q : ¬ IsSquare (y : ZMod q)

/-- `c` is a ciphertext of `m`: `c = y^n * x^(2^k)` modulo `p*q` for some `n ≡ m (mod 2^k)` and some
`x` coprime to `p*q`. -/
def Encrypts (k p q : ℕ) (y c m : ℤ) : Prop :=
  ∃ (n : ℕ) (x : ℤ), (n : ℤ) ≡ m [ZMOD 2 ^ k] ∧ IsCoprime x ((p : ℤ) * q) ∧
    c ≡ y ^ n * x ^ 2 ^ k [ZMOD (p : ℤ) * q]

end CT.Spec.JL
