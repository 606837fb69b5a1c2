import Verif.Basic.Res
import Mathlib.Data.Int.GCD

/-!
# GMP

The functions of the GNU MP library that the asymmetric code calls, by their manual.  `mpz_t` is
`Int`.  The manual's rule that one variable may be input and output of the same call is built in
(the functions are value functions); variables shared across *calls* are modelled where they matter.

* `mpz_mod` and the `mpz_powm` family give the remainder in `[0, |d|)`; dividing by zero terminates
  the process.
* `mpz_powm` with a negative exponent needs an inverse of the base ("if an inverse doesn't exist
  then a divide by zero is raised").
* `mpz_invert` leaves its result undefined if there is no inverse; here that is `none`.
* `mpz_divexact` is defined only if the divisor divides.
-/

namespace CT.Gmp

/-- `mpz_mod`, called in joye_libert.cpp:50, 194, 247 and elsewhere. -/
def mod (n d : Int) : Res Int := if d = 0 then .ub .divByZero else .ok (n % d)

/-- `mpz_invert`, called in labeled_he.cpp:250, 271. -/
def invert (a n : Int) : Option Int :=
  if n ≠ 0 ∧ Int.gcd a n = 1 then some (Int.gcdA a n % n) else none

/-- `mpz_powm`, called in joye_libert.cpp:190-191, 228-250 and elsewhere. -/
def powm (b e n : Int) : Res Int :=
  if n = 0 then .ub .divByZero
  else if 0 ≤ e then .ok (b ^ e.toNat % n)
  else match invert b n with
    | some v => .ok (v ^ (-e).toNat % n)
    | none => .ub .divByZero

/-- `mpz_divexact`, called in joye_libert.cpp:83, 226. -/
def divexact (n d : Int) : Res Int := if d ≠ 0 ∧ d ∣ n then .ok (n / d) else .ub .contract

/-- What GMP leaves open (calls in joye_libert.cpp:24, 45, 76-84, 104-125, 147, 175): the random number generator (its states, the state `gmp_randinit_mt`
makes, `mpz_urandomb` and `mpz_urandomm`), the probabilistic primality test with 30 repetitions and
`mpz_nextprime`.  Only the documented ranges are assumed; all theorems are for every such `Env`. -/
structure Env where
  State : Type
  init : State
  urandomb : State → Nat → Int × State
  urandomb_range : ∀ s n, 0 ≤ (urandomb s n).1 ∧ (urandomb s n).1 < 2 ^ n
  urandomm : State → Int → Int × State
  urandomm_range : ∀ s n, 0 < n → 0 ≤ (urandomm s n).1 ∧ (urandomm s n).1 < n
  probabPrime : Int → Bool
  nextprime : Int → Int
  nextprime_gt : ∀ n, n < nextprime n

end CT.Gmp
