import Verif.Proof.JoyeLibert
import Mathlib.Tactic.NormNum.LegendreSymbol
import Mathlib.Tactic.NormNum.Prime
import Mathlib.Tactic.NormNum.ModEq
import Mathlib.Tactic.NormNum.PowMod
import Mathlib.NumberTheory.LucasPrimality

/-!
# Keys of realistic message sizes

Concrete keys for 32-bit and 128-bit messages, to show that the hypotheses of the theorems can be met.
-/

namespace CT.JL
open CT.Spec.JL

theorem prime_of_lucas {e k p a : ℕ} (hp : p = 2 ^ k * e + 1) (he : e.Prime)
    (h1 : a ^ (p - 1) % p = 1) (h2 : a ^ ((p - 1) / 2) % p ≠ 1) (h3 : a ^ ((p - 1) / e) % p ≠ 1) : p.Prime := by
  have hp1 : 1 < p := by
    have := he.pos
    have : 0 < 2 ^ k * e := by positivity
    omega
  have key : ∀ i : ℕ, ((a : ZMod p) ^ i = 1 ↔ a ^ i % p = 1) := fun i => by
    have : ((a : ZMod p) ^ i = 1) ↔ ((a ^ i : ℕ) : ZMod p) = ((1 : ℕ) : ZMod p) := by push_cast; rfl
    rw [this, ZMod.natCast_eq_natCast_iff, Nat.ModEq, Nat.mod_eq_of_lt hp1]
  refine lucas_primality p (a : ZMod p) ((key _).mpr h1) ?_
  intro r hr hd
  rw [ne_eq, key]
  rw [hp, Nat.add_sub_cancel] at hd
  rcases (Nat.Prime.dvd_mul hr).mp hd with h | h
  · rw [(Nat.prime_dvd_prime_iff_eq hr Nat.prime_two).mp (hr.dvd_of_dvd_pow h)]; exact h2
  · rw [(Nat.prime_dvd_prime_iff_eq hr he).mp h]; exact h3

/-- Repeated squaring modulo `p`. -/
def sqMod (p : ℕ) : ℕ → ℕ → ℕ
  | 0, x => x % p
  | k + 1, x => sqMod p k (x * x % p)

theorem sqMod_eq (p k : ℕ) : ∀ x, sqMod p k x = x ^ 2 ^ k % p := by
  induction k with
  | zero => intro x; simp [sqMod]
  | succ k ih =>
    intro x
    rw [sqMod, ih, ← Nat.pow_mod, pow_succ, mul_comm (2 ^ k), pow_mul, pow_two]

theorem prime_of_sqMod {e k p a : ℕ} (hp : p = 2 ^ (k + 1) * e + 1) (he : e.Prime)
    (h1 : sqMod p (k + 1) (a ^ e) = 1) (h2 : sqMod p k (a ^ e) ≠ 1) (h3 : sqMod p (k + 1) a ≠ 1) : p.Prime := by
  rw [sqMod_eq, ← pow_mul] at h1 h2
  rw [sqMod_eq] at h3
  refine prime_of_lucas (a := a) hp he ?_ ?_ ?_
  · rw [show p - 1 = e * 2 ^ (k + 1) by rw [hp, Nat.add_sub_cancel, mul_comm]]; exact h1
  · rw [show (p - 1) / 2 = e * 2 ^ k by
      rw [hp, Nat.add_sub_cancel, pow_succ, show 2 ^ k * 2 * e = 2 * (e * 2 ^ k) by ring]; omega]
    exact h2
  · rw [show (p - 1) / e = 2 ^ (k + 1) by
      rw [hp, Nat.add_sub_cancel, Nat.mul_div_cancel _ he.pos]]
    exact h3

theorem prime32 : Nat.Prime 184683593729 :=
  prime_of_sqMod (e := 43) (k := 31) (a := 3) (by norm_num) (by norm_num) (by decide +kernel)
    (by decide +kernel) (by decide +kernel)
theorem prime128 : Nat.Prime 398470651664418940715611665302600575614977 :=
  prime_of_sqMod (e := 1171) (k := 127) (a := 3) (by norm_num) (by norm_num) (by decide +kernel)
    (by decide +kernel) (by decide +kernel)
theorem key32 : Key 32 184683593729 7 3 where
  p_prime := prime32
  q_prime := by norm_num
  p_mod := by decide
  y_p := not_square_of_jacobi prime32 (by norm_num)
  y_q := not_square_of_jacobi (by norm_num) (by norm_num)
theorem key128 : Key 128 398470651664418940715611665302600575614977 7 3 where
  p_prime := prime128
  q_prime := by norm_num
  p_mod := by decide
  y_p := not_square_of_jacobi prime128 (by norm_num)
  y_q := not_square_of_jacobi (by norm_num) (by norm_num)

end CT.JL
