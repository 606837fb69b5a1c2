import Verif.Props.JoyeLibert
import Mathlib.NumberTheory.LegendreSymbol.JacobiSymbol

/-!
# Jacobi symbol of Joye-Libert ciphertexts (C116)
-/

namespace CT.Props.JLJacobi
open CT.JL CT.Gmp CT.Spec.JL CT.Props.JoyeLibert

/-- Under a valid key the public element has Jacobi symbol 1. -/
theorem jacobi_y {k p q : ℕ} {y : ℤ} (key : Key k p q y) : jacobiSym y (p * q) = 1 := by
  have hp : Fact p.Prime := ⟨key.p_prime⟩
  have hq : Fact q.Prime := ⟨key.q_prime⟩
  have := key.neZero
  have hp0 : NeZero p := ⟨key.p_prime.ne_zero⟩
  have hq0 : NeZero q := ⟨key.q_prime.ne_zero⟩
  rw [jacobiSym.mul_right, ← jacobiSym.legendreSym.to_jacobiSym, ← jacobiSym.legendreSym.to_jacobiSym,
    (legendreSym.eq_neg_one_iff p).mpr key.y_p, (legendreSym.eq_neg_one_iff q).mpr key.y_q]
  rfl

theorem jacobi_congr {a b : ℤ} {n : ℕ} (h : (a : ZMod n) = b) : jacobiSym a n = jacobiSym b n :=
  jacobiSym.mod_left' ((ZMod.intCast_eq_intCast_iff _ _ _).mp h)

theorem jacobi_even_pow (x : ℤ) (n k : ℕ) (hk : k ≠ 0) (hx : IsCoprime x (n : ℤ)) : jacobiSym (x ^ 2 ^ k) n = 1 := by
  obtain ⟨j, rfl⟩ := Nat.exists_eq_succ_of_ne_zero hk
  rw [pow_succ', pow_mul, jacobiSym.pow_left, jacobiSym.sq_one' (Int.isCoprime_iff_gcd_eq_one.mp hx), one_pow]

/-- C116 for whatever ciphertext: a number that is a ciphertext of some message has Jacobi symbol 1 modulo `N`. -/
theorem jl_jacobi_of_ciphertext {k p q : ℕ} {y : ℤ} (hk : k ≠ 0) (key : Key k p q y) {c m : ℤ}
    (h : Encrypts k p q y c m) : jacobiSym c (p * q) = 1 := by
  obtain ⟨n, x, -, hx, hc⟩ := h
  rw [jacobiSym.mod_left' (b := p * q) (by push_cast; exact hc), jacobiSym.mul_left, jacobiSym.pow_left, jacobi_y key,
    one_pow, one_mul, jacobi_even_pow x _ k hk (by push_cast; exact hx)]

example : jacobiSym (5 * 3 ^ 4) (13 * 7) = 1 :=
  jl_jacobi_of_ciphertext (by decide) key13 (m := 1) ⟨1, 3, rfl, ⟨-30, 1, by norm_num⟩, by decide⟩

/-- C116: with every key that key generation returns (if the primality test is right), for every message and all random
numbers, the Jacobi symbol of the ciphertext modulo `N` is 1, or 0 if ciphertext and `N` have a common factor.  So it
takes the same value for all messages. -/
theorem jl_jacobi_hides (g g' : Env) (hpr : ∀ n, g.probabPrime n = true → n.toNat.Prime) (fuel fuel' k keysize : ℕ)
    (hk : k ≠ 0) (N y p q : ℤ) (hkey : keygen g fuel k keysize = .ok ((N, y, p), q)) (s s' : g'.State) (m c : ℤ)
    (h : encrypt g' fuel' s m y N k = .ok (c, s')) :
    jacobiSym c N.toNat = if IsCoprime c N then 1 else 0 := by
  obtain ⟨P, Q, rfl, rfl, rfl, key, -⟩ := jl_keygen_post g hpr fuel k keysize N y p q hkey
  have e : ((P : ℤ) * Q).toNat = P * Q := by rw [← Nat.cast_mul, Int.toNat_natCast]
  rw [e]
  by_cases hc : IsCoprime c ((P : ℤ) * Q)
  · rw [if_pos hc]
    exact jl_jacobi_of_ciphertext hk key (jl_encrypt_is_ciphertext key g' fuel' s s' m c h hc)
  · rw [if_neg hc]
    have := key.neZero
    refine (jacobiSym.eq_zero_iff_not_coprime).mpr fun hg => hc ?_
    rw [Int.isCoprime_iff_gcd_eq_one]
    exact_mod_cast hg

example (c : ℤ) (h : encrypt (constEnv 2) 1 () 1 2 39 2 = .ok (c, ())) : jacobiSym c 39 = if IsCoprime c 39 then 1 else 0 :=
  jl_jacobi_hides (constEnv 2 0) (constEnv 2) (fun n h => by simpa [constEnv] using h) 4 1 2 64 (by decide) 39 2 13 3 keygen_small () () 1 c h

/-- C116 for two messages: with the same random numbers the symbols agree (also when there is a common factor). -/
theorem jl_jacobi_same {k p q : ℕ} {y : ℤ} (hk : k ≠ 0) (key : Key k p q y) (g : Env) (fuel : ℕ) (s s1 s2 : g.State)
    (m1 m2 c1 c2 : ℤ) (h1 : encrypt g fuel s m1 y (p * q) k = .ok (c1, s1))
    (h2 : encrypt g fuel s m2 y (p * q) k = .ok (c2, s2)) : jacobiSym c1 (p * q) = jacobiSym c2 (p * q) := by
  have := key.neZero
  obtain ⟨Y, hY⟩ := key.unit
  have main : ∀ (m c : ℤ) (s' : g.State), encrypt g fuel s m y (p * q) k = .ok (c, s') →
      ∃ x s'', pickX g ((p * q : ℕ) : ℤ) fuel s = .ok (x, s'') ∧ (IsCoprime c ((p : ℤ) * q) ↔ IsCoprime x ((p : ℤ) * q)) := by
    intro m c s' h
    obtain ⟨x, hx, hc, -⟩ := encrypt_spec (k := k) g hY (by push_cast; exact h)
    refine ⟨x, _, hx, ?_⟩
    have e : (p : ℤ) * q = ((p * q : ℕ) : ℤ) := by push_cast; rfl
    rw [e, isCoprime_comm, ← ZMod.coe_int_isUnit_iff_isCoprime, isCoprime_comm, ← ZMod.coe_int_isUnit_iff_isCoprime, hc,
      Units.isUnit_units_mul, isUnit_pow_iff (by positivity)]
  obtain ⟨x1, t1, e1, f1⟩ := main m1 c1 s1 h1
  obtain ⟨x2, t2, e2, f2⟩ := main m2 c2 s2 h2
  rw [e1, Res.ok_inj, Prod.mk.injEq] at e2
  obtain ⟨rfl, -⟩ := e2
  by_cases hc : IsCoprime x1 ((p : ℤ) * q)
  · rw [jl_jacobi_of_ciphertext hk key (jl_encrypt_is_ciphertext key g fuel s s1 m1 c1 h1 (f1.mpr hc)),
      jl_jacobi_of_ciphertext hk key (jl_encrypt_is_ciphertext key g fuel s s2 m2 c2 h2 (f2.mpr hc))]
  · have z : ∀ c : ℤ, ¬ IsCoprime c ((p : ℤ) * q) → jacobiSym c (p * q) = 0 := fun c hn =>
      (jacobiSym.eq_zero_iff_not_coprime).mpr fun hg => hn (by
        rw [Int.isCoprime_iff_gcd_eq_one]
        exact_mod_cast hg)
    rw [z _ (fun h => hc (f1.mp h)), z _ (fun h => hc (f2.mp h))]

/-- The hypotheses are met: a key made by key generation, and two messages encrypted with the same coin. -/
example : keygen (constEnv 2 0) 4 2 64 = .ok ((39, 2, 13), 3) ∧
    encrypt (constEnv 2) 1 () 1 2 39 2 = .ok (32, ()) ∧ encrypt (constEnv 2) 1 () 2 2 39 2 = .ok (25, ()) ∧
    jacobiSym 32 39 = 1 ∧ jacobiSym 25 39 = 1 :=
  ⟨keygen_small, by simp [encrypt, pickX, constEnv, powm, Gmp.mod], by simp [encrypt, pickX, constEnv, powm, Gmp.mod],
    by norm_num, by norm_num⟩

/-- The condition on `y` matters: with `y = 7`, a square modulo 3 and not modulo 13, the symbol shows the parity of the
message. -/
example : encrypt (constEnv 2) 1 () 1 7 39 2 = .ok (34, ()) ∧ encrypt (constEnv 2) 1 () 2 7 39 2 = .ok (4, ()) ∧
    jacobiSym 34 39 = -1 ∧ jacobiSym 4 39 = 1 :=
  ⟨by simp [encrypt, pickX, constEnv, powm, Gmp.mod], by simp [encrypt, pickX, constEnv, powm, Gmp.mod],
    by norm_num, by norm_num⟩

end CT.Props.JLJacobi
