import Verif.Props.JLAny

/-!
# Joye-Libert: message sizes other than that of the key (C125)
-/

namespace CT.Props.JLSizes
open CT.JL CT.Gmp CT.Spec.JL CT.Props.JoyeLibert CT.Props.JLAny

/-- A key for `k`-bit messages is one for shorter messages. -/
theorem key_mono {i k p q : ℕ} {y : ℤ} (h : Key k p q y) (hi : i ≤ k) : Key i p q y where
  p_prime := h.p_prime
  q_prime := h.q_prime
  p_mod := h.p_mod.of_dvd (pow_dvd_pow 2 hi)
  y_p := h.y_p
  y_q := h.y_q

/-- A ciphertext for `j`-bit messages is one for shorter messages. -/
theorem encU_mono {i j n : ℕ} {Y : (ZMod n)ˣ} {c m : ℤ} (h : EncU j Y c m) (hi : i ≤ j) : EncU i Y c m := by
  obtain ⟨u, hu⟩ := h
  refine ⟨u ^ 2 ^ (j - i), ?_⟩
  rw [hu, ← pow_mul, ← pow_add, Nat.sub_add_cancel hi]

/-- What an encryption with message size `j` is modulo `p`. -/
theorem encrypt_mod_p {k j p q : ℕ} {y : ℤ} (key : Key k p q y) (g : Env) {fuel : ℕ} {s s' : g.State} {m c : ℤ}
    (h : encrypt g fuel s m y (p * q) j = .ok (c, s')) (hc : ¬ (p : ℤ) ∣ c) :
    ∃ Y : (ZMod p)ˣ, (Y : ZMod p) = y ∧ EncU j Y c m := by
  have := key.neZero
  have hp : Fact p.Prime := ⟨key.p_prime⟩
  obtain ⟨Y, hY⟩ := key.unit
  have hd : p ∣ p * q := Dvd.intro q rfl
  have hYp : ((ZMod.unitsMap hd Y : (ZMod p)ˣ) : ZMod p) = y := by
    have := congrArg (ZMod.castHom hd (ZMod p)) hY
    rw [map_intCast] at this
    exact this
  refine ⟨_, hYp, ?_⟩
  obtain ⟨x, -, hx, -⟩ := encrypt_spec g hY (by push_cast; exact h)
  refine coprime_coin (x := x) ?_ ((isCoprime_prime hp.out).mpr hc)
  have := congrArg (ZMod.castHom hd (ZMod p)) hx
  rw [map_intCast, map_mul, map_pow, map_intCast] at this
  rw [this, ← map_zpow]
  rfl

/-- C125, the part that holds: a message encrypted with any size `j` under a key of size `k` and decrypted with a size `i`
of at most both comes out modulo `2^i`, unless the ciphertext is a multiple of `p` (see C53).  Missing: decryption with a
greater size than encryption, see `jl_sizes_low`, `jl_sizes_refuted` and `jl_sizes_undefined`. -/
theorem jl_sizes_partial {i j k p q : ℕ} {y : ℤ} (key : Key k p q y) (hik : i ≤ k) (hij : i ≤ j) (g : Env) (fuel : ℕ)
    (s s' : g.State) (m c : ℤ) (h : encrypt g fuel s m y (p * q) j = .ok (c, s')) (hc : ¬ (p : ℤ) ∣ c) :
    decrypt false c p y i = .ok (m % 2 ^ i) := by
  have hp : Fact p.Prime := ⟨key.p_prime⟩
  obtain ⟨Y, hY, hE⟩ := encrypt_mod_p key g h hc
  exact decrypt_eq hY key.y_p (key_mono key hik).p_mod (encU_mono hE hij)

example : decrypt false 23 (13 : ℕ) 5 1 = .ok (2 % 2 ^ 1) :=
  jl_sizes_partial key13 (by decide) (by decide) (constEnv 3) 1 () () 2 23 (j := 2)
    (by simp [encrypt, pickX, constEnv, powm, Gmp.mod, Int.reduceToNat]) (by decide)

/-- The same for every ciphertext, so for sums, differences and multiples too (C54): decryption with fewer bits gives
the low bits of the message. -/
theorem jl_low_bits {i j k p q : ℕ} {y : ℤ} (key : Key k p q y) (hik : i ≤ k) (hij : i ≤ j) {c m : ℤ}
    (h : Encrypts j p q y c m) : decrypt false c p y i = .ok (m % 2 ^ i) := by
  refine decrypt_encrypts (key_mono key hik) ?_
  have := key.neZero
  obtain ⟨Y, hY⟩ := key.unit
  rw [encrypts_iff rfl hY] at h ⊢
  exact encU_mono h hij

example : decrypt false (5 ^ 3 * 3 ^ 4) (13 : ℕ) 5 1 = .ok (3 % 2 ^ 1) :=
  jl_low_bits key13 (by decide) (j := 2) (by decide) ⟨3, 3, rfl, ⟨-30, 1, by norm_num⟩, by decide⟩

/-- Decryption with a greater size than encryption, up to that of the key: the low bits are right, the others are those of
some number `t`, whatever the random number makes them. -/
theorem jl_sizes_low {i j k p q : ℕ} {y : ℤ} (key : Key k p q y) (hik : i ≤ k) (hij : j ≤ i) (g : Env) (fuel : ℕ)
    (s s' : g.State) (m c : ℤ) (h : encrypt g fuel s m y (p * q) j = .ok (c, s')) (hc : ¬ (p : ℤ) ∣ c) :
    ∃ r, decrypt false c p y i = .ok r ∧ 0 ≤ r ∧ r < 2 ^ i ∧ r % 2 ^ j = m % 2 ^ j := by
  have hp : Fact p.Prime := ⟨key.p_prime⟩
  obtain ⟨Y, hY, hE⟩ := encrypt_mod_p key g h hc
  obtain ⟨C, hC⟩ := unit_of_isCoprime ((isCoprime_prime key.p_prime).mpr hc)
  obtain ⟨M, hM⟩ := exists_encU (k := i) Y (by rw [hY]; exact key.y_p) hC.symm
  refine ⟨M % 2 ^ i, decrypt_eq hY key.y_p (key_mono key hik).p_mod hM, Int.emod_nonneg _ (by positivity),
    Int.emod_lt_of_pos _ (by positivity), ?_⟩
  rw [Int.emod_emod_of_dvd _ (pow_dvd_pow 2 hij)]
  have h1 := decrypt_eq hY key.y_p (key_mono key (hij.trans hik)).p_mod (encU_mono hM hij)
  have h2 := decrypt_eq hY key.y_p (key_mono key (hij.trans hik)).p_mod hE
  rw [h1, Res.ok_inj] at h2
  exact h2

example : ∃ r, decrypt false 23 (13 : ℕ) 5 2 = .ok r ∧ 0 ≤ r ∧ r < 2 ^ 2 ∧ r % 2 ^ 2 = 2 % 2 ^ 2 :=
  jl_sizes_low key13 (by decide) (by decide) (constEnv 3) 1 () () 2 23 (j := 2)
    (by simp [encrypt, pickX, constEnv, powm, Gmp.mod, Int.reduceToNat]) (by decide)

/-- Decryption with a size for which `2^i` does not divide `p - 1` (a greater one than that of the key, if `(p-1)/2^k` is
odd) is an exact division that does not come out even, for every number. -/
theorem jl_sizes_undefined {i p : ℕ} {y : ℤ} (same : Bool) (c : ℤ) (h : ¬ (2 : ℤ) ^ i ∣ (p : ℤ) - 1) :
    decrypt same c p y i = .ub .contract := by
  rw [decrypt, divexact, if_neg (fun hh => h hh.2)]
  rfl

example : decrypt false 10 (13 : ℕ) 5 3 = .ub .contract := jl_sizes_undefined false 10 (by decide)

/-- C125 is false: a one-bit message 0, encrypted as such under the key `(13, 7, 5)` for two-bit messages with the random
number 2, decrypts to 2 with the size of the key. -/
theorem jl_sizes_refuted : ¬ ∀ (i j k p q : ℕ) (y : ℤ) (_ : Key k p q y) (g : Env) (fuel : ℕ) (s s' : g.State) (m c : ℤ),
    0 < i → 0 < j → i ≤ k → j ≤ k → 0 ≤ m → m < 2 ^ j → m < 2 ^ i → encrypt g fuel s m y (p * q) j = .ok (c, s') →
    ¬ (p : ℤ) ∣ c → decrypt false c p y i = .ok m := by
  intro h
  have e : encrypt (constEnv 2) 1 () 0 5 ((13 : ℕ) * (7 : ℕ)) 1 = .ok (4, ()) := by
    simp [encrypt, pickX, constEnv, powm, Gmp.mod]
  have := h 2 1 2 13 7 5 key13 (constEnv 2) 1 () () 0 4 (by decide) (by decide) (by decide) (by decide) (by decide) (by decide)
    (by decide) e (by decide)
  revert this
  decide +kernel

/-- The hypotheses are met: message 2, encrypted with two bits under `(13, 7, 5)` to 23 (see C53), is even. -/
example : Key 2 13 7 5 ∧ encrypt (constEnv 3) 1 () 2 5 ((13 : ℕ) * (7 : ℕ)) 2 = .ok (23, ()) ∧ ¬ ((13 : ℕ) : ℤ) ∣ 23 ∧
    decrypt false 23 (13 : ℕ) 5 1 = .ok 0 ∧ ¬ (2 : ℤ) ^ 3 ∣ ((13 : ℕ) : ℤ) - 1 := by
  refine ⟨key13, ?_, by decide, by decide +kernel, by decide⟩
  simp [encrypt, pickX, constEnv, powm, Gmp.mod, Int.reduceToNat]

end CT.Props.JLSizes
