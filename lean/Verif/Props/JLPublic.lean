import Verif.Props.JoyeLibert
import Mathlib.FieldTheory.Finite.Basic

/-!
# Joye-Libert: what the modulus tells about its factors (C159)
-/

namespace CT.Props.JLPublic
open CT.JL CT.Gmp CT.Spec.JL CT.Props.JoyeLibert

/-- The lowest `k` bits of the modulus are those of `q`, whatever the random numbers and the primality test: `p` ends in `0...01`. -/
theorem jl_public_low_bits (g : Env) (fuel k keysize : ℕ) (N y p q : ℤ) (h : keygen g fuel k keysize = .ok ((N, y, p), q)) :
    N % 2 ^ k = q % 2 ^ k ∧ N = p * q ∧ 0 < p ∧ 0 < q := by
  have hd : (0 : ℤ) < 2 ^ k := by positivity
  simp only [keygen, mod_ok hd.ne', Res.ok_bind] at h
  obtain ⟨p', hp, h⟩ := Res.bind_eq_ok h
  obtain ⟨q', hq, h⟩ := Res.bind_eq_ok h
  obtain ⟨⟨y', s'⟩, hy, h⟩ := Res.bind_eq_ok h
  simp only [Res.pure_eq, Res.ok_inj, Prod.mk.injEq] at h
  obtain ⟨⟨rfl, rfl, rfl⟩, rfl⟩ := h
  have hs : ((g.urandomb g.init (keysize / 2)).1 - (g.urandomb g.init (keysize / 2)).1 % 2 ^ k + 1) % 2 ^ k = 1 % 2 ^ k := by
    rw [Int.add_emod, Int.sub_emod, Int.emod_emod, sub_self]; simp
  obtain ⟨p1, p2, -⟩ := findP_spec g hd _ hs hp
  obtain ⟨q1, -⟩ := findQ_spec g _ hq
  have q2 := g.nextprime_gt (g.urandomb (g.urandomb g.init (keysize / 2)).2 (keysize / 2)).1
  have r1 := g.urandomb_range g.init (keysize / 2)
  have r2 := g.urandomb_range (g.urandomb g.init (keysize / 2)).2 (keysize / 2)
  have hm : ∀ a b : ℤ, 0 ≤ a → 0 < b → a % b ≤ a := fun a b ha hb => by
    have := Int.emod_add_mul_ediv a b
    have := mul_nonneg hb.le (Int.ediv_nonneg ha hb.le)
    omega
  have hm := hm _ _ r1.1 hd
  refine ⟨?_, rfl, ?_, ?_⟩
  · rw [Int.mul_emod, p2, ← Int.mul_emod, one_mul]
  · omega
  · omega

example : (39 : ℤ) % 2 ^ 2 = 3 % 2 ^ 2 := (jl_public_low_bits _ _ _ _ _ _ _ _ keygen_small).1

/-- **C159** for large message sizes: if `2^k` is above `q`, the public key gives the secret one by one division, and everybody
decrypts as the owner does, every number and with every message size. -/
theorem jl_public_key_opens (g : Env) (fuel k keysize : ℕ) (N y p q : ℤ) (h : keygen g fuel k keysize = .ok ((N, y, p), q)) (hq : q < 2 ^ k) :
    N / (N % 2 ^ k) = p ∧ ∀ (same : Bool) (c : ℤ) (i : ℕ), decrypt same c (N / (N % 2 ^ k)) y i = decrypt same c p y i := by
  obtain ⟨h1, h2, h3, h4⟩ := jl_public_low_bits g fuel k keysize N y p q h
  have e : N / (N % 2 ^ k) = p := by
    rw [h1, Int.emod_eq_of_lt h4.le hq, h2, Int.mul_ediv_cancel _ h4.ne']
  exact ⟨e, fun same c i => by rw [e]⟩

/-- **C159** for all message sizes: the factor `q` is found among `q / 2^k + 1` numbers that everybody can write down. -/
theorem jl_public_candidates (g : Env) (fuel k keysize : ℕ) (N y p q : ℤ) (h : keygen g fuel k keysize = .ok ((N, y, p), q)) :
    ∃ i, 0 ≤ i ∧ i ≤ q / 2 ^ k ∧ N % 2 ^ k + 2 ^ k * i = q ∧ N / (N % 2 ^ k + 2 ^ k * i) = p := by
  obtain ⟨h1, h2, h3, h4⟩ := jl_public_low_bits g fuel k keysize N y p q h
  have e : N % 2 ^ k + 2 ^ k * (q / 2 ^ k) = q := by rw [h1]; exact Int.emod_add_mul_ediv q (2 ^ k)
  refine ⟨q / 2 ^ k, Int.ediv_nonneg h4.le (by positivity), le_rfl, e, ?_⟩
  rw [e, h2, Int.mul_ediv_cancel _ h4.ne']

/-- **C159**: the square root of that number of steps does.  For any base `x` that `p` does not divide and any `B`, one of `B` numbers
and one of `q / 2^k / B + 1` numbers meet modulo `p`: `x^(N-r)` divided by `x^(2^k i)` and `x^(2^k B j)`, all of which everybody can
compute (`r` is what `N` leaves modulo `2^k`). -/
theorem jl_public_meet (g : Env) (hpr : ∀ n, g.probabPrime n = true → n.toNat.Prime) (fuel k keysize : ℕ) (N y p q : ℤ)
    (h : keygen g fuel k keysize = .ok ((N, y, p), q)) (x : ℤ) (hx : ¬ p ∣ x) (B : ℕ) (hB : 0 < B) :
    ∃ i j : ℕ, i < B ∧ (j : ℤ) ≤ q / 2 ^ k / B ∧ p ∣ x ^ (N - N % 2 ^ k).toNat - x ^ (2 ^ k * i) * x ^ (2 ^ k * B * j) := by
  obtain ⟨h1, h2, h3, h4⟩ := jl_public_low_bits g fuel k keysize N y p q h
  obtain ⟨P, Q, rfl, rfl, -, key, -⟩ := jl_keygen_post g hpr fuel k keysize N y p q h
  have hP := key.p_prime
  have e := Nat.mod_add_div Q (2 ^ k)
  have eb := Nat.mod_add_div (Q / 2 ^ k) B
  refine ⟨Q / 2 ^ k % B, Q / 2 ^ k / B, Nat.mod_lt _ hB, by push_cast; exact le_rfl, ?_⟩
  rw [← pow_add, show 2 ^ k * (Q / 2 ^ k % B) + 2 ^ k * B * (Q / 2 ^ k / B) = 2 ^ k * (Q / 2 ^ k) by
    rw [Nat.mul_assoc, ← Nat.mul_add, eb]]
  have ex : (N - N % 2 ^ k).toNat = 2 ^ k * (Q / 2 ^ k) + (P - 1) * Q := by
    have e2 : N - N % 2 ^ k = ((2 ^ k * (Q / 2 ^ k) + (P - 1) * Q : ℕ) : ℤ) := by
      rw [h1, h2]
      have hp1 := hP.one_le
      have : ((Q % 2 ^ k : ℕ) : ℤ) + ((2 ^ k * (Q / 2 ^ k) : ℕ) : ℤ) = Q := by exact_mod_cast e
      push_cast [Nat.cast_sub hp1] at this ⊢
      linarith
    rw [e2, Int.toNat_natCast]
  rw [ex, pow_add]
  have hF : Fact P.Prime := ⟨hP⟩
  have hx' : (x : ZMod P) ≠ 0 := by
    rw [Ne, ZMod.intCast_zmod_eq_zero_iff_dvd]; exact hx
  rw [← ZMod.intCast_zmod_eq_zero_iff_dvd]
  push_cast
  rw [pow_mul (x : ZMod P) (P - 1) Q, ZMod.pow_card_sub_one_eq_one hx', one_pow, mul_one, sub_self]

/-- **C159**, what holds: with a message size below that of `q` the one division does not give a factor. -/
theorem jl_public_partial (g : Env) (hpr : ∀ n, g.probabPrime n = true → n.toNat.Prime) (fuel k keysize : ℕ) (N y p q : ℤ)
    (h : keygen g fuel k keysize = .ok ((N, y, p), q)) (hq : 2 ^ k ≤ q) :
    N % 2 ^ k ∣ N → N % 2 ^ k = 1 := by
  intro hd
  obtain ⟨h1, h2, h3, h4⟩ := jl_public_low_bits g fuel k keysize N y p q h
  obtain ⟨P, Q, rfl, rfl, -, key, ht, -⟩ := jl_keygen_post g hpr fuel k keysize N y p q h
  have hp2 : 2 ^ k ≤ P := by
    have := ht.pos
    have := (Nat.div_pos_iff.1 this).2
    omega
  have hlt : N % 2 ^ k < 2 ^ k := Int.emod_lt_of_pos _ (by positivity)
  have hnn : 0 ≤ N % 2 ^ k := Int.emod_nonneg _ (by positivity)
  obtain ⟨r, hr⟩ := Int.eq_ofNat_of_zero_le hnn
  rw [hr] at hlt hd ⊢
  have hlt' : r < 2 ^ k := by exact_mod_cast hlt
  have hq' : 2 ^ k ≤ Q := by exact_mod_cast hq
  rw [h2] at hd
  have hd' : r ∣ P * Q := by exact_mod_cast hd
  have c1 : Nat.Coprime r P := by
    refine (Nat.Coprime.symm ((Nat.Prime.coprime_iff_not_dvd key.p_prime).2 fun hh => ?_))
    have h0 : r ≠ 0 := by
      rintro rfl
      have := Nat.eq_zero_of_zero_dvd hd'
      have := Nat.mul_pos key.p_prime.pos key.q_prime.pos
      omega
    have := Nat.le_of_dvd (Nat.pos_of_ne_zero h0) hh
    omega
  have h5 : r ∣ Q := c1.dvd_of_dvd_mul_left hd'
  rcases (Nat.dvd_prime key.q_prime).1 h5 with h6 | h6
  · exact_mod_cast h6
  · omega

/-- **C159** refuted. -/
theorem jl_public_refuted :
    ¬ ∀ (g : Env) (_ : ∀ n, g.probabPrime n = true → n.toNat.Prime) (fuel k keysize : ℕ) (N y p q : ℤ),
      keygen g fuel k keysize = .ok ((N, y, p), q) → N / (N % 2 ^ k) ≠ p := by
  intro h
  exact h (constEnv 2 0) (fun n h => by simpa [constEnv] using h) 4 2 64 39 2 13 3 keygen_small (by decide)

/-- The key of C55: the reader finds 13 in 39. -/
example : (39 : ℤ) / (39 % 2 ^ 2) = 13 ∧ ∀ (same : Bool) (c : ℤ) (i : ℕ), decrypt same c (39 / (39 % 2 ^ 2)) 2 i = decrypt same c 13 2 i :=
  jl_public_key_opens (constEnv 2 0) 4 2 64 39 2 13 3 keygen_small (by decide)

/-- A key for two-bit messages and a modulus of six bits, with the number 4 drawn for both primes. -/
theorem keygen_91 : keygen (constEnv 5 4) 4 2 6 = .ok ((91, 5, 13), 7) := by
  have n4 : (constEnv 5 4).nextprime 4 = (5 : ℕ) := nextprime_const _ _ _ _ (by norm_num) (by decide)
    (by decide)
  have n5 : (constEnv 5 4).nextprime 5 = (7 : ℕ) := nextprime_const _ _ _ _ (by norm_num) (by decide)
    (by decide)
  have p : ∀ n, (constEnv 5 4).probabPrime n = decide n.toNat.Prime := fun _ => rfl
  have t1 : Int.toNat 1 = 1 := rfl
  have t3 : Int.toNat 3 = 3 := rfl
  have t5 : Int.toNat 5 = 5 := rfl
  have t7 : Int.toNat 7 = 7 := rfl
  have t9 : Int.toNat 9 = 9 := rfl
  have t13 : Int.toNat 13 = 13 := rfl
  have hP : findP (constEnv 5 4) 4 4 5 = .ok 13 := by
    norm_num [findP, p, divexact, t1, t3, t5, t9, t13]
  have hQ : findQ (constEnv 5 4) 4 5 = .ok 7 := by
    rw [findQ, p, t5, if_neg (by norm_num), n5, findQ, p]
    exact if_pos (by norm_num [t7])
  have hY : findY (constEnv 5 4) 13 7 91 4 0 () = .ok (5, ()) := by
    refine (findY.eq_2 (constEnv 5 4) 13 7 91 0 () 3).trans ?_
    rw [t7, t13, if_pos (by norm_num)]
    refine (findY.eq_2 (constEnv 5 4) 13 7 91 5 () 2).trans ?_
    exact if_neg (by rw [t7, t13]; norm_num)
  have n4' : (constEnv 5 4).nextprime 4 = 5 := n4
  have e : keygen (constEnv 5 4) 4 2 6 = (do
      let p ← findP (constEnv 5 4) 4 4 5
      let q ← findQ (constEnv 5 4) 4 ((constEnv 5 4).nextprime 4)
      let r ← findY (constEnv 5 4) p q (p * q) 4 0 ()
      return ((p * q, r.1, p), q)) := rfl
  rw [e, hP, n4', Res.ok_bind, hQ, Res.ok_bind]
  show (do
      let r ← findY (constEnv 5 4) 13 7 91 4 0 ()
      return ((91, r.1, 13), 7) : Res ((ℤ × ℤ × ℤ) × ℤ)) = _
  rw [hY]
  rfl

/-- 3, the lowest bits of 91, is no factor; 7 is one of the two candidates 3 and 7; modulo 13 the lists meet. -/
example : ((91 : ℤ) % 2 ^ 2 ∣ 91 → (91 : ℤ) % 2 ^ 2 = 1) ∧
    (∃ i : ℤ, 0 ≤ i ∧ i ≤ 7 / 2 ^ 2 ∧ 91 % 2 ^ 2 + 2 ^ 2 * i = 7 ∧ 91 / (91 % 2 ^ 2 + 2 ^ 2 * i) = 13) ∧
    ∃ i j : ℕ, i < 2 ∧ (j : ℤ) ≤ 7 / 2 ^ 2 / (2 : ℕ) ∧
      (13 : ℤ) ∣ 3 ^ ((91 : ℤ) - 91 % 2 ^ 2).toNat - 3 ^ (2 ^ 2 * i) * 3 ^ (2 ^ 2 * 2 * j) := by
  have hpr : ∀ n, (constEnv 5 4).probabPrime n = true → n.toNat.Prime := fun n h => by simpa [constEnv] using h
  exact ⟨jl_public_partial _ hpr 4 2 6 91 5 13 7 keygen_91 (by decide), jl_public_candidates _ 4 2 6 91 5 13 7 keygen_91,
    jl_public_meet _ hpr 4 2 6 91 5 13 7 keygen_91 3 (by decide) 2 (by decide)⟩

end CT.Props.JLPublic
