import Verif.Proof.JoyeLibert
import Mathlib.Tactic.NormNum.LegendreSymbol
import Mathlib.Tactic.NormNum.Prime
import Mathlib.Tactic.NormNum.ModEq

/-!
# Joye-Libert properties (C53 - C55, C71, C72)
-/

namespace CT.Props.JoyeLibert
open CT.JL CT.Gmp CT.Spec.JL

/-- A random number generator whose `mpz_urandomm` always draws the number `x` and whose
`mpz_urandomb` always draws `b` (reduced to the range asked for), with an exact primality test; for
concrete witnesses. -/
noncomputable def constEnv (x : ℤ) (b : ℤ := 0) : Env where
  State := Unit
  init := ()
  urandomb _ n := (b % 2 ^ n, ())
  urandomb_range _ n := ⟨Int.emod_nonneg _ (by positivity), Int.emod_lt_of_pos _ (by positivity)⟩
  urandomm _ n := (x % n, ())
  urandomm_range _ n hn := ⟨Int.emod_nonneg _ hn.ne', Int.emod_lt_of_pos _ hn⟩
  probabPrime n := decide n.toNat.Prime
  nextprime n := (Nat.find (Nat.exists_infinite_primes (n.toNat + 1)) : ℤ)
  nextprime_gt n := by
    have := (Nat.find_spec (Nat.exists_infinite_primes (n.toNat + 1))).1
    omega

/-- The smallest key for two-bit messages: `p = 13`, `q = 7`, `y = 5`. -/
theorem key13 : Key 2 13 7 5 where
  p_prime := by norm_num
  q_prime := by norm_num
  p_mod := by decide
  y_p := not_square_of_jacobi (by norm_num) (by norm_num)
  y_q := not_square_of_jacobi (by norm_num) (by norm_num)

/-! ## C53 -/

/-- C53, exact outcome: for every key, message (of any size or sign) and random numbers, the
encryption decrypts to the message modulo `2^k` unless the ciphertext is a multiple of `p`; then it
decrypts to the all-ones message. -/
theorem jl_round_trip_exact {k p q : ℕ} {y : ℤ} (hk : k ≠ 0) (key : Key k p q y) (g : Env) (fuel : ℕ)
    (s s' : g.State) (m c : ℤ) (h : encrypt g fuel s m y (p * q) k = .ok (c, s')) :
    decrypt false c p y k = .ok (if (p : ℤ) ∣ c then 2 ^ k - 1 else m % 2 ^ k) := by
  have := key.neZero
  have hp : Fact p.Prime := ⟨key.p_prime⟩
  obtain ⟨Y, hY⟩ := key.unit
  have hd : p ∣ p * q := Dvd.intro q rfl
  have hYp : ((ZMod.unitsMap hd Y : (ZMod p)ˣ) : ZMod p) = y := by
    have := congrArg (ZMod.castHom hd (ZMod p)) hY
    rw [map_intCast] at this
    exact this
  by_cases hc : (p : ℤ) ∣ c
  · rw [if_pos hc]
    exact decrypt_zero hYp key.p_mod hc hk false
  · rw [if_neg hc]
    obtain ⟨x, -, hx, -⟩ := encrypt_spec g hY (by push_cast; exact h)
    refine decrypt_eq hYp key.y_p key.p_mod (coprime_coin (x := x) ?_ ((isCoprime_prime hp.out).mpr hc))
    have := congrArg (ZMod.castHom hd (ZMod p)) hx
    rw [map_intCast, map_mul, map_pow, map_intCast] at this
    rw [this, ← map_zpow]
    rfl

/-- With the coin 3; with the coin 13 the ciphertext is a multiple of 13. -/
example : decrypt false 23 (13 : ℕ) 5 2 = .ok 2 ∧ ∀ c, encrypt (constEnv 13) 1 () 1 5 ((13 : ℕ) * (7 : ℕ)) 2 = .ok (c, ()) → (13 : ℤ) ∣ c →
    decrypt false c (13 : ℕ) 5 2 = .ok 3 := by
  refine ⟨jl_round_trip_exact (by decide) key13 (constEnv 3) 1 () () 2 23
    (by simp [encrypt, pickX, constEnv, powm, Gmp.mod, Int.reduceToNat]), fun c h hc => ?_⟩
  rw [jl_round_trip_exact (by decide) key13 (constEnv 13) 1 () () 1 c h, if_pos (by exact_mod_cast hc)]; rfl

/-- C53, the part that holds: messages in `[0, 2^k)` are recovered from every ciphertext that is not
a multiple of `p`.  Missing from the full statement: the ciphertexts that are multiples of `p`,
which encryption does produce (`jl_round_trip_refuted`). -/
theorem jl_round_trip_partial {k p q : ℕ} {y : ℤ} (hk : k ≠ 0) (key : Key k p q y) (g : Env) (fuel : ℕ)
    (s s' : g.State) (m c : ℤ) (hm : 0 ≤ m ∧ m < 2 ^ k)
    (h : encrypt g fuel s m y (p * q) k = .ok (c, s')) (hc : ¬ (p : ℤ) ∣ c) :
    decrypt false c p y k = .ok m := by
  rw [jl_round_trip_exact hk key g fuel s s' m c h, if_neg hc, Int.emod_eq_of_lt hm.1 hm.2]

example : decrypt false 23 (13 : ℕ) 5 2 = .ok 2 :=
  jl_round_trip_partial (by decide) key13 (constEnv 3) 1 () () 2 23 (by decide)
    (by simp [encrypt, pickX, constEnv, powm, Gmp.mod, Int.reduceToNat]) (by decide)

/-- The coins that make decryption fail are exactly the multiples of `p`: with `x` the number drawn
by encryption, `p` divides the ciphertext iff it divides `x`.  Every coin draw that ends makes a
ciphertext in `[0, N)`. -/
theorem jl_bad_coins {k p q : ℕ} {y : ℤ} (key : Key k p q y) (g : Env) (s : g.State) (m : ℤ)
    (hx : (g.urandomm s (p * q)).1 ≠ 0) :
    ∃ c, encrypt g 1 s m y (p * q) k = .ok (c, (g.urandomm s (p * q)).2) ∧ 0 ≤ c ∧ c < p * q ∧
      ((p : ℤ) ∣ c ↔ (p : ℤ) ∣ (g.urandomm s (p * q)).1) := by
  have := key.neZero
  obtain ⟨Y, hY⟩ := key.unit
  have hp : pickX g ((p * q : ℕ) : ℤ) 1 s = .ok (g.urandomm s (p * q)) := by
    rw [pickX]; push_cast; rw [if_neg hx]
  obtain ⟨c, hc⟩ := encrypt_total (k := k) g hY m hp
  obtain ⟨x, h1, h2, h3, h4⟩ := encrypt_spec g hY hc
  rw [hp, Res.ok_inj] at h1
  refine ⟨c, by push_cast at hc; exact hc, h3, by push_cast at h4; exact h4, ?_⟩
  rw [dvd_cipher key.p_prime (Dvd.intro q rfl) h2, h1]

/-- The hypotheses are met, on both sides of the case distinction: the key `(13, 7, 5)` with message
2 and coin 3. -/
example : Key 2 13 7 5 ∧ (0 ≤ (2 : ℤ) ∧ (2 : ℤ) < 2 ^ 2) ∧
    encrypt (constEnv 3) 1 () 2 5 ((13 : ℕ) * (7 : ℕ)) 2 = .ok (23, ()) ∧ ¬ ((13 : ℕ) : ℤ) ∣ 23 ∧
    decrypt false 23 (13 : ℕ) 5 2 = .ok 2 := by
  refine ⟨key13, by decide, ?_, by decide, by decide +kernel⟩
  simp [encrypt, pickX, constEnv, powm, Gmp.mod, Int.reduceToNat]

/-- C53 is false: with the key `(13, 7, 5)` message 0 encrypted with the coin 13 (which encryption
accepts: it only rejects 0) decrypts to 3. -/
theorem jl_round_trip_refuted :
    ¬ ∀ (k p q : ℕ) (y : ℤ) (_ : Key k p q y) (g : Env) (fuel : ℕ) (s s' : g.State) (m c : ℤ),
      0 ≤ m ∧ m < 2 ^ k → encrypt g fuel s m y (p * q) k = .ok (c, s') →
      decrypt false c p y k = .ok m := by
  intro h
  have e : encrypt (constEnv 13) 1 () 0 5 ((13 : ℕ) * (7 : ℕ)) 2 = .ok (78, ()) := by
    simp [encrypt, pickX, constEnv, powm, Gmp.mod]
  have := h 2 13 7 5 key13 (constEnv 13) 1 () () 0 78 (by decide) e
  revert this
  decide +kernel

/-! ## C54 -/

/-- Expressions a user can compute on ciphertexts: sums, differences and integer multiples. -/
inductive Lin where
  | var (i : ℕ)
  | add (a b : Lin)
  | neg (a : Lin)
  | mul (a : Lin) (t : ℤ)

/-- The value on messages. -/
def Lin.val (m : ℕ → ℤ) : Lin → ℤ
  | var i => m i
  | add a b => a.val m + b.val m
  | neg a => -a.val m
  | mul a t => t * a.val m

/-- The computation on ciphertexts: products, inverses and powers modulo `N`. -/
def Lin.comp (N : ℤ) (c : ℕ → ℤ) : Lin → Res ℤ
  | var i => .ok (c i)
  | add a b => do Gmp.mod ((← a.comp N c) * (← b.comp N c)) N
  | neg a => do
    match invert (← a.comp N c) N with
    | some v => .ok v
    | none => .ub .contract
  | mul a t => do powm (← a.comp N c) t N

theorem jl_encrypt_is_ciphertext {k p q : ℕ} {y : ℤ} (key : Key k p q y) (g : Env) (fuel : ℕ)
    (s s' : g.State) (m c : ℤ) (h : encrypt g fuel s m y (p * q) k = .ok (c, s'))
    (hc : IsCoprime c ((p : ℤ) * q)) : Encrypts k p q y c m := by
  have := key.neZero
  obtain ⟨Y, hY⟩ := key.unit
  obtain ⟨x, -, hx, -⟩ := encrypt_spec g hY (by push_cast; exact h)
  rw [encrypts_iff rfl hY]
  exact coprime_coin hx (by push_cast; exact hc)

example : Encrypts 2 13 7 5 23 2 :=
  jl_encrypt_is_ciphertext key13 (constEnv 3) 1 () () 2 23 (by simp [encrypt, pickX, constEnv, powm, Gmp.mod, Int.reduceToNat]) ⟨4, -1, by norm_num⟩

theorem comp_enc {k p q : ℕ} {y : ℤ} (key : Key k p q y) (m c : ℕ → ℤ)
    (h : ∀ i, Encrypts k p q y (c i) (m i)) (e : Lin) :
    ∃ v, e.comp (p * q) c = .ok v ∧ Encrypts k p q y v (e.val m) := by
  have hn := key.neZero
  obtain ⟨Y, hY⟩ := key.unit
  have hcast : ((p * q : ℕ) : ℤ) = (p : ℤ) * q := by push_cast; rfl
  have hne : (p : ℤ) * q ≠ 0 := by rw [← hcast]; exact n_ne
  induction e with
  | var i => exact ⟨c i, rfl, h i⟩
  | add a b iha ihb =>
    obtain ⟨u, hu, eu⟩ := iha
    obtain ⟨v, hv, ev⟩ := ihb
    rw [encrypts_iff rfl hY] at eu ev
    have := eu.mul ev
    rw [hcast] at this
    exact ⟨_, by simp only [Lin.comp, hu, hv, Res.ok_bind]; exact mod_ok hne,
      (encrypts_iff rfl hY _ _).mpr this⟩
  | neg a iha =>
    obtain ⟨u, hu, eu⟩ := iha
    rw [encrypts_iff rfl hY] at eu
    obtain ⟨v, h1, h2⟩ := eu.invert
    rw [hcast] at h1
    exact ⟨v, by simp only [Lin.comp, hu, Res.ok_bind, h1], (encrypts_iff rfl hY _ _).mpr h2⟩
  | mul a t iha =>
    obtain ⟨u, hu, eu⟩ := iha
    rw [encrypts_iff rfl hY] at eu
    obtain ⟨v, h1, h2⟩ := eu.powm t
    rw [hcast] at h1
    refine ⟨v, by simp only [Lin.comp, hu, Res.ok_bind, h1], (encrypts_iff rfl hY _ _).mpr ?_⟩
    rw [Lin.val, mul_comm t]; exact h2

/-- C54, the part that holds: any linear expression computed on encryptions that are coprime to `N`
decrypts to the value of the expression on the messages modulo `2^k`.  Missing from the full
statement: encryptions that share a factor with `N`, for which it is false
(`jl_homomorphic_refuted`). -/
theorem jl_homomorphic_partial {k p q : ℕ} {y : ℤ} (key : Key k p q y) (m c : ℕ → ℤ)
    (h : ∀ i, ∃ (g : Env) (fuel : ℕ) (s s' : g.State),
      encrypt g fuel s (m i) y (p * q) k = .ok (c i, s') ∧ IsCoprime (c i) ((p : ℤ) * q)) (e : Lin) :
    ∃ v, e.comp (p * q) c = .ok v ∧ decrypt false v p y k = .ok (e.val m % 2 ^ k) := by
  have h' : ∀ i, Encrypts k p q y (c i) (m i) := fun i => by
    obtain ⟨g, fuel, s, s', h1, h2⟩ := h i
    exact jl_encrypt_is_ciphertext key g fuel s s' _ _ h1 h2
  obtain ⟨v, h1, h2⟩ := comp_enc key m c h' e
  exact ⟨v, h1, decrypt_encrypts key h2⟩

example (e : Lin) : ∃ v, e.comp ((13 : ℕ) * (7 : ℕ)) (fun _ => 23) = .ok v ∧ decrypt false v (13 : ℕ) 5 2 = .ok (e.val (fun _ => 2) % 2 ^ 2) :=
  jl_homomorphic_partial key13 _ _ (fun _ => ⟨constEnv 3, 1, (), (), by simp [encrypt, pickX, constEnv, powm, Gmp.mod, Int.reduceToNat], ⟨4, -1, by norm_num⟩⟩) e

/-- The same for all ciphertexts in the sense of the scheme's definition, whoever made them. -/
theorem jl_homomorphic_ciphertexts {k p q : ℕ} {y : ℤ} (key : Key k p q y) (m c : ℕ → ℤ)
    (h : ∀ i, Encrypts k p q y (c i) (m i)) (e : Lin) :
    ∃ v, e.comp (p * q) c = .ok v ∧ Encrypts k p q y v (e.val m) ∧
      decrypt false v p y k = .ok (e.val m % 2 ^ k) := by
  obtain ⟨v, h1, h2⟩ := comp_enc key m c h e
  exact ⟨v, h1, h2, decrypt_encrypts key h2⟩

/-- The hypotheses are met: every variable is message 2 encrypted with coin 3. -/
example : Key 2 13 7 5 ∧ ∀ _ : ℕ, ∃ (g : Env) (fuel : ℕ) (s s' : g.State),
    encrypt g fuel s 2 5 ((13 : ℕ) * (7 : ℕ)) 2 = .ok (23, s') ∧
      IsCoprime (23 : ℤ) (((13 : ℕ) : ℤ) * (7 : ℕ)) := by
  refine ⟨key13, fun _ => ⟨constEnv 3, 1, (), (), ?_, ?_⟩⟩
  · simp [encrypt, pickX, constEnv, powm, Gmp.mod, Int.reduceToNat]
  · exact ⟨4, -1, by norm_num⟩

/-- C54 is false: with the key `(13, 7, 5)` the product of an encryption of 0 with coin 13 and an
encryption of 2 with coin 3 decrypts to 3 instead of 2. -/
theorem jl_homomorphic_refuted :
    ¬ ∀ (k p q : ℕ) (y : ℤ) (_ : Key k p q y) (m c : ℕ → ℤ)
      (_ : ∀ i, ∃ (g : Env) (fuel : ℕ) (s s' : g.State),
        encrypt g fuel s (m i) y (p * q) k = .ok (c i, s')) (e : Lin),
      ∃ v, e.comp (p * q) c = .ok v ∧ decrypt false v p y k = .ok (e.val m % 2 ^ k) := by
  intro h
  obtain ⟨v, h1, h2⟩ := h 2 13 7 5 key13 (fun i => if i = 0 then 0 else 2) (fun i => if i = 0 then 78 else 23)
    (fun i => by
      by_cases hi : i = 0
      · refine ⟨constEnv 13, 1, (), (), ?_⟩
        simp [hi, encrypt, pickX, constEnv, powm, Gmp.mod]
      · refine ⟨constEnv 3, 1, (), (), ?_⟩
        simp [hi, encrypt, pickX, constEnv, powm, Gmp.mod, Int.reduceToNat])
    (.add (.var 0) (.var 1))
  have e1 : Lin.comp (((13 : ℕ) : ℤ) * (7 : ℕ)) (fun i => if i = 0 then (78 : ℤ) else 23)
      (.add (.var 0) (.var 1)) = .ok 65 := by decide +kernel
  rw [e1, Res.ok_inj] at h1
  subst h1
  revert h2
  decide +kernel

/-! ## C55 -/

/-- C55.  Whatever the random numbers: if key generation ends, and the primality test was right
about the numbers it accepted, the key satisfies the conditions of the scheme, `N = p*q`,
`(p-1)/2^k` is prime, `q = 3 (mod 4)`, `y` is in `[0, N)`, and the primes are different (for messages
of two bits or more). -/
theorem jl_keygen_post (g : Env) (hpr : ∀ n, g.probabPrime n = true → n.toNat.Prime) (fuel k keysize : ℕ)
    (N y p q : ℤ) (h : keygen g fuel k keysize = .ok ((N, y, p), q)) :
    ∃ P Q : ℕ, p = P ∧ q = Q ∧ N = P * Q ∧ Key k P Q y ∧ ((P - 1) / 2 ^ k).Prime ∧ Q % 4 = 3 ∧
      0 ≤ y ∧ y < N ∧ (2 ≤ k → P ≠ Q) := by
  have hd : (0 : ℤ) < 2 ^ k := by positivity
  simp only [keygen, mod_ok hd.ne', Res.ok_bind] at h
  obtain ⟨p', hp, h⟩ := Res.bind_eq_ok h
  obtain ⟨q', hq, h⟩ := Res.bind_eq_ok h
  obtain ⟨⟨y', s'⟩, hy, h⟩ := Res.bind_eq_ok h
  simp only [Res.pure_eq, Res.ok_inj, Prod.mk.injEq] at h
  obtain ⟨⟨rfl, rfl, rfl⟩, rfl⟩ := h
  obtain ⟨p1, p2, p3, p4⟩ := findP_spec g hd _ (by
    rw [Int.add_emod, Int.sub_emod, Int.emod_emod, sub_self]; simp) hp
  obtain ⟨q1, q2, q3⟩ := findQ_spec g _ hq
  have pp := hpr _ p3
  have pt := hpr _ p4
  have qp := hpr _ q2
  obtain ⟨P, hP⟩ : ∃ P : ℕ, p' = P := ⟨p'.toNat, by have := pp.pos; omega⟩
  obtain ⟨Q, hQ⟩ : ∃ Q : ℕ, q' = Q := ⟨q'.toNat, by have := qp.pos; omega⟩
  subst hP hQ
  rw [Int.toNat_natCast] at pp qp
  have hN : (0 : ℤ) < (P : ℤ) * Q := by
    have := pp.pos; have := qp.pos; positivity
  obtain ⟨y1, y2, y3⟩ := findY_spec g hN _ ⟨le_refl _, hN⟩ hy
  rw [Int.toNat_natCast] at y2 y3
  have pm : P ≡ 1 [MOD 2 ^ k] := by
    rw [← Int.natCast_modEq_iff]; push_cast; exact p2
  refine ⟨P, Q, rfl, rfl, rfl, ⟨pp, qp, pm, not_square_of_jacobi pp y2, not_square_of_jacobi qp y3⟩,
    ?_, by omega, y1.1, y1.2, ?_⟩
  · have : (((P : ℤ) - 1) / 2 ^ k).toNat = (P - 1) / 2 ^ k := by
      have e1 : ((P : ℤ) - 1) = ((P - 1 : ℕ) : ℤ) := by have := pp.pos; omega
      rw [e1]
      have : (((P - 1 : ℕ) : ℤ) / 2 ^ k) = (((P - 1) / 2 ^ k : ℕ) : ℤ) := by push_cast; rfl
      rw [this, Int.toNat_natCast]
    rwa [this] at pt
  · rintro hk rfl
    have h4 : P ≡ 1 [MOD 4] := pm.of_dvd ⟨2 ^ (k - 2), by
      rw [show (4 : ℕ) = 2 ^ 2 by rfl, ← pow_add]; congr 1; omega⟩
    rw [Nat.ModEq] at h4
    omega

theorem nextprime_const (x b n : ℤ) (r : ℕ) (h : r.Prime) (h1 : n.toNat + 1 ≤ r)
    (h2 : ∀ i < r, ¬ (n.toNat + 1 ≤ i ∧ i.Prime)) : (constEnv x b).nextprime n = r := by
  show ((Nat.find _ : ℕ) : ℤ) = r
  rw [Nat.cast_inj, Nat.find_eq_iff]
  exact ⟨⟨h1, h⟩, h2⟩

/-- Key generation for two-bit messages and a 64-bit modulus when the two 32-bit numbers drawn for
the primes are 0. -/
theorem keygen_small : keygen (constEnv 2 0) 4 2 64 = .ok ((39, 2, 13), 3) := by
  have n0 : (constEnv 2 0).nextprime 0 = (2 : ℕ) := nextprime_const _ _ _ _ (by norm_num) (by decide)
    (by decide)
  have n2 : (constEnv 2 0).nextprime 2 = (3 : ℕ) := nextprime_const _ _ _ _ (by norm_num) (by decide)
    (by decide)
  have p : ∀ n, (constEnv 2 0).probabPrime n = decide n.toNat.Prime := fun _ => rfl
  have t1 : Int.toNat 1 = 1 := rfl
  have t2 : Int.toNat 2 = 2 := rfl
  have t3 : Int.toNat 3 = 3 := rfl
  have t5 : Int.toNat 5 = 5 := rfl
  have t9 : Int.toNat 9 = 9 := rfl
  have t13 : Int.toNat 13 = 13 := rfl
  have hP : findP (constEnv 2 0) 4 4 1 = .ok 13 := by
    norm_num [findP, p, divexact, t1, t2, t3, t5, t9, t13]
  have hQ : findQ (constEnv 2 0) 4 2 = .ok 3 := by
    rw [findQ, p, t2, if_neg (by norm_num), n2, findQ, p]
    exact if_pos (by norm_num [t3])
  have hY : findY (constEnv 2 0) 13 3 39 4 0 () = .ok (2, ()) := by
    refine (findY.eq_2 (constEnv 2 0) 13 3 39 0 () 3).trans ?_
    rw [t3, t13, if_pos (by norm_num)]
    refine (findY.eq_2 (constEnv 2 0) 13 3 39 2 () 2).trans ?_
    exact if_neg (by rw [t3, t13]; norm_num)
  have hu : (constEnv 2 0).urandomb () (64 / 2) = ((0, ()) : ℤ × Unit) := rfl
  have n0' : (constEnv 2 0).nextprime 0 = 2 := n0
  have e : keygen (constEnv 2 0) 4 2 64 = (do
      let p ← findP (constEnv 2 0) 4 4 1
      let q ← findQ (constEnv 2 0) 4 ((constEnv 2 0).nextprime 0)
      let r ← findY (constEnv 2 0) p q (p * q) 4 0 ()
      return ((p * q, r.1, p), q)) := rfl
  rw [e, hP, n0', Res.ok_bind, hQ, Res.ok_bind]
  show (do
      let r ← findY (constEnv 2 0) 13 3 39 4 0 ()
      return ((39, r.1, 13), 3) : Res ((ℤ × ℤ × ℤ) × ℤ)) = _
  rw [hY]
  rfl

/-- The hypotheses of C55 are met. -/
example : (∀ n, (constEnv 2 0).probabPrime n = true → n.toNat.Prime) ∧
    keygen (constEnv 2 0) 4 2 64 = .ok ((39, 2, 13), 3) :=
  ⟨fun n h => by simpa [constEnv] using h, keygen_small⟩

/-! ## C71 -/

/-- C71, the part that holds: if both random numbers drawn for the primes have their top bit set
(and messages are shorter than the primes), both primes have at least `keysize/2` bits.  Missing from
the full statement: the other draws, for which it is false (`jl_modulus_size_refuted`). -/
theorem jl_modulus_size_partial (g : Env) (fuel k keysize h : ℕ) (hh : keysize = 2 * (h + 1)) (hk : k ≤ h)
    (h1 : 2 ^ h ≤ (g.urandomb g.init (h + 1)).1)
    (h2 : 2 ^ h ≤ (g.urandomb (g.urandomb g.init (h + 1)).2 (h + 1)).1)
    (N y p q : ℤ) (hr : keygen g fuel k keysize = .ok ((N, y, p), q)) :
    2 ^ h ≤ p ∧ 2 ^ h ≤ q ∧ 2 ^ (keysize - 2) ≤ N := by
  have hd : (0 : ℤ) < 2 ^ k := by positivity
  have hks : keysize / 2 = h + 1 := by omega
  simp only [keygen, mod_ok hd.ne', Res.ok_bind, hks] at hr
  obtain ⟨p', hp, hr⟩ := Res.bind_eq_ok hr
  obtain ⟨q', hq, hr⟩ := Res.bind_eq_ok hr
  obtain ⟨⟨y', s'⟩, hy, hr⟩ := Res.bind_eq_ok hr
  simp only [Res.pure_eq, Res.ok_inj, Prod.mk.injEq] at hr
  obtain ⟨⟨rfl, rfl, rfl⟩, rfl⟩ := hr
  obtain ⟨p1, -⟩ := findP_spec g hd _ (by
    rw [Int.add_emod, Int.sub_emod, Int.emod_emod, sub_self]; simp) hp
  obtain ⟨q1, -⟩ := findQ_spec g _ hq
  have q2 := g.nextprime_gt (g.urandomb (g.urandomb g.init (h + 1)).2 (h + 1)).1
  have a1 : 2 ^ h ≤ p' := by
    generalize (g.urandomb g.init (h + 1)).1 = r at *
    have e1 : (2 : ℤ) ^ h = 2 ^ k * 2 ^ (h - k) := by rw [← pow_add]; congr 1; omega
    have e2 := Int.emod_add_mul_ediv r (2 ^ k)
    have e3 : (2 : ℤ) ^ (h - k) ≤ r / 2 ^ k := by
      rw [Int.le_ediv_iff_mul_le hd, mul_comm, ← e1]; exact h1
    have e4 : (2 : ℤ) ^ k * 2 ^ (h - k) ≤ 2 ^ k * (r / 2 ^ k) := mul_le_mul_of_nonneg_left e3 hd.le
    rw [e1]
    omega
  have a2 : 2 ^ h ≤ q' := by omega
  refine ⟨a1, a2, ?_⟩
  rw [hh, show 2 * (h + 1) - 2 = h + h by omega, pow_add]
  have : (0 : ℤ) < 2 ^ h := by positivity
  exact mul_le_mul a1 a2 this.le (by omega)

/-- The hypotheses on the draws are met by a generator that draws all ones. -/
example : (64 : ℕ) = 2 * (31 + 1) ∧ (2 : ℕ) ≤ 31 ∧
    2 ^ 31 ≤ ((constEnv 2 (2 ^ 32 - 1)).urandomb (constEnv 2 (2 ^ 32 - 1)).init (31 + 1)).1 ∧
    2 ^ 31 ≤ ((constEnv 2 (2 ^ 32 - 1)).urandomb
      ((constEnv 2 (2 ^ 32 - 1)).urandomb (constEnv 2 (2 ^ 32 - 1)).init (31 + 1)).2 (31 + 1)).1 := by
  have : ∀ s, ((constEnv 2 (2 ^ 32 - 1)).urandomb s (31 + 1)).1 = (2 ^ 32 - 1) % 2 ^ (31 + 1) := fun _ => rfl
  refine ⟨rfl, by decide, ?_, ?_⟩ <;> rw [this] <;> norm_num

/-- C71 is false: a 64-bit modulus is requested and the modulus generated is 39. -/
theorem jl_modulus_size_refuted :
    ¬ ∀ (g : Env) (_ : ∀ n, g.probabPrime n = true → n.toNat.Prime) (fuel k keysize : ℕ) (N y p q : ℤ),
      keygen g fuel k keysize = .ok ((N, y, p), q) → 2 ^ (keysize - 1) ≤ N := by
  intro h
  have := h (constEnv 2 0) (fun n h => by simpa [constEnv] using h) _ _ _ _ _ _ _ keygen_small
  revert this
  decide

/-! ## C72 -/

/-- C72, exact outcome: with the result and the ciphertext in the same variable, decryption gives the
all-ones message, whatever the ciphertext. -/
theorem jl_in_place_exact {k p q : ℕ} {y : ℤ} (hk : k ≠ 0) (key : Key k p q y) (c : ℤ) :
    decrypt true c p y k = .ok (2 ^ k - 1) := by
  have := key.neZero
  have hp : Fact p.Prime := ⟨key.p_prime⟩
  obtain ⟨Y, hY⟩ := unit_of_isCoprime
    ((isCoprime_prime key.p_prime).mpr (not_dvd_of_not_square key.y_p))
  have := decrypt_zero (c := 0) hY key.p_mod (dvd_zero _) hk true
  simpa [decrypt] using this

example : (2 : ℕ) ≠ 0 ∧ Key 2 13 7 5 := ⟨by decide, key13⟩

/-- C72 is false: under the key `(13, 7, 5)`, 23 is a ciphertext of 2 and decrypts to 2, but decrypted
in place it gives 3. -/
theorem jl_in_place_refuted :
    ¬ ∀ (k p q : ℕ) (y : ℤ) (_ : Key k p q y) (c : ℤ), decrypt true c p y k = decrypt false c p y k := by
  intro h
  have := h 2 13 7 5 key13 23
  revert this
  decide +kernel

end CT.Props.JoyeLibert
