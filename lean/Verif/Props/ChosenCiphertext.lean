import Verif.Props.JLAny
import Verif.Model.LabeledHE
import Verif.Model.MuLabeledHE

/-!
# C165: a receiver who decrypts everything but one ciphertext

The receiver answers with the decryption of every number but those that are the ciphertext in question
modulo `N`; the attacker asks once, knows the public key, and computes the message.
-/

namespace CT.Props.ChosenCiphertext
open CT.JL CT.Gmp CT.Spec.JL CT.Props.JoyeLibert CT.Props.JLAny

/-- A computation as a question that may be refused. -/
def answer (refused : Bool) (r : Res ℤ) : Option ℤ :=
  if refused then none else match r with
    | .ok m => some m
    | .ub _ => none

/-- The careful receiver: nothing that is `c` modulo `N` is decrypted. -/
def careful (p y N : ℤ) (k : ℕ) (c x : ℤ) : Option ℤ :=
  answer (decide (x % N = c % N)) (decrypt false x p y k)

/-- The receiver who does not decrypt `c`. -/
def receiver (p y : ℤ) (k : ℕ) (c x : ℤ) : Option ℤ := answer (decide (x = c)) (decrypt false x p y k)

/-- The attacker against the first one: asks for `c y`, and subtracts 1. -/
def attackY (y N : ℤ) (k : ℕ) (c : ℤ) (ask : ℤ → Option ℤ) : Option ℤ :=
  (ask (c * y % N)).map fun m => (m - 1) % 2 ^ k

/-- The attacker against the second one: asks for `c + N`. -/
def attackN (N c : ℤ) (ask : ℤ → Option ℤ) : Option ℤ := ask (c + N)

section
variable {k p q : ℕ} {y : ℤ}

/-- Decryption of a product with `y`, of any number. -/
theorem decrypt_mul_y (key : Key k p q y) (c : ℤ) (hc : ¬ (p : ℤ) ∣ c) :
    ∃ m, decrypt false c p y k = .ok m ∧ 0 ≤ m ∧ m < 2 ^ k ∧
      ∀ x, x ≡ c * y [ZMOD p] → decrypt false x p y k = .ok ((m + 1) % 2 ^ k) := by
  have hp : Fact p.Prime := ⟨key.p_prime⟩
  obtain ⟨Y, hY⟩ := unit_of_isCoprime
    ((isCoprime_prime key.p_prime).mpr (not_dvd_of_not_square key.y_p))
  obtain ⟨C, hC⟩ := unit_of_isCoprime ((isCoprime_prime key.p_prime).mpr hc)
  obtain ⟨m, w, hw⟩ := exists_encU (k := k) Y (by rw [hY]; exact key.y_p) hC.symm
  refine ⟨m % 2 ^ k, decrypt_eq hY key.y_p key.p_mod ⟨w, hw⟩, Int.emod_nonneg _ (by positivity),
    Int.emod_lt_of_pos _ (by positivity), fun x hx => ?_⟩
  rw [Int.emod_add_emod]
  refine decrypt_eq hY key.y_p key.p_mod ⟨w, ?_⟩
  have e : (x : ZMod p) = ((c * y : ℤ) : ZMod p) := (ZMod.intCast_eq_intCast_iff _ _ _).mpr hx
  rw [e, Int.cast_mul, hw, ← hY, ← Units.val_mul, zpow_add, zpow_one]
  congr 1
  exact mul_right_comm _ _ _

/-- The question is another number than the ciphertext. -/
theorem mul_y_ne (key : Key k p q y) (c : ℤ) (hc : ¬ (p : ℤ) ∣ c) : ¬ c * y ≡ c [ZMOD (p : ℤ) * q] := by
  intro h
  have hp : Fact p.Prime := ⟨key.p_prime⟩
  have h1 : c * y ≡ c * 1 [ZMOD p] := by
    rw [mul_one]; exact h.of_mul_right _
  have h2 : ((c * y : ℤ) : ZMod p) = ((c * 1 : ℤ) : ZMod p) := (ZMod.intCast_eq_intCast_iff _ _ _).mpr h1
  have hc0 : (c : ZMod p) ≠ 0 := fun h => hc ((ZMod.intCast_zmod_eq_zero_iff_dvd _ _).mp h)
  rw [Int.cast_mul, Int.cast_mul, mul_right_inj' hc0] at h2
  exact key.y_p ⟨1, by rw [h2]; simp⟩

/-- C165 is false for every key: a receiver who decrypts everything that is not the ciphertext modulo
`N` gives its message away, with one answer.  The ciphertext is any number that is not divisible by
`p`. -/
theorem jl_chosen_ciphertext (key : Key k p q y) (c m : ℤ) (hc : ¬ (p : ℤ) ∣ c)
    (h : decrypt false c p y k = .ok m) :
    attackY y (p * q) k c (careful p y (p * q) k c) = some m := by
  obtain ⟨m', h1, h2, h3, h4⟩ := decrypt_mul_y key c hc
  rw [h1, Res.ok_inj] at h
  subst h
  have hne : ¬ c * y % ((p : ℤ) * q) % ((p : ℤ) * q) = c % ((p : ℤ) * q) := by
    rw [Int.emod_emod]; exact mul_y_ne key c hc
  have hd := h4 (c * y % ((p : ℤ) * q)) ((Int.mod_modEq _ _).of_mul_right _)
  simp only [attackY, careful, answer, hne, decide_false, Bool.false_eq_true, if_false, hd, Option.map_some,
    Option.some.injEq]
  rw [Int.emod_sub_emod, add_sub_cancel_right, Int.emod_eq_of_lt h2 h3]

/-- C165 for what `joye_libert_encrypt` gives. -/
theorem jl_chosen_ciphertext_encrypt (hk : k ≠ 0) (key : Key k p q y) (g : Env) (fuel : ℕ) (s s' : g.State) (m c : ℤ)
    (hm : 0 ≤ m ∧ m < 2 ^ k) (h : encrypt g fuel s m y (p * q) k = .ok (c, s')) (hc : ¬ (p : ℤ) ∣ c) :
    attackY y (p * q) k c (careful p y (p * q) k c) = some m :=
  jl_chosen_ciphertext key c m hc (jl_round_trip_partial hk key g fuel s s' m c hm h hc)

example : attackY 5 ((13 : ℕ) * (7 : ℕ)) 2 23 (careful (13 : ℕ) 5 ((13 : ℕ) * (7 : ℕ)) 2 23) = some 2 :=
  jl_chosen_ciphertext_encrypt (by decide) key13 (constEnv 3) 1 () () 2 23 (by decide)
    (by simp [encrypt, pickX, constEnv, powm, Gmp.mod, Int.reduceToNat]) (by decide)

/-- C165 is false without any condition on the ciphertext for a receiver who refuses only the number
itself: nothing checks that a ciphertext is below `N`. -/
theorem jl_chosen_ciphertext_range (hk : k ≠ 0) (key : Key k p q y) (c : ℤ) :
    ∃ m, decrypt false c p y k = .ok m ∧ attackN (p * q) c (receiver p y k c) = some m := by
  obtain ⟨m, h1, -, -, h2⟩ := jl_decrypt_any hk key c
  refine ⟨m, h1, ?_⟩
  have hpq : (p : ℤ) * q ≠ 0 := mul_ne_zero (by exact_mod_cast key.p_prime.ne_zero) (by exact_mod_cast key.q_prime.ne_zero)
  have hne : ¬ c + (p : ℤ) * q = c := by omega
  have hd := h2 (c + p * q) (by simp [Int.ModEq])
  simp only [attackN, receiver, answer, hne, decide_false, Bool.false_eq_true, if_false, hd]

example : ∃ m, decrypt false 23 (13 : ℕ) 5 2 = .ok m ∧
    attackN ((13 : ℕ) * (7 : ℕ)) 23 (receiver (13 : ℕ) 5 2 23) = some m :=
  jl_chosen_ciphertext_range (by decide) key13 23

/-- What answers tell about the key: two of them decide whether `p` divides a number. -/
theorem jl_answers_divide (hk : k ≠ 0) (key : Key k p q y) (x : ℤ) :
    decrypt false x p y k = decrypt false (x * y) p y k ↔ (p : ℤ) ∣ x := by
  constructor
  · intro h
    by_contra hx
    obtain ⟨m, h1, h2, h3, h4⟩ := decrypt_mul_y key x hx
    rw [h1, h4 _ rfl, Res.ok_inj] at h
    have h5 : (m + 1) % 2 ^ k = m % 2 ^ k := by rw [← h, Int.emod_eq_of_lt h2 h3]
    have h6 : (2 : ℤ) ^ k ∣ 1 := by
      have := Int.emod_emod_of_dvd (m + 1) (dvd_refl ((2 : ℤ) ^ k))
      have h7 := Int.ModEq.dvd (show m ≡ m + 1 [ZMOD 2 ^ k] from h5.symm)
      simpa using h7
    have h8 := Int.eq_one_of_dvd_one (by positivity) h6
    have h9 : (2 : ℤ) ∣ 2 ^ k := dvd_pow_self 2 hk
    omega
  · intro h
    obtain ⟨m, h1, -, -, h2⟩ := jl_decrypt_any hk key x
    rw [h1, h2 (x * y) ?_]
    exact (Int.modEq_zero_iff_dvd.mpr (h.mul_right y)).trans (Int.modEq_zero_iff_dvd.mpr h).symm

example : decrypt false 26 (13 : ℕ) 5 2 = decrypt false (26 * 5) (13 : ℕ) 5 2 :=
  (jl_answers_divide (by decide) key13 26).mpr (by decide)

end

/-! ### Labeled homomorphic encryption -/

/-- The receiver of labeled ciphertexts, who refuses the pair modulo `2^k` and `N`. -/
def carefulL (p y N : ℤ) (k : ℕ) (c x : LHE.HeCt) : Option ℤ :=
  answer (decide (x.a % 2 ^ k = c.a % 2 ^ k ∧ x.beta % N = c.beta % N)) (LHE.heDecrypt x p y k)

/-- The same for the multi-user code. -/
def carefulM (p y N : ℤ) (k : ℕ) (c x : MuLHE.HeCt) : Option ℤ :=
  answer (decide (x.a % 2 ^ k = c.a % 2 ^ k ∧ x.beta % N = c.beta % N)) (MuLHE.heDecrypt x p y k)

/-- The receiver of multiplication ciphertexts, who adds the label value `b`. -/
def carefulA (b p y N : ℤ) (k : ℕ) (c x : ℤ) : Option ℤ :=
  answer (decide (x % N = c % N)) (LHE.heDecryptA false false x b p y k)

def carefulAM (b p y N : ℤ) (k : ℕ) (c x : ℤ) : Option ℤ :=
  answer (decide (x % N = c % N)) (MuLHE.heDecryptA false false x b p y k)

/-- The attacker adds 1 to the first part of the ciphertext and needs no key at all. -/
def attackL (k : ℕ) (c : LHE.HeCt) (ask : LHE.HeCt → Option ℤ) : Option ℤ :=
  (ask ⟨(c.a + 1) % 2 ^ k, c.beta⟩).map fun m => (m - 1) % 2 ^ k

def attackM (k : ℕ) (c : MuLHE.HeCt) (ask : MuLHE.HeCt → Option ℤ) : Option ℤ :=
  (ask ⟨(c.a + 1) % 2 ^ k, c.beta⟩).map fun m => (m - 1) % 2 ^ k

theorem plus_one_ne {k : ℕ} (hk : k ≠ 0) (a : ℤ) : ¬ (a + 1) % 2 ^ k % 2 ^ k = a % 2 ^ k := by
  intro h
  rw [Int.emod_emod] at h
  have h6 : (2 : ℤ) ^ k ∣ 1 := by
    have h7 := Int.ModEq.dvd (show a ≡ a + 1 [ZMOD 2 ^ k] from h.symm)
    simpa using h7
  have h8 := Int.eq_one_of_dvd_one (by positivity) h6
  have h9 : (2 : ℤ) ∣ 2 ^ k := dvd_pow_self 2 hk
  omega

theorem shift_back {k : ℕ} (a b : ℤ) : ((((a + 1) % 2 ^ k + b) % 2 ^ k) - 1) % 2 ^ k = (a + b) % 2 ^ k := by
  rw [Int.emod_sub_emod, add_sub_assoc, Int.emod_add_emod]
  congr 1
  ring

/-- C165 is false for labeled ciphertexts, for all keys and all pairs. -/
theorem lhe_chosen_ciphertext {k : ℕ} (hk : k ≠ 0) (p y N m : ℤ) (c : LHE.HeCt) (h : LHE.heDecrypt c p y k = .ok m) :
    attackL k c (carefulL p y N k c) = some m := by
  rw [LHE.heDecrypt] at h
  obtain ⟨b, hb, h⟩ := Res.bind_eq_ok h
  rw [mod_ok (by positivity), Res.ok_inj] at h
  simp only [attackL, carefulL, answer, plus_one_ne hk, false_and, decide_false, Bool.false_eq_true, if_false, LHE.heDecrypt,
    hb, Res.ok_bind, mod_ok (show (2 : ℤ) ^ k ≠ 0 by positivity), Option.map_some, Option.some.injEq]
  rw [shift_back, h]

theorem mu_chosen_ciphertext {k : ℕ} (hk : k ≠ 0) (p y N m : ℤ) (c : MuLHE.HeCt) (h : MuLHE.heDecrypt c p y k = .ok m) :
    attackM k c (carefulM p y N k c) = some m := by
  rw [MuLHE.heDecrypt] at h
  obtain ⟨b, hb, h⟩ := Res.bind_eq_ok h
  rw [mod_ok (by positivity), Res.ok_inj] at h
  simp only [attackM, carefulM, answer, plus_one_ne hk, false_and, decide_false, Bool.false_eq_true, if_false, MuLHE.heDecrypt,
    hb, Res.ok_bind, mod_ok (show (2 : ℤ) ^ k ≠ 0 by positivity), Option.map_some, Option.some.injEq]
  rw [shift_back, h]

example : LHE.heDecrypt ⟨3, 81⟩ 13 5 2 = .ok 3 ∧ MuLHE.heDecrypt ⟨3, 81⟩ 13 5 2 = .ok 3 := by decide +kernel

/-- C165 is false for multiplication ciphertexts, for all keys, label values and numbers that `p` does not
divide. -/
theorem lhe_chosen_product {k p q : ℕ} {y : ℤ} (key : Key k p q y) (b c m : ℤ) (hc : ¬ (p : ℤ) ∣ c)
    (h : LHE.heDecryptA false false c b p y k = .ok m) :
    attackY y (p * q) k c (carefulA b p y (p * q) k c) = some m := by
  obtain ⟨m', h1, h2, h3, h4⟩ := decrypt_mul_y key c hc
  simp only [LHE.heDecryptA, h1, Res.ok_bind, Bool.false_eq_true, if_false, mod_ok (show (2 : ℤ) ^ k ≠ 0 by positivity),
    Res.ok_inj] at h
  have hne : ¬ c * y % ((p : ℤ) * q) % ((p : ℤ) * q) = c % ((p : ℤ) * q) := by
    rw [Int.emod_emod]; exact mul_y_ne key c hc
  have hd := h4 (c * y % ((p : ℤ) * q)) ((Int.mod_modEq _ _).of_mul_right _)
  simp only [attackY, carefulA, answer, hne, decide_false, Bool.false_eq_true, if_false, LHE.heDecryptA, hd, Res.ok_bind,
    mod_ok (show (2 : ℤ) ^ k ≠ 0 by positivity), Option.map_some, Option.some.injEq]
  rw [shift_back, h]

theorem mu_chosen_product {k p q : ℕ} {y : ℤ} (key : Key k p q y) (b c m : ℤ) (hc : ¬ (p : ℤ) ∣ c)
    (h : MuLHE.heDecryptA false false c b p y k = .ok m) :
    attackY y (p * q) k c (carefulAM b p y (p * q) k c) = some m := by
  obtain ⟨m', h1, h2, h3, h4⟩ := decrypt_mul_y key c hc
  simp only [MuLHE.heDecryptA, h1, Res.ok_bind, Bool.false_eq_true, if_false, mod_ok (show (2 : ℤ) ^ k ≠ 0 by positivity),
    Res.ok_inj] at h
  have hne : ¬ c * y % ((p : ℤ) * q) % ((p : ℤ) * q) = c % ((p : ℤ) * q) := by
    rw [Int.emod_emod]; exact mul_y_ne key c hc
  have hd := h4 (c * y % ((p : ℤ) * q)) ((Int.mod_modEq _ _).of_mul_right _)
  simp only [attackY, carefulAM, answer, hne, decide_false, Bool.false_eq_true, if_false, MuLHE.heDecryptA, hd, Res.ok_bind,
    mod_ok (show (2 : ℤ) ^ k ≠ 0 by positivity), Option.map_some, Option.some.injEq]
  rw [shift_back, h]

example : Key 2 13 7 5 ∧ ¬ ((13 : ℕ) : ℤ) ∣ 33 ∧ LHE.heDecryptA false false 33 0 (13 : ℕ) 5 2 = .ok 3 ∧
    MuLHE.heDecryptA false false 33 0 (13 : ℕ) 5 2 = .ok 3 := ⟨key13, by decide, by decide +kernel, by decide +kernel⟩

end CT.Props.ChosenCiphertext
