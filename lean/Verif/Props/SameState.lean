import Verif.Props.JLAny
import Verif.Props.JLTermination
import Verif.Props.MuLabeledHE
import Verif.Props.LabeledHE

/-!
# C166: encryptions from one state of the random number generator

All example programs prepare the generator with `gmp_randinit_mt` and never seed it, so every run of a program starts
from the same state, which everybody can have.
-/

namespace CT.Props.SameState
open CT.JL CT.Gmp CT.Spec.JL CT.Props.JoyeLibert CT.Props.JLAny

/-- What somebody does who has a state of the generator: encrypts all messages. -/
def guess (g : Env) (fuel : ℕ) (s : g.State) (y N : ℤ) (k : ℕ) (c : ℤ) : Option ℕ :=
  (List.range (2 ^ k)).find? fun m => match encrypt g fuel s m y N k with
    | .ok (c', _) => c' == c
    | .ub _ => false

/-- What somebody does who knows nothing of the generator, but the message of the first ciphertext. -/
def compare (y N : ℤ) (k : ℕ) (c₁ m₁ c₂ : ℤ) : Option ℕ :=
  (List.range (2 ^ k)).find? fun m => c₁ * y ^ m % N == c₂ * y ^ m₁.toNat % N

theorem find_range {n m : ℕ} {P : ℕ → Bool} (hm : m < n) (h : ∀ j, j < n → (P j = true ↔ j = m)) :
    (List.range n).find? P = some m := by
  rw [List.find?_range_eq_some]
  refine ⟨(h m hm).mpr rfl, List.mem_range.mpr hm, fun j hj => ?_⟩
  have := (h j (by omega)).mp.mt (by omega)
  simpa using this

section
variable {k p q : ℕ} {y : ℤ}

theorem modulus_pos (key : Key k p q y) : (0 : ℤ) < (p : ℤ) * q := by
  have := key.p_prime.pos; have := key.q_prime.pos; positivity

/-- Encryption with the draw `x`. -/
theorem encrypt_draw (key : Key k p q y) (g : Env) {fuel : ℕ} {s s' : g.State} {m c : ℤ} (hm : 0 ≤ m)
    (h : encrypt g fuel s m y (p * q) k = .ok (c, s')) :
    ∃ x, pickX g (p * q) fuel s = .ok (x, s') ∧ c = (y ^ m.toNat * x ^ 2 ^ k) % (p * q) ∧
      ∀ a : ℤ, 0 ≤ a → encrypt g fuel s a y (p * q) k = .ok ((y ^ a.toNat * x ^ 2 ^ k) % (p * q), s') := by
  have hpos := modulus_pos key
  have h' := h
  rw [encrypt] at h
  obtain ⟨⟨x, s1⟩, h1, h⟩ := Res.bind_eq_ok h
  simp only [powm_two_pow hpos.ne', powm_nonneg hpos.ne' hm, mod_ok hpos.ne', Res.ok_bind, Res.pure_eq, Res.ok_inj, Prod.mk.injEq] at h
  obtain ⟨hcc, rfl⟩ := h
  refine ⟨x, h1, by rw [← hcc, ← Int.mul_emod], fun a ha => ?_⟩
  rw [encrypt, h1, Res.ok_bind]
  simp only [powm_two_pow hpos.ne', powm_nonneg hpos.ne' ha, mod_ok hpos.ne', Res.ok_bind, Res.pure_eq]
  rw [← Int.mul_emod]

theorem encrypt_fuel (g : Env) {f f' : ℕ} {s : g.State} {m N : ℤ} {r : ℤ × g.State} (hf : f ≤ f')
    (h : encrypt g f s m y N k = .ok r) : encrypt g f' s m y N k = .ok r := by
  rw [encrypt] at h ⊢
  obtain ⟨x, h1, h⟩ := Res.bind_eq_ok h
  rw [JLTermination.pickX_mono g hf h1, Res.ok_bind]
  exact h

/-- C166: two ciphertexts from one state satisfy a relation that does not depend on what was drawn, and
leave the generator in one state. -/
theorem jl_same_state_relation (key : Key k p q y) (g : Env) (fuel fuel' : ℕ) (s s₁ s₂ : g.State) (m₁ m₂ c₁ c₂ : ℤ)
    (hm₁ : 0 ≤ m₁) (hm₂ : 0 ≤ m₂) (h₁ : encrypt g fuel s m₁ y (p * q) k = .ok (c₁, s₁))
    (h₂ : encrypt g fuel' s m₂ y (p * q) k = .ok (c₂, s₂)) :
    s₁ = s₂ ∧ c₁ * y ^ m₂.toNat ≡ c₂ * y ^ m₁.toNat [ZMOD (p : ℤ) * q] := by
  have h1 := encrypt_fuel g (le_max_left fuel fuel') h₁
  have h2 := encrypt_fuel g (le_max_right fuel fuel') h₂
  obtain ⟨x, -, e1, hx⟩ := encrypt_draw key g hm₁ h1
  rw [hx m₂ hm₂, Res.ok_inj, Prod.mk.injEq] at h2
  refine ⟨h2.2, ?_⟩
  rw [e1, ← h2.1]
  refine ((Int.mod_modEq _ _).mul_right _).trans (Int.ModEq.trans ?_ ((Int.mod_modEq _ _).mul_right _).symm)
  rw [show y ^ m₁.toNat * x ^ 2 ^ k * y ^ m₂.toNat = y ^ m₂.toNat * x ^ 2 ^ k * y ^ m₁.toNat by ring]

/-- From one state the ciphertext determines the message. -/
theorem encrypt_inj (hk : k ≠ 0) (key : Key k p q y) (g : Env) {f : ℕ} {s s' : g.State} {m a c : ℤ} {r : ℤ × g.State}
    (hm : 0 ≤ m ∧ m < 2 ^ k) (ha : 0 ≤ a ∧ a < 2 ^ k) (h : encrypt g f s m y (p * q) k = .ok (c, s'))
    (h' : encrypt g f s a y (p * q) k = .ok r) (hc : ¬ (p : ℤ) ∣ c) (e : r.1 ≡ c [ZMOD p]) : a = m := by
  have d1 := jl_round_trip_partial hk key g f s s' m c hm h hc
  have hr : ¬ (p : ℤ) ∣ r.1 := fun hd => hc ((Int.ModEq.dvd_iff e).mp hd)
  have d2 := jl_round_trip_partial hk key g f s r.2 a r.1 ha h' hr
  obtain ⟨m', h1, -, -, h2⟩ := jl_decrypt_any hk key c
  rw [h2 _ e, Res.ok_inj] at d2
  rw [h1, Res.ok_inj] at d1
  rw [← d1, ← d2]

/-- C166 is false for every key and generator: from one state, equal messages and only they have equal
ciphertexts. -/
theorem jl_same_state_equal (hk : k ≠ 0) (key : Key k p q y) (g : Env) (fuel fuel' : ℕ) (s s₁ s₂ : g.State)
    (m₁ m₂ c₁ c₂ : ℤ) (hm₁ : 0 ≤ m₁ ∧ m₁ < 2 ^ k) (hm₂ : 0 ≤ m₂ ∧ m₂ < 2 ^ k)
    (h₁ : encrypt g fuel s m₁ y (p * q) k = .ok (c₁, s₁)) (h₂ : encrypt g fuel' s m₂ y (p * q) k = .ok (c₂, s₂))
    (hc : ¬ (p : ℤ) ∣ c₁) : c₁ = c₂ ↔ m₁ = m₂ := by
  have h1 := encrypt_fuel g (le_max_left fuel fuel') h₁
  have h2 := encrypt_fuel g (le_max_right fuel fuel') h₂
  constructor
  · rintro rfl
    exact (encrypt_inj hk key g hm₁ hm₂ h1 h2 hc rfl).symm
  · rintro rfl
    rw [h1, Res.ok_inj, Prod.mk.injEq] at h2
    exact h2.1

/-- C166 is false for every key and generator: the message of one ciphertext gives that of another from the
same state, with the public key alone. -/
theorem jl_same_state_opens (hk : k ≠ 0) (key : Key k p q y) (g : Env) (fuel fuel' : ℕ) (s s₁ s₂ : g.State)
    (m₁ m₂ c₁ c₂ : ℤ) (hm₁ : 0 ≤ m₁) (hm₂ : 0 ≤ m₂ ∧ m₂ < 2 ^ k)
    (h₁ : encrypt g fuel s m₁ y (p * q) k = .ok (c₁, s₁)) (h₂ : encrypt g fuel' s m₂ y (p * q) k = .ok (c₂, s₂))
    (hc : ¬ (p : ℤ) ∣ c₂) : compare y (p * q) k c₁ m₁ c₂ = some m₂.toNat := by
  have hp : Fact p.Prime := ⟨key.p_prime⟩
  have hrel := (jl_same_state_relation key g fuel fuel' s s₁ s₂ m₁ m₂ c₁ c₂ hm₁ hm₂.1 h₁ h₂).2
  have h1 := encrypt_fuel g (le_max_left fuel fuel') h₁
  have h2 := encrypt_fuel g (le_max_right fuel fuel') h₂
  obtain ⟨x, -, e1, hx⟩ := encrypt_draw key g hm₁ h1
  have hlt : m₂.toNat < 2 ^ k := by
    have := hm₂.2
    have h3 : ((2 ^ k : ℕ) : ℤ) = 2 ^ k := by push_cast; rfl
    omega
  refine find_range hlt fun j hj => ?_
  rw [beq_iff_eq]
  constructor
  · intro e
    have hj' : (j : ℤ) < 2 ^ k := by exact_mod_cast hj
    have h3 := hx j (Int.natCast_nonneg j)
    have hy : ((y : ℤ) : ZMod p) ≠ 0 := by
      intro h0
      exact key.y_p (by rw [h0]; exact ⟨0, by simp⟩)
    have e2 : (c₁ : ℤ) * y ^ j ≡ c₂ * y ^ m₁.toNat [ZMOD p] := Int.ModEq.of_mul_right (q : ℤ) e
    have e3 : c₁ ≡ y ^ m₁.toNat * x ^ 2 ^ k [ZMOD p] := by
      rw [e1]; exact Int.ModEq.of_mul_right (q : ℤ) (Int.mod_modEq _ _)
    have e4 : y ^ j * x ^ 2 ^ k ≡ c₂ [ZMOD p] := by
      have e5 := (e3.symm.mul_right (y ^ j)).trans e2
      rw [← ZMod.intCast_eq_intCast_iff] at e5 ⊢
      push_cast at e5 ⊢
      have h6 : (y : ZMod p) ^ m₁.toNat ≠ 0 := pow_ne_zero _ hy
      apply mul_right_cancel₀ h6
      rw [← e5]; ring
    have := encrypt_inj hk key g hm₂ ⟨Int.natCast_nonneg j, hj'⟩ h2 h3 hc
      ((Int.ModEq.of_mul_right (q : ℤ) (Int.mod_modEq _ _)).trans (by simpa using e4))
    omega
  · rintro rfl
    exact hrel

/-- C166 is false for every key and generator: who has the state of the generator has the message. -/
theorem jl_state_opens (hk : k ≠ 0) (key : Key k p q y) (g : Env) (fuel fuel' : ℕ) (hf : fuel ≤ fuel') (s s' : g.State)
    (m c : ℤ) (hm : 0 ≤ m ∧ m < 2 ^ k) (h : encrypt g fuel s m y (p * q) k = .ok (c, s')) (hc : ¬ (p : ℤ) ∣ c) :
    guess g fuel' s y (p * q) k c = some m.toNat := by
  have h1 := encrypt_fuel g hf h
  obtain ⟨x, -, e1, hx⟩ := encrypt_draw key g hm.1 h1
  have hlt : m.toNat < 2 ^ k := by
    have := hm.2
    have h3 : ((2 ^ k : ℕ) : ℤ) = 2 ^ k := by push_cast; rfl
    omega
  refine find_range hlt fun j hj => ?_
  have hj' : (j : ℤ) < 2 ^ k := by exact_mod_cast hj
  have h3 := hx j (Int.natCast_nonneg j)
  rw [h3]
  change (_ == c) = true ↔ _
  rw [beq_iff_eq]
  constructor
  · intro e
    have := encrypt_inj hk key g hm ⟨Int.natCast_nonneg j, hj'⟩ h1 h3 hc (by rw [e])
    omega
  · rintro rfl
    rw [e1, Int.toNat_natCast]

end

theorem enc13 (m c : ℤ) (h : (m, c) = (2, 23) ∨ (m, c) = (0, 81)) :
    encrypt (constEnv 3) 1 () m 5 ((13 : ℕ) * (7 : ℕ)) 2 = .ok (c, ()) := by
  rcases h with h | h <;> obtain ⟨rfl, rfl⟩ := Prod.mk.inj h <;>
    simp [encrypt, pickX, constEnv, powm, Gmp.mod, Int.reduceToNat]

example : (81 : ℤ) * 5 ^ (2 : ℤ).toNat ≡ 23 * 5 ^ (0 : ℤ).toNat [ZMOD ((13 : ℕ) : ℤ) * (7 : ℕ)] :=
  (jl_same_state_relation key13 (constEnv 3) 1 1 () () () 0 2 81 23 (by decide) (by decide)
    (enc13 _ _ (.inr rfl)) (enc13 _ _ (.inl rfl))).2

example : (81 : ℤ) = 23 ↔ (0 : ℤ) = 2 :=
  jl_same_state_equal (by decide) key13 (constEnv 3) 1 1 () () () 0 2 81 23 (by decide) (by decide)
    (enc13 _ _ (.inr rfl)) (enc13 _ _ (.inl rfl)) (by decide)

example : compare 5 ((13 : ℕ) * (7 : ℕ)) 2 81 0 23 = some 2 :=
  jl_same_state_opens (by decide) key13 (constEnv 3) 1 1 () () () 0 2 81 23 (by decide) (by decide)
    (enc13 _ _ (.inr rfl)) (enc13 _ _ (.inl rfl)) (by decide)

example : guess (constEnv 3) 1 () 5 ((13 : ℕ) * (7 : ℕ)) 2 23 = some 2 :=
  jl_state_opens (by decide) key13 (constEnv 3) 1 1 le_rfl () () 2 23 (by decide) (enc13 _ _ (.inl rfl)) (by decide)

/-! ### Labeled homomorphic encryption -/

/-- From the label value to the message. -/
def guessL (g : Env) (fuel : ℕ) (s : g.State) (y N : ℤ) (k : ℕ) (a beta : ℤ) : Option ℤ :=
  (guess g fuel s y N k beta).map fun b : ℕ => (a + (b : ℤ)) % 2 ^ k

theorem le_words {n k : ℕ} (h : n = k / 32) : 2 ^ (32 * n) ≤ 2 ^ k :=
  Nat.pow_le_pow_right (by decide) (by omega)

theorem lhe_words : ∀ (n : ℕ) (bs : List U8) (acc : ℕ), LHE.importWords n bs acc < (acc + 1) * 2 ^ (32 * n)
  | 0, _, acc => by simp [LHE.importWords]
  | n + 1, bs, acc => by
    rw [LHE.importWords]
    refine lt_of_lt_of_le (lhe_words n _ _) ?_
    have := (le32 (bs.getD 0 0) (bs.getD 1 0) (bs.getD 2 0) (bs.getD 3 0)).isLt
    rw [Nat.mul_succ, Nat.pow_add, Nat.mul_comm (2 ^ (32 * n)), ← Nat.mul_assoc]
    exact Nat.mul_le_mul_right _ (by omega)

theorem mu_words : ∀ (n : ℕ) (bs : List U8) (acc : ℕ), MuLHE.importWords n bs acc < (acc + 1) * 2 ^ (32 * n)
  | 0, _, acc => by simp [MuLHE.importWords]
  | n + 1, bs, acc => by
    rw [MuLHE.importWords]
    refine lt_of_lt_of_le (mu_words n _ _) ?_
    have := (le32 (bs.getD 0 0) (bs.getD 1 0) (bs.getD 2 0) (bs.getD 3 0)).isLt
    rw [Nat.mul_succ, Nat.pow_add, Nat.mul_comm (2 ^ (32 * n)), ← Nat.mul_assoc]
    exact Nat.mul_le_mul_right _ (by omega)

theorem lhe_label_range {hc hc' : HC128.State} {junk : List U8} {label b : ℤ} {k : ℕ}
    (h : LHE.labelValue hc junk label k = .ok (b, hc')) : 0 ≤ b ∧ b < 2 ^ k := by
  rw [LHE.labelValue] at h
  split at h
  · simp at h
  · obtain ⟨⟨hc1, io⟩, -, h⟩ := Res.bind_eq_ok h
    simp only [Res.pure_eq, Res.ok_inj, Prod.mk.injEq] at h
    rw [← h.1]
    have h1 := lhe_words (k / 32) io.out 0
    have h2 := le_words (rfl : k / 32 = k / 32)
    refine ⟨Int.natCast_nonneg _, ?_⟩
    have : LHE.importWords (k / 32) io.out 0 < 2 ^ k := by omega
    exact_mod_cast this

theorem mu_label_range {hc hc' : HC128.State} {junk : List U8} {label b : ℤ} {k : ℕ}
    (h : MuLHE.labelValue hc junk label k = .ok (b, hc')) : 0 ≤ b ∧ b < 2 ^ k := by
  rw [MuLHE.labelValue] at h
  split at h
  · simp at h
  · obtain ⟨⟨hc1, io⟩, -, h⟩ := Res.bind_eq_ok h
    simp only [Res.pure_eq, Res.ok_inj, Prod.mk.injEq] at h
    rw [← h.1]
    have h1 := mu_words (k / 32) io.out 0
    have h2 := le_words (rfl : k / 32 = k / 32)
    refine ⟨Int.natCast_nonneg _, ?_⟩
    have : MuLHE.importWords (k / 32) io.out 0 < 2 ^ k := by omega
    exact_mod_cast this

theorem unmask {m a b : ℤ} {k : ℕ} (hm : 0 ≤ m ∧ m < 2 ^ k) (ha : a = (m - b) % 2 ^ k) : (a + b) % 2 ^ k = m := by
  rw [ha, Int.emod_add_emod, sub_add_cancel, Int.emod_eq_of_lt hm.1 hm.2]

/-- C166 is false for labeled encryption: the state of the generator gives the message, without the secret
key, the key of the cipher and the label. -/
theorem lhe_state_opens {k p q : ℕ} {y : ℤ} (hk : k ≠ 0) (key : Key k p q y) (g : Env) (fuel fuel' : ℕ) (hf : fuel ≤ fuel')
    (s s' : g.State) (hc hc' : HC128.State) (junk : List U8) (m label b : ℤ) (ct : LHE.HeCt) (hm : 0 ≤ m ∧ m < 2 ^ k)
    (h : LHE.heEncrypt g fuel s hc junk m y (p * q) label k = .ok (ct, b, hc', s')) (hb : ¬ (p : ℤ) ∣ ct.beta) :
    guessL g fuel' s y (p * q) k ct.a ct.beta = some m := by
  obtain ⟨h1, h2, h3⟩ := LHE.heEncrypt_split g h
  have hr := lhe_label_range h1
  rw [guessL, jl_state_opens hk key g fuel fuel' hf s s' b ct.beta hr h2 hb, Option.map_some, Int.toNat_of_nonneg hr.1,
    unmask hm h3]

theorem mu_state_opens {k p q : ℕ} {y : ℤ} (hk : k ≠ 0) (key : Key k p q y) (g : Env) (fuel fuel' : ℕ) (hf : fuel ≤ fuel')
    (s s' : g.State) (hc hc' : HC128.State) (junk : List U8) (m label b : ℤ) (ct : MuLHE.HeCt) (hm : 0 ≤ m ∧ m < 2 ^ k)
    (h : MuLHE.heEncrypt g fuel s hc junk m y (p * q) label k = .ok (ct, b, hc', s')) (hb : ¬ (p : ℤ) ∣ ct.beta) :
    guessL g fuel' s y (p * q) k ct.a ct.beta = some m := by
  obtain ⟨h1, h2, h3⟩ := MuLHE.heEncrypt_split g h
  have hr := mu_label_range h1
  rw [guessL, jl_state_opens hk key g fuel fuel' hf s s' b ct.beta hr h2 hb, Option.map_some, Int.toNat_of_nonneg hr.1,
    unmask hm h3]

/-- Message 3 with label 0 and two-bit messages, coin 3. -/
example (hc : HC128.State) : guessL (constEnv 3) 1 () 5 ((13 : ℕ) * (7 : ℕ)) 2 3 81 = some 3 :=
  lhe_state_opens (by decide) key13 (constEnv 3) 1 1 le_rfl () () hc hc [] 3 0 0 ⟨3, 81⟩ (by decide)
    (CT.Props.LHE.encrypt_small hc 3 3 81 (enc13 _ _ (.inr rfl))) (by decide)

example (hc : HC128.State) : guessL (constEnv 3) 1 () 5 ((13 : ℕ) * (7 : ℕ)) 2 3 81 = some 3 :=
  mu_state_opens (by decide) key13 (constEnv 3) 1 1 le_rfl () () hc hc [] 3 0 0 ⟨3, 81⟩ (by decide)
    (CT.Props.MuLHE.encrypt_small hc 3 3 81 (enc13 _ _ (.inr rfl))) (by decide)

/-- C166 is false for the users' keys: two users whose generators are in one state, as after `gmp_randinit_mt`,
get one secret key, and anybody with that state computes it by a single draw. -/
theorem mu_users_share_key (g : Env) (fuel fuel' k k' : ℕ) (s s₁ s₂ : g.State) (N y N' y' upk₁ usk₁ upk₂ usk₂ : ℤ)
    (h₁ : MuLHE.muKeygen g fuel s N y k = .ok ((upk₁, usk₁), s₁))
    (h₂ : MuLHE.muKeygen g fuel' s N' y' k' = .ok ((upk₂, usk₂), s₂)) :
    usk₁ = usk₂ ∧ usk₁ = (g.urandomb s 128).1 := by
  rw [MuLHE.muKeygen] at h₁ h₂
  obtain ⟨r1, -, h₁⟩ := Res.bind_eq_ok h₁
  obtain ⟨r2, -, h₂⟩ := Res.bind_eq_ok h₂
  simp only [Res.pure_eq, Res.ok_inj, Prod.mk.injEq] at h₁ h₂
  exact ⟨h₁.1.2.symm.trans h₂.1.2, h₁.1.2.symm⟩

/-- With messages of two bits, secret key 2. -/
example : MuLHE.muKeygen (constEnv 3 2) 1 () ((13 : ℕ) * (7 : ℕ)) 5 2 = .ok ((23, 2), ()) := by
  simp [MuLHE.muKeygen, encrypt, pickX, constEnv, powm, Gmp.mod, Int.reduceToNat]

end CT.Props.SameState
