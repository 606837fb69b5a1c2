import Verif.Proof.LabeledHE
import Verif.Proof.JLKeys
import Verif.Props.JoyeLibert
import Verif.Proof.HC128
import Verif.Proof.HC128Fast
import Verif.Props.HC128

/-!
# Labeled homomorphic encryption properties (C56 - C59, C73, C74)
-/

namespace CT.Props.LHE
open CT.LHE CT.JL CT.Gmp CT.Spec.JL CT.Props.JoyeLibert

/-! ## Fresh ciphertexts (C56) -/

/-- C56, exact outcome: a fresh ciphertext decrypts to the message modulo `2^k`, unless its `beta` is a
multiple of `p`; then it decrypts to `m - b - 1` modulo `2^k`, where `b` is the label value. -/
theorem lhe_fresh_exact {k p q : ℕ} {y : ℤ} (hk : k ≠ 0) (key : Key k p q y) (g : Env) (fuel : ℕ)
    (s s' : g.State) (hc hc' : HC128.State) (junk : List U8) (m label b : ℤ) (ct : HeCt)
    (h : heEncrypt g fuel s hc junk m y (p * q) label k = .ok (ct, b, hc', s')) :
    heDecrypt ct p y k = .ok (if (p : ℤ) ∣ ct.beta then (m - b - 1) % 2 ^ k else m % 2 ^ k) := by
  obtain ⟨-, h2, h3⟩ := heEncrypt_split g h
  have hd := jl_round_trip_exact hk key g fuel s s' b ct.beta h2
  simp only [heDecrypt, hd, Res.ok_bind, mod_ok two_ne, h3]
  congr 1
  by_cases hb : (p : ℤ) ∣ ct.beta
  · rw [if_pos hb, if_pos hb, Int.emod_add_emod,
      show m - b + (2 ^ k - 1) = m - b - 1 + 2 ^ k by ring, Int.add_emod_right]
  · rw [if_neg hb, if_neg hb, Int.emod_add_emod, Int.add_emod_emod, show m - b + b = m by ring]

/-- C56, the part that holds: a message in `[0, 2^k)` is recovered from its fresh ciphertext if `beta`
is not a multiple of `p`, whatever the label, the cipher state, the uninitialised memory and the
random numbers.  Missing from the full statement: `beta` a multiple of `p`
(`lhe_fresh_refuted`). -/
theorem lhe_fresh_partial {k p q : ℕ} {y : ℤ} (hk : k ≠ 0) (key : Key k p q y) (g : Env) (fuel : ℕ)
    (s s' : g.State) (hc hc' : HC128.State) (junk : List U8) (m label b : ℤ) (ct : HeCt)
    (hm : 0 ≤ m ∧ m < 2 ^ k)
    (h : heEncrypt g fuel s hc junk m y (p * q) label k = .ok (ct, b, hc', s'))
    (hp : ¬ (p : ℤ) ∣ ct.beta) : heDecrypt ct p y k = .ok m := by
  rw [lhe_fresh_exact hk key g fuel s s' hc hc' junk m label b ct h, if_neg hp,
    Int.emod_eq_of_lt hm.1 hm.2]

/-- Encryption of label 0 with two-bit messages: the array is empty and the label value 0. -/
theorem encrypt_small (hc : HC128.State) (x m : ℤ) (c : ℤ)
    (he : JL.encrypt (constEnv x) 1 () 0 5 ((13 : ℕ) * (7 : ℕ)) 2 = .ok (c, ())) :
    heEncrypt (constEnv x) 1 () hc [] m 5 ((13 : ℕ) * (7 : ℕ)) 0 2 =
      .ok (⟨m % 4, c⟩, 0, hc, ()) := by
  have : labelValue hc [] 0 2 = .ok (0, hc) := by
    simp [labelValue, exportBytes, HC128.processPacket, importWords]
  simp only [heEncrypt, this, he, Res.ok_bind, Gmp.mod]
  simp

/-- The hypotheses are met: 32-bit messages, a label of four bytes, coin 1 (and any state). -/
example (hc : HC128.State) : ∃ ct b hc', Key 32 184683593729 7 3 ∧ (0 ≤ (10 : ℤ) ∧ (10 : ℤ) < 2 ^ 32) ∧
    heEncrypt (constEnv 1) 1 () hc [1, 2, 3, 4] 10 3 ((184683593729 : ℕ) * (7 : ℕ)) 16777217 32 =
      .ok (ct, b, hc', ()) ∧ ¬ ((184683593729 : ℕ) : ℤ) ∣ ct.beta := by
  have hb : exportBytes 16777217 = [1, 0, 0, 1] := by simp [exportBytes]
  obtain ⟨b, hc', hv⟩ : ∃ b hc', labelValue hc [1, 2, 3, 4] 16777217 32 = .ok (b, hc') :=
    ⟨_, _, labelValue_eq hc _ _ _ (by rw [hb]; decide) (by decide) (by decide)⟩
  have := key32.neZero
  obtain ⟨Y, hY⟩ := key32.unit
  have hp : pickX (constEnv 1) ((184683593729 * 7 : ℕ) : ℤ) 1 () = .ok (1, ()) := rfl
  obtain ⟨c, he⟩ := encrypt_total (k := 32) (constEnv 1) hY b hp
  obtain ⟨x, h1, h2, -⟩ := encrypt_spec (constEnv 1) hY he
  rw [hp, Res.ok_inj] at h1
  obtain rfl : 1 = x := (Prod.mk.inj h1).1
  refine ⟨⟨(10 - b) % 2 ^ 32, c⟩, b, hc', key32, by decide, ?_, ?_⟩
  · rw [Nat.cast_mul] at he
    simp only [heEncrypt, hv, he, Res.ok_bind, mod_ok two_ne, Res.pure_eq]
  · rw [dvd_cipher key32.p_prime (Dvd.intro 7 rfl) h2]; decide

/-- C56 is false: message 1 encrypted with the coin 13 = `p` decrypts to 0. -/
theorem lhe_fresh_refuted :
    ¬ ∀ (k p q : ℕ) (y : ℤ) (_ : Key k p q y) (g : Env) (fuel : ℕ) (s s' : g.State)
      (hc hc' : HC128.State) (junk : List U8) (m label b : ℤ) (ct : HeCt), 0 ≤ m ∧ m < 2 ^ k →
      heEncrypt g fuel s hc junk m y (p * q) label k = .ok (ct, b, hc', s') →
      heDecrypt ct p y k = .ok m := by
  intro h
  have e : JL.encrypt (constEnv 13) 1 () 0 5 ((13 : ℕ) * (7 : ℕ)) 2 = .ok (78, ()) := by
    simp [encrypt, pickX, constEnv, powm, Gmp.mod]
  have := h 2 13 7 5 key13 (constEnv 13) 1 () () (HC128.init [] []) _ [] 1 0 0 _ (by decide)
    (encrypt_small _ 13 1 78 e)
  revert this
  decide +kernel

/-! ## Linear maps (C57) -/

/-- The ciphertexts `(a, beta)` a user can make under a key: encrypted with a `beta` coprime to `N`, or
computed from others; with the message and the label value they stand for. -/
inductive Ct (k p q : ℕ) (y : ℤ) : HeCt → ℤ → ℤ → Prop where
  | fresh (g : Env) (fuel : ℕ) (s s' : g.State) (hc hc' : HC128.State) (junk : List U8) (m label b : ℤ)
      (ct : HeCt) (h : heEncrypt g fuel s hc junk m y (p * q) label k = .ok (ct, b, hc', s'))
      (hco : IsCoprime ct.beta ((p : ℤ) * q)) : Ct k p q y ct m b
  | add {c1 c2 c : HeCt} {m1 m2 b1 b2 : ℤ} (h1 : Ct k p q y c1 m1 b1) (h2 : Ct k p q y c2 m2 b2)
      (h : evalAdd c1 c2 (p * q) k = .ok c) : Ct k p q y c (m1 + m2) (b1 + b2)
  | sub {c1 c2 c : HeCt} {m1 m2 b1 b2 : ℤ} (h1 : Ct k p q y c1 m1 b1) (h2 : Ct k p q y c2 m2 b2)
      (h : evalSub c1 c2 (p * q) k = .ok c) : Ct k p q y c (m1 - m2) (b1 - b2)
  | cmult {c1 c : HeCt} {m1 b1 : ℤ} (h1 : Ct k p q y c1 m1 b1) (t : ℤ)
      (h : evalCmult c1 t (p * q) k = .ok c) : Ct k p q y c (t * m1) (t * b1)

theorem ct_rep {k p q : ℕ} {y : ℤ} (key : Key k p q y) {Y : (ZMod (p * q))ˣ}
    (hY : (Y : ZMod (p * q)) = y) {ct : HeCt} {m b : ℤ} (h : Ct k p q y ct m b) : Rep k Y ct m b := by
  have := key.neZero
  have hcast : ((p * q : ℕ) : ℤ) = (p : ℤ) * q := by push_cast; rfl
  induction h with
  | fresh g fuel s s' hc hc' junk m label b ct h hco => exact heEncrypt_rep key g hY h hco
  | add h1 h2 h i1 i2 =>
    obtain ⟨c, e1, e2⟩ := evalAdd_rep i1 i2
    rw [hcast, h, Res.ok_inj] at e1
    exact e1 ▸ e2
  | sub h1 h2 h i1 i2 =>
    obtain ⟨c, e1, e2⟩ := evalSub_rep i1 i2
    rw [hcast, h, Res.ok_inj] at e1
    exact e1 ▸ e2
  | cmult h1 t h i1 =>
    obtain ⟨c, e1, e2⟩ := evalCmult_rep i1 t
    rw [hcast, h, Res.ok_inj] at e1
    exact e1 ▸ e2

/-- C57, the part that holds: every ciphertext made by sums, differences and constant multiples (also
negative ones) from fresh ciphertexts with `beta` coprime to `N` decrypts to the value computed on
the messages modulo `2^k`.  Missing from the full statement: fresh ciphertexts with `beta` not coprime
to `N` (`lhe_linear_refuted`). -/
theorem lhe_linear_partial {k p q : ℕ} {y : ℤ} (key : Key k p q y) {ct : HeCt} {m b : ℤ}
    (h : Ct k p q y ct m b) : heDecrypt ct p y k = .ok (m % 2 ^ k) := by
  obtain ⟨Y, hY⟩ := key.unit
  exact heDecrypt_rep key hY (ct_rep key hY h)

/-- The operations always have a defined result on such ciphertexts, in `[0, 2^k) × [0, N)`. -/
theorem lhe_linear_total {k p q : ℕ} {y : ℤ} (key : Key k p q y) {c1 c2 : HeCt} {m1 b1 m2 b2 : ℤ}
    (h1 : Ct k p q y c1 m1 b1) (h2 : Ct k p q y c2 m2 b2) (t : ℤ) :
    (∃ c, evalAdd c1 c2 (p * q) k = .ok c) ∧ (∃ c, evalSub c1 c2 (p * q) k = .ok c) ∧
      (∃ c, evalCmult c1 t (p * q) k = .ok c) := by
  have := key.neZero
  obtain ⟨Y, hY⟩ := key.unit
  have hcast : ((p * q : ℕ) : ℤ) = (p : ℤ) * q := by push_cast; rfl
  obtain ⟨a, a1, -⟩ := evalAdd_rep (ct_rep key hY h1) (ct_rep key hY h2)
  obtain ⟨b, b1, -⟩ := evalSub_rep (ct_rep key hY h1) (ct_rep key hY h2)
  obtain ⟨c, c1, -⟩ := evalCmult_rep (ct_rep key hY h1) t
  rw [hcast] at a1 b1 c1
  exact ⟨⟨a, a1⟩, ⟨b, b1⟩, ⟨c, c1⟩⟩

theorem enc_small3 : JL.encrypt (constEnv 3) 1 () 0 5 ((13 : ℕ) * (7 : ℕ)) 2 = .ok (81, ()) := by
  simp [encrypt, pickX, constEnv, powm, Gmp.mod, Int.reduceToNat]

theorem ct_small (m : ℤ) : Ct 2 13 7 5 ⟨m % 4, 81⟩ m 0 :=
  Ct.fresh (constEnv 3) 1 () () (HC128.init [] []) _ [] m 0 0 _ (encrypt_small _ 3 m 81 enc_small3)
    ⟨9, -8, by norm_num⟩

/-- The hypotheses are met: `2*c1 - c2` for fresh encryptions of 3 and 1. -/
example : ∃ ct b, Key 2 13 7 5 ∧ Ct 2 13 7 5 ct (2 * 3 - 1) b ∧ heDecrypt ct (13 : ℕ) 5 2 = .ok 1 := by
  have h1 : Ct 2 13 7 5 ⟨2, 9⟩ (2 * 3) (2 * 0) := Ct.cmult (ct_small 3) 2 (by decide +kernel)
  have h2 : Ct 2 13 7 5 ⟨1, 81⟩ (2 * 3 - 1) (2 * 0 - 0) := Ct.sub h1 (ct_small 1) (by decide +kernel)
  exact ⟨_, _, key13, h2, by decide +kernel⟩

/-- C57 is false: the sum of an encryption of 1 with the coin 13 = `p` and an encryption of 1 with the
coin 3 decrypts to 1. -/
theorem lhe_linear_refuted :
    ¬ ∀ (k p q : ℕ) (y : ℤ) (_ : Key k p q y) (g1 g2 : Env) (fuel : ℕ) (s1 s1' : g1.State)
      (s2 s2' : g2.State) (hc1 hc1' hc2 hc2' : HC128.State) (junk : List U8) (m1 m2 l1 l2 b1 b2 : ℤ)
      (c1 c2 : HeCt),
      heEncrypt g1 fuel s1 hc1 junk m1 y (p * q) l1 k = .ok (c1, b1, hc1', s1') →
      heEncrypt g2 fuel s2 hc2 junk m2 y (p * q) l2 k = .ok (c2, b2, hc2', s2') →
      ∃ c, evalAdd c1 c2 (p * q) k = .ok c ∧ heDecrypt c p y k = .ok ((m1 + m2) % 2 ^ k) := by
  intro h
  have e : JL.encrypt (constEnv 13) 1 () 0 5 ((13 : ℕ) * (7 : ℕ)) 2 = .ok (78, ()) := by
    simp [encrypt, pickX, constEnv, powm, Gmp.mod]
  obtain ⟨c, h1, h2⟩ := h 2 13 7 5 key13 (constEnv 13) (constEnv 3) 1 () () () () (HC128.init [] []) _
    (HC128.init [] []) _ [] 1 1 0 0 0 0 _ _ (encrypt_small _ 13 1 78 e) (encrypt_small _ 3 1 81 enc_small3)
  have e1 : evalAdd ⟨1 % 4, 78⟩ ⟨1 % 4, 81⟩ ((13 : ℕ) * (7 : ℕ)) 2 = .ok ⟨2, 39⟩ := by decide +kernel
  rw [e1, Res.ok_inj] at h1
  subst h1
  revert h2
  decide +kernel

/-! ## Products (C58) -/

/-- The multiplication ciphertexts a user can make under a key: products of two or three ciphertexts
of the first form (for three, given encryptions of the pairwise products of the label values) with a
result coprime to `N`, and sums, differences and constant multiples of multiplication ciphertexts; with
the message and the label value they stand for. -/
inductive Alpha (k p q : ℕ) (y : ℤ) : ℤ → ℤ → ℤ → Prop where
  | mult {c1 c2 : HeCt} {m1 m2 b1 b2 al : ℤ} (h1 : Ct k p q y c1 m1 b1) (h2 : Ct k p q y c2 m2 b2)
      (g : Env) (fuel : ℕ) (s s' : g.State) (h : evalMult g fuel s c1 c2 y (p * q) k = .ok (al, s'))
      (hco : IsCoprime al ((p : ℤ) * q)) : Alpha k p q y al (m1 * m2) (b1 * b2)
  | mult3 {c1 c2 c3 : HeCt} {m1 m2 m3 b1 b2 b3 t12 t13 t23 al : ℤ} (h1 : Ct k p q y c1 m1 b1)
      (h2 : Ct k p q y c2 m2 b2) (h3 : Ct k p q y c3 m3 b3) (h12 : Encrypts k p q y t12 (b1 * b2))
      (h13 : Encrypts k p q y t13 (b1 * b3)) (h23 : Encrypts k p q y t23 (b2 * b3))
      (g : Env) (fuel : ℕ) (s s' : g.State)
      (h : evalMult3 g fuel s c1 c2 c3 t12 t13 t23 y (p * q) k = .ok (al, s'))
      (hco : IsCoprime al ((p : ℤ) * q)) : Alpha k p q y al (m1 * m2 * m3) (b1 * b2 * b3)
  | add {a1 a2 al m1 m2 b1 b2 : ℤ} (h1 : Alpha k p q y a1 m1 b1) (h2 : Alpha k p q y a2 m2 b2)
      (h : evalAddA a1 a2 (p * q) = .ok al) : Alpha k p q y al (m1 + m2) (b1 + b2)
  | sub {a1 a2 al m1 m2 b1 b2 : ℤ} (h1 : Alpha k p q y a1 m1 b1) (h2 : Alpha k p q y a2 m2 b2)
      (h : evalSubA a1 a2 (p * q) = .ok al) : Alpha k p q y al (m1 - m2) (b1 - b2)
  | cmult {a1 al m1 b1 : ℤ} (h1 : Alpha k p q y a1 m1 b1) (t : ℤ)
      (h : evalCmultA a1 t (p * q) = .ok al) : Alpha k p q y al (t * m1) (t * b1)

theorem alpha_enc {k p q : ℕ} {y : ℤ} (key : Key k p q y) {Y : (ZMod (p * q))ˣ}
    (hY : (Y : ZMod (p * q)) = y) {al m b : ℤ} (h : Alpha k p q y al m b) : EncU k Y al (m - b) := by
  have := key.neZero
  have hcast : ((p * q : ℕ) : ℤ) = (p : ℤ) * q := by push_cast; rfl
  induction h with
  | mult h1 h2 g fuel s s' h hco =>
    exact evalMult_enc hY g (ct_rep key hY h1) (ct_rep key hY h2) (by rw [hcast]; exact h)
      (by rw [hcast]; exact hco)
  | mult3 h1 h2 h3 h12 h13 h23 g fuel s s' h hco =>
    exact evalMult3_enc hY g (ct_rep key hY h1) (ct_rep key hY h2) (ct_rep key hY h3)
      ((encrypts_iff rfl hY _ _).mp h12) ((encrypts_iff rfl hY _ _).mp h13)
      ((encrypts_iff rfl hY _ _).mp h23) (by rw [hcast]; exact h) (by rw [hcast]; exact hco)
  | add h1 h2 h i1 i2 =>
    obtain ⟨c, e1, e2⟩ := evalAddA_enc i1 i2
    rw [hcast, h, Res.ok_inj] at e1
    exact (e1 ▸ e2).of_eq (by ring)
  | sub h1 h2 h i1 i2 =>
    obtain ⟨c, e1, e2⟩ := evalSubA_enc i1 i2
    rw [hcast, h, Res.ok_inj] at e1
    exact (e1 ▸ e2).of_eq (by ring)
  | cmult h1 t h i1 =>
    obtain ⟨c, e1, e2⟩ := evalCmultA_enc i1 t
    rw [hcast, h, Res.ok_inj] at e1
    exact (e1 ▸ e2).of_eq (by ring)

/-- C58, the part that holds: every multiplication ciphertext made from ciphertexts coprime to `N`
decrypts, given the label value of the program modulo `2^k`, to the value computed on the messages
modulo `2^k`.  Missing from the full statement: encryptions not coprime to `N`
(`lhe_product_refuted`). -/
theorem lhe_product_partial {k p q : ℕ} {y : ℤ} (key : Key k p q y) {al m b b' : ℤ}
    (h : Alpha k p q y al m b) (hb : b' ≡ b [ZMOD 2 ^ k]) :
    heDecryptA false false al b' p y k = .ok (m % 2 ^ k) := by
  obtain ⟨Y, hY⟩ := key.unit
  exact heDecryptA_enc key hY (alpha_enc key hY h) hb

/-- Sums, differences and multiples of multiplication ciphertexts are always defined, and products
are if the random number generator draws a number other than 0. -/
theorem lhe_product_total {k p q : ℕ} {y : ℤ} (key : Key k p q y) {a1 a2 m1 b1 m2 b2 : ℤ}
    (h1 : Alpha k p q y a1 m1 b1) (h2 : Alpha k p q y a2 m2 b2) (t : ℤ) {c1 c2 c3 : HeCt}
    {n1 n2 n3 d1 d2 d3 t12 t13 t23 : ℤ} (i1 : Ct k p q y c1 n1 d1) (i2 : Ct k p q y c2 n2 d2)
    (i3 : Ct k p q y c3 n3 d3) (i12 : Encrypts k p q y t12 (d1 * d2))
    (i13 : Encrypts k p q y t13 (d1 * d3)) (i23 : Encrypts k p q y t23 (d2 * d3)) (g : Env) (s : g.State)
    (hx : (g.urandomm s (p * q)).1 ≠ 0) :
    (∃ c, evalAddA a1 a2 (p * q) = .ok c) ∧ (∃ c, evalSubA a1 a2 (p * q) = .ok c) ∧
      (∃ c, evalCmultA a1 t (p * q) = .ok c) ∧
      (∃ r, evalMult g 1 s c1 c2 y (p * q) k = .ok r) ∧
      (∃ r, evalMult3 g 1 s c1 c2 c3 t12 t13 t23 y (p * q) k = .ok r) := by
  have := key.neZero
  obtain ⟨Y, hY⟩ := key.unit
  have hcast : ((p * q : ℕ) : ℤ) = (p : ℤ) * q := by push_cast; rfl
  obtain ⟨a, e1, -⟩ := evalAddA_enc (alpha_enc key hY h1) (alpha_enc key hY h2)
  obtain ⟨b, e2, -⟩ := evalSubA_enc (alpha_enc key hY h1) (alpha_enc key hY h2)
  obtain ⟨c, e3, -⟩ := evalCmultA_enc (alpha_enc key hY h1) t
  have hp : pickX g ((p * q : ℕ) : ℤ) 1 s = .ok (g.urandomm s (p * q)) := by
    rw [pickX]; push_cast; rw [if_neg hx]
  obtain ⟨d, e4⟩ := evalMult_total hY g (ct_rep key hY i1) (ct_rep key hY i2) hp
  obtain ⟨e, e5⟩ := evalMult3_total hY g (ct_rep key hY i1) (ct_rep key hY i2) (ct_rep key hY i3)
    ((encrypts_iff rfl hY _ _).mp i12) ((encrypts_iff rfl hY _ _).mp i13)
    ((encrypts_iff rfl hY _ _).mp i23) hp
  rw [hcast] at e1 e2 e3 e4 e5
  exact ⟨⟨a, e1⟩, ⟨b, e2⟩, ⟨c, e3⟩, ⟨_, e4⟩, ⟨_, e5⟩⟩

theorem mult_small : evalMult (constEnv 3) 1 () ⟨3, 81⟩ ⟨1, 81⟩ 5 ((13 : ℕ) * (7 : ℕ)) 2 = .ok (33, ()) := by
  simp [evalMult, encrypt, pickX, constEnv, powm, Gmp.mod, Int.reduceToNat]

/-- The hypotheses are met: the product of fresh encryptions of 3 and 1, times 2. -/
example : ∃ al b, Key 2 13 7 5 ∧ Alpha 2 13 7 5 al (2 * (3 * 1)) b ∧
    heDecryptA false false al b (13 : ℕ) 5 2 = .ok 2 := by
  have h1 : Alpha 2 13 7 5 33 (3 * 1) (0 * 0) :=
    Alpha.mult (ct_small 3) (ct_small 1) (constEnv 3) 1 () () mult_small ⟨-11, 4, by norm_num⟩
  have h2 : Alpha 2 13 7 5 88 (2 * (3 * 1)) (2 * (0 * 0)) := Alpha.cmult h1 2 (by decide +kernel)
  exact ⟨_, _, key13, h2, by decide +kernel⟩

/-- C58 is false: the product of encryptions of 3 and 1 with `beta` coprime to `N`, computed with the
coin 13 = `p`, does not decrypt to 3. -/
theorem lhe_product_refuted :
    ¬ ∀ (k p q : ℕ) (y : ℤ) (_ : Key k p q y) (c1 c2 : HeCt) (m1 m2 b1 b2 al : ℤ)
      (_ : Ct k p q y c1 m1 b1) (_ : Ct k p q y c2 m2 b2) (g : Env) (fuel : ℕ) (s s' : g.State),
      evalMult g fuel s c1 c2 y (p * q) k = .ok (al, s') →
      heDecryptA false false al (b1 * b2) p y k = .ok (m1 * m2 % 2 ^ k) := by
  intro h
  have e : evalMult (constEnv 13) 1 () ⟨2, 81⟩ ⟨1, 81⟩ 5 ((13 : ℕ) * (7 : ℕ)) 2 = .ok (39, ()) := by
    simp [evalMult, encrypt, pickX, constEnv, powm, Gmp.mod, Int.reduceToNat]
  have := h 2 13 7 5 key13 _ _ _ _ 0 0 _ (ct_small 2) (ct_small 1) (constEnv 13) 1 () () e
  revert this
  decide +kernel

/-! ## Shared variables in decryption (C73) -/

/-- C73, exact outcome: with the result and the label value in the same variable, decryption of a
multiplication ciphertext gives `2*(m-b)` modulo `2^k`, whatever the value passed; with the result and
the ciphertext in the same variable it gives `b - 1` modulo `2^k`, whatever the ciphertext. -/
theorem lhe_decrypt_shared_exact {k p q : ℕ} {y : ℤ} (hk : k ≠ 0) (key : Key k p q y) {al m b : ℤ}
    (h : Alpha k p q y al m b) (b' : ℤ) :
    heDecryptA false true al b' p y k = .ok (2 * (m - b) % 2 ^ k) ∧
      heDecryptA true false al b' p y k = .ok ((b' - 1) % 2 ^ k) := by
  have := key.neZero
  obtain ⟨Y, hY⟩ := key.unit
  have hd := decrypt_encrypts key ((encrypts_iff rfl hY _ _).mpr (alpha_enc key hY h))
  constructor
  · simp only [heDecryptA, hd, Res.ok_bind, mod_ok two_ne, if_true]
    rw [← Int.add_emod, two_mul]
  · simp only [heDecryptA, jl_in_place_exact hk key, Res.ok_bind, mod_ok two_ne, Bool.false_eq_true,
      if_false]
    rw [show (2 : ℤ) ^ k - 1 + b' = b' - 1 + 2 ^ k by ring, Int.add_emod_right]

example : heDecryptA false true 33 0 (13 : ℕ) 5 2 = .ok (2 * (3 * 1 - 0 * 0) % 2 ^ 2) :=
  (lhe_decrypt_shared_exact (by decide) key13
    (Alpha.mult (ct_small 3) (ct_small 1) (constEnv 3) 1 () () mult_small ⟨-11, 4, by norm_num⟩) 0).1

/-- C73 is false, for either kind of sharing. -/
theorem lhe_decrypt_shared_refuted (sameC : Bool) :
    ¬ ∀ (k p q : ℕ) (y : ℤ) (_ : Key k p q y) (al m b : ℤ) (_ : Alpha k p q y al m b),
      heDecryptA sameC (!sameC) al b p y k = .ok (m % 2 ^ k) := by
  intro h
  have h1 : Alpha 2 13 7 5 33 (3 * 1) (0 * 0) :=
    Alpha.mult (ct_small 3) (ct_small 1) (constEnv 3) 1 () () mult_small ⟨-11, 4, by norm_num⟩
  have h2 : Alpha 2 13 7 5 88 (2 * (3 * 1)) (2 * (0 * 0)) := Alpha.cmult h1 2 (by decide +kernel)
  have := h 2 13 7 5 key13 88 (2 * (3 * 1)) (2 * (0 * 0)) h2
  revert this
  cases sameC <;> decide +kernel

/-! ## Label values (C59) -/

/-- C59, the part that holds: on a freshly initialised cipher, a label of exactly `k/8` bytes (not
starting with a zero byte) gets the label value that the specification gives for key, IV and label,
whatever the uninitialised memory, message, public key and random numbers.  Missing from the full
statement: shorter labels and later encryptions (`lhe_label_memory_refuted`,
`lhe_label_history_refuted`). -/
theorem lhe_label_value_partial {k : ℕ} {y N : ℤ} (hk : k < 2 ^ 32) (g : Env) (fuel : ℕ)
    (s s' : g.State) (key iv : List U8) (hkey : key.length = 16) (hiv : iv.length = 16)
    (hc' : HC128.State) (junk : List U8) (hj : k / 8 ≤ junk.length) (m label b : ℤ) (ct : HeCt)
    (hl : 256 ^ (k / 8 - 1) ≤ label.natAbs ∧ label.natAbs < 256 ^ (k / 8)) (hl0 : 8 ≤ k)
    (h : heEncrypt g fuel s (HC128.init key iv) junk m y N label k = .ok (ct, b, hc', s')) :
    b = Spec.LHE.labelValue key iv label.natAbs k := by
  obtain ⟨h1, -⟩ := heEncrypt_split g h
  have e1 := (exportBytes_length label (k / 8)).mpr hl.2
  have e2 : ¬ (exportBytes label).length ≤ k / 8 - 1 := fun e => by
    have := (exportBytes_length label _).mp e
    omega
  rw [labelValue_eq _ _ _ _ e1 hj hk, Res.ok_inj, Prod.mk.injEq] at h1
  obtain ⟨rfl, -⟩ := h1
  rw [importWords_eq, exportBytes_eq label (k / 8) (by omega), Spec.LHE.labelValue,
    HC128.keystream_eq key iv hkey hiv, List.drop_of_length_le, List.append_nil, Nat.zero_mul, Nat.zero_add]
  simp [Spec.LHE.labelBytes]

/-- The hypotheses on key and label are met. -/
example : (32 : ℕ) < 2 ^ 32 ∧ (List.replicate 16 (1 : U8)).length = 16 ∧ 32 / 8 ≤ [1, 2, 3, (4 : U8)].length ∧
    (256 ^ (32 / 8 - 1) ≤ (16777217 : ℤ).natAbs ∧ (16777217 : ℤ).natAbs < 256 ^ (32 / 8)) := by decide

theorem encrypt_exists (b : ℤ) : ∃ c, JL.encrypt (constEnv 1) 1 () b 3 ((184683593729 : ℕ) * (7 : ℕ)) 32 =
    .ok (c, ()) := by
  have := key32.neZero
  obtain ⟨Y, hY⟩ := key32.unit
  have hp : pickX (constEnv 1) ((184683593729 * 7 : ℕ) : ℤ) 1 () = .ok (1, ()) := rfl
  obtain ⟨c, he⟩ := encrypt_total (k := 32) (constEnv 1) hY b hp
  push_cast at he ⊢
  exact ⟨c, he⟩

theorem heEncrypt_exists {hc hc' : HC128.State} {junk : List U8} {label b : ℤ}
    (h : labelValue hc junk label 32 = .ok (b, hc')) :
    ∃ ct, heEncrypt (constEnv 1) 1 () hc junk 0 3 ((184683593729 : ℕ) * (7 : ℕ)) label 32 =
      .ok (ct, b, hc', ()) := by
  obtain ⟨c, he⟩ := encrypt_exists b
  exact ⟨⟨(0 - b) % 2 ^ 32, c⟩, by
    simp only [heEncrypt, h, he, Res.ok_bind, mod_ok two_ne, Res.pure_eq]⟩

/-- C59 is false, first reason: the label value of label 1 with 32-bit messages depends on the contents
of uninitialised memory, in every cipher state. -/
theorem lhe_label_memory_refuted (hc : HC128.State) :
    ¬ ∀ (k p q : ℕ) (y : ℤ) (_ : Key k p q y) (g : Env) (fuel : ℕ) (s s' : g.State) (hc1 hc2 : HC128.State)
      (junk1 junk2 : List U8) (_ : k / 8 ≤ junk1.length) (_ : k / 8 ≤ junk2.length) (m b1 b2 : ℤ)
      (ct1 ct2 : HeCt),
      heEncrypt g fuel s hc junk1 m y (p * q) 1 k = .ok (ct1, b1, hc1, s') →
      heEncrypt g fuel s hc junk2 m y (p * q) 1 k = .ok (ct2, b2, hc2, s') → b1 = b2 := by
  intro h
  have hb : exportBytes 1 = [1] := by simp [exportBytes]
  have l1 := labelValue_eq hc [0, 0, 0, 0] 1 32 (by rw [hb]; decide) (by decide) (by decide)
  have l2 := labelValue_eq hc [0, 1, 0, 0] 1 32 (by rw [hb]; decide) (by decide) (by decide)
  obtain ⟨c1, e1⟩ := heEncrypt_exists l1
  obtain ⟨c2, e2⟩ := heEncrypt_exists l2
  have e := h 32 184683593729 7 3 key32 (constEnv 1) 1 () () _ _ _ _ (by decide) (by decide) 0 _ _ _ _ e1 e2
  have hlen := HC128.pktKs_length hc (32 / 8)
  generalize HC128.pktKs hc (32 / 8) = ks at *
  obtain ⟨k0, k1, k2, k3, rfl⟩ : ∃ a b c d, ks = [a, b, c, d] := by
    match ks, hlen with
    | [a, b, c, d], _ => exact ⟨a, b, c, d, rfl⟩
  simp only [hb, Nat.cast_inj, importWords_eq, Spec.LHE.value] at e
  simp [List.range, List.range.loop, Spec.LHE.word] at e
  have : (1 ^^^ k1) = k1 := BitVec.eq_of_toNat_eq (by simpa using e.symm)
  revert this
  generalize k1 = w
  revert w
  decide

/-- C59 is false, second reason: with the all-zero cipher key and IV the same label, filling the whole
array, gets another value when it is used a second time. -/
theorem lhe_label_history_refuted :
    ¬ ∀ (k p q : ℕ) (y : ℤ) (_ : Key k p q y) (g : Env) (fuel : ℕ) (s s1 s2 : g.State)
      (ck civ : List U8) (_ : ck.length = 16) (_ : civ.length = 16) (hc1 hc2 : HC128.State)
      (junk : List U8) (_ : k / 8 ≤ junk.length) (m label b1 b2 : ℤ) (ct1 ct2 : HeCt),
      256 ^ (k / 8 - 1) ≤ label.natAbs ∧ label.natAbs < 256 ^ (k / 8) →
      heEncrypt g fuel s (HC128.init ck civ) junk m y (p * q) label k = .ok (ct1, b1, hc1, s1) →
      heEncrypt g fuel s1 hc1 junk m y (p * q) label k = .ok (ct2, b2, hc2, s2) → b1 = b2 := by
  intro h
  have hb : exportBytes 16777216 = [1, 0, 0, 0] := by simp [exportBytes]
  obtain ⟨w1, w2, w3⟩ := HC128.Fast.firstWords_spec HC128.Fast.zero_key_words
  have l1 := labelValue_eq (HC128.init (List.replicate 16 0) (List.replicate 16 0)) [0, 0, 0, 0] 16777216 32
    (by rw [hb]; decide) (by decide) (by decide)
  have l2 := labelValue_eq (HC128.pktNext (HC128.init (List.replicate 16 0) (List.replicate 16 0)) (32 / 8))
    [0, 0, 0, 0] 16777216 32 (by rw [hb]; decide) (by decide) (by decide)
  obtain ⟨c1, e1⟩ := heEncrypt_exists l1
  obtain ⟨c2, e2⟩ := heEncrypt_exists l2
  have e := h 32 184683593729 7 3 key32 (constEnv 1) 1 () () () (List.replicate 16 0) (List.replicate 16 0)
    (by decide) (by decide) _ _ _ (by decide) 0 16777216 _ _ _ _ (by decide) e1 e2
  clear l1 l2 e1 e2 h
  generalize HC128.init (List.replicate 16 0) (List.replicate 16 0) = cs at *
  simp only [hb, Nat.cast_inj, HC128.pktKs, HC128.pktNext, Nat.reduceAdd, Nat.reduceDiv, w2, w3] at e
  revert e
  decide

/-! ## Bounds of the label buffer -/

/-- Exactly the labels of more than `k/8` bytes are written past the end of the array. -/
theorem lhe_label_bounds_iff {k : ℕ} {y : ℤ} {p q : ℕ} (key : Key k p q y) (hk : k < 2 ^ 32) (g : Env)
    (s : g.State) (hc : HC128.State) (junk : List U8) (hj : k / 8 ≤ junk.length) (m label : ℤ)
    (hx : (g.urandomm s (p * q)).1 ≠ 0) :
    heEncrypt g 1 s hc junk m y (p * q) label k = .ub .outOfBounds ↔ 256 ^ (k / 8) ≤ label.natAbs := by
  by_cases hl : label.natAbs < 256 ^ (k / 8)
  · obtain ⟨b, hc', e1⟩ : ∃ b hc', labelValue hc junk label k = .ok (b, hc') :=
      ⟨_, _, labelValue_eq hc junk label k ((exportBytes_length label (k / 8)).mpr hl) hj hk⟩
    obtain ⟨c, e2, -⟩ := jl_bad_coins key g s b hx
    constructor
    · intro e
      simp only [heEncrypt, e1, Res.ok_bind, e2, mod_ok two_ne, Res.pure_eq] at e
      cases e
    · intro e; omega
  · have e1 : ¬ (exportBytes label).length ≤ k / 8 := fun e => hl ((exportBytes_length label _).mp e)
    constructor
    · intro _; omega
    · intro _
      have : labelValue hc junk label k = .ub .outOfBounds := by
        rw [labelValue]
        simp only []
        rw [if_pos (by omega)]
      simp only [heEncrypt, this, Res.ub_bind]

example : Key 32 184683593729 7 3 ∧ (32 : ℕ) < 2 ^ 32 ∧ 32 / 8 ≤ [1, 2, 3, (4 : U8)].length ∧
    ((constEnv 1).urandomm () (((184683593729 : ℕ) : ℤ) * (7 : ℕ))).1 ≠ 0 :=
  ⟨key32, by decide, by decide, by show (1 : ℤ) % _ ≠ 0; norm_num⟩

/-- A label of five bytes with 32-bit messages is written past the end of the array. -/
theorem lhe_label_bounds_refuted :
    ¬ ∀ (k p q : ℕ) (y : ℤ) (_ : Key k p q y) (g : Env) (s : g.State) (hc : HC128.State)
      (junk : List U8) (_ : k / 8 ≤ junk.length) (m label : ℤ),
      heEncrypt g 1 s hc junk m y (p * q) label k ≠ .ub .outOfBounds := by
  intro h
  refine h 32 184683593729 7 3 key32 (constEnv 1) () (HC128.init [] []) [0, 0, 0, 0] (by decide) 0 (2 ^ 32) ?_
  refine (lhe_label_bounds_iff key32 (by decide) (constEnv 1) () _ _ (by decide) 0 (2 ^ 32) ?_).mpr (by decide)
  show (1 : ℤ) % _ ≠ 0
  norm_num

end CT.Props.LHE
