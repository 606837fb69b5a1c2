import Verif.Props.LabeledHE
import Verif.Props.MuLabeledHE

/-!
# Labeled homomorphic encryption: what one known message reveals about another (C119)

In the scheme a label value is a pseudo-random function of a key and the label.  The code takes the HC-128 encryption of
the label for it, so that for equal cipher states the exclusive or of two label values is that of the labels.
-/

namespace CT.Props.LHEKnown
open CT.JL CT.Gmp CT.Spec.JL CT.Props.JoyeLibert

/-! ## The observer (specification) -/

/-- A label as a number, its bytes read as the code reads back the encrypted array. -/
def labelNumber (k : ℕ) (label : ℤ) : ℕ := Spec.LHE.value (k / 32) (Spec.LHE.labelBytes (k / 8) label.natAbs)

/-- What an observer computes who knows two labels, the first components of two ciphertexts and the first message. -/
def guess (k : ℕ) (label1 label2 m1 a1 a2 : ℤ) : ℤ :=
  (a2 + ((((m1 - a1) % 2 ^ k).toNat ^^^ labelNumber k label1 ^^^ labelNumber k label2 : ℕ) : ℤ)) % 2 ^ k

/-- A label that fills the array of `k/8` bytes. -/
def FullLabel (k : ℕ) (label : ℤ) : Prop := 256 ^ (k / 8 - 1) ≤ label.natAbs ∧ label.natAbs < 256 ^ (k / 8)

/-! ## Exclusive or of numbers and of their digits -/

theorem xor_digit (a b w v : ℕ) (n : ℕ) (hw : w < 2 ^ n) (hv : v < 2 ^ n) :
    (a * 2 ^ n + w) ^^^ (b * 2 ^ n + v) = (a ^^^ b) * 2 ^ n + (w ^^^ v) := by
  have h1 : ((a * 2 ^ n + w) ^^^ (b * 2 ^ n + v)) / 2 ^ n = a ^^^ b := by
    rw [Nat.xor_div_two_pow, Nat.add_comm, Nat.add_mul_div_right _ _ (by positivity), Nat.div_eq_of_lt hw,
      Nat.add_comm (b * _), Nat.add_mul_div_right _ _ (by positivity), Nat.div_eq_of_lt hv, Nat.zero_add, Nat.zero_add]
  have h2 : ((a * 2 ^ n + w) ^^^ (b * 2 ^ n + v)) % 2 ^ n = w ^^^ v := by
    rw [Nat.xor_mod_two_pow, Nat.mul_add_mod_self_right, Nat.mul_add_mod_self_right, Nat.mod_eq_of_lt hw, Nat.mod_eq_of_lt hv]
  rw [← h1, ← h2]
  exact (Nat.div_add_mod' _ _).symm

theorem le32_xor (a b c d a' b' c' d' : U8) :
    le32 (a ^^^ a') (b ^^^ b') (c ^^^ c') (d ^^^ d') = le32 a b c d ^^^ le32 a' b' c' d' := by
  apply BitVec.eq_of_getLsbD_eq
  intro i hi
  simp only [le32, BitVec.getLsbD_append, BitVec.getLsbD_xor]
  split
  · rfl
  · split
    · rfl
    · split <;> rfl

theorem importWords_xor : ∀ (n : ℕ) (a c : List U8) (x z : ℕ), 4 * n ≤ a.length → 4 * n ≤ c.length →
    LHE.importWords n (xorBytes a c) (x ^^^ z) = LHE.importWords n a x ^^^ LHE.importWords n c z
  | 0, _, _, _, _, _, _ => rfl
  | n + 1, a0 :: a1 :: a2 :: a3 :: a, c0 :: c1 :: c2 :: c3 :: c, x, z, h1, h2 => by
    have ih := importWords_xor n a c (x * 2 ^ 32 + (le32 a0 a1 a2 a3).toNat) (z * 2 ^ 32 + (le32 c0 c1 c2 c3).toNat)
      (by simp only [List.length_cons] at h1; omega) (by simp only [List.length_cons] at h2; omega)
    rw [xor_digit _ _ _ _ _ (BitVec.isLt _) (BitVec.isLt _), ← BitVec.toNat_xor, ← le32_xor] at ih
    exact ih
  | n + 1, [], _, _, _, h1, _ => by simp at h1
  | n + 1, [_], _, _, _, h1, _ => by simp only [List.length_cons, List.length_nil] at h1; omega
  | n + 1, [_, _], _, _, _, h1, _ => by simp only [List.length_cons, List.length_nil] at h1; omega
  | n + 1, [_, _, _], _, _, _, h1, _ => by simp only [List.length_cons, List.length_nil] at h1; omega
  | n + 1, _ :: _ :: _ :: _ :: _, [], _, _, _, h1 => by simp at h1
  | n + 1, _ :: _ :: _ :: _ :: _, [_], _, _, _, h1 => by simp only [List.length_cons, List.length_nil] at h1; omega
  | n + 1, _ :: _ :: _ :: _ :: _, [_, _], _, _, _, h1 => by simp only [List.length_cons, List.length_nil] at h1; omega
  | n + 1, _ :: _ :: _ :: _ :: _, [_, _, _], _, _, _, h1 => by simp only [List.length_cons, List.length_nil] at h1; omega

theorem value_xor (n : ℕ) (a c : List U8) (h1 : 4 * n ≤ a.length) (h2 : 4 * n ≤ c.length) :
    Spec.LHE.value n (xorBytes a c) = Spec.LHE.value n a ^^^ Spec.LHE.value n c := by
  have h := importWords_xor n a c 0 0 h1 h2
  rw [Nat.xor_self] at h
  simpa only [LHE.importWords_eq, Nat.zero_mul, Nat.zero_add] using h

theorem value_lt : ∀ (n : ℕ) (a : List U8) (x : ℕ) (t : ℕ), x < 2 ^ t → LHE.importWords n a x < 2 ^ (t + 32 * n)
  | 0, _, _, _, h => by simpa [LHE.importWords] using h
  | n + 1, a, x, t, h => by
    rw [LHE.importWords, show t + 32 * (n + 1) = t + 32 + 32 * n by ring]
    refine value_lt n _ _ _ ?_
    have := (le32 (a.getD 0 0) (a.getD 1 0) (a.getD 2 0) (a.getD 3 0)).isLt
    rw [pow_add]
    nlinarith [this, h]

theorem labelBytes_length (n l : ℕ) : (Spec.LHE.labelBytes n l).length = n := by simp [Spec.LHE.labelBytes]

/-- The arithmetic of the attack, for any keystream. -/
theorem guess_right (k : ℕ) (ks : List U8) (hks : ks.length = k / 8) (label1 label2 m1 m2 : ℤ) :
    let b := fun label : ℤ => (Spec.LHE.value (k / 32) (xorBytes (Spec.LHE.labelBytes (k / 8) label.natAbs) ks) : ℤ)
    guess k label1 label2 m1 ((m1 - b label1) % 2 ^ k) ((m2 - b label2) % 2 ^ k) = m2 % 2 ^ k := by
  intro b
  have hx : ∀ label : ℤ, b label = ((labelNumber k label ^^^ Spec.LHE.value (k / 32) ks : ℕ) : ℤ) := fun label => by
    simp only [b, labelNumber]
    rw [value_xor _ _ _ (by rw [labelBytes_length]; omega) (by omega)]
  have hlt : ∀ label : ℤ, b label < 2 ^ k ∧ 0 ≤ b label := fun label => by
    refine ⟨?_, Int.natCast_nonneg _⟩
    have := value_lt (k / 32) (xorBytes (Spec.LHE.labelBytes (k / 8) label.natAbs) ks) 0 0 (by decide)
    rw [LHE.importWords_eq, Nat.zero_mul, Nat.zero_add, Nat.zero_add] at this
    have h2 : 2 ^ (32 * (k / 32)) ≤ 2 ^ k := Nat.pow_le_pow_right (by decide) (by omega)
    have h3 := lt_of_lt_of_le this h2
    simp only [b]
    exact_mod_cast h3
  have h1 : ((m1 - (m1 - b label1) % 2 ^ k) % 2 ^ k).toNat = (b label1).toNat := by
    congr 1
    rw [Int.sub_emod, Int.emod_emod_of_dvd _ (dvd_refl _), ← Int.sub_emod, show m1 - (m1 - b label1) = b label1 by ring]
    exact Int.emod_eq_of_lt (hlt _).2 (hlt _).1
  rw [guess, h1]
  have h3 : (b label1).toNat ^^^ labelNumber k label1 ^^^ labelNumber k label2 = (b label2).toNat := by
    rw [hx, hx, Int.toNat_natCast, Int.toNat_natCast, Nat.xor_comm, Nat.xor_comm (labelNumber k label1), Nat.xor_assoc,
      Nat.xor_self, Nat.xor_zero]
  rw [h3, Int.toNat_of_nonneg (hlt _).2, Int.add_comm, Int.add_emod, Int.emod_emod_of_dvd _ (dvd_refl _), ← Int.add_emod]
  congr 1
  ring

theorem importWords_inj : ∀ (n : ℕ) (a c : List U8) (x z : ℕ), a.length = 4 * n → c.length = 4 * n →
    LHE.importWords n a x = LHE.importWords n c z → x = z ∧ a = c
  | 0, a, c, x, z, h1, h2, h => by
    rw [List.eq_nil_of_length_eq_zero h1, List.eq_nil_of_length_eq_zero h2]
    exact ⟨h, rfl⟩
  | n + 1, a, c, x, z, h1, h2, h => by
    match a, c, h1, h2 with
    | a0 :: a1 :: a2 :: a3 :: a, c0 :: c1 :: c2 :: c3 :: c, h1, h2 =>
      have ih := importWords_inj n a c (x * 2 ^ 32 + (le32 a0 a1 a2 a3).toNat) (z * 2 ^ 32 + (le32 c0 c1 c2 c3).toNat)
        (by simp only [List.length_cons] at h1; omega) (by simp only [List.length_cons] at h2; omega) h
      have l1 := (le32 a0 a1 a2 a3).isLt
      have l2 := (le32 c0 c1 c2 c3).isLt
      obtain ⟨e, rfl⟩ := ih
      have hw : le32 a0 a1 a2 a3 = le32 c0 c1 c2 c3 := BitVec.eq_of_toNat_eq (by omega)
      have hb := congrArg bytesLE32 hw
      rw [bytesLE32_le32, bytesLE32_le32] at hb
      simp only [List.cons.injEq, and_true] at hb
      obtain ⟨rfl, rfl, rfl, rfl⟩ := hb
      exact ⟨by omega, rfl⟩

theorem labelBytes_inj {n : ℕ} {l1 l2 : ℤ} (h1 : (LHE.exportBytes l1).length = n) (h2 : (LHE.exportBytes l2).length = n)
    (h : Spec.LHE.labelBytes n l1.natAbs = Spec.LHE.labelBytes n l2.natAbs) : l1.natAbs = l2.natAbs := by
  rw [← LHE.exportBytes_eq l1 n h1, ← LHE.exportBytes_eq l2 n h2, LHE.exportBytes, LHE.exportBytes] at h
  have hd : ∀ l : ℕ, ((((Nat.digits 256 l).reverse.map (BitVec.ofNat 8)).map BitVec.toNat)).reverse = Nat.digits 256 l := by
    intro l
    rw [List.map_map, ← List.map_reverse, List.reverse_reverse]
    conv_rhs => rw [← List.map_id (Nat.digits 256 l)]
    apply List.map_congr_left
    intro d hd
    have := Nat.digits_lt_base (by decide) hd
    simp only [Function.comp, BitVec.toNat_ofNat, id]
    exact Nat.mod_eq_of_lt this
  have e := congrArg (fun bs => (bs.map BitVec.toNat).reverse) h
  simp only [hd] at e
  exact Nat.digits_inj_iff.mp e

section
open CT.LHE

/-- The label value of a label that fills the array. -/
theorem lhe_full_label {k : ℕ} {y N : ℤ} (hk : k < 2 ^ 32) (h8 : 8 ≤ k) (g : Env) {fuel : ℕ} {s s' : g.State}
    {hc hc' : HC128.State} {junk : List U8} (hj : k / 8 ≤ junk.length) {m label b : ℤ} {ct : HeCt}
    (hl : FullLabel k label) (h : heEncrypt g fuel s hc junk m y N label k = .ok (ct, b, hc', s')) :
    b = (Spec.LHE.value (k / 32) (xorBytes (Spec.LHE.labelBytes (k / 8) label.natAbs) (HC128.pktKs hc (k / 8))) : ℤ) ∧
      ct.a = (m - b) % 2 ^ k := by
  obtain ⟨h1, -, h3⟩ := heEncrypt_split g h
  have e1 := (exportBytes_length label (k / 8)).mpr hl.2
  have e2 : ¬ (exportBytes label).length ≤ k / 8 - 1 := fun e => by
    have := (exportBytes_length label _).mp e
    have := hl.1
    omega
  rw [labelValue_eq _ _ _ _ e1 hj hk, Res.ok_inj, Prod.mk.injEq] at h1
  refine ⟨?_, h3⟩
  rw [← h1.1, importWords_eq, exportBytes_eq label (k / 8) (by omega), List.drop_of_length_le, List.append_nil,
    Nat.zero_mul, Nat.zero_add]
  simp [Spec.LHE.labelBytes]

/-- C119 is false: whoever knows one message, its ciphertext and the labels reads every other message that was encrypted
from the same cipher state, for all keys, labels that fill the array, messages, uninitialised memory and coins.  (The
cipher has to be in the same state for the label value to be a function of key and label, C59.) -/
theorem lhe_known_message_reveals {k : ℕ} {y y' N N' : ℤ} (hk : k < 2 ^ 32) (h8 : 8 ≤ k) (g g' : Env) {fuel fuel' : ℕ}
    {s1 s2 : g.State} {s1' s2' : g'.State} {hc hc1 hc2 : HC128.State} {junk1 junk2 : List U8} (hj1 : k / 8 ≤ junk1.length)
    (hj2 : k / 8 ≤ junk2.length) {m1 m2 label1 label2 b1 b2 : ℤ} {ct1 ct2 : HeCt} (hl1 : FullLabel k label1)
    (hl2 : FullLabel k label2) (h1 : heEncrypt g fuel s1 hc junk1 m1 y N label1 k = .ok (ct1, b1, hc1, s2))
    (h2 : heEncrypt g' fuel' s1' hc junk2 m2 y' N' label2 k = .ok (ct2, b2, hc2, s2')) :
    guess k label1 label2 m1 ct1.a ct2.a = m2 % 2 ^ k := by
  obtain ⟨e1, a1⟩ := lhe_full_label hk h8 g hj1 hl1 h1
  obtain ⟨e2, a2⟩ := lhe_full_label hk h8 g' hj2 hl2 h2
  rw [a1, a2, e1, e2]
  exact guess_right k _ (HC128.pktKs_length hc _) label1 label2 m1 m2

/-- C119, the part that holds: different labels have different label values (32-bit words, labels that fill the array).
Missing from the full statement: that the values cannot be found from each other (`lhe_known_message_reveals`). -/
theorem lhe_label_values_distinct_partial {k : ℕ} {y N : ℤ} (hk : k < 2 ^ 32) (h8 : 8 ≤ k) (h32 : k % 32 = 0) (g : Env)
    {fuel : ℕ} {s s1 s2 : g.State} {hc hc1 hc2 : HC128.State} {junk1 junk2 : List U8} (hj1 : k / 8 ≤ junk1.length)
    (hj2 : k / 8 ≤ junk2.length) {m1 m2 label1 label2 b1 b2 : ℤ} {ct1 ct2 : HeCt} (hl1 : FullLabel k label1)
    (hl2 : FullLabel k label2) (h1 : heEncrypt g fuel s hc junk1 m1 y N label1 k = .ok (ct1, b1, hc1, s1))
    (h2 : heEncrypt g fuel s hc junk2 m2 y N label2 k = .ok (ct2, b2, hc2, s2)) :
    b1 = b2 ↔ label1.natAbs = label2.natAbs := by
  obtain ⟨e1, -⟩ := lhe_full_label hk h8 g hj1 hl1 h1
  obtain ⟨e2, -⟩ := lhe_full_label hk h8 g hj2 hl2 h2
  have len : ∀ {label : ℤ}, FullLabel k label → (exportBytes label).length = k / 8 := fun {label} hl => by
    have e1 := (exportBytes_length label (k / 8)).mpr hl.2
    have e2 : ¬ (exportBytes label).length ≤ k / 8 - 1 := fun e => by
      have := (exportBytes_length label _).mp e
      have := hl.1
      omega
    omega
  have hks := HC128.pktKs_length hc (k / 8)
  rw [e1, e2, Nat.cast_inj, value_xor _ _ _ (by rw [labelBytes_length]; omega) (by omega),
    value_xor _ _ _ (by rw [labelBytes_length]; omega) (by omega)]
  constructor
  · intro h
    have h := congrArg (· ^^^ Spec.LHE.value (k / 32) (HC128.pktKs hc (k / 8))) h
    simp only [Nat.xor_assoc, Nat.xor_self, Nat.xor_zero] at h
    have i := importWords_inj (k / 32) (Spec.LHE.labelBytes (k / 8) label1.natAbs) (Spec.LHE.labelBytes (k / 8) label2.natAbs) 0 0
      (by rw [labelBytes_length]; omega) (by rw [labelBytes_length]; omega)
      (by rw [LHE.importWords_eq, LHE.importWords_eq, h])
    exact labelBytes_inj (len hl1) (len hl2) i.2
  · intro h; rw [h]

/-- Encryption of a 32-bit message under a valid key, with a label of four bytes and coin 1. -/
theorem lhe_enc_exists (hc : HC128.State) (m label : ℤ) (hl : (exportBytes label).length ≤ 32 / 8) : ∃ ct b,
    heEncrypt (constEnv 1) 1 () hc [1, 2, 3, 4] m 3 ((184683593729 : ℕ) * (7 : ℕ)) label 32 =
      .ok (ct, b, HC128.pktNext hc (32 / 8), ()) := by
  have hv := labelValue_eq hc [1, 2, 3, 4] label 32 hl (by decide) (by decide)
  generalize ((importWords _ _ 0 : ℕ) : ℤ) = b at hv
  obtain ⟨c, he⟩ := Props.LHE.encrypt_exists b
  exact ⟨⟨(m - b) % 2 ^ 32, c⟩, b, by simp only [heEncrypt, hv, he, Res.ok_bind, mod_ok two_ne, Res.pure_eq]⟩

/-- The hypotheses are met in every cipher state: two encryptions under a valid key. -/
example (hc : HC128.State) : ∃ ct1 ct2 b1 b2 hc', Key 32 184683593729 7 3 ∧ FullLabel 32 16777217 ∧ FullLabel 32 16777218 ∧
    heEncrypt (constEnv 1) 1 () hc [1, 2, 3, 4] 10 3 ((184683593729 : ℕ) * (7 : ℕ)) 16777217 32 = .ok (ct1, b1, hc', ()) ∧
    heEncrypt (constEnv 1) 1 () hc [1, 2, 3, 4] 77 3 ((184683593729 : ℕ) * (7 : ℕ)) 16777218 32 = .ok (ct2, b2, hc', ()) ∧
    guess 32 16777217 16777218 10 ct1.a ct2.a = 77 ∧ b1 ≠ b2 := by
  obtain ⟨ct1, b1, h1⟩ := lhe_enc_exists hc 10 16777217 (by simp [exportBytes])
  obtain ⟨ct2, b2, h2⟩ := lhe_enc_exists hc 77 16777218 (by simp [exportBytes])
  have f1 : FullLabel 32 16777217 := by unfold FullLabel; decide
  have f2 : FullLabel 32 16777218 := by unfold FullLabel; decide
  refine ⟨ct1, ct2, b1, b2, _, key32, f1, f2, h1, h2, ?_, fun e => ?_⟩
  · exact lhe_known_message_reveals (by decide) (by decide) _ _ (by decide) (by decide) f1 f2 h1 h2
  · have := (lhe_label_values_distinct_partial (by decide) (by decide) (by decide) _ (by decide) (by decide) f1 f2 h1 h2).mp e
    revert this
    decide

/-- C119 is false, as a negation: it is not the case that every observer who knows the labels, the first message and the
first components of the ciphertexts fails on some second message. -/
theorem lhe_known_message_refuted :
    ¬ ∀ observer : ℕ → ℤ → ℤ → ℤ → ℤ → ℤ → ℤ, ∃ (k p q : ℕ) (y : ℤ) (_ : Key k p q y) (_ : k < 2 ^ 32) (_ : 8 ≤ k)
      (g : Env) (fuel : ℕ) (s s1 s2 : g.State) (hc hc1 hc2 : HC128.State) (junk : List U8) (_ : k / 8 ≤ junk.length)
      (m1 m2 label1 label2 b1 b2 : ℤ) (ct1 ct2 : HeCt) (_ : FullLabel k label1) (_ : FullLabel k label2),
      0 ≤ m2 ∧ m2 < 2 ^ k ∧ heEncrypt g fuel s hc junk m1 y (p * q) label1 k = .ok (ct1, b1, hc1, s1) ∧
      heEncrypt g fuel s1 hc junk m2 y (p * q) label2 k = .ok (ct2, b2, hc2, s2) ∧
      observer k label1 label2 m1 ct1.a ct2.a ≠ m2 := by
  intro h
  obtain ⟨k, p, q, y, -, hk, h8, g, fuel, s, s1, s2, hc, hc1, hc2, junk, hj, m1, m2, label1, label2, b1, b2, ct1, ct2, f1, f2,
    h0, h1, h2, h3, h4⟩ := h guess
  refine h4 ?_
  rw [lhe_known_message_reveals hk h8 g g hj hj f1 f2 h2 h3, Int.emod_eq_of_lt h0 h1]

/-- Without the first message nothing is revealed: every observer of labels and first components fails for one of two
cipher states that occur (the first two positions of the stream with the all-zero key and IV). -/
theorem lhe_unknown_message_hides (observer : ℤ → ℤ → ℤ → ℤ → ℤ) : ∃ (hc : HC128.State) (m1 m2 b1 b2 : ℤ) (ct1 ct2 : HeCt),
    0 ≤ m2 ∧ m2 < 2 ^ 32 ∧
    heEncrypt (constEnv 1) 1 () hc [1, 2, 3, 4] m1 3 ((184683593729 : ℕ) * (7 : ℕ)) 16777217 32 =
      .ok (ct1, b1, HC128.pktNext hc (32 / 8), ()) ∧
    heEncrypt (constEnv 1) 1 () hc [1, 2, 3, 4] m2 3 ((184683593729 : ℕ) * (7 : ℕ)) 16777218 32 =
      .ok (ct2, b2, HC128.pktNext hc (32 / 8), ()) ∧ observer 16777217 16777218 ct1.a ct2.a ≠ m2 := by
  obtain ⟨w1, w2, w3⟩ := HC128.Fast.firstWords_spec HC128.Fast.zero_key_words
  have hb1 : exportBytes 16777217 = [1, 0, 0, 1] := by simp [exportBytes]
  have hb2 : exportBytes 16777218 = [1, 0, 0, 2] := by simp [exportBytes]
  -- messages equal to the label values: both components are zero
  have enc : ∀ (hc : HC128.State) (label : ℤ) (bs : List U8), exportBytes label = bs → bs.length = 4 →
      ∃ b : ℕ, b = importWords 1 (xorBytes bs (HC128.pktKs hc (32 / 8))) 0 ∧ b < 2 ^ 32 ∧
      ∃ c, heEncrypt (constEnv 1) 1 () hc [1, 2, 3, 4] b 3 ((184683593729 : ℕ) * (7 : ℕ)) label 32 =
        .ok (⟨0, c⟩, b, HC128.pktNext hc (32 / 8), ()) := by
    intro hc label bs e hlen
    have hv := labelValue_eq hc [1, 2, 3, 4] label 32 (by rw [e, hlen]) (by decide) (by decide)
    rw [e, hlen, show ([1, 2, 3, (4 : U8)].take (32 / 8)).drop 4 = [] from rfl, List.append_nil] at hv
    refine ⟨_, rfl, ?_, ?_⟩
    · rw [importWords, importWords, Nat.zero_mul, Nat.zero_add]
      exact BitVec.isLt _
    · obtain ⟨c, he⟩ := Props.LHE.encrypt_exists ((importWords 1 (xorBytes bs (HC128.pktKs hc (32 / 8))) 0 : ℕ) : ℤ)
      refine ⟨c, ?_⟩
      simp only [heEncrypt, hv, show 32 / 32 = 1 from rfl, he, Res.ok_bind, mod_ok two_ne, Res.pure_eq, Int.sub_self,
        Int.zero_emod]
  obtain ⟨b1, -, -, c1, p1⟩ := enc (HC128.init (List.replicate 16 0) (List.replicate 16 0)) 16777217 _ hb1 rfl
  obtain ⟨v1, d1, l1, c2, p2⟩ := enc (HC128.init (List.replicate 16 0) (List.replicate 16 0)) 16777218 _ hb2 rfl
  obtain ⟨b2, -, -, c3, p3⟩ := enc (HC128.pktNext (HC128.init (List.replicate 16 0) (List.replicate 16 0)) (32 / 8)) 16777217 _ hb1 rfl
  obtain ⟨v2, d2, l2, c4, p4⟩ := enc (HC128.pktNext (HC128.init (List.replicate 16 0) (List.replicate 16 0)) (32 / 8)) 16777218 _ hb2 rfl
  have hne : v1 ≠ v2 := by
    intro e
    rw [d1, d2] at e
    clear p1 p2 p3 p4 d1 d2 enc
    generalize HC128.init (List.replicate 16 0) (List.replicate 16 0) = cs at *
    simp only [HC128.pktKs, HC128.pktNext, Nat.reduceAdd, Nat.reduceDiv, w2, w3] at e
    revert e
    decide
  by_cases h : observer 16777217 16777218 0 0 = v1
  · refine ⟨_, b2, v2, b2, v2, _, _, by omega, by exact_mod_cast l2, p3, p4, fun e => hne ?_⟩
    have : (v1 : ℤ) = v2 := h.symm.trans e
    exact_mod_cast this
  · exact ⟨_, b1, v1, b1, v1, _, _, by omega, by exact_mod_cast l1, p1, p2, h⟩

end

/-! ## The multi-user variant -/

section
open CT.MuLHE

/-- The label value of a label that fills the array. -/
theorem mulhe_full_label {k : ℕ} {y N : ℤ} (hk : k < 2 ^ 32) (h8 : 8 ≤ k) (g : Env) {fuel : ℕ} {s s' : g.State}
    {hc hc' : HC128.State} {junk : List U8} (hj : k / 8 ≤ junk.length) {m label b : ℤ} {ct : HeCt}
    (hl : FullLabel k label) (h : heEncrypt g fuel s hc junk m y N label k = .ok (ct, b, hc', s')) :
    b = (Spec.LHE.value (k / 32) (xorBytes (Spec.LHE.labelBytes (k / 8) label.natAbs) (HC128.pktKs hc (k / 8))) : ℤ) ∧
      ct.a = (m - b) % 2 ^ k := by
  obtain ⟨h1, -, h3⟩ := heEncrypt_split g h
  have e1 := (exportBytes_length label (k / 8)).mpr hl.2
  have e2 : ¬ (exportBytes label).length ≤ k / 8 - 1 := fun e => by
    have := (exportBytes_length label _).mp e
    have := hl.1
    omega
  rw [labelValue_eq _ _ _ _ e1 hj hk, Res.ok_inj, Prod.mk.injEq] at h1
  refine ⟨?_, h3⟩
  rw [← h1.1, importWords_eq, exportBytes_eq label (k / 8) (by omega), List.drop_of_length_le, List.append_nil,
    Nat.zero_mul, Nat.zero_add]
  simp [Spec.LHE.labelBytes]

/-- C119 is false: whoever knows one message, its ciphertext and the labels reads every other message that was encrypted
from the same cipher state, for all keys, labels that fill the array, messages, uninitialised memory and coins.  (The
cipher has to be in the same state for the label value to be a function of key and label, C59.) -/
theorem mulhe_known_message_reveals {k : ℕ} {y y' N N' : ℤ} (hk : k < 2 ^ 32) (h8 : 8 ≤ k) (g g' : Env) {fuel fuel' : ℕ}
    {s1 s2 : g.State} {s1' s2' : g'.State} {hc hc1 hc2 : HC128.State} {junk1 junk2 : List U8} (hj1 : k / 8 ≤ junk1.length)
    (hj2 : k / 8 ≤ junk2.length) {m1 m2 label1 label2 b1 b2 : ℤ} {ct1 ct2 : HeCt} (hl1 : FullLabel k label1)
    (hl2 : FullLabel k label2) (h1 : heEncrypt g fuel s1 hc junk1 m1 y N label1 k = .ok (ct1, b1, hc1, s2))
    (h2 : heEncrypt g' fuel' s1' hc junk2 m2 y' N' label2 k = .ok (ct2, b2, hc2, s2')) :
    guess k label1 label2 m1 ct1.a ct2.a = m2 % 2 ^ k := by
  obtain ⟨e1, a1⟩ := mulhe_full_label hk h8 g hj1 hl1 h1
  obtain ⟨e2, a2⟩ := mulhe_full_label hk h8 g' hj2 hl2 h2
  rw [a1, a2, e1, e2]
  exact guess_right k _ (HC128.pktKs_length hc _) label1 label2 m1 m2

/-- C119, the part that holds: different labels have different label values (32-bit words, labels that fill the array).
Missing from the full statement: that the values cannot be found from each other (`mulhe_known_message_reveals`). -/
theorem mulhe_label_values_distinct_partial {k : ℕ} {y N : ℤ} (hk : k < 2 ^ 32) (h8 : 8 ≤ k) (h32 : k % 32 = 0) (g : Env)
    {fuel : ℕ} {s s1 s2 : g.State} {hc hc1 hc2 : HC128.State} {junk1 junk2 : List U8} (hj1 : k / 8 ≤ junk1.length)
    (hj2 : k / 8 ≤ junk2.length) {m1 m2 label1 label2 b1 b2 : ℤ} {ct1 ct2 : HeCt} (hl1 : FullLabel k label1)
    (hl2 : FullLabel k label2) (h1 : heEncrypt g fuel s hc junk1 m1 y N label1 k = .ok (ct1, b1, hc1, s1))
    (h2 : heEncrypt g fuel s hc junk2 m2 y N label2 k = .ok (ct2, b2, hc2, s2)) :
    b1 = b2 ↔ label1.natAbs = label2.natAbs := by
  obtain ⟨e1, -⟩ := mulhe_full_label hk h8 g hj1 hl1 h1
  obtain ⟨e2, -⟩ := mulhe_full_label hk h8 g hj2 hl2 h2
  have len : ∀ {label : ℤ}, FullLabel k label → (exportBytes label).length = k / 8 := fun {label} hl => by
    have e1 := (exportBytes_length label (k / 8)).mpr hl.2
    have e2 : ¬ (exportBytes label).length ≤ k / 8 - 1 := fun e => by
      have := (exportBytes_length label _).mp e
      have := hl.1
      omega
    omega
  have hks := HC128.pktKs_length hc (k / 8)
  rw [e1, e2, Nat.cast_inj, value_xor _ _ _ (by rw [labelBytes_length]; omega) (by omega),
    value_xor _ _ _ (by rw [labelBytes_length]; omega) (by omega)]
  constructor
  · intro h
    have h := congrArg (· ^^^ Spec.LHE.value (k / 32) (HC128.pktKs hc (k / 8))) h
    simp only [Nat.xor_assoc, Nat.xor_self, Nat.xor_zero] at h
    have i := importWords_inj (k / 32) (Spec.LHE.labelBytes (k / 8) label1.natAbs) (Spec.LHE.labelBytes (k / 8) label2.natAbs) 0 0
      (by rw [labelBytes_length]; omega) (by rw [labelBytes_length]; omega)
      (by rw [LHE.importWords_eq, LHE.importWords_eq, h])
    exact labelBytes_inj (len hl1) (len hl2) i.2
  · intro h; rw [h]

/-- Encryption of a 32-bit message under a valid key, with a label of four bytes and coin 1. -/
theorem mulhe_enc_exists (hc : HC128.State) (m label : ℤ) (hl : (exportBytes label).length ≤ 32 / 8) : ∃ ct b,
    heEncrypt (constEnv 1) 1 () hc [1, 2, 3, 4] m 3 ((184683593729 : ℕ) * (7 : ℕ)) label 32 =
      .ok (ct, b, HC128.pktNext hc (32 / 8), ()) := by
  have hv := labelValue_eq hc [1, 2, 3, 4] label 32 hl (by decide) (by decide)
  generalize ((importWords _ _ 0 : ℕ) : ℤ) = b at hv
  obtain ⟨c, he⟩ := Props.MuLHE.encrypt_exists b
  exact ⟨⟨(m - b) % 2 ^ 32, c⟩, b, by simp only [heEncrypt, hv, he, Res.ok_bind, mod_ok two_ne, Res.pure_eq]⟩

/-- The hypotheses are met in every cipher state: two encryptions under a valid key. -/
example (hc : HC128.State) : ∃ ct1 ct2 b1 b2 hc', Key 32 184683593729 7 3 ∧ FullLabel 32 16777217 ∧ FullLabel 32 16777218 ∧
    heEncrypt (constEnv 1) 1 () hc [1, 2, 3, 4] 10 3 ((184683593729 : ℕ) * (7 : ℕ)) 16777217 32 = .ok (ct1, b1, hc', ()) ∧
    heEncrypt (constEnv 1) 1 () hc [1, 2, 3, 4] 77 3 ((184683593729 : ℕ) * (7 : ℕ)) 16777218 32 = .ok (ct2, b2, hc', ()) ∧
    guess 32 16777217 16777218 10 ct1.a ct2.a = 77 ∧ b1 ≠ b2 := by
  obtain ⟨ct1, b1, h1⟩ := mulhe_enc_exists hc 10 16777217 (by simp [exportBytes])
  obtain ⟨ct2, b2, h2⟩ := mulhe_enc_exists hc 77 16777218 (by simp [exportBytes])
  have f1 : FullLabel 32 16777217 := by unfold FullLabel; decide
  have f2 : FullLabel 32 16777218 := by unfold FullLabel; decide
  refine ⟨ct1, ct2, b1, b2, _, key32, f1, f2, h1, h2, ?_, fun e => ?_⟩
  · exact mulhe_known_message_reveals (by decide) (by decide) _ _ (by decide) (by decide) f1 f2 h1 h2
  · have := (mulhe_label_values_distinct_partial (by decide) (by decide) (by decide) _ (by decide) (by decide) f1 f2 h1 h2).mp e
    revert this
    decide

/-- C119 is false, as a negation: it is not the case that every observer who knows the labels, the first message and the
first components of the ciphertexts fails on some second message. -/
theorem mulhe_known_message_refuted :
    ¬ ∀ observer : ℕ → ℤ → ℤ → ℤ → ℤ → ℤ → ℤ, ∃ (k p q : ℕ) (y : ℤ) (_ : Key k p q y) (_ : k < 2 ^ 32) (_ : 8 ≤ k)
      (g : Env) (fuel : ℕ) (s s1 s2 : g.State) (hc hc1 hc2 : HC128.State) (junk : List U8) (_ : k / 8 ≤ junk.length)
      (m1 m2 label1 label2 b1 b2 : ℤ) (ct1 ct2 : HeCt) (_ : FullLabel k label1) (_ : FullLabel k label2),
      0 ≤ m2 ∧ m2 < 2 ^ k ∧ heEncrypt g fuel s hc junk m1 y (p * q) label1 k = .ok (ct1, b1, hc1, s1) ∧
      heEncrypt g fuel s1 hc junk m2 y (p * q) label2 k = .ok (ct2, b2, hc2, s2) ∧
      observer k label1 label2 m1 ct1.a ct2.a ≠ m2 := by
  intro h
  obtain ⟨k, p, q, y, -, hk, h8, g, fuel, s, s1, s2, hc, hc1, hc2, junk, hj, m1, m2, label1, label2, b1, b2, ct1, ct2, f1, f2,
    h0, h1, h2, h3, h4⟩ := h guess
  refine h4 ?_
  rw [mulhe_known_message_reveals hk h8 g g hj hj f1 f2 h2 h3, Int.emod_eq_of_lt h0 h1]

/-- Without the first message nothing is revealed: every observer of labels and first components fails for one of two
cipher states that occur (the first two positions of the stream with the all-zero key and IV). -/
theorem mulhe_unknown_message_hides (observer : ℤ → ℤ → ℤ → ℤ → ℤ) : ∃ (hc : HC128.State) (m1 m2 b1 b2 : ℤ) (ct1 ct2 : HeCt),
    0 ≤ m2 ∧ m2 < 2 ^ 32 ∧
    heEncrypt (constEnv 1) 1 () hc [1, 2, 3, 4] m1 3 ((184683593729 : ℕ) * (7 : ℕ)) 16777217 32 =
      .ok (ct1, b1, HC128.pktNext hc (32 / 8), ()) ∧
    heEncrypt (constEnv 1) 1 () hc [1, 2, 3, 4] m2 3 ((184683593729 : ℕ) * (7 : ℕ)) 16777218 32 =
      .ok (ct2, b2, HC128.pktNext hc (32 / 8), ()) ∧ observer 16777217 16777218 ct1.a ct2.a ≠ m2 := by
  obtain ⟨w1, w2, w3⟩ := HC128.Fast.firstWords_spec HC128.Fast.zero_key_words
  have hb1 : exportBytes 16777217 = [1, 0, 0, 1] := by simp [exportBytes]
  have hb2 : exportBytes 16777218 = [1, 0, 0, 2] := by simp [exportBytes]
  -- messages equal to the label values: both components are zero
  have enc : ∀ (hc : HC128.State) (label : ℤ) (bs : List U8), exportBytes label = bs → bs.length = 4 →
      ∃ b : ℕ, b = importWords 1 (xorBytes bs (HC128.pktKs hc (32 / 8))) 0 ∧ b < 2 ^ 32 ∧
      ∃ c, heEncrypt (constEnv 1) 1 () hc [1, 2, 3, 4] b 3 ((184683593729 : ℕ) * (7 : ℕ)) label 32 =
        .ok (⟨0, c⟩, b, HC128.pktNext hc (32 / 8), ()) := by
    intro hc label bs e hlen
    have hv := labelValue_eq hc [1, 2, 3, 4] label 32 (by rw [e, hlen]) (by decide) (by decide)
    rw [e, hlen, show ([1, 2, 3, (4 : U8)].take (32 / 8)).drop 4 = [] from rfl, List.append_nil] at hv
    refine ⟨_, rfl, ?_, ?_⟩
    · rw [importWords, importWords, Nat.zero_mul, Nat.zero_add]
      exact BitVec.isLt _
    · obtain ⟨c, he⟩ := Props.MuLHE.encrypt_exists ((importWords 1 (xorBytes bs (HC128.pktKs hc (32 / 8))) 0 : ℕ) : ℤ)
      refine ⟨c, ?_⟩
      simp only [heEncrypt, hv, show 32 / 32 = 1 from rfl, he, Res.ok_bind, mod_ok two_ne, Res.pure_eq, Int.sub_self,
        Int.zero_emod]
  obtain ⟨b1, -, -, c1, p1⟩ := enc (HC128.init (List.replicate 16 0) (List.replicate 16 0)) 16777217 _ hb1 rfl
  obtain ⟨v1, d1, l1, c2, p2⟩ := enc (HC128.init (List.replicate 16 0) (List.replicate 16 0)) 16777218 _ hb2 rfl
  obtain ⟨b2, -, -, c3, p3⟩ := enc (HC128.pktNext (HC128.init (List.replicate 16 0) (List.replicate 16 0)) (32 / 8)) 16777217 _ hb1 rfl
  obtain ⟨v2, d2, l2, c4, p4⟩ := enc (HC128.pktNext (HC128.init (List.replicate 16 0) (List.replicate 16 0)) (32 / 8)) 16777218 _ hb2 rfl
  have hne : v1 ≠ v2 := by
    intro e
    rw [d1, d2] at e
    clear p1 p2 p3 p4 d1 d2 enc
    generalize HC128.init (List.replicate 16 0) (List.replicate 16 0) = cs at *
    simp only [HC128.pktKs, HC128.pktNext, Nat.reduceAdd, Nat.reduceDiv, w2, w3] at e
    revert e
    decide
  by_cases h : observer 16777217 16777218 0 0 = v1
  · refine ⟨_, b2, v2, b2, v2, _, _, by omega, by exact_mod_cast l2, p3, p4, fun e => hne ?_⟩
    have : (v1 : ℤ) = v2 := h.symm.trans e
    exact_mod_cast this
  · exact ⟨_, b1, v1, b1, v1, _, _, by omega, by exact_mod_cast l1, p1, p2, h⟩

end

end CT.Props.LHEKnown
