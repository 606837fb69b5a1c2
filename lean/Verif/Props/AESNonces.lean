import Verif.Props.AESCtr
import Verif.Props.AESCfb

/-!
# C113, C114: sessions with one key and different nonces or IVs
-/

namespace CT.Props.AES
open CT CT.AES CT.Spec.AES

theorem flatten_mod16 (ps : List (List U8)) (h16 : ∀ p ∈ ps, p.length % 16 = 0) : ps.flatten.length % 16 = 0 := by
  induction ps with
  | nil => rfl
  | cons q ps ih =>
    have h1 := h16 q (by simp)
    have h2 := ih (fun x hx => h16 x (by simp [hx]))
    simp only [List.flatten_cons, List.length_append]
    omega

/-- C113.  Two sessions in counter mode with one key and different nonces never use the same block of
keystream: blocks of plaintext xor ciphertext, at any two positions, differ. -/
theorem aes_ctr_nonces_separate (cs₁ cs₂ : AES.State) (key nonce₁ nonce₂ : List U8) (h1 : nonce₁.length = 12)
    (h2 : nonce₂.length = 12) (hne : nonce₁ ≠ nonce₂) (ps qs : List (List U8)) (hp : ∀ p ∈ ps, p.length % 16 = 0)
    (hq : ∀ q ∈ qs, q.length % 16 = 0) :
    ∃ cs₁' cs₂' outs₁ outs₂,
      runAll (fun s io n => ctrPacket s io n) (ctrLoadIv (loadKey cs₁ key) nonce₁) ps = .ok (cs₁', outs₁) ∧
      runAll (fun s io n => ctrPacket s io n) (ctrLoadIv (loadKey cs₂ key) nonce₂) qs = .ok (cs₂', outs₂) ∧
      ∀ i j, 16 * (i + 1) ≤ ps.flatten.length → 16 * (j + 1) ≤ qs.flatten.length →
        ((xorBytes ps.flatten outs₁.flatten).drop (16 * i)).take 16 ≠
          ((xorBytes qs.flatten outs₂.flatten).drop (16 * j)).take 16 := by
  obtain ⟨c1, e1⟩ := aes_ctr_sp800_38a_partial cs₁ key nonce₁ h1 ps (fun p h => by have := hp p h; omega)
  obtain ⟨c2, e2⟩ := aes_ctr_sp800_38a_partial cs₂ key nonce₂ h2 qs (fun p h => by have := hq p h; omega)
  refine ⟨c1, c2, _, _, e1, e2, fun i j hi hj => ?_⟩
  have l1 := flatten_mod16 ps hp
  have l2 := flatten_mod16 qs hq
  rw [ctrMany_flatten key nonce₁ ps 1 hp, ctrMany_flatten key nonce₂ qs 1 hq, xorBytes_comm ps.flatten,
    xorBytes_comm ps.flatten, xorBytes_comm qs.flatten, xorBytes_comm qs.flatten,
    xorBytes_xorBytes _ _ (by rw [ctrStream_length]; omega), xorBytes_xorBytes _ _ (by rw [ctrStream_length]; omega),
    ctrStream_block _ _ _ _ _ (by omega), ctrStream_block _ _ _ _ _ (by omega)]
  intro e
  have := cipher_inj (by rw [List.length_append, h1]; rfl) (by rw [List.length_append, h2]; rfl) e
  exact hne (List.append_inj this (by rw [h1, h2])).1

/-- Non-trivial instance of the hypotheses. -/
example : (List.replicate 12 (1 : U8)).length = 12 ∧ List.replicate 12 (1 : U8) ≠ List.replicate 12 2 ∧
    (∀ p ∈ [List.replicate 16 (1 : U8), List.replicate 32 2], p.length % 16 = 0) := by decide

theorem xorBytes_right_inj {m a b : List U8} (ha : a.length = m.length) (hb : b.length = m.length)
    (h : xorBytes m a = xorBytes m b) : a = b := by
  rw [xorBytes_comm m, xorBytes_comm m] at h
  rw [← xorBytes_xorBytes a m (by omega), h, xorBytes_xorBytes b m (by omega)]

theorem cfbEnc_blocks_differ (key : List U8) (n : Nat) : ∀ (a b msg : List U8), a.length = 16 → b.length = 16 → a ≠ b →
    msg.length = 16 * n → ∀ i, i < n →
    ((cfbEnc key n a msg).drop (16 * i)).take 16 ≠ ((cfbEnc key n b msg).drop (16 * i)).take 16 := by
  have hc : ∀ prev, (cipher key prev).length = 16 := fun _ => rfl
  induction n with
  | zero => intro a b msg _ _ _ _ i hi; omega
  | succ n ih =>
    intro a b msg ha hb hab hm i hi
    have ht : (msg.take 16).length = 16 := by rw [List.length_take]; omega
    have hla : (xorBytes (msg.take 16) (cipher key a)).length = 16 := by rw [xorBytes_length, hc, ht]; rfl
    have hlb : (xorBytes (msg.take 16) (cipher key b)).length = 16 := by rw [xorBytes_length, hc, ht]; rfl
    have hne : xorBytes (msg.take 16) (cipher key a) ≠ xorBytes (msg.take 16) (cipher key b) := fun e =>
      hab (cipher_inj ha hb (xorBytes_right_inj (by rw [hc, ht]) (by rw [hc, ht]) e))
    rw [cfbEnc, cfbEnc]
    cases i with
    | zero =>
      simp only [Nat.mul_zero, List.drop_zero]
      rw [List.take_append_of_le_length (by omega), List.take_append_of_le_length (by omega),
        List.take_of_length_le (Nat.le_of_eq hla), List.take_of_length_le (Nat.le_of_eq hlb)]
      exact hne
    | succ i =>
      rw [List.drop_append, List.drop_append, hla, hlb, List.drop_eq_nil_of_le (Nat.le_trans (Nat.le_of_eq hla) (by omega)),
        List.drop_eq_nil_of_le (Nat.le_trans (Nat.le_of_eq hlb) (by omega)),
        List.nil_append, List.nil_append, show 16 * (i + 1) - 16 = 16 * i by omega]
      exact ih _ _ _ hla hlb hne (by rw [List.length_drop]; omega) i (by omega)

/-- C114.  One message encrypted in CFB mode with one key and two different IVs, in any packets of whole
blocks: the two ciphertexts differ in every block. -/
theorem aes_cfb_ivs_separate (key iv₁ iv₂ : List U8) (h1 : iv₁.length = 16) (h2 : iv₂.length = 16) (hne : iv₁ ≠ iv₂)
    (ps qs : List (List U8)) (hp : ∀ p ∈ ps, p.length % 16 = 0) (hq : ∀ q ∈ qs, q.length % 16 = 0)
    (hm : ps.flatten = qs.flatten) (v w : CfbVariant) (hv : v = portable ∨ v = arm ∨ v = x86)
    (hw : w = portable ∨ w = arm ∨ w = x86) :
    ∃ cs₁ cs₂ outs₁ outs₂, runAll (enc v) (cfbInit key iv₁) ps = .ok (cs₁, outs₁) ∧
      runAll (enc w) (cfbInit key iv₂) qs = .ok (cs₂, outs₂) ∧
      ∀ i, 16 * (i + 1) ≤ ps.flatten.length →
        (outs₁.flatten.drop (16 * i)).take 16 ≠ (outs₂.flatten.drop (16 * i)).take 16 := by
  obtain ⟨⟨c1, o1, e1, -, f1⟩, -⟩ := aes_cfb_sp800_38a key iv₁ h1 ps hp v hv
  obtain ⟨⟨c2, o2, e2, -, f2⟩, -⟩ := aes_cfb_sp800_38a key iv₂ h2 qs hq w hw
  refine ⟨c1, c2, o1, o2, e1, e2, fun i hi => ?_⟩
  have l1 := flatten_mod16 ps hp
  rw [f1, f2, ← hm]
  exact cfbEnc_blocks_differ key _ _ _ _ h1 h2 hne (by omega) i (by omega)

/-- Non-trivial instance of the hypotheses. -/
example : List.replicate 16 (1 : U8) ≠ List.replicate 16 2 ∧
    (∀ p ∈ [List.replicate 16 (1 : U8), List.replicate 32 1], p.length % 16 = 0) ∧
    [List.replicate 16 (1 : U8), List.replicate 32 1].flatten = [List.replicate 48 (1 : U8)].flatten := by decide

end CT.Props.AES
