import Verif.Props.ExampleAE
import Verif.Proof.AESPerm

/-!
# The Encrypt-then-MAC example: does the tag cover the IV? (C118)
-/

namespace CT.Props.ExampleAE
open CT.ExampleAE
open CT.Spec.HMAC (hmac)

/-- The keystream for decryption with another IV differs in the first block only. -/
theorem cfbRun_other_iv (eKey iv iv' ct : List U8) (hc : 16 ≤ ct.length) :
    ∃ R, (AES.cfbRun AES.portable false (AES.cfbInit eKey iv) ct).1 =
        (AES.portable.enc (AES.keyExpansion eKey) (AES.quadOf iv)).bytes ++ R ∧
      (AES.cfbRun AES.portable false (AES.cfbInit eKey iv') ct).1 =
        (AES.portable.enc (AES.keyExpansion eKey) (AES.quadOf iv')).bytes ++ R := by
  obtain ⟨m, hm⟩ : ∃ m, ct.length / 16 = m + 1 := ⟨ct.length / 16 - 1, by omega⟩
  have key : ∀ v : List U8, (AES.cfbRun AES.portable false (AES.cfbInit eKey v) ct).1 =
      (AES.portable.enc (AES.keyExpansion eKey) (AES.quadOf v)).bytes ++
        ((AES.cfbBlocks AES.portable false m { AES.cfbInit eKey [] with reg := AES.quadOf (ct.take 16) } (ct.drop 16)).1 ++
        (AES.cfbTail AES.portable false
          (AES.cfbBlocks AES.portable false m { AES.cfbInit eKey [] with reg := AES.quadOf (ct.take 16) } (ct.drop 16)).2
          (ct.drop (16 * (m + 1)))).1) := by
    intro v
    rw [AES.cfbRun, hm, AES.cfbBlocks, ← List.append_assoc]
    rfl
  exact ⟨_, key iv, key iv'⟩

/-- C118 is false for section 1: a receiver that uses another IV than the sender reports a valid tag and prints a text
whose first block is wrong, and whose rest is right, for all keys, all two IVs and all plaintexts of at least 16 bytes
(of the sizes that have a defined encryption). -/
theorem example1_iv_unchecked {junk junk' : Nat → U8} {aKey : List U8} {a : HMAC.State} (hk : aKey.length + 128 < 2 ^ 31)
    (ha : HMAC.loadKey junk aKey aKey.length = .ok a) (eKey iv iv' p : List U8) (hi : iv.length = 16)
    (hi' : iv'.length = 16) (hne : iv ≠ iv') (hp : 16 ≤ p.length) (hm : p.length + 192 < 2 ^ 31) (h4 : p.length % 4 ≤ 1) :
    ∃ ct p', send1 junk' a (AES.cfbInit eKey iv) p = .ok (ct ++ (hmac aKey ct).take 16) ∧
      recv1 junk' a eKey iv' (ct ++ (hmac aKey ct).take 16) p.length = .ok [.validTag, .recovered p'] ∧
      p'.length = p.length ∧ p'.take 16 ≠ p.take 16 ∧ p'.drop 16 = p.drop 16 := by
  have h0 : p ≠ [] := by intro h; rw [h] at hp; simp at hp
  obtain ⟨ct, hl, hs, hr⟩ := example1_round_trip_partial (junk' := junk') hk ha eKey iv p h0 hm h4
  have hne' : ct ≠ [] := by intro h; rw [h] at hl; simp at hl; omega
  have hv := validation (junk' := junk') hk ha ct ((hmac aKey ct).take 16) hne' (by omega)
    (by rw [List.length_take, Props.HMAC.hmac_length]; decide)
  rw [List.take_take, Nat.min_self, if_pos rfl, hl] at hv
  -- what a receiver with any IV prints
  have main : ∀ iv : List U8, recv1 junk' a eKey iv (ct ++ (hmac aKey ct).take 16) p.length =
      .ok [.validTag, .recovered (xorBytes ct (AES.cfbRun AES.portable false (AES.cfbInit eKey iv) ct).1)] := by
    intro iv
    have hks := AES.cfbRun_length AES.portable false (AES.cfbInit eKey iv) ct (by omega)
    have hp := AES.cfbPacket_eq AES.portable true (AES.cfbInit eKey iv)
      (io := ⟨ct ++ (hmac aKey ct).take 16, (List.range p.length).map junk', false⟩) (n := p.length) h4
      ⟨by simp [Io.src, hl], by simp⟩
    simp only [Io.xored, Io.src, Bool.false_eq_true, if_false, Bool.not_true, Bool.or_self, List.take_left' hl, hks] at hp
    rw [List.take_left] at hp
    simp only [recv1, hv, Res.ok_bind, hp, show ¬ ((1 : Int) = 0) by decide, if_false]
    rw [List.take_left' (by rw [xorBytes_length, hks, hl]; omega)]
  rw [main iv, Res.ok_inj] at hr
  simp only [List.cons.injEq, Line.recovered.injEq, true_and, and_true] at hr
  obtain ⟨R, e1, e2⟩ := cfbRun_other_iv eKey iv iv' ct (by omega)
  have hks := AES.cfbRun_length AES.portable false (AES.cfbInit eKey iv') ct (by omega)
  have b1 : ∀ q : Quad, q.bytes.length = 16 := fun q => rfl
  refine ⟨ct, xorBytes ct (AES.cfbRun AES.portable false (AES.cfbInit eKey iv') ct).1, hs, main iv', ?_, ?_, ?_⟩
  · rw [xorBytes_length, hks]; omega
  · rw [← hr, e1, e2]
    have ht : ∀ K : List U8, K.length = 16 → (xorBytes ct (K ++ R)).take 16 = xorBytes (ct.take 16) K := by
      intro K hK
      rw [xorBytes, List.take_zipWith, List.take_left' hK]
      rfl
    rw [ht _ (b1 _), ht _ (b1 _)]
    intro e
    have l16 : (ct.take 16).length = 16 := by rw [List.length_take]; omega
    have hE : ∀ v : List U8, v.length = 16 →
        (AES.portable.enc (AES.keyExpansion eKey) (AES.quadOf v)).bytes = Spec.AES.cipher eKey v :=
      fun v hv => by
        have := AES.encrypt_eq eKey (AES.quadOf v)
        rw [AES.quadOf_bytes hv] at this
        exact this
    rw [hE iv hi, hE iv' hi', xorBytes_comm, xorBytes_comm (ct.take 16)] at e
    have e3 := congrArg (fun l => xorBytes l (ct.take 16)) e
    rw [xorBytes_xorBytes _ _ (by rw [l16]; exact Nat.le_refl 16), xorBytes_xorBytes _ _ (by rw [l16]; exact Nat.le_refl 16)] at e3
    exact hne (AES.cipher_inj hi hi' e3.symm)
  · rw [← hr, e1, e2, AES.xorBytes_drop, AES.xorBytes_drop, List.drop_left' (b1 _), List.drop_left' (b1 _)]

example := example1_iv_unchecked (junk := fun _ => 7) (junk' := fun _ => 8) (aKey := List.replicate 64 0) (by simp)
  (Props.HMAC.hmac_load_key_normalises (fun _ => 7) (List.replicate 64 0) [] (by simp)) (List.replicate 16 1) (List.replicate 16 2) (List.replicate 16 4)
  (List.replicate 41 3) (by simp) (by simp) (by simp) (by simp) (by simp) (by simp)

/-- C118 for section 2, the part that holds: the tag covers the IV.  A packet whose IV was replaced is reported as
invalid unless the (truncated) tags of both packets are the same.  Missing from the full statement: section 1
(`example1_iv_refuted`). -/
theorem example2_iv_checked_partial {junk junk' : Nat → U8} {aKey : List U8} {a : HMAC.State} (hk : aKey.length + 128 < 2 ^ 31)
    (ha : HMAC.loadKey junk aKey aKey.length = .ok a) (eKey iv iv' p : List U8) (he : eKey.length = 16)
    (hi : iv.length = 16) (hi' : iv'.length = 16) (hm : p.length + 208 < 2 ^ 31) :
    ∃ ct tag lines, send2 junk' a eKey iv p = .ok (iv ++ ct ++ tag) ∧ ct.length = p.length ∧
      recv2 junk' a eKey (iv' ++ ct ++ tag) p.length = .ok lines ∧
      (Line.invalidTag ∈ lines ↔ (hmac aKey (iv ++ ct)).take 16 ≠ (hmac aKey (iv' ++ ct)).take 16) := by
  obtain ⟨ct, hl, hs, -⟩ := example2_round_trip (junk' := junk') hk ha eKey iv p he hi hm
  have hr := example2_always_releases (junk' := junk') hk ha eKey iv' ct ((hmac aKey (iv ++ ct)).take 16) he hi' (by omega)
    (by rw [List.length_take, Props.HMAC.hmac_length]; decide)
  rw [hl] at hr
  refine ⟨ct, _, _, hs, hl, hr, ?_⟩
  by_cases h : (hmac aKey (iv ++ ct)).take 16 = (hmac aKey (iv' ++ ct)).take 16
  · simp [h]
  · simp [h]

/-- Non-trivial instance of the hypotheses of both. -/
example : HMAC.loadKey (fun _ => 7) (List.replicate 64 0) 64 = .ok (Props.HMAC.keyState (List.replicate 64 0)) ∧
    (List.replicate 16 (0 : U8)).length = 16 ∧ List.replicate 16 (0 : U8) ≠ List.replicate 16 1 ∧
    16 ≤ (List.replicate 33 (5 : U8)).length ∧ (List.replicate 33 (5 : U8)).length % 4 ≤ 1 := by
  refine ⟨?_, by decide, by decide, by decide, by decide⟩
  have := Props.HMAC.hmac_load_key_normalises (fun _ => 7) (List.replicate 64 0) [] (by decide)
  rw [List.append_nil] at this
  exact this

/-- C118 is false, as a negation. -/
theorem example1_iv_refuted : ¬ ∀ (junk : Nat → U8) (aKey eKey iv iv' p msg : List U8) (a : HMAC.State)
    (lines : List Line), aKey.length = 64 → eKey.length = 16 → iv.length = 16 → iv'.length = 16 → iv ≠ iv' →
    HMAC.loadKey junk aKey 64 = .ok a → send1 junk a (AES.cfbInit eKey iv) p = .ok msg →
    recv1 junk a eKey iv' msg p.length = .ok lines → Line.invalidTag ∈ lines := by
  intro h
  have ha := Props.HMAC.hmac_load_key_normalises (fun _ => 7) (List.replicate 64 0) [] (by decide)
  rw [List.append_nil] at ha
  obtain ⟨ct, p', h1, h2, -⟩ := example1_iv_unchecked (junk' := fun _ => 7) (by decide) ha (List.replicate 16 0) (List.replicate 16 0)
    (List.replicate 16 1) (List.replicate 16 5) (by decide) (by decide) (by decide) (by decide) (by decide) (by decide)
  have := h _ _ _ _ _ _ _ _ _ (by decide) (by decide) (by decide) (by decide) (by decide) ha h1 h2
  simp at this

end CT.Props.ExampleAE
