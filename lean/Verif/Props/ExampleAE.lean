import Verif.Model.ExampleAE
import Verif.Props.HMAC
import Verif.Props.HC128
import Verif.Props.AESCfb

/-!
# The Encrypt-then-MAC example (C62, C65)
-/

namespace CT.Props.ExampleAE
open CT.ExampleAE
open CT.Spec.HMAC (hmac)

theorem loaded {junk : Nat → U8} {aKey : List U8} {a : HMAC.State} (hk : aKey.length + 128 < 2 ^ 31)
    (ha : HMAC.loadKey junk aKey aKey.length = .ok a) : a = Props.HMAC.keyState aKey := by
  have h := Props.HMAC.hmac_load_key_normalises junk aKey [] hk
  rw [List.append_nil, ha] at h
  exact Res.ok_inj.mp h

theorem validation {junk junk' : Nat → U8} {aKey : List U8} {a : HMAC.State} (hk : aKey.length + 128 < 2 ^ 31)
    (ha : HMAC.loadKey junk aKey aKey.length = .ok a) (ct tag : List U8) (h0 : ct ≠ []) (hm : ct.length + 192 < 2 ^ 31)
    (ht : 16 ≤ tag.length) :
    HMAC.tagValidation junk' a ((ct ++ tag).drop ct.length) (ct ++ tag) ct.length tagSize =
      .ok (if tag.take 16 = (hmac aKey ct).take 16 then 1 else 0) := by
  have h := Props.HMAC.hmac_validation_decides junk junk' aKey ct [] tag tag 16 hk h0 hm (by omega) ht
  rw [List.append_nil, ha] at h
  rw [List.drop_left]
  exact h

theorem generation {junk junk' : Nat → U8} {aKey : List U8} {a : HMAC.State} (hk : aKey.length + 128 < 2 ^ 31)
    (ha : HMAC.loadKey junk aKey aKey.length = .ok a) (ct rest : List U8) (h0 : ct ≠ []) (hm : ct.length + 192 < 2 ^ 31)
    (ht : rest.length = 16) :
    HMAC.tagGeneration junk' a ((ct ++ rest).drop ct.length) (ct ++ rest) ct.length tagSize =
      .ok ((hmac aKey ct).take 16) := by
  have h := Props.HMAC.tagGeneration_ok junk' aKey rest ct rest 16 h0 hm (by omega) (by omega)
  rw [List.drop_of_length_le (by omega), List.append_nil] at h
  rw [loaded hk ha, List.drop_left]
  exact h

/-! ### C62 -/

/-- C62, section 1: for every received `ciphertext || tag`, if the tag is not the tag of the
ciphertext then "Invalid tag!" is all that is printed. -/
theorem example1_rejects {junk junk' : Nat → U8} {aKey : List U8} {a : HMAC.State} (hk : aKey.length + 128 < 2 ^ 31)
    (ha : HMAC.loadKey junk aKey aKey.length = .ok a) (eKey iv ct tag : List U8) (h0 : ct ≠ [])
    (hm : ct.length + 192 < 2 ^ 31) (ht : tag.length = 16) (hbad : tag ≠ (hmac aKey ct).take 16) :
    recv1 junk' a eKey iv (ct ++ tag) ct.length = .ok [.invalidTag] := by
  have hv := validation (junk' := junk') hk ha ct tag h0 hm (by omega)
  rw [List.take_of_length_le (by omega), if_neg hbad] at hv
  simp only [recv1, hv, Res.ok_bind, if_true]

/-- One of two different tags is wrong. -/
example (junk' : Nat → U8) : ∃ tag : List U8, recv1 junk' (Props.HMAC.keyState (List.replicate 64 0)) (List.replicate 16 1) (List.replicate 16 2)
    ([1, 2, 3, 4] ++ tag) 4 = .ok [.invalidTag] := by
  have h := example1_rejects (junk := fun _ => 7) (junk' := junk') (aKey := List.replicate 64 0) (by simp)
    (Props.HMAC.hmac_load_key_normalises (fun _ => 7) (List.replicate 64 0) [] (by simp)) (List.replicate 16 1) (List.replicate 16 2) [1, 2, 3, 4]
  by_cases e : List.replicate 16 (0 : U8) = (hmac (List.replicate 64 0) [1, 2, 3, 4]).take 16
  · exact ⟨List.replicate 16 1, h _ (by simp) (by simp) (by simp) (by rw [← e]; decide)⟩
  · exact ⟨List.replicate 16 0, h _ (by simp) (by simp) (by simp) e⟩

/-- C62, section 1: whatever is received, text is released only under a valid tag. -/
theorem example1_release_needs_tag_partial {junk junk' : Nat → U8} {aKey : List U8} {a : HMAC.State}
    (hk : aKey.length + 128 < 2 ^ 31) (ha : HMAC.loadKey junk aKey aKey.length = .ok a) (eKey iv ct tag : List U8)
    (h0 : ct ≠ []) (hm : ct.length + 192 < 2 ^ 31) (ht : tag.length = 16) (lines : List Line)
    (h : recv1 junk' a eKey iv (ct ++ tag) ct.length = .ok lines) (t : List U8) (hr : Line.recovered t ∈ lines) :
    tag = (hmac aKey ct).take 16 := by
  by_cases hbad : tag = (hmac aKey ct).take 16
  · exact hbad
  · rw [example1_rejects hk ha eKey iv ct tag h0 hm ht hbad] at h
    rw [← Res.ok_inj.mp h] at hr
    simp at hr

/-- Non-trivial instance: a message with a wrong tag. -/
example : HMAC.loadKey (fun _ => 7) (List.replicate 64 0) 64 = .ok (Props.HMAC.keyState (List.replicate 64 0)) ∧
    (List.replicate 64 (0 : U8)).length + 128 < 2 ^ 31 ∧ ([1, 2, 3, 4] : List U8) ≠ [] :=
  ⟨Props.HMAC.hmac_load_key_normalises (fun _ => 7) (List.replicate 64 0) [] (by simp), by simp, by simp⟩

/-- C62, section 2: every received `IV || ciphertext || tag` is decrypted and reported with "Valid
tag!"; a wrong tag only adds the line "Invalid tag!" before. -/
theorem example2_always_releases {junk junk' : Nat → U8} {aKey : List U8} {a : HMAC.State} (hk : aKey.length + 128 < 2 ^ 31)
    (ha : HMAC.loadKey junk aKey aKey.length = .ok a) (eKey iv ct tag : List U8) (he : eKey.length = 16)
    (hi : iv.length = 16) (hm : ct.length + 208 < 2 ^ 31) (ht : tag.length = 16) :
    recv2 junk' a eKey (iv ++ ct ++ tag) ct.length =
      .ok ((if tag = (hmac aKey (iv ++ ct)).take 16 then [] else [.invalidTag]) ++
        [.validTag, .recovered (xorBytes ct (Spec.HC128.keystream eKey iv ct.length))]) := by
  have hl : (iv ++ ct).length = 16 + ct.length := by simp [hi]
  have hne : iv ++ ct ≠ [] := by intro h; rw [h] at hl; simp at hl; omega
  have hv := validation (junk' := junk') hk ha (iv ++ ct) tag hne (by omega) (by omega)
  rw [List.take_of_length_le (l := tag) (by omega), hl] at hv
  have e1 : (iv ++ ct ++ tag).take 16 = iv := by rw [List.append_assoc]; exact List.take_left' hi
  have e2 : (iv ++ ct ++ tag).drop 16 = ct ++ tag := by rw [List.append_assoc]; exact List.drop_left' hi
  obtain ⟨cs', hp⟩ := Props.HC128.hc128_first_packet_is_spec eKey iv he hi
    ⟨ct ++ tag, (List.range ct.length).map junk', false⟩ ct.length (by omega) ⟨by simp [Io.src], by simp⟩
  have hks : (Spec.HC128.keystream eKey iv ct.length).length = ct.length := by
    rw [← Props.HC128.keystream_eq eKey iv he hi, HC128.pktKs_length]
  simp only [recv2, hv, e1, e2, Res.ok_bind, hp, Io.src, Bool.false_eq_true, if_false, List.take_left]
  rw [List.take_left' (by rw [xorBytes_length, hks]; omega)]
  split <;> rfl

/-- C62 is false for section 2: a message with a wrong tag is decrypted. -/
theorem example2_release_refuted : ¬ ∀ (junk : Nat → U8) (aKey eKey iv ct tag : List U8) (a : HMAC.State)
    (lines : List Line) (t : List U8), aKey.length = 64 → eKey.length = 16 → iv.length = 16 → ct ≠ [] → tag.length = 16 →
    HMAC.loadKey junk aKey 64 = .ok a → recv2 junk a eKey (iv ++ ct ++ tag) ct.length = .ok lines →
    Line.recovered t ∈ lines → tag = (hmac aKey (iv ++ ct)).take 16 := by
  intro h
  let k := List.replicate 64 (0 : U8)
  let e := List.replicate 16 (0 : U8)
  have ha := Props.HMAC.hmac_load_key_normalises (fun _ => 0) k [] (by simp [k])
  rw [List.append_nil] at ha
  have key : ∀ tag : List U8, tag.length = 16 → tag = (hmac k (e ++ [1])).take 16 := by
    intro tag ht
    have hr := example2_always_releases (junk' := fun _ => 0) (by simp [k]) ha e e [1] tag (by simp [e]) (by simp [e])
      (by simp) ht
    exact h (fun _ => 0) k e e [1] tag _ _ _ (by simp [k]) (by simp [e]) (by simp [e]) (by simp) ht ha hr
      (List.mem_append_right _ (List.mem_cons_of_mem _ (List.mem_cons_self)))
  have h1 := key (List.replicate 16 0) (by simp)
  have h2 := key (List.replicate 16 1) (by simp)
  rw [← h1] at h2
  exact absurd h2 (by decide)

/-! ### C65 -/

/-- C65, section 1: the message the sender makes is accepted, and the receiver prints the plaintext,
for every non-empty plaintext of a size that is 0 or 1 modulo 4.
Missing from the full statement: the other sizes, for which the cipher is undefined behaviour, and the
empty plaintext, which gets no tag. -/
theorem example1_round_trip_partial {junk junk' : Nat → U8} {aKey : List U8} {a : HMAC.State} (hk : aKey.length + 128 < 2 ^ 31)
    (ha : HMAC.loadKey junk aKey aKey.length = .ok a) (eKey iv p : List U8) (h0 : p ≠ []) (hm : p.length + 192 < 2 ^ 31)
    (h4 : p.length % 4 ≤ 1) :
    ∃ ct, ct.length = p.length ∧
      send1 junk' a (AES.cfbInit eKey iv) p = .ok (ct ++ (hmac aKey ct).take 16) ∧
      recv1 junk' a eKey iv (ct ++ (hmac aKey ct).take 16) p.length = .ok [.validTag, .recovered p] := by
  have hks := AES.cfbRun_length AES.portable true (AES.cfbInit eKey iv) p h4
  refine ⟨xorBytes p (AES.cfbRun AES.portable true (AES.cfbInit eKey iv) p).1, ?_, ?_, ?_⟩
  · rw [xorBytes_length, hks]; omega
  all_goals
    have hl : (xorBytes p (AES.cfbRun AES.portable true (AES.cfbInit eKey iv) p).1).length = p.length := by
      rw [xorBytes_length, hks]; omega
    have hne : xorBytes p (AES.cfbRun AES.portable true (AES.cfbInit eKey iv) p).1 ≠ [] := by
      intro h; rw [h] at hl; exact h0 (List.length_eq_zero_iff.mp hl.symm)
    have hdec := AES.cfbRun_dec AES.portable (AES.cfbInit eKey iv) p h4
    have hx : xorBytes (xorBytes p (AES.cfbRun AES.portable true (AES.cfbInit eKey iv) p).1)
      (AES.cfbRun AES.portable true (AES.cfbInit eKey iv) p).1 = p := Props.AES.dec_enc _ _ _ h4
  · have hp := AES.cfbPacket_eq AES.portable false (AES.cfbInit eKey iv)
      (io := ⟨p, (List.range (p.length + tagSize)).map junk', false⟩) (n := p.length) h4 ⟨by simp [Io.src], by simp⟩
    simp only [Io.xored, Io.src, Bool.false_eq_true, if_false, List.take_length, Bool.not_false, Bool.true_or, hks] at hp
    generalize xorBytes p (AES.cfbRun AES.portable true (AES.cfbInit eKey iv) p).1 = ct at *
    have hg := generation (junk' := junk') hk ha ct (((List.range (p.length + tagSize)).map junk').drop p.length) hne
      (by omega) (by simp [tagSize])
    rw [hl] at hg
    simp only [send1, hp, Res.ok_bind, hg]
    rw [List.take_left' hl]
  · generalize hct : xorBytes p (AES.cfbRun AES.portable true (AES.cfbInit eKey iv) p).1 = ct at *
    have h16 : ((hmac aKey ct).take 16).length = 16 := by rw [List.length_take, Props.HMAC.hmac_length]; rfl
    have hv := validation (junk' := junk') hk ha ct ((hmac aKey ct).take 16) hne (by omega) (by omega)
    rw [List.take_take, Nat.min_self, if_pos rfl, hl] at hv
    have hp := AES.cfbPacket_eq AES.portable true (AES.cfbInit eKey iv)
      (io := ⟨ct ++ (hmac aKey ct).take 16, (List.range p.length).map junk', false⟩) (n := p.length) h4
      ⟨by simp [Io.src, hl], by simp⟩
    simp only [Io.xored, Io.src, Bool.false_eq_true, if_false, Bool.not_true, Bool.or_self, List.take_left' hl, hdec, hks, hx] at hp
    simp only [recv1, hv, Res.ok_bind, hp, show ¬ ((1 : Int) = 0) by decide, if_false]
    rw [List.take_left]

example := example1_round_trip_partial (junk := fun _ => 7) (junk' := fun _ => 8) (aKey := List.replicate 64 0) (by simp)
  (Props.HMAC.hmac_load_key_normalises (fun _ => 7) (List.replicate 64 0) [] (by simp)) (List.replicate 16 1) (List.replicate 16 2)
  (List.replicate 41 3) (by simp) (by simp) (by simp)

/-- C65, section 2: the same for every plaintext. -/
theorem example2_round_trip {junk junk' : Nat → U8} {aKey : List U8} {a : HMAC.State} (hk : aKey.length + 128 < 2 ^ 31)
    (ha : HMAC.loadKey junk aKey aKey.length = .ok a) (eKey iv p : List U8) (he : eKey.length = 16)
    (hi : iv.length = 16) (hm : p.length + 208 < 2 ^ 31) :
    ∃ ct, ct.length = p.length ∧
      send2 junk' a eKey iv p = .ok (iv ++ ct ++ (hmac aKey (iv ++ ct)).take 16) ∧
      recv2 junk' a eKey (iv ++ ct ++ (hmac aKey (iv ++ ct)).take 16) p.length = .ok [.validTag, .recovered p] := by
  have hks : (Spec.HC128.keystream eKey iv p.length).length = p.length := by
    rw [← Props.HC128.keystream_eq eKey iv he hi, HC128.pktKs_length]
  have hl : (xorBytes p (Spec.HC128.keystream eKey iv p.length)).length = p.length := by
    rw [xorBytes_length, hks]; omega
  refine ⟨xorBytes p (Spec.HC128.keystream eKey iv p.length), hl, ?_, ?_⟩
  · have hw : Mem.wrs ((List.range (16 + p.length + tagSize)).map junk') 0 (iv.take 16) =
        .ok (iv ++ ((List.range (16 + p.length + tagSize)).map junk').drop 16) := by
      rw [List.take_of_length_le (by omega), Mem.wrs_eq _ _ (by simp [hi]; omega), hi]; rfl
    have hrl : (((List.range (16 + p.length + tagSize)).map junk').drop 16).length = p.length + 16 := by
      simp [tagSize]; omega
    generalize ((List.range (16 + p.length + tagSize)).map junk').drop 16 = rest at hw hrl
    obtain ⟨cs', hp⟩ := Props.HC128.hc128_first_packet_is_spec eKey iv he hi ⟨p, rest, false⟩ p.length (by omega)
      ⟨by simp [Io.src], by simp [hrl]⟩
    simp only [Io.src, Bool.false_eq_true, if_false, List.take_length] at hp
    generalize xorBytes p (Spec.HC128.keystream eKey iv p.length) = ct at *
    have hil : (iv ++ ct).length = 16 + p.length := by simp [hi, hl]
    have hne : iv ++ ct ≠ [] := by intro h; rw [h] at hil; simp at hil; omega
    have hg := generation (junk' := junk') hk ha (iv ++ ct) (rest.drop p.length) hne (by omega) (by simp [hrl])
    rw [hil] at hg
    simp only [send2, hw, Res.ok_bind, List.drop_left' hi, List.take_left' hi, hp]
    rw [← List.append_assoc, hg]
    simp only [Res.ok_bind, List.take_left' hil]
  · have h16 : ((hmac aKey (iv ++ xorBytes p (Spec.HC128.keystream eKey iv p.length))).take 16).length = 16 := by
      rw [List.length_take, Props.HMAC.hmac_length]; rfl
    have := example2_always_releases (junk' := junk') hk ha eKey iv (xorBytes p (Spec.HC128.keystream eKey iv p.length))
      ((hmac aKey (iv ++ xorBytes p (Spec.HC128.keystream eKey iv p.length))).take 16) he hi (by omega) h16
    rw [if_pos rfl, hl, xorBytes_xorBytes _ _ (by omega)] at this
    exact this

/-- Non-trivial instances: the second plaintext of the example has 64 bytes. -/
example : (List.replicate 64 (0x41 : U8)).length + 208 < 2 ^ 31 ∧ (List.replicate 64 (0x41 : U8)).length % 4 ≤ 1 := by simp

/-- The plaintext of section 1 (example_ae.cpp:53). -/
def plaintext1 : List U8 :=
  "Hello world! This is an example of AE with a self-synchronizing cipher.".toList.map fun c => BitVec.ofNat 8 c.toNat

/-- C65 is false as the example stands: its own plaintext has 71 bytes, and encrypting it is undefined
behaviour, whatever the keys. -/
theorem example1_shipped_plaintext_ub (junk : Nat → U8) (a : HMAC.State) (e : AES.State) :
    send1 junk a e plaintext1 = .ub .badShift := by
  have hl : plaintext1.length = 71 := by decide +kernel
  have := AES.cfbPacket_ub AES.portable false e (io := ⟨plaintext1, (List.range (plaintext1.length + tagSize)).map junk, false⟩)
    (n := plaintext1.length) (by rw [hl]; decide) ⟨by simp [Io.src], by simp⟩
  simp only [send1, this]
  rfl

end CT.Props.ExampleAE
