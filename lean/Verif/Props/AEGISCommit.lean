import Verif.Props.AEGIS
import Verif.Proof.AESPerm

/-!
# C144: AEGIS ciphertexts and the key they belong to
-/

namespace CT.Props.AEGIS
open CT CT.AEGIS
open CT.AES (quadOf)

theorem rnd_onto (k t : Quad) : ∃ s, rndPortable s k = t :=
  Finite.surjective_of_injective (fun _ _ h => AES.round_inj (k := k) h) t

theorem word_xor (x a u : U32) : (x ^^^ a) ^^^ (x ^^^ a ^^^ u) = u := by
  rw [← BitVec.xor_assoc, BitVec.xor_self, BitVec.zero_xor]

/-- The round function adds its second argument. -/
theorem rnd_key (s k : Quad) : rndPortable s k = qxor (rndPortable s ⟨0, 0, 0, 0⟩) k := by
  simp [rndPortable, AES.round, AES.roundWord, qxor]

theorem rnd_message (e a t : Quad) : ∃ m, rndPortable e (qxor a m) = t := by
  refine ⟨qxor (qxor (rndPortable e ⟨0, 0, 0, 0⟩) a) t, ?_⟩
  rw [rnd_key]
  generalize rndPortable e ⟨0, 0, 0, 0⟩ = x
  have h (x a t : U32) : x ^^^ (a ^^^ (x ^^^ a ^^^ t)) = t := by
    rw [← BitVec.xor_assoc, word_xor]
  simp only [qxor, h]

/-- Five updates lead from every state to every state. -/
theorem steer (c t : State) : ∃ m1 m2 m3 m4 m5 : Quad,
    toSpec (stateUpdate rndPortable (stateUpdate rndPortable (stateUpdate rndPortable (stateUpdate rndPortable
      (stateUpdate rndPortable c m1) m2) m3) m4) m5) = toSpec t := by
  obtain ⟨_, a0, b0, c0, d0, e0⟩ := c
  obtain ⟨_, ta, tb, tc, td, te⟩ := t
  simp only [toSpec, stateUpdate]
  have onto := rnd_onto
  have msg := rnd_message
  generalize rndPortable = r at onto msg ⊢
  -- what is fixed by the first state
  obtain ⟨b1, hb1⟩ : ∃ x, x = r a0 b0 := ⟨_, rfl⟩
  obtain ⟨c1, hc1⟩ : ∃ x, x = r b0 c0 := ⟨_, rfl⟩
  obtain ⟨d1, hd1⟩ : ∃ x, x = r c0 d0 := ⟨_, rfl⟩
  obtain ⟨e1, he1⟩ : ∃ x, x = r d0 e0 := ⟨_, rfl⟩
  obtain ⟨c2, hc2⟩ : ∃ x, x = r b1 c1 := ⟨_, rfl⟩
  obtain ⟨d2, hd2⟩ : ∃ x, x = r c1 d1 := ⟨_, rfl⟩
  obtain ⟨e2, he2⟩ : ∃ x, x = r d1 e1 := ⟨_, rfl⟩
  obtain ⟨d3, hd3⟩ : ∃ x, x = r c2 d2 := ⟨_, rfl⟩
  obtain ⟨e3, he3⟩ : ∃ x, x = r d2 e2 := ⟨_, rfl⟩
  obtain ⟨e4, he4⟩ : ∃ x, x = r d3 e3 := ⟨_, rfl⟩
  -- the choices
  obtain ⟨d4, hd4⟩ := onto e4 te
  obtain ⟨c3, hc3⟩ := onto d3 d4
  obtain ⟨c4, hc4⟩ := onto d4 td
  obtain ⟨b2, hb2⟩ := onto c2 c3
  obtain ⟨b3, hb3⟩ := onto c3 c4
  obtain ⟨b4, hb4⟩ := onto c4 tc
  obtain ⟨a1, ha1⟩ := onto b1 b2
  obtain ⟨a2, ha2⟩ := onto b2 b3
  obtain ⟨a3, ha3⟩ := onto b3 b4
  obtain ⟨a4, ha4⟩ := onto b4 tb
  obtain ⟨m1, h1⟩ := msg e0 a0 a1
  obtain ⟨m2, h2⟩ := msg e1 a1 a2
  obtain ⟨m3, h3⟩ := msg e2 a2 a3
  obtain ⟨m4, h4⟩ := msg e3 a3 a4
  obtain ⟨m5, h5⟩ := msg e4 a4 ta
  refine ⟨m1, m2, m3, m4, m5, ?_⟩
  simp only [h1, ← hb1, ← hc1, ← hd1, ← he1, h2, ha1, ← hc2, ← hd2, ← he2, h3, ha2, hb2, ← hd3, ← he3, h4, ha3, hb3, hc3, ← he4,
    h5, ha4, hb4, hc4, hd4]

theorem absorb_append (n : Nat) (b : List U8) : ∀ (m : Nat) (s : Spec.AEGIS.State) (a : List U8), a.length = 16 * m →
    Spec.AEGIS.absorb (m + n) s (a ++ b) = Spec.AEGIS.absorb n (Spec.AEGIS.absorb m s a) b := by
  intro m
  induction m with
  | zero =>
    intro s a h
    have : a = [] := List.length_eq_zero_iff.mp (by omega)
    subst this
    simp [Spec.AEGIS.absorb]
  | succ m ih =>
    intro s a h
    rw [show m + 1 + n = (m + n) + 1 by omega, Spec.AEGIS.absorb, Spec.AEGIS.absorb, List.take_append_of_le_length (by omega),
      List.drop_append_of_le_length (by omega), ih _ _ (by simp; omega)]

/-- For every key, IV and beginning of the associated data there are 80 bytes with which it can be continued so that all
packets are those of another key, IV and associated data. -/
theorem spec_other_key (key iv ad key' iv' pre : List U8) (hk : key.length = 16) (hiv : iv.length = 16) (hk' : key'.length = 16)
    (hiv' : iv'.length = 16) (hl : ad.length = pre.length + 80) (h16 : pre.length % 16 = 0) (had : ad.length ≤ 2 ^ 33) :
    ∃ last : List U8, last.length = 80 ∧ ∀ p, Spec.AEGIS.encrypt key' iv' (pre ++ last) p = Spec.AEGIS.encrypt key iv ad p := by
  obtain ⟨t, -, -, ht⟩ := header_spec (loadKey someState key) key iv ad hk hiv rfl had
  obtain ⟨c, -, -, hc⟩ := header_spec (loadKey someState key') key' iv' pre hk' hiv' rfl (by omega)
  obtain ⟨m1, m2, m3, m4, m5, hm⟩ := steer c t
  have l (q : Quad) : q.bytes.length = 16 := q.bytes_length
  refine ⟨m1.bytes ++ (m2.bytes ++ (m3.bytes ++ (m4.bytes ++ m5.bytes))), by simp [l], fun p => ?_⟩
  have e : toSpec t = Spec.AEGIS.absorb (Spec.AEGIS.blocks (pre ++ (m1.bytes ++ (m2.bytes ++ (m3.bytes ++ (m4.bytes ++ m5.bytes))))))
      (Spec.AEGIS.initial key' iv') (pre ++ (m1.bytes ++ (m2.bytes ++ (m3.bytes ++ (m4.bytes ++ m5.bytes))))) := by
    rw [show Spec.AEGIS.blocks (pre ++ (m1.bytes ++ (m2.bytes ++ (m3.bytes ++ (m4.bytes ++ m5.bytes))))) = pre.length / 16 + 5 by
        simp only [Spec.AEGIS.blocks, List.length_append, l]; omega,
      absorb_append 5 _ _ _ _ (by omega), show pre.length / 16 = Spec.AEGIS.blocks pre by rw [Spec.AEGIS.blocks]; omega, ← hc, ← hm]
    have p16 (q : Quad) : Spec.AEGIS.pad q.bytes = q.bytes := by simp [Spec.AEGIS.pad, l]
    simp only [Spec.AEGIS.absorb, List.take_left' (l _), List.drop_left' (l _), List.take_of_length_le (Nat.le_of_eq (l _)), p16,
      stateUpdate_spec]
  rw [spec_encrypt e p, spec_encrypt ht p]
  have hlen : (pre ++ (m1.bytes ++ (m2.bytes ++ (m3.bytes ++ (m4.bytes ++ m5.bytes))))).length = ad.length := by
    simp only [List.length_append, l]; omega
  rw [hlen]

/-- C144 fails for all keys: given a key, an IV and associated data (of whole blocks, at least five), for every other key, IV and
beginning of the associated data there are 80 bytes to continue it, so that every packet encrypted under the first key is
accepted under the second, with the same ciphertext and tag. -/
theorem aegis_second_key {rnd rnd' : Quad → Quad → Quad} (hv : IsVariant rnd) (hv' : IsVariant rnd')
    (key iv ad key' iv' pre : List U8) (hk : key.length = 16) (hiv : iv.length = 16) (hk' : key'.length = 16) (hiv' : iv'.length = 16)
    (hl : ad.length = pre.length + 80) (h16 : pre.length % 16 = 0) (had : ad.length ≤ 2 ^ 33) :
    ∃ last : List U8, last.length = 80 ∧ ∀ (cs cr : State) (p out out' : List U8), (p.length = 0 ∨ 15 ≤ p.length) → p.length < 2 ^ 64 →
      out.length = p.length → out'.length = p.length →
      ∃ cs' cr' ct tag, encryptPacket rnd (loadKey cs key) ⟨p, out, false⟩ ad iv ad.length p.length = .ok (cs', ⟨p, ct, false⟩, tag) ∧
        decryptPacket rnd' (loadKey cr key') ⟨ct, out', false⟩ (pre ++ last) iv' tag ad.length p.length =
          .ok (cr', ⟨ct, p, false⟩, tag, 1) := by
  obtain ⟨last, hlast, h⟩ := spec_other_key key iv ad key' iv' pre hk hiv hk' hiv' hl h16 had
  refine ⟨last, hlast, fun cs cr p out out' h15 hn ho ho' => ?_⟩
  have hlen : (pre ++ last).length = ad.length := by rw [List.length_append]; omega
  have had' : (pre ++ last).length ≤ 2 ^ 33 := by omega
  obtain ⟨c1, e1⟩ := aegis_conforms_partial hv cs key iv ad ⟨p, out, false⟩ p.length hk hiv had h15 hn
    ⟨Nat.le_refl _, Nat.le_of_eq ho.symm⟩ rfl
  obtain ⟨c2, e2⟩ := aegis_conforms_partial hv cs key' iv' (pre ++ last) ⟨p, out, false⟩ p.length hk' hiv' had' h15 hn
    ⟨Nat.le_refl _, Nat.le_of_eq ho.symm⟩ rfl
  obtain ⟨c3, ct, tag, e3, cr', e4⟩ := aegis_round_trip_partial hv hv' cs cr key' iv' (pre ++ last) p out out' false hk' hiv' had' h15 hn ho ho'
  rw [hlen] at e2 e3 e4
  have e5 := (Res.ok_inj.mp (e2.symm.trans e3))
  simp only [Prod.mk.injEq, Io.mk.injEq, List.take_length, List.drop_of_length_le (Nat.le_of_eq ho), List.append_nil, true_and,
    and_true, h] at e5
  simp only [List.take_length, List.drop_of_length_le (Nat.le_of_eq ho), List.append_nil] at e1
  rw [e5.2.1, e5.2.2] at e1
  exact ⟨c1, cr', ct, tag, e1, e4⟩

example := aegis_second_key (Or.inl rfl) (Or.inr (Or.inl rfl)) (List.replicate 16 1) (List.replicate 16 2) (List.replicate 96 3) (List.replicate 16 4)
  (List.replicate 16 5) (List.replicate 16 6) rfl rfl rfl rfl rfl rfl (by decide)

/-- C144 as stated is false: equal ciphertext and tag under two keys. -/
theorem aegis_commitment_refuted : ¬ ∀ (key iv ad key' iv' ad' p : List U8) (cs cr cs' cr' : State) (ct tag : List U8),
    key.length = 16 → iv.length = 16 → key'.length = 16 → iv'.length = 16 →
    encryptPacket rndPortable (loadKey cs key) ⟨p, p, false⟩ ad iv ad.length p.length = .ok (cs', ⟨p, ct, false⟩, tag) →
    decryptPacket rndPortable (loadKey cr key') ⟨ct, p, false⟩ ad' iv' tag ad'.length p.length = .ok (cr', ⟨ct, p, false⟩, tag, 1) →
    key = key' := by
  intro h
  obtain ⟨last, hlast, e⟩ := aegis_second_key (Or.inl rfl) (Or.inl rfl) (zeros 16) (zeros 16) (zeros 80) (1 :: zeros 15) (zeros 16) []
    rfl rfl rfl rfl rfl rfl (by decide)
  obtain ⟨cs', cr', ct, tag, e1, e2⟩ := e someState someState (zeros 16) (zeros 16) (zeros 16) (Or.inr (by decide)) (by decide) rfl rfl
  have := h (zeros 16) (zeros 16) (zeros 80) (1 :: zeros 15) (zeros 16) last (zeros 16) someState someState cs' cr' ct tag rfl rfl rfl rfl e1
    (by rw [hlast]; exact e2)
  exact absurd this (by decide)

/-- C144, what holds: under one key, IV and associated data a ciphertext belongs to one message.  Missing from the full statement:
that it belongs to one key, IV and associated data. -/
theorem aegis_commitment_partial {rnd rnd' : Quad → Quad → Quad} (hv : IsVariant rnd) (hv' : IsVariant rnd') (cs cs' s s' : State)
    (key iv ad p p' out out' ct tag tag' : List U8) (hk : key.length = 16) (hiv : iv.length = 16) (had : ad.length ≤ 2 ^ 33)
    (h15 : p.length = 0 ∨ 15 ≤ p.length) (hn : p.length < 2 ^ 64) (ho : out.length = p.length)
    (h15' : p'.length = 0 ∨ 15 ≤ p'.length) (hn' : p'.length < 2 ^ 64) (ho' : out'.length = p'.length)
    (h : encryptPacket rnd (loadKey cs key) ⟨p, out, false⟩ ad iv ad.length p.length = .ok (s, ⟨p, ct, false⟩, tag))
    (h' : encryptPacket rnd' (loadKey cs' key) ⟨p', out', false⟩ ad iv ad.length p'.length = .ok (s', ⟨p', ct, false⟩, tag')) :
    p = p' ∧ tag = tag' := by
  obtain ⟨c1, e1⟩ := aegis_conforms_partial hv cs key iv ad ⟨p, out, false⟩ p.length hk hiv had h15 hn
    ⟨Nat.le_refl _, Nat.le_of_eq ho.symm⟩ rfl
  obtain ⟨c2, e2⟩ := aegis_conforms_partial hv' cs' key iv ad ⟨p', out', false⟩ p'.length hk hiv had h15' hn'
    ⟨Nat.le_refl _, Nat.le_of_eq ho'.symm⟩ rfl
  have x1 := Res.ok_inj.mp (h.symm.trans e1)
  have x2 := Res.ok_inj.mp (h'.symm.trans e2)
  simp only [Prod.mk.injEq, Io.mk.injEq, List.take_length, List.drop_of_length_le (Nat.le_of_eq ho),
    List.drop_of_length_le (Nat.le_of_eq ho'), List.append_nil, true_and, and_true] at x1 x2
  have hp : p = p' := spec_inj hk hiv had (x1.2.1.symm.trans x2.2.1)
  exact ⟨hp, by rw [x1.2.2, x2.2.2, hp]⟩

/-- An instance: packets under the zero key are accepted under the key 1, 0, ..., 0. -/
example : ∃ last : List U8, last.length = 80 ∧ ∀ (cs cr : State) (p out out' : List U8), (p.length = 0 ∨ 15 ≤ p.length) → p.length < 2 ^ 64 →
      out.length = p.length → out'.length = p.length →
      ∃ cs' cr' ct tag, encryptPacket rndX86 (loadKey cs (zeros 16)) ⟨p, out, false⟩ (zeros 96) (zeros 16) 96 p.length =
          .ok (cs', ⟨p, ct, false⟩, tag) ∧
        decryptPacket rndArm (loadKey cr (1 :: zeros 15)) ⟨ct, out', false⟩ (zeros 16 ++ last) (zeros 16) tag 96 p.length =
          .ok (cr', ⟨ct, p, false⟩, tag, 1) :=
  aegis_second_key (Or.inr (Or.inl rfl)) (Or.inr (Or.inr rfl)) (zeros 16) (zeros 16) (zeros 96) (1 :: zeros 15) (zeros 16) (zeros 16)
    rfl rfl rfl rfl rfl rfl (by decide)

end CT.Props.AEGIS
