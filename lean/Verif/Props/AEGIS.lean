import Verif.Proof.AEGIS

/-!
# AEGIS (C41 - C47)

`IsVariant` is one of the three builds.  `msglen` is a `uint64_t`.
-/

namespace CT.Props.AEGIS
open CT.AEGIS

/-- The round functions of the three builds. -/
def IsVariant (rnd : Quad → Quad → Quad) : Prop := rnd = rndPortable ∨ rnd = rndX86 ∨ rnd = rndArm

theorem IsVariant.eq {rnd : Quad → Quad → Quad} (h : IsVariant rnd) : rnd = rndPortable := by
  rcases h with h | h | h
  · exact h
  · rw [h, rndX86_eq]
  · rw [h, rndArm_eq]

/-- Some state, as left over by earlier operations. -/
def someState : State := ⟨⟨1, 2, 3, 4⟩, ⟨5, 6, 7, 8⟩, ⟨9, 10, 11, 12⟩, ⟨13, 14, 15, 16⟩, ⟨17, 18, 19, 20⟩, ⟨21, 22, 23, 24⟩⟩
def zeros (n : Nat) : List U8 := List.replicate n 0

/-! ### C47 -/

/-- C47: the three builds give the same results on every input, including undefined ones. -/
theorem aegis_variants_agree (cs : State) (io : Io) (ad iv tag : List U8) (adlen msglen : Nat) :
    encryptPacket rndX86 cs io ad iv adlen msglen = encryptPacket rndPortable cs io ad iv adlen msglen ∧
    encryptPacket rndArm cs io ad iv adlen msglen = encryptPacket rndPortable cs io ad iv adlen msglen ∧
    decryptPacket rndX86 cs io ad iv tag adlen msglen = decryptPacket rndPortable cs io ad iv tag adlen msglen ∧
    decryptPacket rndArm cs io ad iv tag adlen msglen = decryptPacket rndPortable cs io ad iv tag adlen msglen := by
  rw [rndX86_eq, rndArm_eq]; simp

/-! ### C43 -/

/-- C43, for messages that are empty or of at least 15 bytes (shorter ones are C44) and associated data of
at most 2^33 bytes: ciphertext and tag are those of AEGIS-128; the rest of the output buffer is
untouched.  The key stays loaded. -/
theorem aegis_conforms_partial {rnd : Quad → Quad → Quad} (hv : IsVariant rnd) (cs : State) (key iv ad : List U8) (io : Io) (n : Nat)
    (hk : key.length = 16) (hiv : iv.length = 16) (had : ad.length ≤ 2 ^ 33) (h15 : n = 0 ∨ 15 ≤ n) (hn : n < 2 ^ 64)
    (hf : io.Fits n) (ha : io.alias = false) :
    ∃ cs', encryptPacket rnd (loadKey cs key) io ad iv ad.length n = .ok (cs',
      { io with out := (Spec.AEGIS.encrypt key iv ad (io.inp.take n)).1 ++ io.out.drop n },
      (Spec.AEGIS.encrypt key iv ad (io.inp.take n)).2) := by
  rw [hv.eq]
  obtain ⟨cs', h, _⟩ := encryptPacket_spec (loadKey cs key) key iv ad hk hiv rfl had h15 hn hf (Or.inl ha)
  have : io.src = io.inp := by rw [Io.src, ha]; rfl
  rw [this] at h
  exact ⟨cs', h⟩

/-- The specification evaluated through the proof. -/
theorem spec_eval (key iv ad p : List U8) (hk : key.length = 16) (hiv : iv.length = 16) (had : ad.length ≤ 2 ^ 33) :
    ∃ c, processAd rndPortable (initState rndPortable (loadKey someState key) iv) ad ad.length = .ok c ∧
    Spec.AEGIS.encrypt key iv ad p = (let r := msgRun rndPortable false false c p
      (xorBytes p r.1, (finalize rndPortable r.2 ad.length p.length).2.bytes)) := by
  obtain ⟨c, h1, _, h2⟩ := header_spec (loadKey someState key) key iv ad hk hiv rfl had
  exact ⟨c, h1, spec_encrypt h2 p⟩

/-- State after the header, for evaluation. -/
def header (key iv ad : List U8) : State :=
  match processAd rndPortable (initState rndPortable (loadKey someState key) iv) ad ad.length with
  | .ok c => c
  | .ub _ => someState

theorem spec_header (key iv ad p : List U8) (hk : key.length = 16) (hiv : iv.length = 16) (had : ad.length ≤ 2 ^ 33) :
    Spec.AEGIS.encrypt key iv ad p = (let r := msgRun rndPortable false false (header key iv ad) p
      (xorBytes p r.1, (finalize rndPortable r.2 ad.length p.length).2.bytes)) := by
  obtain ⟨c, h1, h2⟩ := spec_eval key iv ad p hk hiv had
  have : header key iv ad = c := by rw [header, h1]
  rw [this, h2]

set_option maxRecDepth 10000 in
/-- Test vector 1 of the AEGIS paper, which also tests the specification. -/
example : Spec.AEGIS.encrypt (zeros 16) (zeros 16) [] (zeros 16) =
    ([0x95, 0x1b, 0x05, 0x0f, 0xa7, 0x2b, 0x1a, 0x2f, 0xc1, 0x6d, 0x2e, 0x1f, 0x01, 0xb0, 0x7d, 0x7e],
     [0xa7, 0xd2, 0xa9, 0x97, 0x73, 0x24, 0x95, 0x42, 0xf4, 0x22, 0x21, 0x7e, 0xe8, 0x88, 0xd5, 0xf1]) := by
  rw [spec_header _ _ _ _ (by decide) (by decide) (by decide)]
  decide +kernel

set_option maxRecDepth 10000 in
/-- Test vector 2, with associated data. -/
example : Spec.AEGIS.encrypt (zeros 16) (zeros 16) (zeros 16) (zeros 16) =
    ([0x10, 0xb0, 0xde, 0xe6, 0x5a, 0x97, 0xd7, 0x51, 0x20, 0x5c, 0x12, 0x8a, 0x99, 0x24, 0x73, 0xa1],
     [0x46, 0xdc, 0xb9, 0xee, 0x93, 0xc4, 0x6c, 0xf1, 0x37, 0x31, 0xd4, 0x1b, 0x96, 0x46, 0xc1, 0x31]) := by
  rw [spec_header _ _ _ _ (by decide) (by decide) (by decide)]
  decide +kernel

example : ∃ cs', encryptPacket rndArm (loadKey someState (zeros 16)) ⟨zeros 35, zeros 40, false⟩ (zeros 5) (zeros 16) 5 35 =
    .ok (cs', { inp := zeros 35, out := (Spec.AEGIS.encrypt (zeros 16) (zeros 16) (zeros 5) (zeros 35)).1 ++ zeros 5, alias := false },
      (Spec.AEGIS.encrypt (zeros 16) (zeros 16) (zeros 5) (zeros 35)).2) :=
  aegis_conforms_partial (Or.inr (Or.inr rfl)) someState (zeros 16) (zeros 16) (zeros 5) ⟨zeros 35, zeros 40, false⟩ 35
    rfl rfl (by decide) (by decide) (by decide) (by decide) rfl

/-! ### C44 -/

/-- C44: exactly the messages of 1 to 14 bytes are undefined (the loop bound `msglen-15` wraps around). -/
theorem aegis_encrypt_ub_iff {rnd : Quad → Quad → Quad} (hv : IsVariant rnd) (cs : State) (key iv ad : List U8) (io : Io) (n : Nat)
    (hk : key.length = 16) (hiv : iv.length = 16) (had : ad.length ≤ 2 ^ 33) (hn : n < 2 ^ 64)
    (hf : io.Fits n) (hs : io.out.length < 2 ^ 64 - 15) :
    (encryptPacket rnd (loadKey cs key) io ad iv ad.length n).isUB ↔ 1 ≤ n ∧ n ≤ 14 := by
  rw [hv.eq]
  obtain ⟨c1, e1, -, -⟩ := header_spec (loadKey cs key) key iv ad hk hiv rfl had
  constructor
  · intro h
    false_or_by_contra
    have hc := crypt_eq rndPortable false c1 (io := io) (n := n) (by omega) hn hf
    rw [encryptPacket] at h
    simp only [e1, Res.ok_bind, hc] at h
    cases h
  · rintro ⟨h1, h2⟩
    have hc := crypt_ub rndPortable false c1 io n h1 h2 hs
    rw [encryptPacket]
    simp only [e1, Res.ok_bind]
    cases e : crypt rndPortable false c1 io n with
    | ub => rfl
    | ok r => rw [e] at hc; cases hc

example := aegis_encrypt_ub_iff (Or.inl rfl) someState (zeros 16) (zeros 16) (zeros 5) ⟨zeros 35, zeros 40, false⟩ 7 rfl rfl (by decide) (by decide)
  (by decide) (by decide)

/-- C44: the same for decryption. -/
theorem aegis_decrypt_ub_iff {rnd : Quad → Quad → Quad} (hv : IsVariant rnd) (cs : State) (key iv ad tag : List U8) (io : Io) (n : Nat)
    (hk : key.length = 16) (hiv : iv.length = 16) (had : ad.length ≤ 2 ^ 33) (ht : tag.length = 16) (hn : n < 2 ^ 64)
    (hf : io.Fits n) (hs : io.out.length < 2 ^ 64 - 15) :
    (decryptPacket rnd (loadKey cs key) io ad iv tag ad.length n).isUB ↔ 1 ≤ n ∧ n ≤ 14 := by
  rw [hv.eq]
  constructor
  · intro h
    false_or_by_contra
    obtain ⟨cs', p, _, _, _, hd⟩ := decryptPacket_spec (loadKey cs key) key iv ad tag hk hiv rfl had ht (n := n) (by omega) hn hf
    rw [hd] at h
    split at h <;> cases h
  · rintro ⟨h1, h2⟩
    obtain ⟨c1, e1, -, -⟩ := header_spec (loadKey cs key) key iv ad hk hiv rfl had
    have hc := crypt_ub rndPortable true c1 io n h1 h2 hs
    rw [decryptPacket]
    simp only [e1, Res.ok_bind]
    cases e : crypt rndPortable true c1 io n with
    | ub => rfl
    | ok r => rw [e] at hc; cases hc

example := aegis_decrypt_ub_iff (Or.inr (Or.inl rfl)) someState (zeros 16) (zeros 16) (zeros 5) (zeros 16) ⟨zeros 35, zeros 40, true⟩ 7 rfl rfl
  (by decide) rfl (by decide) (by decide) (by decide)

/-- C44 is false: encrypting one byte runs out of any buffer. -/
theorem aegis_every_length_refuted : ¬ ∀ (cs : State) (key iv ad : List U8) (io : Io) (n : Nat),
    key.length = 16 → iv.length = 16 → ad.length ≤ 2 ^ 33 → n < 2 ^ 64 → io.Fits n →
    ¬ (encryptPacket rndPortable (loadKey cs key) io ad iv ad.length n).isUB := by
  intro h
  exact h someState (zeros 16) (zeros 16) [] ⟨zeros 1, zeros 1, false⟩ 1 rfl rfl (by decide) (by decide) (by decide)
    ((aegis_encrypt_ub_iff (Or.inl rfl) someState (zeros 16) (zeros 16) [] ⟨zeros 1, zeros 1, false⟩ 1 rfl rfl (by decide)
      (by decide) (by decide) (by decide)).mpr (by decide))

/-- Associated data of more than 2^33 bytes overflows the `int` index. -/
theorem aegis_ad_ub {rnd : Quad → Quad → Quad} (cs : State) (ad iv : List U8) (io : Io) (n : Nat) (had : 2 ^ 33 < ad.length) :
    encryptPacket rnd cs io ad iv ad.length n = .ub .signedOverflow := by
  rw [encryptPacket]
  simp only []
  rw [processAd, if_neg (by omega), if_neg (by omega), if_pos (by omega)]
  rfl

example := aegis_ad_ub (rnd := rndX86) someState (List.replicate (2 ^ 33 + 1) 0) (zeros 16) ⟨[], [], false⟩ 0 (by rw [List.length_replicate]; omega)

/-! ### C42 -/

/-- C42, for ciphertexts that are empty or of at least 15 bytes (shorter ones are C44): either the call
returns 1 and the output is the plaintext whose AEGIS-128 encryption is the given ciphertext with the
given tag; or it returns 0, there is no such plaintext, and output and tag are zeroed.  This holds
for separate buffers and in place. -/
theorem aegis_decrypt_decides_partial {rnd : Quad → Quad → Quad} (hv : IsVariant rnd) (cs : State) (key iv ad tag : List U8) (io : Io) (n : Nat)
    (hk : key.length = 16) (hiv : iv.length = 16) (had : ad.length ≤ 2 ^ 33) (ht : tag.length = 16)
    (h15 : n = 0 ∨ 15 ≤ n) (hn : n < 2 ^ 64) (hf : io.Fits n) :
    ∃ cs' io' tag' r, decryptPacket rnd (loadKey cs key) io ad iv tag ad.length n = .ok (cs', io', tag', r) ∧
      ((r = 1 ∧ tag' = tag ∧ ∃ p, io'.out = p ++ io.out.drop n ∧ Spec.AEGIS.encrypt key iv ad p = (io.src.take n, tag)) ∨
       (r = 0 ∧ tag' = List.replicate 16 0 ∧ io'.out = List.replicate n 0 ++ io.out.drop n ∧
          ∀ p, Spec.AEGIS.encrypt key iv ad p ≠ (io.src.take n, tag))) := by
  rw [hv.eq]
  obtain ⟨cs', p, _, hp, hct, hd⟩ := decryptPacket_spec (loadKey cs key) key iv ad tag hk hiv rfl had ht h15 hn hf
  by_cases h : (Spec.AEGIS.encrypt key iv ad p).2 = tag
  · rw [if_pos h] at hd
    exact ⟨cs', _, tag, 1, hd, Or.inl ⟨rfl, rfl, p, rfl, Prod.ext hct h⟩⟩
  · rw [if_neg h] at hd
    refine ⟨cs', _, _, 0, hd, Or.inr ⟨rfl, rfl, rfl, fun p' hp' => h ?_⟩⟩
    have : p = p' := spec_inj hk hiv had (by rw [hct, hp'])
    rw [this, hp']

/-- Both outcomes occur. -/
example : ∃ cs' io' tag' r, decryptPacket rndX86 (loadKey someState (zeros 16)) ⟨zeros 16, zeros 16, false⟩ [] (zeros 16) (zeros 16) 0 16 =
    .ok (cs', io', tag', r) ∧
      ((r = 1 ∧ tag' = zeros 16 ∧ ∃ p, io'.out = p ++ [] ∧ Spec.AEGIS.encrypt (zeros 16) (zeros 16) [] p = (zeros 16, zeros 16)) ∨
       (r = 0 ∧ tag' = List.replicate 16 0 ∧ io'.out = List.replicate 16 0 ++ [] ∧
          ∀ p, Spec.AEGIS.encrypt (zeros 16) (zeros 16) [] p ≠ (zeros 16, zeros 16))) :=
  aegis_decrypt_decides_partial (Or.inr (Or.inl rfl)) someState (zeros 16) (zeros 16) [] (zeros 16) ⟨zeros 16, zeros 16, false⟩ 16
    rfl rfl (by decide) rfl (by decide) (by decide) (by decide)

/-! ### C41 -/

/-- C41, for messages that are empty or of at least 15 bytes (shorter ones are C44): decryption by any
build of what any build encrypted accepts and restores the plaintext, also in place, for any prior
states and buffer contents. -/
theorem aegis_round_trip_partial {rnd rnd' : Quad → Quad → Quad} (hv : IsVariant rnd) (hv' : IsVariant rnd') (cs cr : State)
    (key iv ad p out out' : List U8) (inPlace : Bool)
    (hk : key.length = 16) (hiv : iv.length = 16) (had : ad.length ≤ 2 ^ 33) (h15 : p.length = 0 ∨ 15 ≤ p.length) (hn : p.length < 2 ^ 64)
    (ho : out.length = p.length) (ho' : out'.length = p.length) :
    ∃ cs' ct tag, encryptPacket rnd (loadKey cs key) ⟨p, out, false⟩ ad iv ad.length p.length = .ok (cs', ⟨p, ct, false⟩, tag) ∧
      ∃ cr', decryptPacket rnd' (loadKey cr key) ⟨ct, if inPlace then ct else out', inPlace⟩ ad iv tag ad.length p.length =
        .ok (cr', ⟨ct, p, inPlace⟩, tag, 1) := by
  rw [hv.eq, hv'.eq]
  obtain ⟨cs', he, -⟩ := encryptPacket_spec (loadKey cs key) key iv ad (io := ⟨p, out, false⟩) (n := p.length) hk hiv rfl had h15 hn
    ⟨Nat.le_refl _, Nat.le_of_eq ho.symm⟩ (Or.inl rfl)
  have hsrc : (⟨p, out, false⟩ : Io).src.take p.length = p := by simp [Io.src]
  rw [hsrc] at he
  simp only [List.drop_of_length_le (Nat.le_of_eq ho), List.append_nil] at he
  have hcl : (Spec.AEGIS.encrypt key iv ad p).1.length = p.length := by
    rw [spec_header _ _ _ _ hk hiv had]
    simp only [xorBytes_length, msgRun_length]; omega
  have htl : (Spec.AEGIS.encrypt key iv ad p).2.length = 16 := by
    rw [spec_header _ _ _ _ hk hiv had]; rfl
  refine ⟨cs', _, _, he, ?_⟩
  have hd := decryptPacket_spec (loadKey cr key) key iv ad (Spec.AEGIS.encrypt key iv ad p).2
    (io := ⟨(Spec.AEGIS.encrypt key iv ad p).1, if inPlace then (Spec.AEGIS.encrypt key iv ad p).1 else out', inPlace⟩)
    (n := p.length) hk hiv rfl had htl h15 hn (by cases inPlace <;> simp [Io.Fits, Io.src, hcl, ho'])
  obtain ⟨cr', p', _, _, hct, hd⟩ := hd
  have hsrc2 : (⟨(Spec.AEGIS.encrypt key iv ad p).1, if inPlace then (Spec.AEGIS.encrypt key iv ad p).1 else out', inPlace⟩ : Io).src.take
      p.length = (Spec.AEGIS.encrypt key iv ad p).1 := by cases inPlace <;> simp [Io.src, ← hcl]
  rw [hsrc2] at hct
  have hpp : p' = p := spec_inj hk hiv had hct
  rw [hpp, if_pos rfl] at hd
  refine ⟨cr', ?_⟩
  rw [hd]
  cases inPlace <;> simp [hcl, ho']

example : ∃ cs' ct tag, encryptPacket rndPortable (loadKey someState (zeros 16)) ⟨zeros 33, zeros 33, false⟩ [1, 2] (zeros 16) 2 33 = .ok (cs', ⟨zeros 33, ct, false⟩, tag) ∧
      ∃ cr', decryptPacket rndArm (loadKey someState (zeros 16)) ⟨ct, ct, true⟩ [1, 2] (zeros 16) tag 2 33 =
        .ok (cr', ⟨ct, zeros 33, true⟩, tag, 1) :=
  aegis_round_trip_partial (Or.inl rfl) (Or.inr (Or.inr rfl)) someState someState (zeros 16) (zeros 16) [1, 2] (zeros 33) (zeros 33) (zeros 33)
    true rfl rfl (by decide) (by decide) (by decide) rfl rfl

/-- C41 is false for short messages. -/
theorem aegis_round_trip_refuted : ¬ ∀ (cs cr : State) (key iv ad p out out' : List U8),
    key.length = 16 → iv.length = 16 → out.length = p.length → out'.length = p.length → ad.length ≤ 2 ^ 33 → p.length < 2 ^ 64 →
    ∃ cs' ct tag, encryptPacket rndPortable (loadKey cs key) ⟨p, out, false⟩ ad iv ad.length p.length = .ok (cs', ⟨p, ct, false⟩, tag) ∧
      ∃ cr', decryptPacket rndPortable (loadKey cr key) ⟨ct, out', false⟩ ad iv tag ad.length p.length =
        .ok (cr', ⟨ct, p, false⟩, tag, 1) := by
  intro h
  obtain ⟨cs', ct, tag, he, _⟩ := h someState someState (zeros 16) (zeros 16) [] (zeros 5) (zeros 5) (zeros 5) rfl rfl rfl rfl
    (by decide) (by decide)
  have hu := (aegis_encrypt_ub_iff (Or.inl rfl) someState (zeros 16) (zeros 16) [] ⟨zeros 5, zeros 5, false⟩ 5 rfl rfl (by decide)
      (by decide) (by decide) (by decide)).mpr (by decide)
  have he' : encryptPacket rndPortable (loadKey someState (zeros 16)) ⟨zeros 5, zeros 5, false⟩ [] (zeros 16) ([] : List U8).length 5 =
    .ok (cs', ⟨zeros 5, ct, false⟩, tag) := he
  rw [he'] at hu
  cases hu

/-! ### C45 -/

/-- C45, decryption, all lengths including undefined ones being excluded by C44: in place and
with separate buffers the result is the same. -/
theorem aegis_decrypt_in_place {rnd : Quad → Quad → Quad} (hv : IsVariant rnd) (cs : State) (key iv ad tag ct out : List U8)
    (hk : key.length = 16) (hiv : iv.length = 16) (had : ad.length ≤ 2 ^ 33) (ht : tag.length = 16)
    (h15 : ct.length = 0 ∨ 15 ≤ ct.length) (hn : ct.length < 2 ^ 64) (ho : out.length = ct.length) :
    ∃ c1 c2 p tag' r, c1.key = c2.key ∧
      decryptPacket rnd (loadKey cs key) ⟨ct, out, false⟩ ad iv tag ad.length ct.length = .ok (c1, ⟨ct, p, false⟩, tag', r) ∧
      decryptPacket rnd (loadKey cs key) ⟨ct, ct, true⟩ ad iv tag ad.length ct.length = .ok (c2, ⟨ct, p, true⟩, tag', r) := by
  rw [hv.eq]
  have h1 := decryptPacket_spec (loadKey cs key) key iv ad tag (io := ⟨ct, out, false⟩) (n := ct.length)
    hk hiv rfl had ht h15 hn (by simp [Io.Fits, Io.src, ho])
  have h2 := decryptPacket_spec (loadKey cs key) key iv ad tag (io := ⟨ct, ct, true⟩) (n := ct.length)
    hk hiv rfl had ht h15 hn (by simp [Io.Fits, Io.src])
  obtain ⟨c1, p1, k1, _, s1, d1⟩ := h1
  obtain ⟨c2, p2, k2, _, s2, d2⟩ := h2
  have e : p1 = p2 := spec_inj hk hiv had (by rw [s1, s2]; simp [Io.src])
  subst e
  by_cases h : (Spec.AEGIS.encrypt key iv ad p1).2 = tag
  · rw [if_pos h] at d1 d2
    refine ⟨c1, c2, p1, tag, 1, by rw [k1, k2], ?_, ?_⟩
    · rw [d1]; simp [ho]
    · rw [d2]; simp
  · rw [if_neg h] at d1 d2
    refine ⟨c1, c2, List.replicate ct.length 0, List.replicate 16 0, 0, by rw [k1, k2], ?_, ?_⟩
    · rw [d1]; simp [ho]
    · rw [d2]; simp

example : ∃ c1 c2 p tag' r, c1.key = c2.key ∧
      decryptPacket rndPortable (loadKey someState (zeros 16)) ⟨zeros 20, zeros 20, false⟩ [] (zeros 16) (zeros 16) 0 20 = .ok (c1, ⟨zeros 20, p, false⟩, tag', r) ∧
      decryptPacket rndPortable (loadKey someState (zeros 16)) ⟨zeros 20, zeros 20, true⟩ [] (zeros 16) (zeros 16) 0 20 = .ok (c2, ⟨zeros 20, p, true⟩, tag', r) :=
  aegis_decrypt_in_place (Or.inl rfl) someState (zeros 16) (zeros 16) [] (zeros 16) (zeros 20) (zeros 20) rfl rfl (by decide) rfl
    (by decide) (by decide) rfl

/-- C45, encryption, for messages of 0 or 15 bytes only. -/
theorem aegis_encrypt_in_place_partial {rnd : Quad → Quad → Quad} (hv : IsVariant rnd) (cs : State) (key iv ad p : List U8)
    (hk : key.length = 16) (hiv : iv.length = 16) (had : ad.length ≤ 2 ^ 33) (h15 : p.length = 0 ∨ p.length = 15) :
    ∃ cs', encryptPacket rnd (loadKey cs key) ⟨p, p, true⟩ ad iv ad.length p.length =
      .ok (cs', ⟨p, (Spec.AEGIS.encrypt key iv ad p).1, true⟩, (Spec.AEGIS.encrypt key iv ad p).2) := by
  rw [hv.eq]
  obtain ⟨cs', h, _⟩ := encryptPacket_spec (loadKey cs key) key iv ad (io := ⟨p, p, true⟩) (n := p.length) hk hiv rfl had
    (by omega) (by omega) (by simp [Io.Fits, Io.src]) (Or.inr (by omega))
  refine ⟨cs', ?_⟩
  rw [h]
  simp [Io.src]

example : ∃ cs', encryptPacket rndPortable (loadKey someState (zeros 16)) ⟨zeros 15, zeros 15, true⟩ [7] (zeros 16) 1 15 =
      .ok (cs', ⟨zeros 15, (Spec.AEGIS.encrypt (zeros 16) (zeros 16) [7] (zeros 15)).1, true⟩, (Spec.AEGIS.encrypt (zeros 16) (zeros 16) [7] (zeros 15)).2) :=
  aegis_encrypt_in_place_partial (Or.inl rfl) someState (zeros 16) (zeros 16) [7] (zeros 15) rfl rfl (by decide) (by decide)

/-- What in-place encryption computes: the whole blocks absorbed are those of the ciphertext. -/
theorem aegis_encrypt_in_place_exact (cs c1 : State) (iv ad : List U8) (p : List U8) (h15 : 15 ≤ p.length) (hn : p.length < 2 ^ 64)
    (hc : processAd rndPortable (initState rndPortable cs iv) ad ad.length = .ok c1) :
    encryptPacket rndPortable cs ⟨p, p, true⟩ ad iv ad.length p.length =
      (let r := msgRun rndPortable true false c1 p
       let f := finalize rndPortable r.2 ad.length p.length
       .ok (f.1, ⟨p, xorBytes p r.1, true⟩, f.2.bytes)) := by
  have h := crypt_eq rndPortable false c1 (io := ⟨p, p, true⟩) (n := p.length) (Or.inr h15) hn (by simp [Io.Fits, Io.src])
  rw [encryptPacket]
  simp only [hc, Res.ok_bind, h]
  simp [Io.src, Io.xored, msgRun_length]

set_option maxRecDepth 10000 in
/-- C45 is false for encryption: the tag of one block is wrong. -/
theorem aegis_encrypt_in_place_refuted : ¬ ∀ (cs : State) (key iv ad p : List U8),
    key.length = 16 → iv.length = 16 → ad.length ≤ 2 ^ 33 → (p.length = 0 ∨ 15 ≤ p.length) → p.length < 2 ^ 64 →
    ∃ cs', encryptPacket rndPortable (loadKey cs key) ⟨p, p, true⟩ ad iv ad.length p.length =
      .ok (cs', ⟨p, (Spec.AEGIS.encrypt key iv ad p).1, true⟩, (Spec.AEGIS.encrypt key iv ad p).2) := by
  intro h
  obtain ⟨cs', h⟩ := h someState (zeros 16) (zeros 16) [] (zeros 16) rfl rfl (by decide) (by decide) (by decide)
  have hc : processAd rndPortable (initState rndPortable (loadKey someState (zeros 16)) (zeros 16)) [] ([] : List U8).length =
    .ok (header (zeros 16) (zeros 16) []) := rfl
  rw [aegis_encrypt_in_place_exact _ _ _ _ _ (by decide) (by decide) hc, spec_header _ _ _ _ (by decide) (by decide) (by decide)] at h
  simp only [Res.ok_inj, Prod.mk.injEq] at h
  have h2 := congrArg (fun l => l.getD 0 0) h.2.2
  revert h2
  decide +kernel

set_option maxRecDepth 10000 in
/-- The consequence: a receiver rejects what was encrypted in place. -/
theorem aegis_in_place_rejected : ∃ (key iv p ct tag : List U8) (c1 c2 : State),
    encryptPacket rndPortable (loadKey someState key) ⟨p, p, true⟩ [] iv 0 p.length = .ok (c1, ⟨p, ct, true⟩, tag) ∧
    decryptPacket rndPortable (loadKey someState key) ⟨ct, ct, false⟩ [] iv tag 0 p.length =
      .ok (c2, ⟨ct, List.replicate 16 0, false⟩, List.replicate 16 0, 0) := by
  have hc : processAd rndPortable (initState rndPortable (loadKey someState (zeros 16)) (zeros 16)) [] ([] : List U8).length =
    .ok (header (zeros 16) (zeros 16) []) := rfl
  have he := aegis_encrypt_in_place_exact (loadKey someState (zeros 16)) _ (zeros 16) [] (zeros 16) (by decide) (by decide) hc
  simp only [] at he
  have hr1 : xorBytes (zeros 16) (msgRun rndPortable true false (header (zeros 16) (zeros 16) []) (zeros 16)).1 =
      (Spec.AEGIS.encrypt (zeros 16) (zeros 16) [] (zeros 16)).1 := by
    rw [spec_header _ _ _ _ (by decide) (by decide) (by decide)]
    decide +kernel
  have hr2 : (finalize rndPortable (msgRun rndPortable true false (header (zeros 16) (zeros 16) []) (zeros 16)).2 ([] : List U8).length
      (zeros 16).length).2.bytes ≠ (Spec.AEGIS.encrypt (zeros 16) (zeros 16) [] (zeros 16)).2 := by
    rw [spec_header _ _ _ _ (by decide) (by decide) (by decide)]
    intro h2
    have h2 := congrArg (fun l => l.getD 0 0) h2
    revert h2
    decide +kernel
  have hcl : (Spec.AEGIS.encrypt (zeros 16) (zeros 16) [] (zeros 16)).1.length = 16 := by
    rw [spec_header _ _ _ _ (by decide) (by decide) (by decide)]
    decide +kernel
  rw [hr1] at he
  generalize hf : finalize rndPortable (msgRun rndPortable true false (header (zeros 16) (zeros 16) []) (zeros 16)).2 ([] : List U8).length
      (zeros 16).length = f at he hr2
  generalize hs : Spec.AEGIS.encrypt (zeros 16) (zeros 16) [] (zeros 16) = s at he hr2 hcl
  have hd := decryptPacket_spec (loadKey someState (zeros 16)) (zeros 16) (zeros 16) [] f.2.bytes (io := ⟨s.1, s.1, false⟩) (n := 16)
    rfl rfl rfl (by decide) rfl (by decide) (by decide) (by simp [Io.Fits, Io.src, hcl])
  obtain ⟨c2, p', _, _, hct, hd⟩ := hd
  have : p' = zeros 16 := spec_inj rfl rfl (by decide) (hct.trans (by rw [hs]; exact List.take_of_length_le (Nat.le_of_eq hcl)))
  rw [this, hs, if_neg (Ne.symm hr2)] at hd
  refine ⟨zeros 16, zeros 16, zeros 16, s.1, f.2.bytes, f.1, c2, he, ?_⟩
  refine hd.trans ?_
  simp [hcl]

/-! ### C46 -/

/-- C46: the result of an operation depends on the state through the key only, and the key stays. -/
theorem aegis_key_only (rnd : Quad → Quad → Quad) {cs cs' : State} (h : cs.key = cs'.key) (io : Io) (ad iv tag : List U8) (adlen msglen : Nat) :
    encryptPacket rnd cs io ad iv adlen msglen = encryptPacket rnd cs' io ad iv adlen msglen ∧
    decryptPacket rnd cs io ad iv tag adlen msglen = decryptPacket rnd cs' io ad iv tag adlen msglen := by
  rw [encryptPacket, encryptPacket, decryptPacket, decryptPacket, initState_congr rnd iv h]
  exact ⟨rfl, rfl⟩

/-- Two states that agree in the key alone. -/
example := aegis_key_only rndArm (cs := someState) (cs' := { someState with s0 := ⟨9, 9, 9, 9⟩ }) rfl ⟨zeros 20, zeros 20, false⟩ [1] (zeros 16)
  (zeros 16) 1 20

theorem aegis_encrypt_keeps_key (rnd : Quad → Quad → Quad) {cs : State} {io : Io} {ad iv : List U8} {adlen msglen : Nat}
    {r : State × Io × List U8} (h : encryptPacket rnd cs io ad iv adlen msglen = .ok r) : r.1.key = cs.key := by
  rw [encryptPacket] at h
  obtain ⟨c1, h1, h⟩ := Res.bind_eq_ok h
  obtain ⟨c2, h2, h⟩ := Res.bind_eq_ok h
  simp only [Res.ok_inj] at h
  rw [← h]
  show (finalize rnd c2.1 adlen msglen).1.key = _
  rw [finalize_key, crypt_key rnd false h2, processAd_key rnd h1, initState_key]

example : ∃ r, encryptPacket rndArm (loadKey someState (zeros 16)) ⟨zeros 35, zeros 40, false⟩ (zeros 5) (zeros 16) 5 35 = .ok r ∧
    r.1.key = (loadKey someState (zeros 16)).key := by
  obtain ⟨cs', h⟩ := aegis_conforms_partial (Or.inr (Or.inr rfl)) someState (zeros 16) (zeros 16) (zeros 5) ⟨zeros 35, zeros 40, false⟩ 35
    rfl rfl (by decide) (by decide) (by decide) (by decide) rfl
  exact ⟨_, h, aegis_encrypt_keeps_key rndArm h⟩

theorem aegis_decrypt_keeps_key (rnd : Quad → Quad → Quad) {cs : State} {io : Io} {ad iv tag : List U8} {adlen msglen : Nat}
    {r : State × Io × List U8 × Int} (h : decryptPacket rnd cs io ad iv tag adlen msglen = .ok r) : r.1.key = cs.key := by
  rw [decryptPacket] at h
  obtain ⟨c1, h1, h⟩ := Res.bind_eq_ok h
  obtain ⟨c2, h2, h⟩ := Res.bind_eq_ok h
  simp only [] at h
  have hk : (finalize rnd c2.1 adlen msglen).1.key = cs.key := by
    rw [finalize_key, crypt_key rnd true h2, processAd_key rnd h1, initState_key]
  split at h
  · obtain ⟨_, _, h⟩ := Res.bind_eq_ok h
    obtain ⟨_, _, h⟩ := Res.bind_eq_ok h
    rw [Res.ok_inj] at h
    rw [← h]; exact hk
  · rw [Res.ok_inj] at h
    rw [← h]; exact hk

example : ∃ r, decryptPacket rndX86 (loadKey someState (zeros 16)) ⟨zeros 16, zeros 16, false⟩ [] (zeros 16) (zeros 16) 0 16 = .ok r ∧
    r.1.key = (loadKey someState (zeros 16)).key := by
  obtain ⟨cs', io', tag', r, h, -⟩ := aegis_decrypt_decides_partial (Or.inr (Or.inl rfl)) someState (zeros 16) (zeros 16) [] (zeros 16)
    ⟨zeros 16, zeros 16, false⟩ 16 rfl rfl (by decide) rfl (by decide) (by decide) (by decide)
  exact ⟨_, h, aegis_decrypt_keeps_key rndX86 h⟩

/-- States reachable by packet operations (successful, or failing with return value 0) after loading `key`. -/
inductive Reach (rnd : Quad → Quad → Quad) (key : List U8) : State → Prop
  | load (cs : State) : Reach rnd key (loadKey cs key)
  | enc {cs io ad iv adlen msglen r} : Reach rnd key cs → encryptPacket rnd cs io ad iv adlen msglen = .ok r → Reach rnd key r.1
  | dec {cs io ad iv tag adlen msglen r} : Reach rnd key cs → decryptPacket rnd cs io ad iv tag adlen msglen = .ok r → Reach rnd key r.1

/-- C46: whatever happened since the key was loaded, an operation gives what it gives on a fresh state. -/
theorem aegis_history_independent {rnd : Quad → Quad → Quad} {key : List U8} {cs : State} (h : Reach rnd key cs) (fresh : State)
    (io : Io) (ad iv tag : List U8) (adlen msglen : Nat) :
    encryptPacket rnd cs io ad iv adlen msglen = encryptPacket rnd (loadKey fresh key) io ad iv adlen msglen ∧
    decryptPacket rnd cs io ad iv tag adlen msglen = decryptPacket rnd (loadKey fresh key) io ad iv tag adlen msglen := by
  refine aegis_key_only rnd ?_ io ad iv tag adlen msglen
  induction h with
  | load => rfl
  | enc _ he ih => rw [aegis_encrypt_keeps_key rnd he, ih]
  | dec _ he ih => rw [aegis_decrypt_keeps_key rnd he, ih]

/-- A state after a packet. -/
example : ∃ cs, Reach rndPortable (zeros 16) cs ∧ ∀ io, encryptPacket rndPortable cs io [1] (zeros 16) 1 20 =
    encryptPacket rndPortable (loadKey someState (zeros 16)) io [1] (zeros 16) 1 20 := by
  obtain ⟨cs', h⟩ := aegis_conforms_partial (Or.inl rfl) someState (zeros 16) (zeros 16) [] ⟨zeros 35, zeros 40, false⟩ 35
    rfl rfl (by decide) (by decide) (by decide) (by decide) rfl
  have hr : Reach rndPortable (zeros 16) cs' := .enc (.load someState) h
  exact ⟨_, hr, fun io => (aegis_history_independent hr someState io [1] (zeros 16) (zeros 16) 1 20).1⟩

end CT.Props.AEGIS
