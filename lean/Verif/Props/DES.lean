import Verif.Proof.DESKey

/-!
# DES properties (C48 - C52)

The packet functions take word pointers; the callers (`main.cpp`, `main_ctr.cpp`) cast byte buffers to
them, so on the little-endian targets the word made of the bytes `b0 b1 b2 b3` is `le32 b0 b1 b2 b3`.
-/

namespace CT.Props.DES
open CT.DES CT.Spec.DES

/-- The bit string of two little-endian words: the bytes of each word in reverse order. -/
theorem ofWord_le32 (a b c d : U8) : ofWord (le32 a b c d) = ofBytes [d, c, b, a] := by
  have h : ∀ i, i < 32 → (le32 a b c d).getLsbD i =
      (if i < 8 then a.getLsbD i else if i < 16 then b.getLsbD (i - 8) else if i < 24 then c.getLsbD (i - 16)
        else d.getLsbD (i - 24)) := by
    intro i hi
    rw [le32, BitVec.getLsbD_append, BitVec.getLsbD_append, BitVec.getLsbD_append]
    by_cases h1 : i < 8
    · simp [h1]
    · by_cases h2 : i < 16
      · simp [h1, h2, show i - 8 < 8 by omega]
      · by_cases h3 : i < 24
        · simp [h1, h2, h3, show ¬ i - 8 < 8 by omega, show i - 16 < 8 by omega, show i - 8 - 8 = i - 16 by omega]
        · simp [h1, h2, h3, show ¬ i - 8 < 8 by omega, show ¬ i - 8 - 8 < 8 by omega,
            show i - 8 - 8 - 8 = i - 24 by omega]
  have e : ofWord (le32 a b c d) = (List.range 32).map fun i =>
      (if 31 - i < 8 then a.getLsbD (31 - i) else if 31 - i < 16 then b.getLsbD (31 - i - 8)
        else if 31 - i < 24 then c.getLsbD (31 - i - 16) else d.getLsbD (31 - i - 24)) := by
    apply List.map_congr_left
    intro i hi
    have := List.mem_range.mp hi
    exact h (31 - i) (by omega)
  rw [e]
  rfl

theorem bits_inj {p q : U32 × U32} (h : bits p = bits q) : p = q := by
  obtain ⟨a, b⟩ := p
  obtain ⟨c, d⟩ := q
  obtain ⟨h1, h2⟩ := ofWord_append_inj h
  have key : ∀ x y : U32, ofWord x = ofWord y → x = y := by
    intro x y hxy
    apply BitVec.eq_of_getLsbD_eq
    intro i hi
    have e1 := ofWord_getD x (31 - i) (by omega)
    have e2 := ofWord_getD y (31 - i) (by omega)
    rw [hxy, e2, show 31 - (31 - i) = i by omega] at e1
    exact e1.symm
  rw [key a c h1, key b d h2]

/-- The schedule the encryption function stores, as bit strings. -/
theorem scheduleE (k0 k1 k2 k3 k4 k5 k6 k7 : U8) : ∃ rk, keyScheduleEncrypt [k0, k1, k2, k3, k4, k5, k6, k7] = .ok rk ∧
    rk.length = 32 ∧ ∀ j, j < 16 → kOf (rk.getD (2 * j) 0) (rk.getD (2 * j + 1) 0) =
      (keySchedule (ofBytes [k3, k2, k1, k0, k7, k6, k5, k4])).getD j [] := by
  refine ⟨_, rfl, ksLoop_length _ _ _ _, ?_⟩
  intro j hj
  rw [schedule_spec _ _ j hj, bits, ofWord_le32, ofWord_le32]
  rfl

/-- Swapping the words of the schedule reverses the round keys: the first pair becomes the last. -/
theorem swap_first (rk : List U32) (h : rk.length = 32) :
    (([0, 2, 4, 6, 8, 10, 12, 14].foldl (fun rk i => swapAt (swapAt rk i (30 - i)) (i + 1) (31 - i)) rk).getD 0 0 = rk.getD 30 0) ∧
    (([0, 2, 4, 6, 8, 10, 12, 14].foldl (fun rk i => swapAt (swapAt rk i (30 - i)) (i + 1) (31 - i)) rk).getD 1 0 = rk.getD 31 0) := by
  simp [swapAt, List.getD_eq_getElem?_getD, List.getElem?_set, h]

theorem scheduleD (k0 k1 k2 k3 k4 k5 k6 k7 : U8) : ∃ rk, keyScheduleDecrypt [k0, k1, k2, k3, k4, k5, k6, k7] = .ok rk ∧
    kOf (rk.getD 0 0) (rk.getD 1 0) = (keySchedule (ofBytes [k3, k2, k1, k0, k7, k6, k5, k4])).getD 15 [] := by
  obtain ⟨rk, h1, h2, h3⟩ := scheduleE k0 k1 k2 k3 k4 k5 k6 k7
  refine ⟨_, by rw [keyScheduleDecrypt, h1]; rfl, ?_⟩
  rw [(swap_first rk h2).1, (swap_first rk h2).2]
  exact h3 15 (by decide)

/-! ### C49 -/

/-- A block given as eight bytes, and the eight bytes the block function stores. -/
def blockBytes (rk : List U32) (b0 b1 b2 b3 b4 b5 b6 b7 : U8) : List U8 :=
  wordsToBytesLE [(ecbBlock rk (le32 b0 b1 b2 b3, le32 b4 b5 b6 b7)).1, (ecbBlock rk (le32 b0 b1 b2 b3, le32 b4 b5 b6 b7)).2]

/-- Reverse each group of four bytes. -/
def rev4 : List U8 → List U8
  | a :: b :: c :: d :: r => d :: c :: b :: a :: rev4 r
  | r => r

theorem ofBytes_out (x y : U32) : ofBytes (rev4 (wordsToBytesLE [x, y])) = bits (x, y) := by
  have h : ∀ w : U32, ofBytes (rev4 (bytesLE32 w)) = ofWord w := by
    intro w
    simp only [bytesLE32, rev4, ofBytes, byteN, List.flatMap_cons, List.flatMap_nil, List.append_nil, List.cons_append,
      List.nil_append]
    simp [ofWord, List.range, List.range.loop]
  rw [bits, ← h x, ← h y]
  rfl

/-- C49, the part that holds: with the bytes of key, input and output taken in reverse order inside each
group of four, the block function is the FIPS 46-3 network with the *first* FIPS round key of the key in
all sixteen rounds.  Missing from the full statement: the byte order, and the use of the round keys
`K_2 ... K_16` (`des_fips_refuted`). -/
theorem des_block_fips_partial (k0 k1 k2 k3 k4 k5 k6 k7 b0 b1 b2 b3 b4 b5 b6 b7 : U8) :
    ∃ rk, keyScheduleEncrypt [k0, k1, k2, k3, k4, k5, k6, k7] = .ok rk ∧
      ofBytes (rev4 (blockBytes rk b0 b1 b2 b3 b4 b5 b6 b7)) =
        cipher (List.replicate 16 ((keySchedule (ofBytes (rev4 [k0, k1, k2, k3, k4, k5, k6, k7]))).getD 0 []))
          (ofBytes (rev4 [b0, b1, b2, b3, b4, b5, b6, b7])) := by
  obtain ⟨rk, h1, _, h3⟩ := scheduleE k0 k1 k2 k3 k4 k5 k6 k7
  refine ⟨rk, h1, ?_⟩
  have e0 := h3 0 (by decide)
  rw [Nat.mul_zero, Nat.zero_add] at e0
  rw [blockBytes, ofBytes_out]
  show bits (ecbBlock rk (le32 b0 b1 b2 b3, le32 b4 b5 b6 b7)) = _
  rw [ecbBlock_spec, e0, bits, ofWord_le32, ofWord_le32]
  rfl

/-- The stored schedule is the FIPS 46-3 key schedule: all sixteen round keys are right, they are only
not used. -/
theorem des_schedule_fips (k0 k1 k2 k3 k4 k5 k6 k7 : U8) :
    ∃ rk, keyScheduleEncrypt [k0, k1, k2, k3, k4, k5, k6, k7] = .ok rk ∧
      (List.range 16).map (fun j => kOf (rk.getD (2 * j) 0) (rk.getD (2 * j + 1) 0)) =
        keySchedule (ofBytes (rev4 [k0, k1, k2, k3, k4, k5, k6, k7])) := by
  obtain ⟨rk, h1, _, h3⟩ := scheduleE k0 k1 k2 k3 k4 k5 k6 k7
  refine ⟨rk, h1, ?_⟩
  apply List.ext_getElem?
  intro j
  have hl : (keySchedule (ofBytes [k3, k2, k1, k0, k7, k6, k5, k4])).length = 16 := subkeys_length _ _ _
  by_cases hj : j < 16
  · rw [List.getElem?_map, List.getElem?_range hj, Option.map_some, h3 j hj]
    show _ = (keySchedule (ofBytes [k3, k2, k1, k0, k7, k6, k5, k4]))[j]?
    rw [List.getD_eq_getElem?_getD, List.getElem?_eq_getElem (by omega)]
    rfl
  · rw [List.getElem?_eq_none (by simp; omega)]
    show _ = (keySchedule (ofBytes [k3, k2, k1, k0, k7, k6, k5, k4]))[j]?
    rw [List.getElem?_eq_none (by omega)]

/-- For the keys whose sixteen round keys coincide (the weak keys of DES) the block function therefore is
FIPS 46-3 encryption, up to the byte order. -/
theorem des_weak_keys_fips_partial (k0 k1 k2 k3 k4 k5 k6 k7 b0 b1 b2 b3 b4 b5 b6 b7 : U8) (K : Bits)
    (hw : keySchedule (ofBytes (rev4 [k0, k1, k2, k3, k4, k5, k6, k7])) = List.replicate 16 K) :
    ∃ rk, keyScheduleEncrypt [k0, k1, k2, k3, k4, k5, k6, k7] = .ok rk ∧
      ofBytes (rev4 (blockBytes rk b0 b1 b2 b3 b4 b5 b6 b7)) =
        encrypt (ofBytes (rev4 [k0, k1, k2, k3, k4, k5, k6, k7])) (ofBytes (rev4 [b0, b1, b2, b3, b4, b5, b6, b7])) := by
  obtain ⟨rk, h1, h2⟩ := des_block_fips_partial k0 k1 k2 k3 k4 k5 k6 k7 b0 b1 b2 b3 b4 b5 b6 b7
  refine ⟨rk, h1, ?_⟩
  rw [h2, encrypt, hw]
  rfl

set_option maxRecDepth 10000 in
/-- Non-trivial instance: the weak key 01 01 01 01 01 01 01 01. -/
example : keySchedule (ofBytes (rev4 [1, 1, 1, 1, 1, 1, 1, 1])) = List.replicate 16 (List.replicate 48 false) := by
  decide +kernel

set_option maxRecDepth 10000 in
/-- C49 is false, with the bytes in order and with the bytes of each word reversed: the key
13 34 57 79 9B BC DF F1 and the zero block. -/
theorem des_fips_refuted :
    (¬ ∀ k0 k1 k2 k3 k4 k5 k6 k7 b0 b1 b2 b3 b4 b5 b6 b7 : U8,
      ∃ rk, keyScheduleEncrypt [k0, k1, k2, k3, k4, k5, k6, k7] = .ok rk ∧
        ofBytes (blockBytes rk b0 b1 b2 b3 b4 b5 b6 b7) =
          encrypt (ofBytes [k0, k1, k2, k3, k4, k5, k6, k7]) (ofBytes [b0, b1, b2, b3, b4, b5, b6, b7])) ∧
    (¬ ∀ k0 k1 k2 k3 k4 k5 k6 k7 b0 b1 b2 b3 b4 b5 b6 b7 : U8,
      ∃ rk, keyScheduleEncrypt [k0, k1, k2, k3, k4, k5, k6, k7] = .ok rk ∧
        ofBytes (rev4 (blockBytes rk b0 b1 b2 b3 b4 b5 b6 b7)) =
          encrypt (ofBytes (rev4 [k0, k1, k2, k3, k4, k5, k6, k7])) (ofBytes (rev4 [b0, b1, b2, b3, b4, b5, b6, b7]))) := by
  constructor
  · intro h
    obtain ⟨rk, h1, h2⟩ := h 0x13 0x34 0x57 0x79 0x9b 0xbc 0xdf 0xf1 0 0 0 0 0 0 0 0
    rw [← Res.ok_inj.mp h1] at h2
    revert h2
    decide +kernel
  · intro h
    obtain ⟨rk, h1, h2⟩ := h 0x13 0x34 0x57 0x79 0x9b 0xbc 0xdf 0xf1 0 0 0 0 0 0 0 0
    rw [← Res.ok_inj.mp h1] at h2
    revert h2
    decide +kernel

/-! ### C48 -/

/-- A word packet processed out of place and in place. -/
theorem ecb_packet_both (rk : List U32) (msg buf : List U32) (n : Nat) (hn : 8 * n < 2 ^ 64)
    (hm : msg.length = 2 * n) (hb : buf.length = 2 * n) :
    processPacketEcb rk ⟨msg, buf, false⟩ (8 * n) = .ok ⟨msg, mapPairs (ecbBlock rk) msg, false⟩ ∧
    processPacketEcb rk ⟨buf, msg, true⟩ (8 * n) = .ok ⟨buf, mapPairs (ecbBlock rk) msg, true⟩ := by
  constructor
  · rw [ecb_packet rk _ n hn (by simp only; omega) (by simp only [Arrs.srcLen]; simp; omega)]
    simp only [Bool.false_eq_true, if_false]
    rw [List.take_of_length_le (by omega), List.drop_of_length_le (by omega), List.append_nil]
  · rw [ecb_packet rk _ n hn (by simp only; omega) (by simp only [Arrs.srcLen]; simp; omega)]
    simp only [if_true]
    rw [List.take_of_length_le (by omega), List.drop_of_length_le (by omega), List.append_nil]

/-- What actually holds for every key: encrypting is its own inverse.  Processing the ciphertext with
the *encryption* schedule gives back the packet, out of place and in place. -/
theorem des_ecb_encrypt_twice (k0 k1 k2 k3 k4 k5 k6 k7 : U8) (msg buf buf' : List U32) (n : Nat) (hn : 8 * n < 2 ^ 64)
    (hm : msg.length = 2 * n) (hb : buf.length = 2 * n) (hb' : buf'.length = 2 * n) :
    ∃ rk ct, keyScheduleEncrypt [k0, k1, k2, k3, k4, k5, k6, k7] = .ok rk ∧
      processPacketEcb rk ⟨msg, buf, false⟩ (8 * n) = .ok ⟨msg, ct, false⟩ ∧
      processPacketEcb rk ⟨ct, buf', false⟩ (8 * n) = .ok ⟨ct, msg, false⟩ ∧
      processPacketEcb rk ⟨[], msg, true⟩ (8 * n) = .ok ⟨[], ct, true⟩ ∧
      processPacketEcb rk ⟨[], ct, true⟩ (8 * n) = .ok ⟨[], msg, true⟩ := by
  obtain ⟨rk, h1, _, _⟩ := scheduleE k0 k1 k2 k3 k4 k5 k6 k7
  have hi : mapPairs (ecbBlock rk) (mapPairs (ecbBlock rk) msg) = msg := by
    rw [mapPairs_mapPairs]
    simp only [ecbBlock_involution]
    exact mapPairs_id msg
  have hl : (mapPairs (ecbBlock rk) msg).length = 2 * n := by rw [mapPairs_length, hm]
  have hin : ∀ m : List U32, m.length = 2 * n → processPacketEcb rk ⟨[], m, true⟩ (8 * n) = .ok ⟨[], mapPairs (ecbBlock rk) m, true⟩ := by
    intro m hm
    rw [ecb_packet rk _ n hn (by simp only; omega) (by simp only [Arrs.srcLen]; simp; omega)]
    simp only [if_true]
    rw [List.take_of_length_le (by omega), List.drop_of_length_le (by omega), List.append_nil]
  refine ⟨rk, mapPairs (ecbBlock rk) msg, h1, (ecb_packet_both rk msg buf n hn hm hb).1, ?_, hin msg hm, ?_⟩
  · rw [(ecb_packet_both rk _ buf' n hn hl hb').1, hi]
  · rw [hin _ hl, hi]

example := des_ecb_encrypt_twice 0x13 0x34 0x57 0x79 0x9b 0xbc 0xdf 0xf1 [1, 2, 3, 4] [0, 0, 0, 0] [5, 6, 7, 8] 2 (by decide) rfl rfl rfl

/-- C48, the part that holds: if the first and the last FIPS round key of the key coincide, a packet
encrypted with the encryption schedule and processed with the decryption schedule is the original one.
Missing from the full statement: all other keys (`des_ecb_inverse_refuted`). -/
theorem des_ecb_inverse_partial (k0 k1 k2 k3 k4 k5 k6 k7 : U8) (msg buf buf' : List U32) (n : Nat) (hn : 8 * n < 2 ^ 64)
    (hm : msg.length = 2 * n) (hb : buf.length = 2 * n) (hb' : buf'.length = 2 * n)
    (hk : (keySchedule (ofBytes (rev4 [k0, k1, k2, k3, k4, k5, k6, k7]))).getD 0 [] =
      (keySchedule (ofBytes (rev4 [k0, k1, k2, k3, k4, k5, k6, k7]))).getD 15 []) :
    ∃ rkE rkD ct, keyScheduleEncrypt [k0, k1, k2, k3, k4, k5, k6, k7] = .ok rkE ∧
      keyScheduleDecrypt [k0, k1, k2, k3, k4, k5, k6, k7] = .ok rkD ∧
      processPacketEcb rkE ⟨msg, buf, false⟩ (8 * n) = .ok ⟨msg, ct, false⟩ ∧
      processPacketEcb rkD ⟨ct, buf', false⟩ (8 * n) = .ok ⟨ct, msg, false⟩ := by
  obtain ⟨rk, h1, _, h3⟩ := scheduleE k0 k1 k2 k3 k4 k5 k6 k7
  obtain ⟨rd, d1, d2⟩ := scheduleD k0 k1 k2 k3 k4 k5 k6 k7
  have he : ∀ p, ecbBlock rd p = ecbBlock rk p := by
    intro p
    apply bits_inj
    have e0 := h3 0 (by decide)
    rw [Nat.mul_zero, Nat.zero_add] at e0
    rw [ecbBlock_spec, ecbBlock_spec, d2, e0]
    rw [show (keySchedule (ofBytes [k3, k2, k1, k0, k7, k6, k5, k4])).getD 15 [] =
      (keySchedule (ofBytes [k3, k2, k1, k0, k7, k6, k5, k4])).getD 0 [] from hk.symm]
  have hl : (mapPairs (ecbBlock rk) msg).length = 2 * n := by rw [mapPairs_length, hm]
  refine ⟨rk, rd, mapPairs (ecbBlock rk) msg, h1, d1, (ecb_packet_both rk msg buf n hn hm hb).1, ?_⟩
  rw [(ecb_packet_both rd _ buf' n hn hl hb').1, mapPairs_mapPairs]
  simp only [he, ecbBlock_involution]
  rw [mapPairs_id]

set_option maxRecDepth 10000 in
/-- Non-trivial instance of the hypothesis: the all-one key. -/
example : (keySchedule (ofBytes (rev4 [255, 255, 255, 255, 255, 255, 255, 255]))).getD 0 [] =
      (keySchedule (ofBytes (rev4 [255, 255, 255, 255, 255, 255, 255, 255]))).getD 15 [] := by decide +kernel

set_option maxRecDepth 10000 in
/-- C48 is false: key 13 34 57 79 9B BC DF F1, one zero block. -/
theorem des_ecb_inverse_refuted :
    ¬ ∀ (key : List U8) (msg : List U32) (rkE rkD ct : List U32), key.length = 8 →
      keyScheduleEncrypt key = .ok rkE → keyScheduleDecrypt key = .ok rkD →
      processPacketEcb rkE ⟨msg, msg, false⟩ (4 * msg.length) = .ok ⟨msg, ct, false⟩ →
      processPacketEcb rkD ⟨ct, ct, false⟩ (4 * msg.length) = .ok ⟨ct, msg, false⟩ := by
  intro h
  obtain ⟨rk, h1, _, _⟩ := scheduleE 0x13 0x34 0x57 0x79 0x9b 0xbc 0xdf 0xf1
  obtain ⟨rd, d1, _⟩ := scheduleD 0x13 0x34 0x57 0x79 0x9b 0xbc 0xdf 0xf1
  have h2 := (ecb_packet_both rk [0, 0] [0, 0] 1 (by decide) rfl rfl).1
  have h3 := h _ _ _ _ _ rfl h1 d1 h2
  have h4 := (ecb_packet_both rd (mapPairs (ecbBlock rk) [0, 0]) (mapPairs (ecbBlock rk) [0, 0]) 1 (by decide)
    (by rw [mapPairs_length]; rfl) (by rw [mapPairs_length]; rfl)).1
  rw [show 8 * 1 = 4 * [(0 : U32), 0].length from rfl, h3] at h4
  have h5 : [(0 : U32), 0] = mapPairs (ecbBlock rd) (mapPairs (ecbBlock rk) [0, 0]) := by
    have := Res.ok_inj.mp h4
    injection this
  rw [← Res.ok_inj.mp h1, ← Res.ok_inj.mp d1] at h5
  revert h5
  decide +kernel

/-! ### C50, C51 -/

/-- C50: processing a packet of whole blocks twice with the same key and nonce gives it back, out of place
and in place. -/
theorem des_ctr_round_trip (rk nonce : List U32) (msg buf buf' : List U32) (n : Nat) (hno : 3 ≤ nonce.length)
    (hn : 8 * n < 2 ^ 64) (hm : msg.length = 2 * n) (hb : buf.length = 2 * n) (hb' : buf'.length = 2 * n) :
    ∃ ct, processPacketCtr rk ⟨msg, buf, false⟩ nonce (8 * n) = .ok ⟨msg, ct, false⟩ ∧
      processPacketCtr rk ⟨ct, buf', false⟩ nonce (8 * n) = .ok ⟨ct, msg, false⟩ ∧
      processPacketCtr rk ⟨[], msg, true⟩ nonce (8 * n) = .ok ⟨[], ct, true⟩ ∧
      processPacketCtr rk ⟨[], ct, true⟩ nonce (8 * n) = .ok ⟨[], msg, true⟩ := by
  match nonce, hno with
  | n0 :: n1 :: n2 :: ns, _ =>
    have x2 : ∀ a b : U32, a ^^^ b ^^^ b = a := by intro a b; rw [BitVec.xor_assoc, BitVec.xor_self, BitVec.xor_zero]
    have hout : ∀ (m b : List U32), m.length = 2 * n → b.length = 2 * n →
        processPacketCtr rk ⟨m, b, false⟩ (n0 :: n1 :: n2 :: ns) (8 * n) = .ok ⟨m, mapPairs (fun p =>
          (p.1 ^^^ (ecbBlock rk (n0, n1)).1, p.2 ^^^ (ecbBlock rk (n0, n1)).2)) m, false⟩ := by
      intro m b hm hb
      rw [ctr_packet rk _ n0 n1 n2 ns n hn (by simp only; omega) (by simp only [Arrs.srcLen]; simp; omega)]
      simp only [Bool.false_eq_true, if_false]
      rw [List.take_of_length_le (by omega), List.drop_of_length_le (by omega), List.append_nil]
    have hin : ∀ m : List U32, m.length = 2 * n →
        processPacketCtr rk ⟨[], m, true⟩ (n0 :: n1 :: n2 :: ns) (8 * n) = .ok ⟨[], mapPairs (fun p =>
          (p.1 ^^^ (ecbBlock rk (n0, n1)).1, p.2 ^^^ (ecbBlock rk (n0, n1)).2)) m, true⟩ := by
      intro m hm
      rw [ctr_packet rk _ n0 n1 n2 ns n hn (by simp only; omega) (by simp only [Arrs.srcLen]; simp; omega)]
      simp only [if_true]
      rw [List.take_of_length_le (by omega), List.drop_of_length_le (by omega), List.append_nil]
    generalize ecbBlock rk (n0, n1) = k at hout hin
    have hl : (mapPairs (fun p => (p.1 ^^^ k.1, p.2 ^^^ k.2)) msg).length = 2 * n := by rw [mapPairs_length, hm]
    have hi : mapPairs (fun p => (p.1 ^^^ k.1, p.2 ^^^ k.2)) (mapPairs (fun p => (p.1 ^^^ k.1, p.2 ^^^ k.2)) msg) = msg := by
      rw [mapPairs_mapPairs]
      simp only [x2]
      exact mapPairs_id msg
    refine ⟨_, hout msg buf hm hb, ?_, hin msg hm, ?_⟩
    · rw [hout _ buf' hl hb', hi]
    · rw [hin _ hl, hi]

/-- Non-trivial instance: three blocks. -/
example : ∃ ct, processPacketCtr (List.replicate 32 5) ⟨[1, 2, 3, 4, 5, 6], [0, 0, 0, 0, 0, 0], false⟩ [7, 8, 9] (8 * 3) =
    .ok ⟨[1, 2, 3, 4, 5, 6], ct, false⟩ :=
  let ⟨ct, h, _⟩ := des_ctr_round_trip (List.replicate 32 5) [7, 8, 9] [1, 2, 3, 4, 5, 6] [0, 0, 0, 0, 0, 0] [0, 0, 0, 0, 0, 0] 3
    (by decide) (by decide) rfl rfl rfl
  ⟨ct, h⟩

/-- The keystream of a packet: the ciphertext of zeros. -/
def keystream (rk nonce : List U32) (n : Nat) : Res (List U32) := do
  let a ← processPacketCtr rk ⟨List.replicate (2 * n) 0, List.replicate (2 * n) 0, false⟩ nonce (8 * n)
  .ok a.out

theorem mapPairs_zero (k : U32 × U32) (n : Nat) :
    mapPairs (fun p => (p.1 ^^^ k.1, p.2 ^^^ k.2)) (List.replicate (2 * n) 0) = (List.replicate n [k.1, k.2]).flatten := by
  induction n with
  | zero => rfl
  | succ n ih =>
    rw [show 2 * (n + 1) = 2 * n + 1 + 1 by omega, List.replicate_succ, List.replicate_succ, mapPairs, ih,
      List.replicate_succ, List.flatten_cons]
    simp

/-- C51 fails for every key and nonce: all keystream blocks of a packet are the same block, the encryption
of the first two nonce words.  Neither the block counter nor the third nonce word enters. -/
theorem des_ctr_keystream_repeats (rk : List U32) (n0 n1 n2 : U32) (n : Nat) (hn : 8 * n < 2 ^ 64) :
    keystream rk [n0, n1, n2] n = .ok (List.replicate n [(ecbBlock rk (n0, n1)).1, (ecbBlock rk (n0, n1)).2]).flatten := by
  rw [keystream, ctr_packet rk _ n0 n1 n2 [] n hn (by simp) (by simp [Arrs.srcLen]), Res.ok_bind]
  simp only [Bool.false_eq_true, if_false, List.take_replicate, List.drop_replicate, Nat.sub_self, List.replicate_zero,
    List.append_nil, Nat.min_self, mapPairs_zero]

example := des_ctr_keystream_repeats [1, 2] 3 4 5 10 (by decide)

/-- C51 as a statement about the function: the keystream of two blocks never repeats.  False for every key
and nonce. -/
theorem des_ctr_distinct_refuted (rk : List U32) (n0 n1 n2 : U32) :
    ∃ k0 k1, keystream rk [n0, n1, n2] 2 = .ok [k0, k1, k0, k1] :=
  ⟨_, _, des_ctr_keystream_repeats rk n0 n1 n2 2 (by decide)⟩

/-- The third nonce word is ignored. -/
theorem des_ctr_nonce_ignored (rk : List U32) (n0 n1 n2 n2' : U32) (a : Arrs) (size : Nat) :
    processPacketCtr rk a [n0, n1, n2] size = processPacketCtr rk a [n0, n1, n2'] size := rfl

/-! ### C52 -/

/-- C52, exactly: ECB processing is free of out-of-bounds accesses if and only if the size is a multiple of
eight and both arrays hold `size` bytes.  So the property fails for every other size, whatever the
buffers. -/
theorem des_ecb_bounds_iff (rk : List U32) (a : Arrs) (size : Nat) (hs : size < 2 ^ 64) :
    (∃ b, processPacketEcb rk a size = .ok b) ↔
      size % 8 = 0 ∧ size ≤ 4 * a.out.length ∧ size ≤ 4 * (if a.alias then a.out else a.inp).length := by
  constructor
  · rintro ⟨b, h⟩
    obtain ⟨h1, h2⟩ := ecbLoop_inv rk _ size 0 a b hs h
    refine ⟨h1, ?_⟩
    by_cases h0 : size > 0
    · have := h2 h0
      simp only [Arrs.srcLen] at this
      omega
    · omega
  · rintro ⟨h1, h2, h3⟩
    have := ecb_packet rk a (size / 8) (by omega) (by omega) (by simp only [Arrs.srcLen]; omega)
    rw [show 8 * (size / 8) = size by omega] at this
    exact ⟨_, this⟩

example := des_ecb_bounds_iff [1, 2] ⟨[1, 2, 3, 4], [0, 0, 0, 0], false⟩ 16 (by decide)

/-- The same for CTR with a nonce of at least three words. -/
theorem des_ctr_bounds_iff (rk nonce : List U32) (a : Arrs) (size : Nat) (hs : size < 2 ^ 64) (hno : 3 ≤ nonce.length) :
    (∃ b, processPacketCtr rk a nonce size = .ok b) ↔
      size % 8 = 0 ∧ size ≤ 4 * a.out.length ∧ size ≤ 4 * (if a.alias then a.out else a.inp).length := by
  match nonce, hno with
  | n0 :: n1 :: n2 :: ns, _ =>
    constructor
    · rintro ⟨b, h⟩
      obtain ⟨h1, h2⟩ := ctrLoop_inv rk n0 n1 _ 0 size 0 a b hs h
      refine ⟨h1, ?_⟩
      by_cases h0 : size > 0
      · have := h2 h0
        simp only [Arrs.srcLen] at this
        omega
      · omega
    · rintro ⟨h1, h2, h3⟩
      have := ctr_packet rk a n0 n1 n2 ns (size / 8) (by omega) (by omega) (by simp only [Arrs.srcLen]; omega)
      rw [show 8 * (size / 8) = size by omega] at this
      exact ⟨_, this⟩

example := des_ctr_bounds_iff [1, 2] [3, 4, 5] ⟨[1, 2, 3, 4], [0, 0, 0, 0], true⟩ 12 (by decide) (by decide)

/-- C52, the part that holds: for sizes that are multiples of eight the words behind the packet keep their
value and the input array is untouched.  Missing: all other sizes (`des_bounds_refuted`). -/
theorem des_packet_frame_partial (rk nonce : List U32) (a : Arrs) (n : Nat) (hn : 8 * n < 2 ^ 64)
    (h1 : 2 * n ≤ a.out.length) (h2 : 2 * n ≤ (if a.alias then a.out else a.inp).length) (hno : 3 ≤ nonce.length) :
    (∃ b, processPacketEcb rk a (8 * n) = .ok b ∧ b.out.length = a.out.length ∧ b.out.drop (2 * n) = a.out.drop (2 * n) ∧
      b.inp = a.inp) ∧
    (∃ b, processPacketCtr rk a nonce (8 * n) = .ok b ∧ b.out.length = a.out.length ∧ b.out.drop (2 * n) = a.out.drop (2 * n) ∧
      b.inp = a.inp) := by
  match nonce, hno with
  | n0 :: n1 :: n2 :: ns, _ =>
    have hl : ((if a.alias then a.out else a.inp).take (2 * n)).length = 2 * n := by rw [List.length_take]; omega
    constructor
    · refine ⟨_, ecb_packet rk a n hn h1 h2, ?_, ?_, rfl⟩
      · simp only [List.length_append, mapPairs_length, hl, List.length_drop]; omega
      · exact List.drop_left' (by rw [mapPairs_length, hl])
    · refine ⟨_, ctr_packet rk a n0 n1 n2 ns n hn h1 h2, ?_, ?_, rfl⟩
      · simp only [List.length_append, mapPairs_length, hl, List.length_drop]; omega
      · exact List.drop_left' (by rw [mapPairs_length, hl])

/-- Non-trivial instance: two blocks in buffers that are longer than the packet. -/
example : ∃ b, processPacketEcb (List.replicate 32 1) ⟨[1, 2, 3, 4, 5], [0, 0, 0, 0, 9, 9], false⟩ (8 * 2) = .ok b ∧
    b.out.drop 4 = [9, 9] :=
  let ⟨⟨b, h, _, h', _⟩, _⟩ := des_packet_frame_partial (List.replicate 32 1) [1, 2, 3] ⟨[1, 2, 3, 4, 5], [0, 0, 0, 0, 9, 9], false⟩ 2
    (by decide) (by decide) (by decide) (by decide)
  ⟨b, h, h'⟩

/-- C52 is false: a 12 byte packet in 12 byte buffers, with any key. -/
theorem des_bounds_refuted (rk : List U32) :
    (∀ b, processPacketEcb rk ⟨[1, 2, 3], [0, 0, 0], false⟩ 12 ≠ .ok b) ∧
    (∀ b, processPacketCtr rk ⟨[1, 2, 3], [0, 0, 0], false⟩ [1, 2, 3] 12 ≠ .ok b) := by
  constructor
  · intro b h
    have := (des_ecb_bounds_iff rk _ 12 (by decide)).mp ⟨b, h⟩
    omega
  · intro b h
    have := (des_ctr_bounds_iff rk [1, 2, 3] _ 12 (by decide) (by decide)).mp ⟨b, h⟩
    omega

end CT.Props.DES
