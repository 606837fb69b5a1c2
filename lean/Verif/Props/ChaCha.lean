import Verif.Proof.ChaCha

/-!
# ChaCha properties (C14 - C17)
-/

namespace CT.Props.ChaCha
open CT.ChaCha

/-- A context that was initialised with `key` and `nonce` and then used for any packets, of any
size, on any buffers. -/
inductive History (rounds : Nat) (key nonce : List U8) : State → Prop
  | init : History rounds key nonce (init key nonce)
  | packet {cs cs' : State} {io io' : Io} {size : U64} : History rounds key nonce cs →
      processPacket rounds cs io size = .ok (cs', io') → History rounds key nonce cs'

theorem History.keyed {r : Nat} {key nonce : List U8} {cs : State} (hk : key.length = 32)
    (hn : nonce.length = 12) (h : History r key nonce cs) : Keyed cs key nonce := by
  induction h with
  | init => exact ⟨1, init_eq hk hn⟩
  | packet _ hp ih => exact processPacket_keyed ih hp

theorem take_keystream (r : Nat) (key nonce : List U8) (c : U32) (msg : List U8) (n : Nat)
    (hn : n = msg.length) :
    xorBytes msg ((Spec.ChaCha.keystream r key c nonce ((n + 63) / 64)).take n) =
      Spec.ChaCha.encrypt r key c nonce msg := by
  subst hn
  rw [xorBytes_take_right]; rfl

/-- C14.  After initialisation, and after any history of packets, the packet function
writes the RFC 7539 encryption of the input with initial counter 1 and leaves everything else
alone; with separate buffers and in place. -/
theorem chacha_packet_is_rfc7539 (rounds : Nat) (key nonce : List U8) (hk : key.length = 32)
    (hn : nonce.length = 12) (cs : State) (hcs : History rounds key nonce cs) (io : Io) (size : U64)
    (hs : size.toNat < 2 ^ 31) (hf : io.Fits size.toNat) :
    ∃ cs', processPacket rounds cs io size = .ok (cs',
      { io with out := Spec.ChaCha.encrypt rounds key 1 nonce (io.src.take size.toNat) ++
          io.out.drop size.toNat }) := by
  obtain ⟨cs', _, h⟩ := processPacket_eq (hcs.keyed hk hn) rounds hs hf
  refine ⟨cs', ?_⟩
  rw [h]
  have hl : ((Spec.ChaCha.keystream rounds key 1 nonce ((size.toNat + 63) / 64)).take size.toNat).length
      = size.toNat := by
    rw [List.length_take, keystream_length]; omega
  have h1 := hf.1
  simp only [Io.xored, hl, Res.ok_inj, Prod.mk.injEq, true_and, Io.mk.injEq, and_true]
  rw [take_keystream _ _ _ _ _ _ (by rw [List.length_take]; omega)]

example := chacha_packet_is_rfc7539 20 (List.replicate 32 1) (List.replicate 12 2) (by simp) (by simp) _ (.init) ⟨List.replicate 70 3, List.replicate 75 0, false⟩
  70 (by decide) (by decide)

/-- C14.  The block function is the RFC 7539 block function, for every counter. -/
theorem chacha_block_is_rfc7539 (rounds : Nat) (key nonce : List U8) (hk : key.length = 32)
    (hn : nonce.length = 12) (cs : State) (hcs : History rounds key nonce cs) (counter : U32) :
    wordsToBytesLE (block rounds cs counter).2.toList = Spec.ChaCha.block rounds key counter nonce :=
  (block_eq (hcs.keyed hk hn) rounds counter).2

/-- Non-trivial instance: a 5 byte packet in place, on a used context. -/
example : ∃ cs, History 20 (List.replicate 32 7) (List.replicate 12 9) cs ∧
    (⟨[], [1, 2, 3, 4, 5, 6], true⟩ : Io).Fits (5#64).toNat :=
  ⟨_, .init, by decide⟩

/-- C15.  Decrypting (same function, same key and nonce, any history on either side) gives back the
message; the output buffer behind the message is untouched on both sides. -/
theorem chacha_round_trip (rounds : Nat) (key nonce : List U8) (hk : key.length = 32)
    (hn : nonce.length = 12) (cs1 cs2 : State) (h1 : History rounds key nonce cs1)
    (h2 : History rounds key nonce cs2) (msg buf1 buf2 : List U8) (size : U64)
    (hsz : size.toNat = msg.length) (hs : msg.length < 2 ^ 31) (hb1 : msg.length ≤ buf1.length)
    (hb2 : msg.length ≤ buf2.length) :
    ∃ cs1' cs2' ct, ct.length = msg.length ∧
      processPacket rounds cs1 ⟨msg, buf1, false⟩ size =
        .ok (cs1', ⟨msg, ct ++ buf1.drop msg.length, false⟩) ∧
      processPacket rounds cs2 ⟨ct, buf2, false⟩ size =
        .ok (cs2', ⟨ct, msg ++ buf2.drop msg.length, false⟩) := by
  obtain ⟨c1, e1⟩ := chacha_packet_is_rfc7539 rounds key nonce hk hn cs1 h1 ⟨msg, buf1, false⟩ size
    (by omega) ⟨by simp [Io.src]; omega, by simp; omega⟩
  have hsrc : ∀ a b : List U8, (⟨a, b, false⟩ : Io).src = a := fun a b => rfl
  simp only [hsrc, hsz, List.take_length] at e1
  have hlen : (Spec.ChaCha.encrypt rounds key 1 nonce msg).length = msg.length := by
    simp only [Spec.ChaCha.encrypt, xorBytes_length, keystream_length]; omega
  obtain ⟨c2, e2⟩ := chacha_packet_is_rfc7539 rounds key nonce hk hn cs2 h2
    ⟨Spec.ChaCha.encrypt rounds key 1 nonce msg, buf2, false⟩ size
    (by omega) ⟨by rw [hsrc]; omega, by simp; omega⟩
  rw [hsrc, hsz, ← hlen, List.take_length] at e2
  refine ⟨c1, c2, _, hlen, e1, ?_⟩
  rw [e2, hlen]
  have : Spec.ChaCha.encrypt rounds key 1 nonce (Spec.ChaCha.encrypt rounds key 1 nonce msg) = msg := by
    conv => lhs; unfold Spec.ChaCha.encrypt
    rw [show (xorBytes msg (Spec.ChaCha.keystream rounds key 1 nonce ((msg.length + 63) / 64))).length
      = msg.length from hlen]
    exact xorBytes_xorBytes _ _ (by rw [keystream_length]; omega)
  rw [this]

/-- Non-trivial instance: a receiver that has already processed a packet, a 3 byte message. -/
example : ∃ cs1 cs2, History 20 (List.replicate 32 7) (List.replicate 12 9) cs1 ∧
    History 20 (List.replicate 32 7) (List.replicate 12 9) cs2 ∧ cs1 = init (List.replicate 32 7) (List.replicate 12 9) ∧
    (3#64).toNat = ([1, 2, 3] : List U8).length ∧ ([1, 2, 3] : List U8).length ≤ ([0, 0, 0, 0] : List U8).length := by
  obtain ⟨c, e⟩ := chacha_packet_is_rfc7539 20 (List.replicate 32 7) (List.replicate 12 9) (by decide) (by decide)
    _ .init ⟨[1, 2], [0, 0], false⟩ 2 (by decide) (by decide)
  exact ⟨_, c, .init, .packet .init e, rfl, by decide, by decide⟩

/-- C15, in place: processing a buffer twice in place restores it. -/
theorem chacha_round_trip_in_place (rounds : Nat) (key nonce : List U8) (hk : key.length = 32)
    (hn : nonce.length = 12) (cs1 cs2 : State) (h1 : History rounds key nonce cs1)
    (h2 : History rounds key nonce cs2) (x buf : List U8) (size : U64) (hs : size.toNat < 2 ^ 31)
    (hb : size.toNat ≤ buf.length) :
    ∃ cs1' cs2' io, processPacket rounds cs1 ⟨x, buf, true⟩ size = .ok (cs1', io) ∧
      processPacket rounds cs2 io size = .ok (cs2', ⟨x, buf, true⟩) := by
  obtain ⟨c1, k1, e1⟩ := processPacket_eq (h1.keyed hk hn) rounds (io := ⟨x, buf, true⟩) hs ⟨hb, hb⟩
  have hl : ((Spec.ChaCha.keystream rounds key 1 nonce ((size.toNat + 63) / 64)).take size.toNat).length
      = size.toNat := by
    rw [List.length_take, keystream_length]; omega
  have hfit : (⟨x, buf, true⟩ : Io).Fits
      ((Spec.ChaCha.keystream rounds key 1 nonce ((size.toNat + 63) / 64)).take size.toNat).length := by
    rw [hl]; exact ⟨hb, hb⟩
  obtain ⟨c2, k2, e2⟩ := processPacket_eq (h2.keyed hk hn) rounds
    (io := (⟨x, buf, true⟩ : Io).xored
      ((Spec.ChaCha.keystream rounds key 1 nonce ((size.toNat + 63) / 64)).take size.toNat)) hs
    ⟨by rw [Io.xored_src_length hfit]; exact hb, by rw [Io.xored_out_length hfit]; exact hb⟩
  refine ⟨c1, c2, _, e1, ?_⟩
  rw [e2]
  generalize (Spec.ChaCha.keystream rounds key 1 nonce ((size.toNat + 63) / 64)).take size.toNat = ks at *
  simp only [Io.xored, Io.src, if_true, Res.ok_inj, Prod.mk.injEq, true_and, Io.mk.injEq, and_true, hl]
  have hxl : (xorBytes (buf.take size.toNat) ks).length = size.toNat := by simp; omega
  rw [List.take_append_of_le_length (by omega), List.take_of_length_le (by omega),
    xorBytes_xorBytes _ _ (by simp; omega), List.drop_append_of_le_length (by omega),
    List.drop_of_length_le (by omega), List.nil_append, List.take_append_drop]

example : (3#64).toNat < 2 ^ 31 ∧ (3#64).toNat ≤ ([1, 2, 3, 4] : List U8).length := by decide

/-- C16.  Whatever was processed before on either context, the same packet gives the same result
(for every size, including the sizes for which the call is undefined). -/
theorem chacha_history_independent (rounds : Nat) (key nonce : List U8) (hk : key.length = 32)
    (hn : nonce.length = 12) (cs1 cs2 : State) (h1 : History rounds key nonce cs1)
    (h2 : History rounds key nonce cs2) (io : Io) (size : U64) :
    (do let x ← processPacket rounds cs1 io size; pure x.2 : Res Io) =
    (do let x ← processPacket rounds cs2 io size; pure x.2 : Res Io) :=
  processPacket_congr rounds (h1.keyed hk hn) (h2.keyed hk hn) io size

/-- C16, the consequence for users: two packets processed one after the other on one context are
encrypted with the same keystream, so the exclusive or of the ciphertexts is that of the
plaintexts. -/
theorem chacha_keystream_reuse (rounds : Nat) (key nonce : List U8) (hk : key.length = 32)
    (hn : nonce.length = 12) (cs : State) (h : History rounds key nonce cs) (m1 m2 : List U8)
    (s1 s2 : U64) (e1 : s1.toNat = m1.length) (e2 : s2.toNat = m2.length)
    (l1 : m1.length < 2 ^ 31) (l2 : m2.length < 2 ^ 31) :
    ∃ cs' cs'' c1 c2,
      processPacket rounds cs ⟨m1, m1, false⟩ s1 = .ok (cs', ⟨m1, c1, false⟩) ∧
      processPacket rounds cs' ⟨m2, m2, false⟩ s2 = .ok (cs'', ⟨m2, c2, false⟩) ∧
      xorBytes c1 c2 = xorBytes m1 m2 := by
  have hsrc : ∀ a b : List U8, (⟨a, b, false⟩ : Io).src = a := fun a b => rfl
  obtain ⟨cs', p1⟩ := chacha_packet_is_rfc7539 rounds key nonce hk hn cs h ⟨m1, m1, false⟩ s1
    (by omega) ⟨by rw [hsrc]; omega, by simp; omega⟩
  obtain ⟨cs'', p2⟩ := chacha_packet_is_rfc7539 rounds key nonce hk hn cs' (.packet h p1)
    ⟨m2, m2, false⟩ s2 (by omega) ⟨by rw [hsrc]; omega, by simp; omega⟩
  simp only [hsrc, e1, e2, List.take_length, List.drop_length, List.append_nil] at p1 p2
  refine ⟨cs', cs'', _, _, p1, p2, ?_⟩
  have mono : ∀ (n k : Nat) (c : U32), ∃ t, Spec.ChaCha.keystream rounds key c nonce (n + k) =
      Spec.ChaCha.keystream rounds key c nonce n ++ t := by
    intro n k
    induction n with
    | zero => intro c; exact ⟨_, rfl⟩
    | succ n ih =>
      intro c
      obtain ⟨t, ht⟩ := ih (c + 1)
      refine ⟨t, ?_⟩
      rw [Nat.add_right_comm, Spec.ChaCha.keystream, ht, Spec.ChaCha.keystream, List.append_assoc]
  have ext : ∀ (m : List U8) (k : Nat), Spec.ChaCha.encrypt rounds key 1 nonce m =
      xorBytes m (Spec.ChaCha.keystream rounds key 1 nonce ((m.length + 63) / 64 + k)) := by
    intro m k
    obtain ⟨t, ht⟩ := mono ((m.length + 63) / 64) k 1
    rw [Spec.ChaCha.encrypt, ht, ← xorBytes_take_right, ← xorBytes_take_right m (_ ++ t),
      List.take_append_of_le_length (by rw [keystream_length]; omega)]
  rw [ext m1 ((m2.length + 63) / 64), ext m2 ((m1.length + 63) / 64),
    Nat.add_comm ((m2.length + 63) / 64)]
  exact xorBytes_cancel _ _ _ (by rw [keystream_length]; omega) (by rw [keystream_length]; omega)

example : (2#64).toNat = ([1, 2] : List U8).length ∧ (3#64).toNat = ([4, 5, 6] : List U8).length := by decide

/-- C17 holds below 2 GiB: every byte of the packet is encrypted.
Missing from the full statement: sizes from 2^31 on, where it is false (next theorems). -/
theorem chacha_every_size_partial (rounds : Nat) (key nonce : List U8) (hk : key.length = 32)
    (hn : nonce.length = 12) (io : Io) (size : U64) (hs : size.toNat < 2 ^ 31)
    (hf : io.Fits size.toNat) :
    ∃ cs', processPacket rounds (init key nonce) io size = .ok (cs',
      { io with out := Spec.ChaCha.encrypt rounds key 1 nonce (io.src.take size.toNat) ++
          io.out.drop size.toNat }) :=
  chacha_packet_is_rfc7539 rounds key nonce hk hn _ .init io size hs hf

/-- C17 is false from 2 GiB on: for sizes in [2^31, 2^32) the call succeeds and writes nothing at
all, so the output buffer keeps whatever it held. -/
theorem chacha_two_gib_not_encrypted (rounds : Nat) (key nonce : List U8) (hk : key.length = 32)
    (hn : nonce.length = 12) (io : Io) (size : U64) (h1 : 2 ^ 31 ≤ size.toNat)
    (h2 : size.toNat < 2 ^ 32) :
    ∃ cs', processPacket rounds (init key nonce) io size = .ok (cs', io) := by
  have h0 := effective_large h1 h2
  obtain ⟨c, _, e⟩ := processPacket_general ⟨1, init_eq hk hn⟩ rounds (io := io) (size := size)
    (by omega) (by rw [h0]; exact ⟨Nat.zero_le _, Nat.zero_le _⟩)
  rw [h0, List.take_zero, Io.xored_nil] at e
  exact ⟨c, e⟩

example : 2 ^ 31 ≤ (0x80000005#64).toNat ∧ (0x80000005#64).toNat < 2 ^ 32 := by decide

/-- C17 is false: it is not the case that every packet of every size is replaced by its encryption. -/
theorem chacha_every_size_refuted :
    ¬ ∀ (key nonce : List U8) (io : Io) (size : U64), key.length = 32 → nonce.length = 12 →
      io.Fits size.toNat →
      ∃ cs', processPacket 20 (init key nonce) io size = .ok (cs',
        { io with out := Spec.ChaCha.encrypt 20 key 1 nonce (io.src.take size.toNat) ++
            io.out.drop size.toNat }) := by
  intro h
  let K : List U8 := List.replicate 32 0
  let N : List U8 := List.replicate 12 0
  have main : ∀ z : Nat, 2 ^ 31 ≤ z → z < 2 ^ 32 → False := by
    intro z hz1 hz2
    have go : ∀ out : List U8, out.length = z →
        out = Spec.ChaCha.encrypt 20 K 1 N (List.replicate z 0) := by
      intro out ho
      have hl : (List.replicate z (0 : U8)).length = z := List.length_replicate
      generalize List.replicate z (0 : U8) = msg at *
      have hz : (BitVec.ofNat 64 z).toNat = z := by
        rw [BitVec.toNat_ofNat]; exact Nat.mod_eq_of_lt (by omega)
      obtain ⟨c1, e1⟩ := h K N ⟨msg, out, false⟩ (BitVec.ofNat 64 z) List.length_replicate
        List.length_replicate ⟨by rw [hz]; show z ≤ msg.length; omega, by rw [hz]; simp only; omega⟩
      obtain ⟨c2, e2⟩ := chacha_two_gib_not_encrypted 20 K N List.length_replicate List.length_replicate
        ⟨msg, out, false⟩ (BitVec.ofNat 64 z) (by rw [hz]; exact hz1) (by rw [hz]; exact hz2)
      rw [e2] at e1
      simp only [Res.ok_inj, Prod.mk.injEq, Io.mk.injEq, true_and, and_true] at e1
      have e := e1.2
      rw [hz, List.drop_of_length_le (by omega), List.append_nil] at e
      rw [show (⟨msg, out, false⟩ : Io).src = msg from rfl, ← hl, List.take_length] at e
      exact e
    have h0 := go (List.replicate z 0) List.length_replicate
    have h1 := go (List.replicate z 1) List.length_replicate
    have h2 : (List.replicate z (0 : U8)) = List.replicate z 1 := h0.trans h1.symm
    have h3 := congrArg List.head? h2
    obtain ⟨y, rfl⟩ : ∃ y, z = y + 1 := ⟨z - 1, by omega⟩
    rw [List.replicate_succ, List.replicate_succ] at h3
    simp at h3
  exact main (2 ^ 31) (Nat.le_refl _) (by decide)

/-- The number of bytes of a packet of `n` bytes that are processed: `n` as a 32 bit `int`, nothing if
that is negative. -/
def processed (n : Nat) : Nat := if n % 2 ^ 32 < 2 ^ 31 then n % 2 ^ 32 else 0

theorem effective_eq (size : U64) : effective size = processed size.toNat := by
  rw [effective, processed, BitVec.toInt_eq_toNat_cond, BitVec.toNat_setWidth]
  split <;> split <;> omega

/-- C17, exactly: up to 2^33-64 bytes, the first `processed size` bytes are encrypted and everything
else keeps its value; larger sizes are undefined. -/
theorem chacha_every_size_exact (rounds : Nat) (key nonce : List U8) (hk : key.length = 32)
    (hn : nonce.length = 12) (cs : State) (hcs : History rounds key nonce cs) (io : Io) (size : U64)
    (hf : io.Fits (processed size.toNat)) :
    (size.toNat ≤ 2 ^ 33 - 64 → ∃ cs', processPacket rounds cs io size = .ok (cs',
      { io with out := Spec.ChaCha.encrypt rounds key 1 nonce (io.src.take (processed size.toNat)) ++
          io.out.drop (processed size.toNat) })) ∧
    (2 ^ 33 - 64 < size.toNat → (processPacket rounds cs io size).isUB = true) := by
  constructor
  · intro hs
    obtain ⟨cs', _, h⟩ := processPacket_general (hcs.keyed hk hn) rounds (io := io) (size := size) hs
      (by rw [effective_eq]; exact hf)
    refine ⟨cs', ?_⟩
    have hle := effective_le size
    rw [effective_eq] at h hle
    generalize processed size.toNat = n at *
    rw [h]
    have hl : ((Spec.ChaCha.keystream rounds key 1 nonce ((size.toNat + 63) / 64)).take n).length = n := by
      rw [List.length_take, keystream_length]; omega
    have h1 := hf.1
    have hl2 : (io.src.take n).length = n := by rw [List.length_take]; omega
    simp only [Io.xored, hl, Res.ok_inj, Prod.mk.injEq, true_and, Io.mk.injEq, and_true]
    congr 1
    rw [← take_keystream rounds key nonce 1 (io.src.take n) n hl2.symm,
      keystream_take rounds key nonce 1 ((n + 63) / 64) _ n (by omega) (by omega)]
  · intro hs
    simp only [processPacket]
    by_cases h1 : 2 ^ 31 ≤ (size.toNat + 3) / 4
    · rw [if_pos h1]; rfl
    · rw [if_neg h1, if_pos (by omega)]; rfl

/-- Instance: of a packet of 2^32 + 5 bytes the first five are encrypted. -/
example : processed (0x100000005#64).toNat = 5 ∧ (0x100000005#64).toNat ≤ 2 ^ 33 - 64 ∧
    (⟨[1, 2, 3, 4, 5], [0, 0, 0, 0, 0], false⟩ : Io).Fits 5 := by decide

end CT.Props.ChaCha
