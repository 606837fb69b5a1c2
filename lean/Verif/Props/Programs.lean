import Verif.Model.Programs
import Verif.Props.Hex
import Verif.Props.ByteSwap
import Verif.Props.ChaCha
import Verif.Props.HC128
import Verif.Props.Rabbit
import Verif.Props.Sosemanuk
import Verif.Props.Serpent

/-!
# The example programs of the stream ciphers (C85 - C88)
-/

namespace CT.Props.Programs
open CT.Programs
open CT.Spec.Hex (denotes noLower)

@[simp] theorem arr_length (junk : Nat → Nat → U8) (k n : Nat) : (arr junk k n).length = n := by simp [arr]

theorem asInt_eq {n : Nat} (h : n < 2 ^ 31) : asInt n = n := by
  rw [asInt, BitVec.toInt_eq_toNat_cond, BitVec.toNat_ofNat, Nat.mod_eq_of_lt (by omega), if_pos (by omega)]

theorem denotes_length (text : List U8) : ∀ bytes, denotes text = some bytes → text.length = 2 * bytes.length := by
  intro bytes h
  have := Props.Hex.written_denotes text bytes h
  omega

/-- Decoding a key of the right size into an array. -/
theorem decode_arr (junk : Nat → Nat → U8) (k n : Nat) (text bytes : List U8) (h : denotes text = some bytes)
    (hu : noLower text) (hl : bytes.length = n) (hn : n < 2 ^ 30) :
    Hex.decode (arr junk k n) text (asInt text.length) = .ok bytes := by
  have := Props.Hex.hex_decode_text_partial text bytes (arr junk k n) h hu (by simp [hl])
  rw [asInt_eq (by rw [denotes_length _ _ h]; omega), this, List.drop_of_length_le (by simp [hl]), List.append_nil]

theorem digit_ne : ∀ n, n < 16 → Spec.Hex.digit n ≠ 0 := by decide

theorem cString_hex (bs rest : List U8) : cString (Spec.Hex.encode bs ++ 0 :: rest) = .ok (Spec.Hex.encode bs) := by
  induction bs with
  | nil => simp [Spec.Hex.encode, cString]
  | cons b bs ih =>
    have h1 := digit_ne (b.toNat / 16) (by have := b.isLt; omega)
    have h2 := digit_ne (b.toNat % 16) (by omega)
    simp only [Spec.Hex.encode, List.cons_append, cString, if_neg h1, if_neg h2, ih, Res.ok_bind, Res.pure_eq]

/-- Printing bytes in hexadecimal through an array of the right size. -/
theorem print_arr (junk : Nat → Nat → U8) (k n : Nat) (bytes : List U8) (hl : bytes.length = n) (hn : n < 2 ^ 30) :
    ∃ t, Hex.encode (arr junk k (2 * n + 1)) bytes (asInt n) = .ok t ∧ cString t = .ok (Spec.Hex.encode bytes) ∧
      stringN t (2 * n) = .ok (Spec.Hex.encode bytes) := by
  subst hl
  refine ⟨_, ?_, cString_hex bytes ((arr junk k (2 * bytes.length + 1)).drop (2 * bytes.length + 1)), ?_⟩
  · rw [asInt_eq (by omega), Props.Hex.hex_encode_writes _ _ hn (by simp)]
  · rw [stringN, if_pos (by simp [Props.Hex.encode_length]), List.take_left' (Props.Hex.encode_length _)]

theorem stringN_all (l : List U8) (n : Nat) (h : l.length = n) : stringN l n = .ok l := by
  subst h; simp [stringN]

/-! ### C85: ChaCha -/

theorem chacha_encrypt_length (rounds : Nat) (key : List U8) (c : U32) (nonce msg : List U8) :
    (Spec.ChaCha.encrypt rounds key c nonce msg).length = msg.length := by
  simp only [Spec.ChaCha.encrypt, xorBytes_length, ChaCha.keystream_length]; omega

theorem chacha_encrypt_twice (rounds : Nat) (key : List U8) (c : U32) (nonce msg : List U8) :
    Spec.ChaCha.encrypt rounds key c nonce (Spec.ChaCha.encrypt rounds key c nonce msg) = msg := by
  conv => lhs; unfold Spec.ChaCha.encrypt
  rw [show (xorBytes msg (Spec.ChaCha.keystream rounds key c nonce ((msg.length + 63) / 64))).length
    = msg.length from chacha_encrypt_length rounds key c nonce msg]
  exact xorBytes_xorBytes _ _ (by rw [ChaCha.keystream_length]; omega)

theorem chacha_packet (rounds : Nat) (key nonce msg buf : List U8) (hk : key.length = 32) (hn : nonce.length = 12)
    (hm : msg.length < 2 ^ 31) (hb : buf.length = msg.length) :
    ∃ cs, ChaCha.processPacket rounds (ChaCha.init key nonce) ⟨msg, buf, false⟩ (BitVec.ofNat 64 msg.length) =
      .ok (cs, ⟨msg, Spec.ChaCha.encrypt rounds key 1 nonce msg, false⟩) := by
  have hs : (BitVec.ofNat 64 msg.length).toNat = msg.length := by
    rw [BitVec.toNat_ofNat, Nat.mod_eq_of_lt (by omega)]
  obtain ⟨cs, h⟩ := Props.ChaCha.chacha_packet_is_rfc7539 rounds key nonce hk hn _ .init ⟨msg, buf, false⟩
    (BitVec.ofNat 64 msg.length) (by omega) (by rw [hs]; exact ⟨by simp [Io.src], by simp [hb]⟩)
  refine ⟨cs, ?_⟩
  rw [h, hs]
  simp only [Io.src, Bool.false_eq_true, if_false, List.take_length]
  rw [List.drop_of_length_le (by omega), List.append_nil]

/-- C85: the program prints the RFC 7539 ciphertext in hexadecimal and recovers the message, for every message
and every key and nonce, whatever the uninitialised arrays contain. -/
theorem chacha_main_prints (rounds : Nat) (junk : Nat → Nat → U8) (message keyString nonceString key nonce : List U8)
    (hk : denotes keyString = some key) (hku : noLower keyString) (hkl : key.length = 32)
    (hn : denotes nonceString = some nonce) (hnu : noLower nonceString) (hnl : nonce.length = 12)
    (hm : message.length < 2 ^ 30) :
    chachaMain rounds junk message keyString nonceString = .ok [("Plaintext: ", message),
      ("Ciphertext: ", Spec.Hex.encode (Spec.ChaCha.encrypt rounds key 1 nonce message)),
      ("\nRecovered: ", message)] := by
  have hl := chacha_encrypt_length rounds key 1 nonce message
  obtain ⟨c1, e1⟩ := chacha_packet rounds key nonce message (arr junk 2 message.length) hkl hnl (by omega) (by simp)
  obtain ⟨c2, e2⟩ := chacha_packet rounds key nonce (Spec.ChaCha.encrypt rounds key 1 nonce message)
    (arr junk 4 message.length) hkl hnl (by omega) (by rw [hl]; simp)
  obtain ⟨t, p1, p2, -⟩ := print_arr junk 3 message.length (Spec.ChaCha.encrypt rounds key 1 nonce message) hl hm
  rw [hl, chacha_encrypt_twice rounds key 1 nonce message] at e2
  simp only [chachaMain, decode_arr junk 0 32 keyString key hk hku hkl (by omega),
    decode_arr junk 1 12 nonceString nonce hn hnu hnl (by omega), Res.ok_bind, e1, p1, p2, e2, stringN_all, Res.pure_eq]

/-- C85, cipher_test: the two parts together are the ciphertext in hexadecimal. -/
theorem chacha_cipher_test_prints (rounds : Nat) (junk : Nat → Nat → U8) (plaintext keyString nonceString key nonce : List U8)
    (hk : denotes keyString = some key) (hku : noLower keyString) (hkl : key.length = 32)
    (hn : denotes nonceString = some nonce) (hnu : noLower nonceString) (hnl : nonce.length = 12)
    (hm : plaintext.length < 2 ^ 30) (h64 : 64 ≤ plaintext.length) :
    ∃ a b, chachaCipherTest rounds junk plaintext keyString nonceString =
        .ok [("Ciphertext part 1: ", a), ("Ciphertext part 2: ", b)] ∧
      a = Spec.Hex.encode ((Spec.ChaCha.encrypt rounds key 1 nonce plaintext).take 64) ∧
      b = Spec.Hex.encode ((Spec.ChaCha.encrypt rounds key 1 nonce plaintext).drop 64) := by
  have hl := chacha_encrypt_length rounds key 1 nonce plaintext
  obtain ⟨c1, e1⟩ := chacha_packet rounds key nonce plaintext (arr junk 2 plaintext.length) hkl hnl (by omega) (by simp)
  obtain ⟨t, p1, p2, -⟩ := print_arr junk 3 plaintext.length (Spec.ChaCha.encrypt rounds key 1 nonce plaintext) hl hm
  have app : ∀ x y : List U8, Spec.Hex.encode (x ++ y) = Spec.Hex.encode x ++ Spec.Hex.encode y := by
    intro x y
    induction x with
    | nil => rfl
    | cons b x ih => simp [Spec.Hex.encode, ih]
  generalize Spec.ChaCha.encrypt rounds key 1 nonce plaintext = ct at *
  have e : Spec.Hex.encode ct = Spec.Hex.encode (ct.take 64) ++ Spec.Hex.encode (ct.drop 64) := by
    rw [← app, List.take_append_drop]
  have hlt : (Spec.Hex.encode (ct.take 64)).length = 128 := by
    rw [Props.Hex.encode_length, List.length_take]; omega
  refine ⟨_, _, ?_, rfl, rfl⟩
  simp only [chachaCipherTest, decode_arr junk 0 32 keyString key hk hku hkl (by omega),
    decode_arr junk 1 12 nonceString nonce hn hnu hnl (by omega), Res.ok_bind, e1, p1, p2]
  rw [if_neg (by rw [Props.Hex.encode_length]; omega), e, List.take_left' hlt, List.drop_left' hlt, Res.pure_eq]

/-! The texts that main.cpp and cipher_test.cpp declare meet the hypotheses. -/

def chachaKeyString : List U8 := ascii "000102030405060708090A0B0C0D0E0F101112131415161718191A1B1C1D1E1F"
def chachaNonceString : List U8 := ascii "000000000000004A00000000"

theorem chacha_texts : denotes chachaKeyString = some ((List.range 32).map (BitVec.ofNat 8)) ∧ noLower chachaKeyString ∧
    denotes chachaNonceString = some [0, 0, 0, 0, 0, 0, 0, 0x4A, 0, 0, 0, 0] ∧ noLower chachaNonceString := by
  refine ⟨by decide +kernel, ?_, by decide +kernel, ?_⟩ <;>
  · unfold noLower
    decide +kernel

theorem swapWords_twice (l : List U8) : Spec.ByteSwap.swapWords (Spec.ByteSwap.swapWords l) = l := by
  induction l using Spec.ByteSwap.swapWords.induct with
  | case1 a b c d l ih => simp [Spec.ByteSwap.swapWords, ih]
  | case2 l hl =>
    have : Spec.ByteSwap.swapWords l = l := by rw [Spec.ByteSwap.swapWords]; exact hl
    rw [this, this]

theorem swap64 (l : List U8) (h : l.length = 64) :
    ChaCha.byteSwap ⟨[], l, true⟩ 64 = .ok ⟨[], Spec.ByteSwap.swapWords l, true⟩ := by
  have := Props.ByteSwap.byte_swap_in_place_partial [] l 64 (by omega)
  rw [this, show (64 : Int).toNat = 64 from rfl, List.take_of_length_le (by omega), List.drop_of_length_le (by omega),
    List.append_nil]

theorem asInt64 : asInt 64 = 64 := by decide

theorem words16_eq (v : ChaCha.Words) : words16 (wordsToBytesLE v.toList) = v := by
  rw [words16, bytesToWordsLE_wordsToBytesLE]
  ext i h
  simp

/-- C86: for the text of any RFC 7539 initial state (words written with the most significant digit first, any
counter) block_test prints the keystream block with counter 1 the same way. -/
theorem chacha_block_test_prints (rounds : Nat) (junk : Nat → Nat → U8) (text key nonce : List U8) (c : U32)
    (ht : denotes text = some (Spec.ByteSwap.swapWords (wordsToBytesLE (Spec.ChaCha.initState key c nonce).toList)))
    (hu : noLower text) :
    chachaBlockTest rounds junk text =
      .ok [("Output: ", Spec.Hex.encode (Spec.ByteSwap.swapWords (Spec.ChaCha.block rounds key 1 nonce)))] := by
  have hb : (wordsToBytesLE (Spec.ChaCha.initState key c nonce).toList).length = 64 := by
    rw [wordsToBytesLE_length]; simp
  have hl := denotes_length _ _ ht
  rw [Props.ByteSwap.swapWords_length, hb] at hl
  have hd := decode_arr junk 0 64 text _ ht hu (by rw [Props.ByteSwap.swapWords_length, hb]) (by omega)
  have hblk := ChaCha.block_eq (cs := ⟨Spec.ChaCha.initState key c nonce⟩) ⟨c, rfl⟩ rounds 1
  have hsw := swap64 (Spec.ByteSwap.swapWords (wordsToBytesLE (Spec.ChaCha.initState key c nonce).toList))
    (by rw [Props.ByteSwap.swapWords_length, hb])
  rw [swapWords_twice] at hsw
  have hsp : (Spec.ChaCha.block rounds key 1 nonce).length = 64 := by
    have := ChaCha.keystream_length rounds key nonce 1 1
    simpa [Spec.ChaCha.keystream] using this
  have hs2 := swap64 (Spec.ChaCha.block rounds key 1 nonce) hsp
  obtain ⟨t, p1, p2, -⟩ := print_arr junk 1 64 (Spec.ByteSwap.swapWords (Spec.ChaCha.block rounds key 1 nonce))
    (by rw [Props.ByteSwap.swapWords_length, hsp]) (by omega)
  rw [asInt64] at p1
  have h2 : text.length / 2 = 64 := by omega
  have e2 := hblk.2
  clear ht hblk
  unfold chachaBlockTest
  rw [h2, hd, Res.ok_bind, asInt64, hsw, Res.ok_bind, if_neg (by rw [hb]; decide), words16_eq]
  dsimp only
  rw [e2, hs2, Res.ok_bind, hl, p1, Res.ok_bind, p2]
  rfl

/-- The state text of block_test.cpp meets the hypotheses: counter 1, key 00 to 1F. -/
example : denotes (ascii "617078653320646E79622D326B20657403020100070605040B0A09080F0E0D0C13121110171615141B1A19181F1E1D1C00000001090000004A00000000000000") =
    some (Spec.ByteSwap.swapWords (wordsToBytesLE (Spec.ChaCha.initState ((List.range 32).map (BitVec.ofNat 8)) 1
      [0, 0, 0, 9, 0, 0, 0, 0x4A, 0, 0, 0, 0]).toList)) := by decide +kernel

/-- C86: quarter_test prints the RFC 7539 quarter round on words 2, 7, 8 and 13 of the state given as text. -/
theorem chacha_quarter_test_prints (junk : Nat → Nat → U8) (text : List U8) (s : Vector U32 16)
    (ht : denotes text = some (Spec.ByteSwap.swapWords (wordsToBytesLE s.toList))) (hu : noLower text) :
    chachaQuarterTest junk text = .ok [("Input: ", text), ("Output: ", Spec.Hex.encode (Spec.ByteSwap.swapWords
      (wordsToBytesLE (Spec.ChaCha.qr s 2 7 8 13).toList)))] := by
  have hv : ∀ v : Vector U32 16, (wordsToBytesLE v.toList).length = 64 := by
    intro v; rw [wordsToBytesLE_length]; simp
  have hb := hv s
  have hl := denotes_length _ _ ht
  rw [Props.ByteSwap.swapWords_length, hb] at hl
  have hd := decode_arr junk 0 64 text _ ht hu (by rw [Props.ByteSwap.swapWords_length, hb]) (by omega)
  have hsw := swap64 (Spec.ByteSwap.swapWords (wordsToBytesLE s.toList)) (by rw [Props.ByteSwap.swapWords_length, hb])
  rw [swapWords_twice] at hsw
  have hq : ChaCha.testQ s = Spec.ChaCha.qr s 2 7 8 13 := ChaCha.qRound_eq s 2 7 8 13 (by decide)
  have hs2 := swap64 (wordsToBytesLE (Spec.ChaCha.qr s 2 7 8 13).toList) (hv _)
  obtain ⟨t, p1, p2, -⟩ := print_arr junk 1 64 (Spec.ByteSwap.swapWords (wordsToBytesLE (Spec.ChaCha.qr s 2 7 8 13).toList))
    (by rw [Props.ByteSwap.swapWords_length, hv]) (by omega)
  rw [asInt64] at p1
  have h2 : text.length / 2 = 64 := by omega
  clear ht
  unfold chachaQuarterTest
  rw [h2, hd, Res.ok_bind, asInt64, hsw, Res.ok_bind, if_neg (by rw [hb]; decide), words16_eq, hq]
  dsimp only
  rw [hs2, Res.ok_bind, hl, p1, Res.ok_bind, p2]
  rfl

/-! ### C87: HC-128 and Sosemanuk -/

/-- One packet with a separate output array of the packet's size. -/
theorem stream_packet {σ : Type} {f : PacketFn σ} {Inv : σ → Prop} {ok : Nat → Prop} {ks : σ → Nat → List U8}
    {next : σ → Nat → σ} (h : IsStream f Inv ok ks next) {s : σ} (p buf : List U8) (n : Nat) (hl : p.length = n)
    (hb : buf.length = n) (hs : Inv s) (hp : ok n) :
    f s ⟨p, buf, false⟩ n = .ok (next s n, ⟨p, xorBytes p (ks s n), false⟩) := by
  subst hl
  obtain ⟨_, hk, hf⟩ := h s p.length hs hp
  rw [hf _ ⟨by simp [Io.src], by simp [hb]⟩]
  simp [Io.xored, Io.src, hk, hb]

/-- C87: the HC-128 program prints every plaintext and then recovers it from the ciphertext. -/
theorem hc128_main_prints (junk : Nat → Nat → U8) (pt hexkey hexIv key iv : List U8)
    (hk : denotes hexkey = some key) (hku : noLower hexkey) (hkl : key.length = 16)
    (hi : denotes hexIv = some iv) (hiu : noLower hexIv) (hil : iv.length = 16) (hp : pt.length ≤ 2 ^ 33 - 8) :
    hc128Main junk pt hexkey hexIv = .ok [("Plaintext: ", pt), ("Recovered: ", pt)] := by
  have d1 := decode_arr junk 0 16 hexkey key hk hku hkl (by omega)
  have d2 := decode_arr junk 1 16 hexIv iv hi hiu hil (by omega)
  rw [denotes_length _ _ hk, hkl, show asInt (2 * 16) = 32 by decide] at d1
  rw [denotes_length _ _ hi, hil, show asInt (2 * 16) = 32 by decide] at d2
  have hks := HC128.pktKs_length (HC128.init key iv) pt.length
  have e1 := stream_packet HC128.isStream (s := HC128.init key iv) pt (arr junk 2 pt.length) pt.length rfl (by simp)
    trivial hp
  have e2 := stream_packet HC128.isStream (s := HC128.init key iv) (xorBytes pt (HC128.pktKs (HC128.init key iv) pt.length))
    (arr junk 3 pt.length) pt.length (by simp [hks]) (by simp) trivial hp
  rw [xorBytes_xorBytes _ _ (by omega)] at e2
  simp only [hc128Main, d1, d2, e1, e2, Res.ok_bind, stringN_all, Res.pure_eq]

/-- The texts of StreamCiphers/HC-128/main.cpp and StreamCiphers/Sosemanuk/main.cpp meet the hypotheses. -/
example : (∃ key, denotes (ascii "0F62B5085BAE0154A7FA4DA0F34699EC") = some key ∧ key.length = 16) ∧
    (∃ iv, denotes (ascii "288FF65DC42B92F960C72E95FC63CA31") = some iv ∧ iv.length = 16) ∧
    (∃ key, denotes (ascii "0DA416FE03E36529FB9BEA70872F0B5D") = some key ∧ key.length = 16) ∧
    (∃ iv, denotes (ascii "D404755728FC17C659EC49D577A746E2") = some iv ∧ iv.length = 16) := by
  refine ⟨⟨_, rfl, ?_⟩, ⟨_, rfl, ?_⟩, ⟨_, rfl, ?_⟩, ⟨_, rfl, ?_⟩⟩ <;> decide +kernel

example : noLower (ascii "0F62B5085BAE0154A7FA4DA0F34699EC") ∧ noLower (ascii "288FF65DC42B92F960C72E95FC63CA31") ∧
    noLower (ascii "0DA416FE03E36529FB9BEA70872F0B5D") ∧ noLower (ascii "D404755728FC17C659EC49D577A746E2") := by
  unfold noLower; decide +kernel

/-- C87: so does the Sosemanuk program, whatever the uninitialised cipher states contain, for keys of up to 32
bytes; the ciphertext is printed in hexadecimal. -/
theorem sosemanuk_main_prints (junk : Nat → Nat → U8) (c1 c2 : Sosemanuk.State) (plain keyString ivString key iv : List U8)
    (hk : denotes keyString = some key) (hku : noLower keyString) (hkl : key.length ≤ 32)
    (hi : denotes ivString = some iv) (hiu : noLower ivString) (hil : iv.length = 16) (hp : plain.length < 2 ^ 30) :
    ∃ ct, ct.length = plain.length ∧ sosemanukMain junk c1 c2 plain keyString ivString =
      .ok (some [("Plaintext: ", plain), ("Ciphertext: ", Spec.Hex.encode ct), ("Recovered: ", plain)]) ∧
    ∃ cs, Props.Sosemanuk.encrypt c1 key iv ⟨plain, List.replicate plain.length 0, false⟩ plain.length =
      .ok (some (cs, ⟨plain, ct, false⟩)) := by
  have d1 := decode_arr junk 0 key.length keyString key hk hku rfl (by omega)
  have d2 := decode_arr junk 1 iv.length ivString iv hi hiu rfl (by omega)
  have l1 : keyString.length / 2 = key.length := by rw [denotes_length _ _ hk]; omega
  have l2 : ivString.length / 2 = iv.length := by rw [denotes_length _ _ hi]; omega
  have k1 := Sosemanuk.loadKey_eq c1 key hkl
  have k2 := Sosemanuk.loadKey_eq c2 key hkl
  obtain ⟨c, i1, -⟩ := Props.Sosemanuk.loadIv_ok { c1 with rk := Serpent.schedule key } iv hil
  have i2 : Sosemanuk.loadIv { c2 with rk := Serpent.schedule key } iv = .ok c := i1
  have hks : ((blkBytes Sosemanuk.block (plain.length / 16 + 1) c).take plain.length).length = plain.length :=
    (Props.Sosemanuk.isStream c plain.length trivial trivial).2.1
  have e1 := stream_packet Props.Sosemanuk.isStream (s := c) plain (arr junk 2 plain.length) plain.length rfl (by simp)
    trivial trivial
  have e0 := stream_packet Props.Sosemanuk.isStream (s := c) plain (List.replicate plain.length 0) plain.length rfl (by simp)
    trivial trivial
  generalize hK : (blkBytes Sosemanuk.block (plain.length / 16 + 1) c).take plain.length = K at *
  have e2 := stream_packet Props.Sosemanuk.isStream (s := c) (xorBytes plain K)
    (arr junk 4 plain.length) plain.length (by simp [hks]) (by simp) trivial trivial
  simp only [hK] at e2
  rw [xorBytes_xorBytes _ _ (by omega)] at e2
  obtain ⟨t, p1, -, p2⟩ := print_arr junk 3 plain.length (xorBytes plain K) (by simp [hks]) hp
  refine ⟨xorBytes plain K, by simp [hks], ?_, blkState Sosemanuk.block (plain.length / 16 + 1) c, ?_⟩
  · simp only [sosemanukMain, l1, l2, d1, d2, Res.ok_bind, asInt_eq (show key.length < 2 ^ 31 by omega), k1, i1, e1, p1, p2, k2, i2, e2,
      stringN_all, Res.pure_eq]
  · simp only [Props.Sosemanuk.encrypt, k1, i1, e0, Res.ok_bind, Res.pure_eq]

/-- C87: a key of more than 32 bytes ends the Sosemanuk program. -/
theorem sosemanuk_main_long_key (junk : Nat → Nat → U8) (c1 c2 : Sosemanuk.State) (plain keyString ivString key iv : List U8)
    (hk : denotes keyString = some key) (hku : noLower keyString) (hkl : 32 < key.length) (hkm : key.length < 2 ^ 30)
    (hi : denotes ivString = some iv) (hiu : noLower ivString) (him : iv.length < 2 ^ 30) :
    sosemanukMain junk c1 c2 plain keyString ivString = .ok none := by
  have d1 := decode_arr junk 0 key.length keyString key hk hku rfl hkm
  have d2 := decode_arr junk 1 iv.length ivString iv hi hiu rfl him
  have l1 : keyString.length / 2 = key.length := by rw [denotes_length _ _ hk]; omega
  have l2 : ivString.length / 2 = iv.length := by rw [denotes_length _ _ hi]; omega
  have k1 : Sosemanuk.loadKey c1 key key.length = .ok none := by
    rw [Sosemanuk.loadKey, (Props.Serpent.serpent_key_length key key.length).1 (by omega)]
    rfl
  simp only [sosemanukMain, l1, l2, d1, d2, Res.ok_bind, asInt_eq (show key.length < 2 ^ 31 by omega), k1, Res.pure_eq]

/-! ### C88: Rabbit -/

/-- What the Rabbit program prints in general. -/
theorem rabbit_main_eq (junk : Nat → Nat → U8) (keyString ivString key iv plaintext mumbo second : List U8)
    (hk : denotes keyString = some key) (hku : noLower keyString) (hkl : key.length < 2 ^ 30)
    (hi : denotes ivString = some iv) (hiu : noLower ivString) (hil : iv.length < 2 ^ 30) (hp : plaintext.length < 2 ^ 30) :
    let c0 := Rabbit.loadIv (Rabbit.loadKey key) iv
    let c1 := Rabbit.pktNext c0 plaintext.length
    let c2 := Rabbit.pktNext c1 mumbo.length
    rabbitMain junk keyString ivString plaintext mumbo second = .ok [("Plaintext: ", plaintext),
      ("Ciphertext: ", Spec.Hex.encode (xorBytes plaintext (Rabbit.pktKs c0 plaintext.length))),
      ("Recovered: ", plaintext),
      ("Recovered 2: ", xorBytes (xorBytes second (Rabbit.pktKs (Rabbit.loadIv c2 iv) second.length))
        (Rabbit.pktKs (Rabbit.loadIv c1 iv) second.length))] := by
  intro c0 c1 c2
  have d1 := decode_arr junk 0 key.length keyString key hk hku rfl hkl
  have d2 := decode_arr junk 1 iv.length ivString iv hi hiu rfl hil
  have l1 : keyString.length / 2 = key.length := by rw [denotes_length _ _ hk]; omega
  have l2 : ivString.length / 2 = iv.length := by rw [denotes_length _ _ hi]; omega
  have hl := Rabbit.pktKs_length
  have pk := fun (s : Rabbit.State) (p : List U8) (k : Nat) (n : Nat) (h : p.length = n) =>
    stream_packet Rabbit.isStream (s := s) p (arr junk k n) n h (by simp) trivial trivial
  obtain ⟨t, p1, p2, -⟩ := print_arr junk 5 plaintext.length (xorBytes plaintext (Rabbit.pktKs c0 plaintext.length))
    (by simp [hl]) hp
  have e1 := pk c0 plaintext 2 _ rfl
  have e2 := pk c1 mumbo 3 _ rfl
  have e3 := pk (Rabbit.loadIv c2 iv) second 4 _ rfl
  have e4 := pk c0 (xorBytes plaintext (Rabbit.pktKs c0 plaintext.length)) 6 plaintext.length (by simp [hl])
  have e5 := pk (Rabbit.loadIv c1 iv) (xorBytes second (Rabbit.pktKs (Rabbit.loadIv c2 iv) second.length)) 7 second.length
    (by simp [hl])
  rw [xorBytes_xorBytes _ _ (by rw [hl]; omega)] at e4
  have hc : Rabbit.loadIv (Rabbit.loadKey key) iv = c0 := rfl
  have hc1 : Rabbit.pktNext c0 plaintext.length = c1 := rfl
  have hc2 : Rabbit.pktNext c1 mumbo.length = c2 := rfl
  rw [hc1] at e1 e4
  rw [hc2] at e2
  clear_value c0 c1 c2
  simp only [rabbitMain, l1, l2, d1, d2, Res.ok_bind, hc, e1, e2, e3, p1, p2, e4, e5, Res.pure_eq,
    stringN_all plaintext _ rfl]
  rw [stringN_all _ _ (by simp [hl])]
  rfl

/-- C88, first half: the first message is always recovered. -/
theorem rabbit_main_first (junk : Nat → Nat → U8) (keyString ivString key iv plaintext mumbo second : List U8)
    (hk : denotes keyString = some key) (hku : noLower keyString) (hkl : key.length < 2 ^ 30)
    (hi : denotes ivString = some iv) (hiu : noLower ivString) (hil : iv.length < 2 ^ 30) (hp : plaintext.length < 2 ^ 30) :
    ∃ ct r2, rabbitMain junk keyString ivString plaintext mumbo second = .ok [("Plaintext: ", plaintext),
      ("Ciphertext: ", Spec.Hex.encode ct), ("Recovered: ", plaintext), ("Recovered 2: ", r2)] ∧
      ct.length = plaintext.length ∧ r2.length = second.length := by
  refine ⟨_, _, rabbit_main_eq junk keyString ivString key iv plaintext mumbo second hk hku hkl hi hiu hil hp, ?_, ?_⟩ <;>
    simp [Rabbit.pktKs_length]

/-- C88, the part that holds of the rest: the second message is recovered if the message in between leaves the
carry bit as it found it.  Missing: the other carry bit, for which it is false (`rabbit_main_refuted`). -/
theorem rabbit_main_prints_partial (junk : Nat → Nat → U8) (keyString ivString key iv plaintext mumbo second : List U8)
    (hk : denotes keyString = some key) (hku : noLower keyString) (hkl : key.length < 2 ^ 30)
    (hi : denotes ivString = some iv) (hiu : noLower ivString) (hil : iv.length < 2 ^ 30) (hp : plaintext.length < 2 ^ 30)
    (hc : ∀ cs1 io1 cs2 io2,
      Rabbit.processPacket (Rabbit.loadIv (Rabbit.loadKey key) iv) ⟨plaintext, plaintext, false⟩ plaintext.length =
        .ok (cs1, io1) →
      Rabbit.processPacket cs1 ⟨mumbo, mumbo, false⟩ mumbo.length = .ok (cs2, io2) → cs2.carry = cs1.carry) :
    ∃ ct, rabbitMain junk keyString ivString plaintext mumbo second = .ok [("Plaintext: ", plaintext),
      ("Ciphertext: ", Spec.Hex.encode ct), ("Recovered: ", plaintext), ("Recovered 2: ", second)] := by
  refine ⟨xorBytes plaintext (Rabbit.pktKs (Rabbit.loadIv (Rabbit.loadKey key) iv) plaintext.length), ?_⟩
  rw [rabbit_main_eq junk keyString ivString key iv plaintext mumbo second hk hku hkl hi hiu hil hp]
  have e1 := stream_packet Rabbit.isStream (s := Rabbit.loadIv (Rabbit.loadKey key) iv) plaintext plaintext
    plaintext.length rfl rfl trivial trivial
  have e2 := stream_packet Rabbit.isStream (s := Rabbit.pktNext (Rabbit.loadIv (Rabbit.loadKey key) iv) plaintext.length) mumbo mumbo
    mumbo.length rfl rfl trivial trivial
  have h := hc _ _ _ _ e1 e2
  have h1 : Rabbit.History key (Rabbit.pktNext (Rabbit.loadIv (Rabbit.loadKey key) iv) plaintext.length) :=
    .packet (.iv iv .key) e1
  have h2 := Rabbit.History.packet h1 e2
  rw [Props.Rabbit.rabbit_iv_resync_two_states key _ _ h2 h1 h iv, xorBytes_xorBytes _ _ (by rw [Rabbit.pktKs_length]; omega)]

theorem rabbit_shipped : denotes rabbitKey = some (List.replicate 16 0) ∧ noLower rabbitKey ∧
    denotes rabbitIv = some [0x59, 0x7E, 0x26, 0xC1, 0x75, 0xF5, 0x73, 0xC3] ∧ noLower rabbitIv := by
  refine ⟨by decide +kernel, ?_, by decide +kernel, ?_⟩ <;>
  · unfold noLower
    decide +kernel

set_option maxRecDepth 10000 in
theorem rabbit_shipped_carry :
    (Rabbit.pktNext (Rabbit.pktNext (Rabbit.loadIv (Rabbit.loadKey (List.replicate 16 0))
      [0x59, 0x7E, 0x26, 0xC1, 0x75, 0xF5, 0x73, 0xC3]) rabbitPlaintext.length) rabbitMumbo.length).carry =
    (Rabbit.pktNext (Rabbit.loadIv (Rabbit.loadKey (List.replicate 16 0))
      [0x59, 0x7E, 0x26, 0xC1, 0x75, 0xF5, 0x73, 0xC3]) rabbitPlaintext.length).carry := by decide +kernel

/-- C88 with the texts of main.cpp: both messages are recovered, so the program's own check does not show the
defect. -/
theorem rabbit_main_shipped (junk : Nat → Nat → U8) :
    ∃ ct, rabbitMain junk rabbitKey rabbitIv rabbitPlaintext rabbitMumbo rabbitSecond = .ok
      [("Plaintext: ", rabbitPlaintext), ("Ciphertext: ", Spec.Hex.encode ct), ("Recovered: ", rabbitPlaintext),
        ("Recovered 2: ", rabbitSecond)] := by
  obtain ⟨h1, h2, h3, h4⟩ := rabbit_shipped
  refine rabbit_main_prints_partial junk rabbitKey rabbitIv _ _ rabbitPlaintext rabbitMumbo rabbitSecond h1 h2 (by decide) h3 h4
    (by decide) (by decide +kernel) ?_
  intro cs1 io1 cs2 io2 e1 e2
  rw [stream_packet Rabbit.isStream _ _ _ rfl rfl trivial trivial, Res.ok_inj] at e1
  obtain ⟨rfl, -⟩ := Prod.mk.inj e1
  rw [stream_packet Rabbit.isStream _ _ _ rfl rfl trivial trivial, Res.ok_inj] at e2
  obtain ⟨rfl, -⟩ := Prod.mk.inj e2
  exact rabbit_shipped_carry

set_option maxRecDepth 10000 in
/-- C88 is false for other texts: with a first message of 40 bytes and one byte in between the second message is not
recovered. -/
theorem rabbit_main_refuted :
    ¬ ∀ (junk : Nat → Nat → U8) (plaintext mumbo second : List U8), ∃ ct,
      rabbitMain junk rabbitKey rabbitIv plaintext mumbo second = .ok [("Plaintext: ", plaintext),
        ("Ciphertext: ", Spec.Hex.encode ct), ("Recovered: ", plaintext), ("Recovered 2: ", second)] := by
  intro h
  obtain ⟨ct, e⟩ := h (fun _ _ => 0) (List.replicate 40 0) [0] (List.replicate 16 0)
  obtain ⟨h1, h2, h3, h4⟩ := rabbit_shipped
  have e2 := rabbit_main_eq (fun _ _ => 0) rabbitKey rabbitIv _ _ (List.replicate 40 0) [0] (List.replicate 16 0) h1 h2 (by decide) h3 h4
    (by decide) (by decide)
  rw [e2, Res.ok_inj] at e
  have f : xorBytes (xorBytes (List.replicate 16 0) (Rabbit.pktKs (Rabbit.loadIv (Rabbit.pktNext (Rabbit.pktNext (Rabbit.loadIv (Rabbit.loadKey (List.replicate 16 0))
      [0x59, 0x7E, 0x26, 0xC1, 0x75, 0xF5, 0x73, 0xC3]) 40) 1) [0x59, 0x7E, 0x26, 0xC1, 0x75, 0xF5, 0x73, 0xC3]) 16))
        (Rabbit.pktKs (Rabbit.loadIv (Rabbit.pktNext (Rabbit.loadIv (Rabbit.loadKey (List.replicate 16 0))
      [0x59, 0x7E, 0x26, 0xC1, 0x75, 0xF5, 0x73, 0xC3]) 40) [0x59, 0x7E, 0x26, 0xC1, 0x75, 0xF5, 0x73, 0xC3]) 16) ≠ List.replicate 16 0 := by decide +kernel
  injection e with _ e
  injection e with _ e
  injection e with _ e
  injection e with e _
  injection e with _ e
  exact f e

/-! ### C89: what the debugging functions of Rabbit print -/

/-- Eight hexadecimal digits, the most significant first. -/
def hexWord (w : U32) : List U8 := (List.range 8).map fun j => Spec.Hex.digit (w.toNat / 16 ^ (7 - j) % 16)

theorem hexWord_eq (w : U32) : Spec.Hex.encode (Spec.ByteSwap.swapWords (bytesLE32 w)) = hexWord w := by
  have hw := w.isLt
  have b : ∀ k, (byteN w k).toNat = w.toNat / 2 ^ (8 * k) % 256 := by
    intro k
    simp [byteN, Nat.shiftRight_eq_div_pow]
  simp only [bytesLE32, Spec.ByteSwap.swapWords, Spec.Hex.encode, hexWord, b, List.range, List.range.loop, List.map]
  have e : ∀ x y : Nat, x = y → Spec.Hex.digit x = Spec.Hex.digit y := fun _ _ h => by rw [h]
  rw [List.cons.injEq, List.cons.injEq, List.cons.injEq, List.cons.injEq, List.cons.injEq, List.cons.injEq, List.cons.injEq,
    List.cons.injEq]
  refine ⟨e _ _ ?_, e _ _ ?_, e _ _ ?_, e _ _ ?_, e _ _ ?_, e _ _ ?_, e _ _ ?_, e _ _ ?_, rfl⟩ <;> omega

theorem print_key_from (junk : Nat → Nat → U8) (key : List U8) : ∀ n i, 2 * (i + n) ≤ key.length →
    rabbitPrintKey junk key n i = .ok ((List.range' i n).map fun j =>
      (s!"Key {j} = ", Spec.Hex.encode [key.getD (2 * j) 0, key.getD (2 * j + 1) 0]))
  | 0, _, _ => rfl
  | n + 1, i, h => by
    have e : (key.drop (2 * i)).take 2 = [key.getD (2 * i) 0, key.getD (2 * i + 1) 0] := by
      rw [List.drop_eq_getElem_cons (by omega), List.drop_eq_getElem_cons (by omega), List.take_succ_cons, List.take_succ_cons]
      simp [List.getD_eq_getElem?_getD, show 2 * i < key.length by omega, show 2 * i + 1 < key.length by omega]
    obtain ⟨t, p1, p2, -⟩ := print_arr junk i 2 [key.getD (2 * i) 0, key.getD (2 * i + 1) 0] rfl (by omega)
    rw [show asInt 2 = 2 by decide] at p1
    rw [rabbitPrintKey, e, p1, Res.ok_bind, p2, Res.ok_bind, print_key_from junk key n (i + 1) (by omega)]
    rfl

/-- C89: `print_key` prints the sixteen key bytes in order, two on a line. -/
theorem rabbit_print_key (junk : Nat → Nat → U8) (key : List U8) (h : key.length = 16) :
    rabbitPrintKey junk key 8 0 = .ok ((List.range 8).map fun j =>
      (s!"Key {j} = ", Spec.Hex.encode [key.getD (2 * j) 0, key.getD (2 * j + 1) 0])) := by
  rw [print_key_from junk key 8 0 (by omega), List.range_eq_range']

example (junk : Nat → Nat → U8) := rabbit_print_key junk [1, 2, 3, 4, 5, 6, 7, 8, 9, 10, 11, 12, 13, 14, 15, 16] rfl

theorem print_words (junk : Nat → Nat → U8) (name : String) : ∀ (ws : List U32) (i : Nat),
    rabbitPrintWords junk name i ws = .ok ((List.range' i ws.length).map fun j =>
      (s!"{name}{j} = ", hexWord (ws.getD (j - i) 0)))
  | [], _ => rfl
  | w :: ws, i => by
    obtain ⟨t, p1, p2, -⟩ := print_arr junk i 4 (Spec.ByteSwap.swapWords (bytesLE32 w)) rfl (by omega)
    have hs := Props.ByteSwap.byte_swap_in_place_partial [] (bytesLE32 w) 4 (by simp [bytesLE32])
    rw [show asInt 4 = 4 by decide] at p1
    rw [rabbitPrintWords, hs]
    simp only [Res.ok_bind]
    rw [show (bytesLE32 w).take (4 : Int).toNat = bytesLE32 w from rfl, show (bytesLE32 w).drop (4 : Int).toNat = [] from rfl,
      List.append_nil, p1, Res.ok_bind, p2, Res.ok_bind, print_words junk name ws (i + 1), Res.ok_bind, hexWord_eq, Res.pure_eq,
      List.length_cons, List.range'_succ, List.map_cons]
    congr 2
    · simp
    · apply List.map_congr_left
      intro j hj
      have := (List.mem_range'.1 hj)
      obtain ⟨k, _, rfl⟩ := this
      rw [show i + 1 + 1 * k - i = (i + 1 + 1 * k - (i + 1)) + 1 by omega]
      rfl

/-- C89: `print_inner_state` prints the carry and then the state words and the counters, each as its eight
hexadecimal digits with the most significant first. -/
theorem rabbit_print_state (junk : Nat → Nat → U8) (cs : Rabbit.State) :
    rabbitPrintState junk cs = .ok (cs.carry.toNat,
      ((List.range 8).map fun j => (s!"X{j} = ", hexWord (cs.X.toList.getD j 0))) ++
      ((List.range 8).map fun j => (s!"C{j} = ", hexWord (cs.C.toList.getD j 0)))) := by
  rw [rabbitPrintState, print_words, Res.ok_bind, print_words, Res.ok_bind]
  simp [List.range_eq_range']

/-- Printing with the zero that ends the text. -/
theorem print_zero (junk : Nat → Nat → U8) (k n : Nat) (bytes : List U8) (hl : bytes.length = n) (hn : n < 2 ^ 30) :
    ∃ t, Hex.encode (arr junk k (2 * n + 1)) bytes n = .ok t ∧ t = Spec.Hex.encode bytes ++ [0] ∧
      cString t = .ok (Spec.Hex.encode bytes) ∧ stringN t (2 * n) = .ok (Spec.Hex.encode bytes) ∧
      stringN t (2 * n + 1) = .ok (Spec.Hex.encode bytes ++ [0]) := by
  subst hl
  have h := Props.Hex.hex_encode_writes bytes (arr junk k (2 * bytes.length + 1)) hn (by simp)
  rw [List.drop_of_length_le (by simp)] at h
  refine ⟨_, h, rfl, cString_hex bytes [], ?_, stringN_all _ _ (by simp [Props.Hex.encode_length])⟩
  rw [stringN, if_pos (by simp [Props.Hex.encode_length]), List.take_left' (Props.Hex.encode_length _)]

end CT.Props.Programs
