import Verif.Model.ProgramsMore
import Verif.Props.Programs
import Verif.Props.SHA256
import Verif.Props.HMAC
import Verif.Props.MD5
import Verif.Props.Serpent
import Verif.Props.AESCfb

/-!
# The example programs of hash functions, HMAC, Serpent and AES-CFB (C90 - C94)
-/

namespace CT.Props.Programs
open CT.Programs
open CT.Spec.Hex (denotes noLower)
open CT.Spec.HMAC (hmac)

/-! ### C90: SHA-256 -/

/-- C90 is false for every message: the array for the hexadecimal text is one byte too short. -/
theorem sha256_main_refuted (junk : Nat → Nat → U8) (stk : Nat → U8) (msg : List U8) (hs : msg.length + 128 < 2 ^ 31) :
    sha256Main junk stk msg = .ub .outOfBounds := by
  by_cases h : msg.length % 64 = 63
  · have e := Props.SHA256.sha256_hash_copy_overflows stk (List.replicate 32 0) msg [] h
    rw [List.append_nil] at e
    rw [sha256Main, e]
    rfl
  · have e := Props.SHA256.sha256_hash_copy_fips_partial stk (List.replicate 32 0) msg [] h hs (by simp)
    rw [List.append_nil, List.drop_of_length_le (by simp), List.append_nil] at e
    have hd := SHA256.digest_length msg
    have h2 := Props.Hex.hex_encode_needs_room (Spec.SHA256.digest msg) (arr junk 0 64) (by omega)
      (by intro h; rw [h] at hd; simp at hd) (by simp [hd])
    rw [hd] at h2
    generalize Spec.SHA256.digest msg = d at *
    rw [sha256Main, e, Res.ok_bind, stringN_all _ _ hd, Res.ok_bind, show (32 : Int) = ((32 : Nat) : Int) from rfl, h2]
    rfl

/-- The shipped message. -/
example : (List.replicate 1000000 (0x61 : U8)).length + 128 < 2 ^ 31 := by rw [List.length_replicate]; decide

/-! ### C91: HMAC -/

theorem statusLoop_eq : ∀ (a b : List U8) (s : Nat), a.length = b.length →
    ∀ p' q' : List U8, p'.length = q'.length →
    statusLoop (p' ++ a) (q' ++ b) a.length p'.length s = .ok (if a = b then s else 1) := by
  intro a
  induction a with
  | nil => intro b s h p' q' _; cases b with
    | nil => simp [statusLoop]
    | cons _ _ => simp at h
  | cons x a ih =>
    intro b s h p' q' hq
    cases b with
    | nil => simp at h
    | cons y b =>
      have r1 := Mem.rd_append_right p' (x :: a) 0
      have r2 := Mem.rd_append_right q' (y :: b) 0
      rw [Nat.add_zero] at r1 r2
      have := ih b (if x ≠ y then 1 else s) (by simpa using h) (p' ++ [x]) (q' ++ [y]) (by simp [hq])
      rw [List.append_assoc, List.append_assoc, List.length_append] at this
      rw [List.length_cons, statusLoop, r1, show Mem.rd (x :: a) 0 = .ok x from rfl, Res.ok_bind, hq, r2,
        show Mem.rd (y :: b) 0 = .ok y from rfl, Res.ok_bind, ← hq]
      refine this.trans ?_
      by_cases hxy : x = y
      · subst hxy; simp
      · simp [hxy]

/-- C91: the program prints the first 16 bytes of the RFC 2104 tag in hexadecimal, confirms its own tag, and reports
success exactly if the expected tag is that tag. -/
theorem hmac_main_prints (junk : Nat → Nat → U8) (stk : Nat → U8) (expectedTag keystring msg expected key message : List U8)
    (he : denotes expectedTag = some expected) (heu : noLower expectedTag) (hel : expected.length = 16)
    (hk : denotes keystring = some key) (hku : noLower keystring) (hkl : key.length < 2 ^ 30)
    (hm : denotes msg = some message) (hmu : noLower msg) (hml : message.length < 2 ^ 30) (h0 : message ≠ []) :
    hmacMain junk stk expectedTag keystring msg = .ok [("Expected tag: ", expectedTag),
      ("Hex tag: ", Spec.Hex.encode ((hmac key message).take 16)), ("Validation Tag confirmed\n", []),
      (if expected = (hmac key message).take 16 then "SUCCESS!\n" else "FAILURE\n", [])] := by
  have d1 := decode_arr junk 0 message.length msg message hm hmu rfl hml
  have d2 := decode_arr junk 1 key.length keystring key hk hku rfl hkl
  have d3 := decode_arr junk 4 16 expectedTag expected he heu hel (by omega)
  rw [denotes_length _ _ he, hel, show asInt (2 * 16) = 32 by decide] at d3
  have l1 : msg.length / 2 = message.length := by rw [denotes_length _ _ hm]; omega
  have l2 : keystring.length / 2 = key.length := by rw [denotes_length _ _ hk]; omega
  have hl := Props.HMAC.hmac_load_key_normalises stk key [] (by omega)
  rw [List.append_nil] at hl
  have ht := Props.HMAC.tagGeneration_ok stk key (arr junk 2 16) message [] 16 h0 (by omega) (by omega) (by simp)
  have hv := Props.HMAC.hmac_validation_decides stk stk key message [] [] ((hmac key message).take 16) 16 (by omega) h0 (by omega) (by omega)
    (by rw [List.length_take, Props.HMAC.hmac_length]; decide)
  rw [List.append_nil, List.append_nil, hl, Res.ok_bind, List.take_take, Nat.min_self, if_pos rfl] at hv
  rw [List.append_nil, List.drop_of_length_le (by simp), List.append_nil] at ht
  have htl : ((hmac key message).take 16).length = 16 := by rw [List.length_take, Props.HMAC.hmac_length]; rfl
  generalize (hmac key message).take 16 = T at *
  obtain ⟨t, p1, -, -, p2, -⟩ := print_zero junk 3 16 T htl (by omega)
  have hs := statusLoop_eq T expected 0 (by omega) [] [] rfl
  rw [htl] at hs
  have hv' : HMAC.tagValidation stk { innerKey := (Spec.HMAC.normKey key).map (· ^^^ 0x36), outerKey := (Spec.HMAC.normKey key).map (· ^^^ 0x5c) }
    T message message.length 16 = .ok 1 := hv
  have ht' : HMAC.tagGeneration stk { innerKey := (Spec.HMAC.normKey key).map (· ^^^ 0x36), outerKey := (Spec.HMAC.normKey key).map (· ^^^ 0x5c) }
    (arr junk 2 16) message message.length 16 = .ok T := ht
  have p1' : Hex.encode (arr junk 3 33) T 16 = .ok t := p1
  have p2' : stringN t 32 = .ok (Spec.Hex.encode T) := p2
  have hs' : statusLoop T expected 16 0 0 = .ok (if T = expected then 0 else 1) := hs
  rw [hmacMain, l1, d1, Res.ok_bind, l2, d2, Res.ok_bind, asInt_eq (by omega), hl, Res.ok_bind, ht', Res.ok_bind, p1', Res.ok_bind,
    p2', Res.ok_bind, d3, Res.ok_bind, hv', Res.ok_bind, hs', Res.ok_bind, Res.pure_eq]
  by_cases h : T = expected
  · simp [h]
  · simp [h, Ne.symm h]

example (junk : Nat → Nat → U8) (stk : Nat → U8) := hmac_main_prints junk stk (ascii "00112233445566778899AABBCCDDEEFF") (ascii "0B0B") (ascii "4869")
  [0x00, 0x11, 0x22, 0x33, 0x44, 0x55, 0x66, 0x77, 0x88, 0x99, 0xAA, 0xBB, 0xCC, 0xDD, 0xEE, 0xFF] [0x0B, 0x0B] [0x48, 0x69]
  (by decide +kernel) (by unfold noLower; decide +kernel) (by decide) (by decide +kernel) (by unfold noLower; decide +kernel) (by decide)
  (by decide +kernel) (by unfold noLower; decide +kernel) (by decide) (by decide)

def hmacKeyText : List U8 := ascii "000102030405060708090A0B0C0D0E0F101112131415161718191A1B1C1D1E1F202122232425262728292A2B2C2D2E2F303132333435363738393A3B3C3D3E3F404142434445464748494A4B4C4D4E4F505152535455565758595A5B5C5D5E5F60616263"
def hmacMessageText : List U8 := ascii "53616D706C65206D65737361676520666F72206B65796C656E3D626C6F636B6C656E"
def hmacExpectedText : List U8 := ascii "BDCCB6C72DDEADB500AE768386CB38CC"

set_option maxRecDepth 10000 in
/-- C91 with the texts of main.cpp. -/
theorem hmac_main_shipped (junk : Nat → Nat → U8) (stk : Nat → U8) :
    hmacMain junk stk hmacExpectedText hmacKeyText hmacMessageText = .ok [("Expected tag: ", hmacExpectedText),
      ("Hex tag: ", hmacExpectedText), ("Validation Tag confirmed\n", []), ("SUCCESS!\n", [])] := by
  have n1 : noLower hmacExpectedText := by unfold noLower; decide +kernel
  have n2 : noLower hmacKeyText := by unfold noLower; decide +kernel
  have n3 : noLower hmacMessageText := by unfold noLower; decide +kernel
  have k1 : denotes hmacKeyText = some ((List.range 100).map (BitVec.ofNat 8)) := by decide +kernel
  have k2 : denotes hmacMessageText = some (ascii "Sample message for keylen=blocklen") := by decide +kernel
  have k3 : denotes hmacExpectedText = some [0xbd, 0xcc, 0xb6, 0xc7, 0x2d, 0xde, 0xad, 0xb5, 0x00, 0xae, 0x76, 0x83,
      0x86, 0xcb, 0x38, 0xcc] := by decide +kernel
  have e : ∀ junk stk, hmacMain junk stk hmacExpectedText hmacKeyText hmacMessageText = _ := fun junk stk =>
    hmac_main_prints junk stk hmacExpectedText hmacKeyText hmacMessageText _ _ _ k3 n1 rfl k1 n2 (by decide) k2 n3
      (by decide +kernel) (by decide +kernel)
  rw [e junk stk, ← e (fun _ _ => 0) (fun _ => 0)]
  decide +kernel

/-! ### C92: MD5 -/

/-- C92: the program prints the RFC 1321 digest of any text in hexadecimal, whatever the uninitialised context
contains. -/
theorem md5_main_prints (junk : Nat → Nat → U8) (cs : MD5.Ctx) (hc : cs.buffer.length = 64) (text : List U8)
    (hs : text.length < 2 ^ 32) :
    md5Main junk cs text = .ok [("Digest: ", Spec.Hex.encode (Spec.MD5.digest text))] := by
  have e := Props.MD5.md5_one_shot cs (arr junk 0 16) text [] (BitVec.ofNat 32 text.length)
    (by rw [BitVec.toNat_ofNat, Nat.mod_eq_of_lt hs]) hc (by simp)
  rw [List.append_nil, List.drop_of_length_le (by simp), List.append_nil] at e
  have hd : (Spec.MD5.digest text).length = 16 := by
    rw [Spec.MD5.digest, Spec.MD5.Regs.bytes]
    simp [bytesLE32]
  generalize Spec.MD5.digest text = d at *
  obtain ⟨t, p1, -, p2, -⟩ := print_zero junk 1 16 d hd (by omega)
  have p1' : Hex.encode (arr junk 1 33) d 16 = .ok t := p1
  rw [md5Main, e]
  simp only [Res.ok_bind, p1', p2, Res.pure_eq]

/-- The shipped text. -/
example : (ascii "message digest").length < 2 ^ 32 ∧
    Spec.Hex.encode (Spec.MD5.digest (ascii "message digest")) = ascii "F96B697D7CB7938D525A2F31AAF161D0" := by
  decide +kernel

/-! ### C93: Serpent -/

/-- C93: the program prints the states after 12, 18 and 24 rounds (the three blocks that Sosemanuk uses) for every key
of 32 bytes and every block. -/
theorem serpent_main_prints (junk : Nat → Nat → U8) (keyString plainString key plain : List U8)
    (hk : denotes keyString = some key) (hku : noLower keyString) (hkl : key.length = 32)
    (hp : denotes plainString = some plain) (hpu : noLower plainString) (hpl : plain.length = 16) :
    serpentMain junk keyString plainString = .ok (some [("Ciphertext: ",
      Spec.Hex.encode (wordsToBytesLE (Spec.Serpent.outWords (Spec.Serpent.serpent24 key plain))))]) := by
  have d1 := decode_arr junk 0 32 keyString key hk hku hkl (by omega)
  have d2 := decode_arr junk 1 16 plainString plain hp hpu hpl (by omega)
  obtain ⟨rk, e1, e2⟩ := Props.Serpent.serpent24_conforms key plain hkl hpl
  have hl : (wordsToBytesLE (Spec.Serpent.outWords (Spec.Serpent.serpent24 key plain))).length = 48 := by
    rw [wordsToBytesLE_length]; rfl
  generalize Spec.Serpent.outWords (Spec.Serpent.serpent24 key plain) = w at *
  obtain ⟨t, p1, -, -, p2, -⟩ := print_zero junk 2 48 _ hl (by omega)
  have p1' : Hex.encode (arr junk 2 97) (wordsToBytesLE w) 48 = .ok t := p1
  have p2' : stringN t 96 = .ok (Spec.Hex.encode (wordsToBytesLE w)) := p2
  rw [serpentMain, d1, Res.ok_bind, d2, Res.ok_bind, e1, Res.ok_bind]
  simp only [e2, Res.ok_bind, p1', p2', Res.pure_eq]

example : (∃ key, denotes (ascii "0101010101010101010101010101010101010101010101010101010101010101") = some key ∧ key.length = 32) ∧
    (∃ p, denotes (ascii "11010101010101010101010101010101") = some p ∧ p.length = 16) := by
  refine ⟨⟨_, rfl, ?_⟩, ⟨_, rfl, ?_⟩⟩ <;> decide +kernel

/-! ### C94: AES-CFB -/

theorem cfb_pair (v : AES.CfbVariant) (cs : AES.State) (p b1 b2 : List U8) (n : Nat) (hn : p.length = n) (h4 : n % 4 ≤ 1)
    (h1 : b1.length = n) (h2 : b2.length = n) :
    ∃ ct s1 s2, ct.length = n ∧ AES.cfbPacket v false cs ⟨p, b1, false⟩ n = .ok (s1, ⟨p, ct, false⟩) ∧
      AES.cfbPacket v true cs ⟨ct, b2, false⟩ n = .ok (s2, ⟨ct, p, false⟩) := by
  subst hn
  have hr := AES.cfbRun_length v true cs p h4
  have hl := Props.AES.enc_length v cs p h4
  have hd := AES.cfbRun_dec v cs p h4
  have he := Props.AES.dec_enc v cs p h4
  have e1 := AES.cfbPacket_eq v false cs (io := ⟨p, b1, false⟩) h4 ⟨by simp [Io.src], by simp [h1]⟩
  have e2 := AES.cfbPacket_eq v true cs (io := ⟨xorBytes p (AES.cfbRun v true cs p).1, b2, false⟩) h4
    ⟨by simp [Io.src, hl], by simp [h2]⟩
  refine ⟨xorBytes p (AES.cfbRun v true cs p).1, (AES.cfbRun v true cs p).2, (AES.cfbRun v true cs p).2, hl, ?_, ?_⟩
  · rw [e1]
    simp [Io.xored, Io.src, hr, h1]
  · rw [e2]
    simp only [Io.src, Bool.false_eq_true, if_false, Bool.not_true, Bool.or_self]
    rw [List.take_of_length_le (by omega), hd]
    simp only [Io.xored, Io.src, Bool.false_eq_true, if_false, hr]
    rw [List.take_of_length_le (by omega), he, List.drop_of_length_le (by omega), List.append_nil]

/-- C94, the part that holds: a plaintext whose size is 0 or 1 modulo four is recovered.  Missing: the other sizes,
for which the program is undefined (`aes_cfb_main_ub`). -/
theorem aes_cfb_main_partial (v : AES.CfbVariant) (junk : Nat → Nat → U8) (key iv plaintext : List U8)
    (h4 : plaintext.length % 4 ≤ 1) (hs : plaintext.length < 2 ^ 31) :
    ∃ ct, ct.length = plaintext.length ∧ aesCfbMain v junk key iv plaintext = .ok [("Plaintext: ", plaintext),
      ("Ciphertext: ", ct), ("Recovered: ", plaintext)] := by
  obtain ⟨ct, s1, s2, hl, e1, e2⟩ := cfb_pair v (AES.cfbInit key iv) plaintext (arr junk 0 plaintext.length)
    (arr junk 1 plaintext.length) _ rfl h4 (by simp) (by simp)
  refine ⟨ct, hl, ?_⟩
  simp only [aesCfbMain, asInt_eq hs, e1, Res.ok_bind, stringN_all _ _ hl, hl, e2, stringN_all plaintext _ rfl, Res.pure_eq]

example (v : AES.CfbVariant) (junk : Nat → Nat → U8) (key iv : List U8) := aes_cfb_main_partial v junk key iv (List.replicate 21 5) (by decide) (by decide)

/-- C94, the other sizes. -/
theorem aes_cfb_main_ub (v : AES.CfbVariant) (junk : Nat → Nat → U8) (key iv plaintext : List U8)
    (h4 : 2 ≤ plaintext.length % 4) (hs : plaintext.length < 2 ^ 31) :
    aesCfbMain v junk key iv plaintext = .ub .badShift := by
  have e := AES.cfbPacket_ub v false (AES.cfbInit key iv) (io := ⟨plaintext, arr junk 0 plaintext.length, false⟩) h4
    ⟨by simp [Io.src], by simp⟩
  simp only [aesCfbMain, asInt_eq hs, e]
  rfl

example (v : AES.CfbVariant) (junk : Nat → Nat → U8) (key iv : List U8) : aesCfbMain v junk key iv [1, 2] = .ub .badShift :=
  aes_cfb_main_ub v junk key iv [1, 2] (by decide) (by decide)

/-- The text of AES/AES_CFB/main.cpp. -/
def cfbText : List U8 := ascii "Hello world! This program demonstrates how the implementation is to be used............"

/-- C94 is false: the portable program with its shipped text of 87 bytes shifts by 32 bits. -/
theorem aes_cfb_main_refuted (junk : Nat → Nat → U8) :
    aesCfbMain AES.portable junk (List.replicate 16 0) (List.replicate 16 0) cfbText = .ub .badShift :=
  aes_cfb_main_ub _ junk _ _ _ (by decide +kernel) (by decide +kernel)

/-- The 1544 bytes of the x86 and ARM programs. -/
example : 1544 % 4 ≤ 1 ∧ 1544 < 2 ^ 31 := by decide

end CT.Props.Programs
