import Verif.Props.SHA256
import Verif.Props.HMAC
import Verif.Props.MD5
import Verif.Props.ChaCha
import Verif.Props.Serpent32
import Verif.Props.DES
import Verif.Props.Rabbit
import Verif.Props.HC128
import Verif.Props.Sosemanuk
import Verif.Props.AESCfb
import Verif.Props.AESCtr

/-!
# The specifications on published test vectors

The theorems of this project compare the model with the specifications under `Verif/Spec`.  A slip made in a specification and in the
model alike would go unnoticed, so here the specifications are evaluated by the kernel on vectors of the documents they are written from.
These are tests of the specifications; no property rests on them.
-/

namespace CT.KernelVectors
open CT

/-- The bytes of a number as the documents print them, most significant first. -/
def hx (len n : Nat) : List U8 := (List.range len).map fun i => BitVec.ofNat 8 (n / 256 ^ (len - 1 - i))

/-! ### SHA-256 (FIPS 180-4 examples) and HMAC (RFC 4231) -/

/-- The text of the second example of FIPS 180-4: 56 bytes, so that the padding takes a block of its own. -/
def text56 : List U8 := hx 56
  0x6162636462636465636465666465666765666768666768696768696a68696a6b696a6b6c6a6b6c6d6b6c6d6e6c6d6e6f6d6e6f706e6f7071

theorem digest_of_model {msg d : List U8} (h : msg.length + 128 < 2 ^ 31)
    (e : SHA256.hmacCopy (fun _ => 0) (List.replicate 32 0) (msg ++ []) msg.length = .ok d) : Spec.SHA256.digest msg = d := by
  rw [Props.SHA256.sha256_hmac_copy_fips (fun _ => 0) (List.replicate 32 0) msg [] h (by simp), Res.ok_inj] at e
  rw [← e]
  exact (List.append_nil _).symm

set_option maxRecDepth 20000 in
theorem sha256_vectors :
    Spec.SHA256.digest (hx 3 0x616263) = hx 32 0xba7816bf8f01cfea414140de5dae2223b00361a396177a9cb410ff61f20015ad ∧
    Spec.SHA256.digest [] = hx 32 0xe3b0c44298fc1c149afbf4c8996fb92427ae41e4649b934ca495991b7852b855 ∧
    Spec.SHA256.digest text56 = hx 32 0x248d6a61d20638b8e5c026930c3e6039a33ce45964ff2167f6ecedd419db06c1 :=
  ⟨digest_of_model (by decide) (by decide +kernel), digest_of_model (by decide) (by decide +kernel),
    digest_of_model (by decide) (by decide +kernel)⟩

set_option maxRecDepth 20000 in
/-- Test case 2: the key "Jefe" and the text "what do ya want for nothing?". -/
theorem hmac_vector : Spec.HMAC.hmac (hx 4 0x4a656665) (hx 28 0x7768617420646f2079612077616e7420666f72206e6f7468696e673f) =
    hx 32 0x5bdcc146bf60754e6a042426089575c75a003f089d2739839dec58b964ec3843 := by
  have h := Props.HMAC.hmac_rfc2104 (fun _ => 0) (fun _ => 0) (hx 4 0x4a656665)
    (hx 28 0x7768617420646f2079612077616e7420666f72206e6f7468696e673f) [] [] (List.replicate 32 0) 32 (by decide) (by decide) (by decide)
    (by decide) (by decide)
  have m : (do let cs ← HMAC.loadKey (fun _ => 0) (hx 4 0x4a656665 ++ []) (hx 4 0x4a656665).length
               HMAC.tagGeneration (fun _ => 0) cs (List.replicate 32 0)
                 (hx 28 0x7768617420646f2079612077616e7420666f72206e6f7468696e673f ++ [])
                 (hx 28 0x7768617420646f2079612077616e7420666f72206e6f7468696e673f).length (32 : Nat)) =
      .ok (hx 32 0x5bdcc146bf60754e6a042426089575c75a003f089d2739839dec58b964ec3843) := by decide +kernel
  have e := Res.ok_inj.mp (h.symm.trans m)
  rw [List.take_of_length_le (by rw [Props.HMAC.hmac_length]), List.drop_of_length_le (by simp), List.append_nil] at e
  exact e

/-! ### MD5 (RFC 1321, A.5) -/

set_option maxRecDepth 20000 in
theorem md5_vectors :
    Spec.MD5.digest [] = hx 16 0xd41d8cd98f00b204e9800998ecf8427e ∧
    Spec.MD5.digest (hx 3 0x616263) = hx 16 0x900150983cd24fb0d6963f7d28e17f72 ∧
    Spec.MD5.digest (hx 14 0x6d65737361676520646967657374) = hx 16 0xf96b697d7cb7938d525a2f31aaf161d0 := by decide +kernel

/-! ### ChaCha20 (RFC 7539, 2.3.2 and 2.4.2) -/

def chachaKey : List U8 := (List.range 32).map (BitVec.ofNat 8)

set_option maxRecDepth 20000 in
theorem chacha_vectors :
    Spec.ChaCha.block 20 chachaKey 1 (hx 12 0x000000090000004a00000000) = hx 64
      0x10f1e7e4d13b5915500fdd1fa32071c4c7d1f4c733c068030422aa9ac3d46c4ed2826446079faa0914c2d705d98b02a2b5129cd1de164eb9cbd083e8a2503c4e ∧
    Spec.ChaCha.encrypt 20 chachaKey 1 (hx 12 0x000000000000004a00000000) (hx 114
      0x4c616469657320616e642047656e746c656d656e206f662074686520636c617373206f66202739393a204966204920636f756c64206f6666657220796f75206f6e6c79206f6e652074697020666f7220746865206675747572652c2073756e73637265656e20776f756c642062652069742e) =
      hx 114
      0x6e2e359a2568f98041ba0728dd0d6981e97e7aec1d4360c20a27afccfd9fae0bf91b65c5524733ab8f593dabcd62b3571639d624e65152ab8f530c359f0861d807ca0dbf500d6a6156a38e088a22b65e52bc514d16ccf806818ce91ab77937365af90bbf74a35be6b40b8eedf2785e42874d := by
  decide +kernel

/-! ### HC-128 (eSTREAM, key and IV zero) -/

theorem hc128_vector : Spec.HC128.keystream (List.replicate 16 0) (List.replicate 16 0) 8 = hx 8 0x82001573a003fd3b := by
  rw [← Props.HC128.keystream_eq _ _ (by simp) (by simp), HC128.pktKs]
  obtain ⟨h, -, -⟩ := HC128.Fast.firstWords_spec HC128.Fast.zero_key_words
  rw [show (8 + 3) / 4 = 2 from rfl, h]
  decide

/-! ### Rabbit (RFC 4503, A.1 and A.2; the RFC prints the blocks most significant byte first) -/

set_option maxRecDepth 20000 in
theorem rabbit_vectors :
    Spec.Rabbit.blocks 3 (Spec.Rabbit.keySetup 0) = (hx 16 0xb15754f036a5d6ecf56b45261c4af702).reverse ++
      (hx 16 0x88e8d815c59c0c397b696c4789c68aa7).reverse ++ (hx 16 0xf416a1c3700cd451da68d1881673d696).reverse ∧
    Spec.Rabbit.keystream (List.replicate 16 0) (List.replicate 8 0) 16 = (hx 16 0xc6a7275ef85495d87ccd5d376705b7ed).reverse := by
  decide +kernel

/-! ### Serpent (NESSIE, set 1, vector 0 of the 256 bit keys) -/

set_option maxRecDepth 20000 in
theorem serpent_vector : Spec.Serpent.serpent (0x80 :: List.replicate 31 0) (List.replicate 16 0) =
    hx 16 0xa223aa1288463c0e2be38ebd825616c0 := by decide +kernel

/-! ### Sosemanuk (first vector of the submission) -/

set_option maxRecDepth 20000 in
theorem sosemanuk_vector : Spec.Sosemanuk.cipher (hx 5 0xa7c083feb7) (hx 16 0x00112233445566778899aabbccddeeff) 2 =
    hx 32 0xfe81d2162c9a100d04895c454a77515bbe6a431a935cb90e2221ebb7ef502328 := by decide +kernel

/-! ### DES -/

set_option maxRecDepth 20000 in
theorem des_vector : Spec.DES.encrypt (Spec.DES.ofBytes (hx 8 0x133457799bbcdff1)) (Spec.DES.ofBytes (hx 8 0x0123456789abcdef)) =
    Spec.DES.ofBytes (hx 8 0x85e813540f0ab405) := by decide +kernel

/-! ### AES-128 (FIPS 197, C.1; SP 800-38A, F.3.13 and F.5.1) -/

def aesKey : List U8 := hx 16 0x2b7e151628aed2a6abf7158809cf4f3c

set_option maxRecDepth 20000 in
theorem aes_vector : Spec.AES.cipher (hx 16 0x000102030405060708090a0b0c0d0e0f) (hx 16 0x00112233445566778899aabbccddeeff) =
    hx 16 0x69c4e0d86a7b0430d8cdb78070b4c55a := by
  rw [← Props.AES.aes_block_fips _ _ (by decide)]
  decide +kernel

theorem cfb_block (key prev b c d : List U8) (n : Nat) (hp : prev.length = 16) (hb : b.length = 16)
    (h : xorBytes b (AES.encrypt false (AES.keyExpansion key) (AES.quadOf prev)).bytes = c) :
    Spec.AES.cfbEnc key (n + 1) prev (b ++ d) = c ++ Spec.AES.cfbEnc key n c d := by
  rw [Props.AES.aes_block_fips _ _ hp] at h
  rw [Spec.AES.cfbEnc, List.take_left' hb, List.drop_left' hb, h]

set_option maxRecDepth 20000 in
theorem aes_cfb_vector : Spec.AES.cfbEnc aesKey 2 (hx 16 0x000102030405060708090a0b0c0d0e0f)
    (hx 16 0x6bc1bee22e409f96e93d7e117393172a ++ (hx 16 0xae2d8a571e03ac9c9eb76fac45af8e51 ++ [])) =
    hx 16 0x3b3fd92eb72dad20333449f8e83cfb4a ++ (hx 16 0xc8a64537a0b3a93fcde3cdad9f1ce58b ++ []) := by
  rw [cfb_block (hp := by decide) (hb := by decide) (c := hx 16 0x3b3fd92eb72dad20333449f8e83cfb4a) (h := by decide +kernel),
    cfb_block (hp := by decide) (hb := by decide) (c := hx 16 0xc8a64537a0b3a93fcde3cdad9f1ce58b) (h := by decide +kernel), Spec.AES.cfbEnc]

end CT.KernelVectors
