import Verif.Spec.SHA256
import Verif.Spec.MD5
import Verif.Spec.DES
import Verif.Spec.AES
import Verif.Spec.ChaCha
import Verif.Spec.Rabbit
import Verif.Spec.AEGIS
import Verif.Spec.Sosemanuk
import Verif.Model.HMAC
import Verif.Model.HC128

/-!
# Published test vectors

Tests, not proofs: they check by evaluation that the specifications say what the standards say.  The
specifications of SHA-256 and HC-128 are too slow to run; there the vectors are run through the model, which is
proved equal to the specification (`sha256_hmac_copy_fips`, `hmac_rfc2104`, `hc128_first_packet_is_spec`).
-/

namespace CT.Tests

def hexDigit (c : Char) : Nat :=
  if '0' ≤ c ∧ c ≤ '9' then c.toNat - 48 else if 'a' ≤ c ∧ c ≤ 'f' then c.toNat - 87 else c.toNat - 55

def hexList : List Char → List U8
  | a :: b :: cs => BitVec.ofNat 8 (16 * hexDigit a + hexDigit b) :: hexList cs
  | _ => []

/-- Bytes from hexadecimal text. -/
def hex (s : String) : List U8 := hexList (s.toList.filter (· ≠ ' '))

/-- Bytes of a text. -/
def txt (s : String) : List U8 := s.toUTF8.toList.map fun b => BitVec.ofNat 8 b.toNat

/-- The value of a defined outcome. -/
def val {α : Type} : Res α → Option α
  | .ok a => some a
  | .ub _ => none

/-! AES states of the specification are functions; to run the cipher they are turned into lists after each
step, which changes nothing (`cipherT_eq`). -/

open Spec.AES

theorem ofBytes_toBytes (s : Spec.AES.State) : ofBytes (toBytes s) = s := by
  funext r c
  match r, c with
  | 0, 0 | 0, 1 | 0, 2 | 0, 3 | 1, 0 | 1, 1 | 1, 2 | 1, 3 | 2, 0 | 2, 1 | 2, 2 | 2, 3 | 3, 0 | 3, 1 | 3, 2 | 3, 3 => rfl

def roundKeyT (key : List U8) : Nat → List U8
  | 0 => toBytes (ofBytes key)
  | i + 1 => let k := roundKeyT key i; toBytes (nextKey (i + 1) (ofBytes k))

theorem roundKeyT_eq (key : List U8) (n : Nat) : ofBytes (roundKeyT key n) = roundKey key n := by
  induction n with
  | zero => rw [roundKeyT, ofBytes_toBytes, roundKey]
  | succ n ih => rw [roundKeyT, roundKey, ofBytes_toBytes, ih]

def roundT (t k : List U8) : List U8 := toBytes (addRoundKey (mixColumns (shiftRows (ofBytes t))) (ofBytes k))

def roundsT (key : List U8) : Nat → List U8 → List U8
  | 0, s => s
  | n + 1, s => roundT (toBytes (subBytes (ofBytes (roundsT key n s)))) (roundKeyT key (n + 1))

theorem roundsT_eq (key : List U8) (n : Nat) (s : Spec.AES.State) :
    ofBytes (roundsT key n (toBytes s)) = rounds key n s := by
  induction n with
  | zero => exact ofBytes_toBytes s
  | succ n ih => rw [roundsT, rounds, roundT, ofBytes_toBytes, ofBytes_toBytes, ih, roundKeyT_eq]

def cipherT (key block : List U8) : List U8 :=
  let s := toBytes (addRoundKey (ofBytes block) (ofBytes (roundKeyT key 0)))
  let s := toBytes (subBytes (ofBytes (roundsT key 9 s)))
  toBytes (addRoundKey (shiftRows (ofBytes s)) (ofBytes (roundKeyT key 10)))

theorem cipherT_eq (key block : List U8) : cipherT key block = cipher key block := by
  simp only [cipherT, cipher, roundsT_eq, roundKeyT_eq, ofBytes_toBytes]

def z32 : List U8 := List.replicate 32 0
def sha (m : List U8) : Option (List U8) := val (SHA256.hmacCopy (fun _ => 0) z32 m m.length)
def mac (k m : List U8) : Option (List U8) :=
  val (do
      let s ← HMAC.loadKey (fun _ => 0) k k.length
      HMAC.tagGeneration (fun _ => 0) s z32 m m.length 32)

-- FIPS 180-4 (examples "abc" and two blocks), the empty message
#guard sha (txt "abc") = some (hex "ba7816bf8f01cfea414140de5dae2223b00361a396177a9cb410ff61f20015ad")
#guard sha (txt "abcdbcdecdefdefgefghfghighijhijkijkljklmklmnlmnomnopnopq") =
  some (hex "248d6a61d20638b8e5c026930c3e6039a33ce45964ff2167f6ecedd419db06c1")
#guard sha [] = some (hex "e3b0c44298fc1c149afbf4c8996fb92427ae41e4649b934ca495991b7852b855")
-- RFC 4231, test case 2
#guard mac (txt "Jefe") (txt "what do ya want for nothing?") =
  some (hex "5bdcc146bf60754e6a042426089575c75a003f089d2739839dec58b964ec3843")
-- Authentication/HMAC-SHA-256/main.cpp: a key longer than a block
#guard (mac ((List.range 100).map (BitVec.ofNat 8)) (txt "Sample message for keylen=blocklen")).map (·.take 16) =
  some (hex "BDCCB6C72DDEADB500AE768386CB38CC")
-- RFC 1321, A.5
#guard Spec.MD5.digest [] = hex "d41d8cd98f00b204e9800998ecf8427e"
#guard Spec.MD5.digest (txt "abc") = hex "900150983cd24fb0d6963f7d28e17f72"
#guard Spec.MD5.digest (txt "message digest") = hex "f96b697d7cb7938d525a2f31aaf161d0"
#guard Spec.MD5.digest (txt "12345678901234567890123456789012345678901234567890123456789012345678901234567890") =
  hex "57edf4a22be3c955ac49da2e2107b67a"
-- RFC 7539, 2.3.2
#guard Spec.ChaCha.block 20 ((List.range 32).map (BitVec.ofNat 8)) 1 (hex "000000090000004a00000000") =
  hex "10f1e7e4d13b5915500fdd1fa32071c4c7d1f4c733c068030422aa9ac3d46c4ed2826446079faa0914c2d705d98b02a2b5129cd1de164eb9cbd083e8a2503c4e"
-- RFC 7539, 2.4.2 (first bytes)
#guard (Spec.ChaCha.encrypt 20 ((List.range 32).map (BitVec.ofNat 8)) 1 (hex "000000000000004a00000000")
    (txt "Ladies and Gentlemen of the class of '99")).take 16 = hex "6e2e359a2568f98041ba0728dd0d6981"
-- HC-128, key and IV zero
#guard ((val (HC128.processPacket (HC128.init (List.replicate 16 0) (List.replicate 16 0)) ⟨z32, z32, false⟩ 32)).map
    fun r => r.2.out) = some (hex "82001573A003FD3B7FD72FFB0EAF63AAC62F12DEB629DCA72785A66268EC758B")
-- RFC 4503, A.1 and A.2 (octet strings there have the most significant octet first)
#guard (Spec.Rabbit.blocks 1 (Spec.Rabbit.keySetup 0)).reverse = hex "B15754F036A5D6ECF56B45261C4AF702"
#guard (Spec.Rabbit.blocks 1 (Spec.Rabbit.keySetup 0x912813292E3D36FE3BFC62F1DC51C3AC)).reverse =
  hex "3D2DF3C83EF627A1E97FC38487E2519C"
#guard (Spec.Rabbit.blocks 1 (Spec.Rabbit.ivSetup 0 (Spec.Rabbit.keySetup 0))).reverse =
  hex "C6A7275EF85495D87CCD5D376705B7ED"
#guard (Spec.Rabbit.blocks 1 (Spec.Rabbit.ivSetup 0xC373F575C1267E59 (Spec.Rabbit.keySetup 0))).reverse =
  hex "1FCD4EB9580012E2E0DCCC9222017D6D"
-- FIPS 197, C.1; SP 800-38A, F.3.13 (CFB-128) and F.5.1 (CTR, one block)
#guard cipherT (hex "000102030405060708090a0b0c0d0e0f") (hex "00112233445566778899aabbccddeeff") =
  hex "69c4e0d86a7b0430d8cdb78070b4c55a"
#guard xorBytes (hex "6bc1bee22e409f96e93d7e117393172a") (cipherT (hex "2b7e151628aed2a6abf7158809cf4f3c")
    (hex "000102030405060708090a0b0c0d0e0f")) = hex "3b3fd92eb72dad20333449f8e83cfb4a"
#guard xorBytes (hex "6bc1bee22e409f96e93d7e117393172a") (cipherT (hex "2b7e151628aed2a6abf7158809cf4f3c")
    (hex "f0f1f2f3f4f5f6f7f8f9fafb" ++ ctrField 0xfcfdfeff)) = hex "874d6191b620e3261bef6864990db6ce"
-- AEGIS submission, test vectors 1 and 2 (also AEGIS/test_vectors.cpp)
#guard Spec.AEGIS.encrypt (hex "00000000000000000000000000000000") (hex "00000000000000000000000000000000") []
    (hex "00000000000000000000000000000000") =
  (hex "951B050FA72B1A2FC16D2E1F01B07D7E", hex "A7D2A99773249542F422217EE888D5F1")
#guard Spec.AEGIS.encrypt (hex "00000000000000000000000000000000") (hex "00000000000000000000000000000000")
    (hex "00000000000000000000000000000000") (hex "00000000000000000000000000000000") =
  (hex "10B0DEE65A97D751205C128A992473A1", hex "46DCB9EE93C46CF13731D41B9646C131")
-- DES, the worked example of the literature
#guard Spec.DES.encrypt (Spec.DES.ofBytes (hex "133457799BBCDFF1")) (Spec.DES.ofBytes (hex "0123456789ABCDEF")) =
  Spec.DES.ofBytes (hex "85E813540F0AB405")
-- NESSIE, Serpent with 256 bit keys, set 1 vector 0
#guard Spec.Serpent.serpent (hex "8000000000000000000000000000000000000000000000000000000000000000")
    (hex "00000000000000000000000000000000") = hex "A223AA1288463C0E2BE38EBD825616C0"
-- Sosemanuk submission, test vector 2
#guard Spec.Sosemanuk.cipher (hex "00112233445566778899AABBCCDDEEFF") (hex "8899AABBCCDDEEFF0011223344556677") 2 =
  hex "FA61DBEB71178131A77C714BD2EABF4E1394207A25698AA1308F2F063A0F7606"

end CT.Tests
