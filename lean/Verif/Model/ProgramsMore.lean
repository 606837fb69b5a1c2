import Verif.Model.Programs
import Verif.Model.SHA256
import Verif.Model.HMAC
import Verif.Model.MD5
import Verif.Model.DES
import Verif.Model.Serpent
import Verif.Model.AES
import Verif.Model.AEGIS

/-!
# Models of the example programs of hash functions, HMAC, block ciphers and AEGIS

As in `Verif.Model.Programs`.  `stk` is the content of the arrays that the library functions leave
uninitialised.
-/

namespace CT.Programs

/-- `main` of Hash/SHA/SHA-2/SHA-256/main.cpp:16-44; `msg` is the text built by the loop. -/
def sha256Main (junk : Nat → Nat → U8) (stk : Nat → U8) (msg : List U8) : Res Printout := do
  let digest ← SHA256.hashCopy stk (List.replicate 32 0) msg msg.length
  let dig ← stringN digest 32
  let hexRepresentation ← Hex.encode (arr junk 0 64) digest 32
  let hexRep ← stringN hexRepresentation 64
  return [("Digest: ", dig), ("Digest in Hex: ", hexRep)]

/-- The comparison of Authentication/HMAC-SHA-256/main.cpp:64-71: `status`, over the indices `i`, `i + 1`, … -/
def statusLoop (a b : List U8) : Nat → Nat → Nat → Res Nat
  | 0, _, status => .ok status
  | n + 1, i, status => do
    let x ← Mem.rd a i
    let y ← Mem.rd b i
    statusLoop a b n (i + 1) (if x ≠ y then 1 else status)

/-- `main` of Authentication/HMAC-SHA-256/main.cpp:16-74. -/
def hmacMain (junk : Nat → Nat → U8) (stk : Nat → U8) (expectedTag keystring msg : List U8) : Res Printout := do
  let message ← Hex.decode (arr junk 0 (msg.length / 2)) msg (asInt msg.length)
  let key ← Hex.decode (arr junk 1 (keystring.length / 2)) keystring (asInt keystring.length)
  let hs ← HMAC.loadKey stk key (asInt (keystring.length / 2))
  let tag ← HMAC.tagGeneration stk hs (arr junk 2 16) message (msg.length / 2) 16
  let hexTag ← Hex.encode (arr junk 3 33) tag 16
  let hexString ← stringN hexTag 32
  let expected ← Hex.decode (arr junk 4 16) expectedTag 32
  let valid ← HMAC.tagValidation stk hs tag message (msg.length / 2) 16
  let status ← statusLoop tag expected 16 0 0
  return [("Expected tag: ", expectedTag), ("Hex tag: ", hexString),
    (if valid ≠ 0 then "Validation Tag confirmed\n" else "Validation Tag mismatch\n", []),
    (if status ≠ 0 then "FAILURE\n" else "SUCCESS!\n", [])]

/-- `main` of Legacy/MD5/main.cpp:8-32; `cs` is the uninitialised context. -/
def md5Main (junk : Nat → Nat → U8) (cs : MD5.Ctx) (testString : List U8) : Res Printout := do
  let (digest, _) ← MD5.processPacket cs (arr junk 0 16) testString (BitVec.ofNat 32 testString.length)
  let hexDigest ← Hex.encode (arr junk 1 33) digest 16
  let s ← cString hexDigest
  return [("Digest: ", s)]

/-- `main` of Legacy/DES/main.cpp:5-32; the message has 16 characters, which are read through a `u32` pointer. -/
def desMain (junk : Nat → Nat → U8) (keyString message : List U8) : Res Printout := do
  let key ← Hex.decode (arr junk 0 8) keyString 16
  let rk ← DES.keyScheduleEncrypt key
  let a ← DES.processPacketEcb rk ⟨bytesToWordsLE message, bytesToWordsLE (arr junk 1 16), false⟩ 16
  let hexCt ← Hex.encode (arr junk 2 33) (wordsToBytesLE a.out) 16
  let s ← cString hexCt
  return [("Hex CT: ", s)]

/-- `main` of Legacy/DES/main_ctr.cpp:5-34; the message has 32 characters. -/
def desCtrMain (junk : Nat → Nat → U8) (keyString message : List U8) : Res Printout := do
  let key ← Hex.decode (arr junk 0 8) keyString 16
  let rk ← DES.keyScheduleEncrypt key
  let a ← DES.processPacketCtr rk ⟨bytesToWordsLE message, bytesToWordsLE (arr junk 1 32), false⟩ [0, 0, 0] 32
  let hexCt ← Hex.encode (arr junk 2 65) (wordsToBytesLE a.out) 32
  let s ← cString hexCt
  return [("Hex CT: ", s)]

/-- `main` of BlockCiphers/Serpent/main.cpp:7-46, with `SOSEMANUK_H` as serpent.h defines it; `none` is
`exit(1)`. -/
def serpentMain (junk : Nat → Nat → U8) (keyString plainString : List U8) : Res (Option Printout) := do
  let key ← Hex.decode (arr junk 0 32) keyString (asInt keyString.length)
  let plain ← Hex.decode (arr junk 1 16) plainString (asInt plainString.length)
  match ← Serpent.keySchedule key 32 with
  | none => return none
  | some rk =>
    let cipher ← Serpent.processPacket rk plain 16
    let hexCt ← Hex.encode (arr junk 2 97) (wordsToBytesLE cipher) 48
    let s ← stringN hexCt 96
    return some [("Ciphertext: ", s)]

/-- `main` of BlockCiphers/AES/AES/AES_CFB/main.cpp:24-101; the other two main.cpp differ in the text only. -/
def aesCfbMain (v : AES.CfbVariant) (junk : Nat → Nat → U8) (key iv plaintext : List U8) : Res Printout := do
  let eCs := AES.cfbInit key iv
  let n := plaintext.length
  let (_, io) ← AES.cfbPacket v false eCs ⟨plaintext, arr junk 0 n, false⟩ (asInt n)
  let ciphertextString ← stringN io.out n
  let dCs := AES.cfbInit key iv
  let m := ciphertextString.length
  let (_, io) ← AES.cfbPacket v true dCs ⟨ciphertextString, arr junk 1 m, false⟩ (asInt m)
  let recoveredString ← stringN io.out m
  return [("Plaintext: ", plaintext), ("Ciphertext: ", ciphertextString), ("Recovered: ", recoveredString)]

/-- `main` of StreamCiphers/AEGIS/AEGIS/main.cpp:6-74, and of AEGIS_ARM and AEGIS_x86; `none` is the exit after
"Invalid tag!".  `cs` is the uninitialised cipher state. -/
def aegisMain (rnd : Quad → Quad → Quad) (junk : Nat → Nat → U8) (cs : AEGIS.State) (key iv plaintext : List U8) :
    Res (Option Printout) := do
  let n := plaintext.length
  let cs := AEGIS.loadKey cs key
  let (cs, io, tag) ← AEGIS.encryptPacket rnd cs ⟨plaintext, List.replicate n 0, false⟩ iv iv 16 n
  let ct := io.out
  let (_, io, _, r) ← AEGIS.decryptPacket rnd cs ⟨ct, List.replicate n 0, false⟩ iv iv tag 16 n
  if r = 0 then return none
  else
    let hexCt ← Hex.encode (arr junk 0 (2 * n + 1)) ct (asInt n)
    let hexString ← stringN hexCt (2 * n + 1)
    let recvString ← stringN io.out n
    return some [("Hex CT: ", hexString), ("Plaintext: ", plaintext), ("Recovered: ", recvString)]

/-! ### Programs that check test vectors -/

/-- The loop with `break` of AES_CTR/test_vectors.cpp:113-120 (and twice more): whether `n_wrong` is incremented. -/
def differs (a b : List U8) : Nat → Nat → Res Bool
  | 0, _ => .ok false
  | n + 1, i => do
    let x ← Mem.rd a i
    let y ← Mem.rd b i
    if x ≠ y then .ok true else differs a b n (i + 1)

/-- Key, nonce, input and expected output of a test vector (AES_CTR/test_vectors.cpp:37-93). -/
structure CtrVector where
  key : List U8
  nonce : List U8
  input : List U8
  expected : List U8

/-- The tests of BlockCiphers/AES/AES/AES_CTR/test_vectors.cpp:97-163, one after the other with one cipher state:
the printed lines and `n_wrong`. -/
def ctrVectors (packet : AES.State → Io → Int → Res (AES.State × Io)) (junk : Nat → Nat → U8) :
    Nat → AES.State → List CtrVector → Res (Printout × Nat)
  | _, _, [] => .ok ([], 0)
  | k, cs, v :: vs => do
    let n := v.input.length
    let cs := AES.ctrLoadIv (AES.loadKey cs v.key) v.nonce
    let (cs, io) ← packet cs ⟨v.input, arr junk (2 * k) n, false⟩ n
    let hexTmp ← Hex.encode (arr junk (2 * k + 1) (2 * n + 1)) io.out n
    let printTmp ← stringN hexTmp (2 * n + 1)
    let wrong ← differs io.out v.expected n 0
    let (rest, w) ← ctrVectors packet junk (k + 1) cs vs
    return ((s!"Output {k + 1}: ", printTmp) :: rest, (if wrong then 1 else 0) + w)

/-- The comparison loops of AEGIS/test_vectors.cpp:65-78 (and three times more): `true` if `test_1` keeps its value. -/
def sameText (a b : List U8) : Nat → Nat → Bool → Res Bool
  | 0, _, r => .ok r
  | n + 1, i, r => do
    let x ← Mem.rd a i
    let y ← Mem.rd b i
    sameText a b n (i + 1) (if x ≠ y then false else r)

/-- Key, IV, associated data, plaintext and the texts of the expected ciphertext and tag (AEGIS/test_vectors.cpp:13-310). -/
structure AegisVector where
  key : List U8
  iv : List U8
  ad : List U8
  pt : List U8
  expectedCt : List U8
  expectedTag : List U8

/-- The tests of StreamCiphers/AEGIS/AEGIS/test_vectors.cpp:13-310, each with its own cipher state: the printed
lines and `successful`; `none` is the exit after "Invalid tag!". -/
def aegisVectors (rnd : Quad → Quad → Quad) (junk : Nat → Nat → U8) (cs : Nat → AEGIS.State) :
    Nat → List AegisVector → Res (Option (Printout × Nat))
  | _, [] => .ok (some ([], 0))
  | k, v :: vs => do
    let n := v.pt.length
    let c := AEGIS.loadKey (cs k) v.key
    let (c, io, tag) ← AEGIS.encryptPacket rnd c ⟨v.pt, List.replicate n 0, false⟩ v.ad v.iv v.ad.length n
    let ct := io.out
    let (_, io, tag, r) ← AEGIS.decryptPacket rnd c ⟨ct, arr junk (6 * k) n, false⟩ v.ad v.iv tag v.ad.length n
    if r = 0 then return none
    else
      let pt ← Hex.encode (arr junk (6 * k + 1) (2 * n + 1)) v.pt n
      let hexPt ← stringN pt (2 * n + 1)
      let hexCt ← Hex.encode (arr junk (6 * k + 2) (2 * n + 1)) ct n
      let hexString ← stringN hexCt (2 * n + 1)
      let hexTag ← Hex.encode (arr junk (6 * k + 3) 33) tag 16
      let hexTagString ← stringN hexTag 33
      let recvPt ← Hex.encode (arr junk (6 * k + 4) (2 * n + 1)) io.out n
      let hexRecv ← cString recvPt
      let test ← sameText v.expectedCt hexString (2 * n) 0 true
      let test ← sameText v.expectedTag hexTag 32 0 test
      match ← aegisVectors rnd junk cs (k + 1) vs with
      | none => return none
      | some (rest, s) =>
        return some (("PT: ", hexPt) :: ("Expected CT: ", v.expectedCt) :: ("Computed CT: ", hexString) ::
          ("Expected TAG: ", v.expectedTag) :: ("Computed TAG: ", hexTagString) :: ("RECOVERED PT: ", hexRecv) :: rest,
          (if test then 1 else 0) + s)

end CT.Programs
