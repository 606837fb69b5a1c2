import Verif.Model.Hex
import Verif.Model.ChaCha
import Verif.Model.HC128
import Verif.Model.Rabbit
import Verif.Model.Sosemanuk

/-!
# Models of the example programs of the stream ciphers

Each `main` is a function of the texts that it declares; the shipped texts are one instance.  The result
is what the program prints, line by line: a label and the text after it.  Lines without a text are left
out.  Arrays without an initializer have arbitrary contents: `arr junk k n` is the `k`-th array of the
program, of `n` bytes.  A `std::string` gives access to exactly its characters (the terminating zero is
left out, which makes fewer reads defined).
-/

namespace CT.Programs

/-- What a program prints (for example StreamCiphers/ChaCha/main.cpp:39-55). -/
abbrev Printout := List (String × List U8)

/-- The characters of a literal (for example StreamCiphers/ChaCha/main.cpp:11-16). -/
def ascii (s : String) : List U8 := s.toList.map fun c => BitVec.ofNat 8 c.toNat

/-- `uint8_t a[n];`, the `k`-th array of the program (for example StreamCiphers/ChaCha/main.cpp:30). -/
def arr (junk : Nat → Nat → U8) (k n : Nat) : List U8 := (List.range n).map (junk k)

/-- Conversion of a `size_t` to the `int` that the hex functions take (StreamCiphers/ChaCha/main.cpp:22-23). -/
def asInt (n : Nat) : Int := (BitVec.ofNat 32 n).toInt

/-- `std::string(p)`: the characters up to the terminating zero (StreamCiphers/ChaCha/main.cpp:38). -/
def cString : List U8 → Res (List U8)
  | [] => .ub .outOfBounds
  | c :: cs => if c = 0 then .ok [] else do
    let r ← cString cs
    return c :: r

/-- `std::string(p, n)` (StreamCiphers/ChaCha/main.cpp:54) -/
def stringN (p : List U8) (n : Nat) : Res (List U8) := if n ≤ p.length then .ok (p.take n) else .ub .outOfBounds

/-- `main` of StreamCiphers/ChaCha/main.cpp:6-57. -/
def chachaMain (rounds : Nat) (junk : Nat → Nat → U8) (message keyString nonceString : List U8) : Res Printout := do
  let key ← Hex.decode (arr junk 0 32) keyString (asInt keyString.length)
  let nonce ← Hex.decode (arr junk 1 12) nonceString (asInt nonceString.length)
  let eCs := ChaCha.init key nonce
  let n := message.length
  let (_, io) ← ChaCha.processPacket rounds eCs ⟨message, arr junk 2 n, false⟩ (BitVec.ofNat 64 n)
  let ciphertext := io.out
  let hexCiphertext ← Hex.encode (arr junk 3 (2 * n + 1)) ciphertext (asInt n)
  let printCiphertext ← cString hexCiphertext
  let dCs := ChaCha.init key nonce
  let (_, io) ← ChaCha.processPacket rounds dCs ⟨ciphertext, arr junk 4 n, false⟩ (BitVec.ofNat 64 n)
  let recovString ← stringN io.out n
  return [("Plaintext: ", message), ("Ciphertext: ", printCiphertext), ("\nRecovered: ", recovString)]

/-- `main` of StreamCiphers/ChaCha/cipher_test.cpp:7-46.  `substr(128)` throws when the text is shorter;
the program is undefined there in the model. -/
def chachaCipherTest (rounds : Nat) (junk : Nat → Nat → U8) (plaintext keyString nonceString : List U8) : Res Printout := do
  let key ← Hex.decode (arr junk 0 32) keyString (asInt keyString.length)
  let nonce ← Hex.decode (arr junk 1 12) nonceString (asInt nonceString.length)
  let cs := ChaCha.init key nonce
  let n := plaintext.length
  let (_, io) ← ChaCha.processPacket rounds cs ⟨plaintext, arr junk 2 n, false⟩ (BitVec.ofNat 64 n)
  let ciphertextHex ← Hex.encode (arr junk 3 (2 * n + 1)) io.out (asInt n)
  let ciphertextString ← cString ciphertextHex
  if ciphertextString.length < 128 then .ub .contract
  else return [("Ciphertext part 1: ", ciphertextString.take 128), ("Ciphertext part 2: ", ciphertextString.drop 128)]

/-- Sixteen words from 64 bytes (`memcpy` into the state array, or a pointer cast;
StreamCiphers/ChaCha/chacha.cpp:11, 15). -/
def words16 (b : List U8) : ChaCha.Words := Vector.ofFn fun i : Fin 16 => (bytesToWordsLE b).getD i 0

/-- `main` of StreamCiphers/ChaCha/block_test.cpp:7-39; `testState` has 128 characters, as the
`memcpy` into the state of 64 bytes requires. -/
def chachaBlockTest (rounds : Nat) (junk : Nat → Nat → U8) (testState : List U8) : Res Printout := do
  let bytes ← Hex.decode (arr junk 0 (testState.length / 2)) testState (asInt testState.length)
  let io ← ChaCha.byteSwap ⟨[], bytes, true⟩ (asInt (testState.length / 2))
  if io.out.length ≠ 64 then .ub .outOfBounds
  else
    let cs : ChaCha.State := ⟨words16 io.out⟩
    let io ← ChaCha.byteSwap ⟨[], wordsToBytesLE (ChaCha.block rounds cs 1).2.toList, true⟩ 64
    let hexKeystream ← Hex.encode (arr junk 1 (testState.length + 1)) io.out 64
    let s ← cString hexKeystream
    return [("Output: ", s)]

/-- The quarter round part of `main` of StreamCiphers/ChaCha/quarter_test.cpp:35-58; `hexInput` has 128
characters. -/
def chachaQuarterTest (junk : Nat → Nat → U8) (hexInput : List U8) : Res Printout := do
  let bytes ← Hex.decode (arr junk 0 (hexInput.length / 2)) hexInput (asInt hexInput.length)
  let io ← ChaCha.byteSwap ⟨[], bytes, true⟩ (asInt (hexInput.length / 2))
  if io.out.length ≠ 64 then .ub .outOfBounds
  else
    let out := ChaCha.testQ (words16 io.out)
    let io ← ChaCha.byteSwap ⟨[], wordsToBytesLE out.toList, true⟩ (asInt (hexInput.length / 2))
    let hexOutput ← Hex.encode (arr junk 1 (hexInput.length + 1)) io.out (asInt (hexInput.length / 2))
    let s ← cString hexOutput
    return [("Input: ", hexInput), ("Output: ", s)]

/-- `main` of StreamCiphers/HC-128/main.cpp:14-65. -/
def hc128Main (junk : Nat → Nat → U8) (pt hexkey hexIv : List U8) : Res Printout := do
  let n := pt.length
  let key ← Hex.decode (arr junk 0 16) hexkey 32
  let iv ← Hex.decode (arr junk 1 16) hexIv 32
  let eCs := HC128.init key iv
  let (_, io) ← HC128.processPacket eCs ⟨pt, arr junk 2 n, false⟩ n
  let ciphertext := io.out
  let dCs := HC128.init key iv
  let (_, io) ← HC128.processPacket dCs ⟨ciphertext, arr junk 3 n, false⟩ n
  let recovered ← stringN io.out n
  return [("Plaintext: ", pt), ("Recovered: ", recovered)]

/-- `main` of StreamCiphers/Sosemanuk/main.cpp:7-67; `none` is `exit(1)`.  `c1`, `c2` are the
uninitialised cipher states. -/
def sosemanukMain (junk : Nat → Nat → U8) (c1 c2 : Sosemanuk.State) (plain keyString ivString : List U8) :
    Res (Option Printout) := do
  let key ← Hex.decode (arr junk 0 (keyString.length / 2)) keyString (asInt keyString.length)
  let iv ← Hex.decode (arr junk 1 (ivString.length / 2)) ivString (asInt ivString.length)
  let n := plain.length
  match ← Sosemanuk.loadKey c1 key (asInt (keyString.length / 2)) with
  | none => return none
  | some eCs =>
    let eCs ← Sosemanuk.loadIv eCs iv
    let (_, io) ← Sosemanuk.processPacket eCs ⟨plain, arr junk 2 n, false⟩ n
    let cipher := io.out
    let hexCt ← Hex.encode (arr junk 3 (2 * n + 1)) cipher (asInt n)
    let hexCtString ← stringN hexCt (2 * n)
    match ← Sosemanuk.loadKey c2 key (asInt (keyString.length / 2)) with
    | none => return none
    | some dCs =>
      let dCs ← Sosemanuk.loadIv dCs iv
      let (_, io) ← Sosemanuk.processPacket dCs ⟨cipher, arr junk 4 n, false⟩ n
      let recovered ← stringN io.out n
      return some [("Plaintext: ", plain), ("Ciphertext: ", hexCtString), ("Recovered: ", recovered)]

/-- `main` of StreamCiphers/Rabbit/main.cpp:7-75: the sender encrypts `plaintext` and `mumbo`, reloads
the IV and encrypts `secondPt`; the receiver decrypts the first and the last of them. -/
def rabbitMain (junk : Nat → Nat → U8) (keyString ivString plaintext mumbo secondPt : List U8) : Res Printout := do
  let key ← Hex.decode (arr junk 0 (keyString.length / 2)) keyString (asInt keyString.length)
  let iv ← Hex.decode (arr junk 1 (ivString.length / 2)) ivString (asInt ivString.length)
  let cs := Rabbit.loadIv (Rabbit.loadKey key) iv
  let (cs, io) ← Rabbit.processPacket cs ⟨plaintext, arr junk 2 plaintext.length, false⟩ plaintext.length
  let ct := io.out
  let (cs, _) ← Rabbit.processPacket cs ⟨mumbo, arr junk 3 mumbo.length, false⟩ mumbo.length
  let cs := Rabbit.loadIv cs iv
  let (_, io) ← Rabbit.processPacket cs ⟨secondPt, arr junk 4 secondPt.length, false⟩ secondPt.length
  let secondCt := io.out
  let ctHex ← Hex.encode (arr junk 5 (2 * plaintext.length + 1)) ct (asInt plaintext.length)
  let ctS ← cString ctHex
  let dCs := Rabbit.loadIv (Rabbit.loadKey key) iv
  let (dCs, io) ← Rabbit.processPacket dCs ⟨ct, arr junk 6 plaintext.length, false⟩ plaintext.length
  let recovered ← stringN io.out plaintext.length
  let dCs := Rabbit.loadIv dCs iv
  let (_, io) ← Rabbit.processPacket dCs ⟨secondCt, arr junk 7 secondPt.length, false⟩ secondPt.length
  let recovered2 ← stringN io.out secondPt.length
  return [("Plaintext: ", plaintext), ("Ciphertext: ", ctS), ("Recovered: ", recovered), ("Recovered 2: ", recovered2)]

/-- The texts of StreamCiphers/Rabbit/main.cpp:10-52. -/
def rabbitKey : List U8 := ascii "00000000000000000000000000000000"
def rabbitIv : List U8 := ascii "597E26C175F573C3"
def rabbitPlaintext : List U8 := ascii "Hello World! This is the Rabbit cipher designed by Cryptico A/S. It was submitted to the eSTREAM portfolio, and was a successful entrant. This implementation was written by Petter Solnoer and has been verified by official test vectors...."
def rabbitMumbo : List U8 := ascii "..2.2.2.2.2.2.2.2.222..2.2.2.2.2.2.2.2.2..2.2.2.2.222222222222222222222222222222222222222222222222222222222222222222222222222222222222222222"
def rabbitSecond : List U8 := ascii "Does this decrypt successfully?"

/-- `print_key` (rabbit.cpp:198-213): eight lines; each call of `hex_encode` gets exactly its two bytes. -/
def rabbitPrintKey (junk : Nat → Nat → U8) (key : List U8) : Nat → Nat → Res Printout
  | 0, _ => .ok []
  | n + 1, i => do
    let keyS ← Hex.encode (arr junk i 5) ((key.drop (2 * i)).take 2) 2
    let s ← cString keyS
    let rest ← rabbitPrintKey junk key n (i + 1)
    return (s!"Key {i} = ", s) :: rest

/-- One of the two loops of `print_inner_state` (rabbit.cpp:220-236 and 237-253). -/
def rabbitPrintWords (junk : Nat → Nat → U8) (name : String) : Nat → List U32 → Res Printout
  | _, [] => .ok []
  | i, w :: ws => do
    let io ← ChaCha.byteSwap ⟨[], bytesLE32 w, true⟩ 4
    let tmpC ← Hex.encode (arr junk i 9) io.out 4
    let s ← cString tmpC
    let rest ← rabbitPrintWords junk name (i + 1) ws
    return (s!"{name}{i} = ", s) :: rest

/-- `print_inner_state` (rabbit.cpp:215-256): the carry is printed as a number. -/
def rabbitPrintState (junk : Nat → Nat → U8) (cs : Rabbit.State) : Res (Nat × Printout) := do
  let x ← rabbitPrintWords junk "X" 0 cs.X.toList
  let c ← rabbitPrintWords junk "C" 0 cs.C.toList
  return (cs.carry.toNat, x ++ c)

end CT.Programs
