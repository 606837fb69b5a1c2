import Verif.Model.HMAC
import Verif.Model.AES
import Verif.Model.HC128

/-!
# Model of Example_AuthenticatedEncryption/example_ae.cpp

`main` is split at the comments of the source into sender and receiver of its two sections, so that
the message between them can be any byte string.  The keys, which `main` sets to zero, and the
plaintexts are parameters.  The hexadecimal printout of the messages is left out.
-/

namespace CT.ExampleAE

/-- A line written to `std::cout` by a receiver, other than plain progress messages (example_ae.cpp:86-96, 133-150). -/
inductive Line where
  | invalidTag                         -- "Invalid tag!"
  | validTag                           -- "Valid tag"
  | recovered (text : List U8)         -- "Recovered: ..."
  deriving DecidableEq

/-- `TAGSIZE` (example_ae.cpp:17). -/
def tagSize : Nat := 16

/-- Sender of section 1 (example_ae.cpp:53-67): `ciphertext || tag` in the array `msg` of
`plaintext.size() + TAGSIZE` uninitialised bytes. -/
def send1 (junk : Nat → U8) (a : HMAC.State) (e : AES.State) (plaintext : List U8) : Res (List U8) := do
  let n := plaintext.length
  let (_, io) ← AES.cfbPacket AES.portable false e ⟨plaintext, (List.range (n + tagSize)).map junk, false⟩ n
  let msg := io.out
  let tag ← HMAC.tagGeneration junk a (msg.drop n) msg n tagSize
  .ok (msg.take n ++ tag)

/-- Receiver of section 1 (example_ae.cpp:79-96): `exit(1)` ends the program after "Invalid tag!". -/
def recv1 (junk : Nat → U8) (a : HMAC.State) (eKey iv : List U8) (msg : List U8) (n : Nat) : Res (List Line) := do
  let d := AES.cfbInit eKey iv
  let ok ← HMAC.tagValidation junk a (msg.drop n) msg n tagSize
  if ok = 0 then .ok [.invalidTag]
  else
    let (_, io) ← AES.cfbPacket AES.portable true d ⟨msg, (List.range n).map junk, false⟩ n
    .ok [.validTag, .recovered (io.out.take n)]

/-- Sender of section 2 (example_ae.cpp:104-122): `IV || ciphertext || tag`. -/
def send2 (junk : Nat → U8) (a : HMAC.State) (eKey iv : List U8) (plaintext : List U8) : Res (List U8) := do
  let n := plaintext.length
  let e := HC128.init eKey iv
  let msg ← Mem.wrs ((List.range (16 + n + tagSize)).map junk) 0 (iv.take 16)
  let (_, io) ← HC128.processPacket e ⟨plaintext, msg.drop 16, false⟩ n
  let msg := msg.take 16 ++ io.out
  let tag ← HMAC.tagGeneration junk a (msg.drop (16 + n)) msg (16 + n) tagSize
  .ok (msg.take (16 + n) ++ tag)

/-- Receiver of section 2 (example_ae.cpp:132-150): nothing follows "Invalid tag!" inside the `if`
(lines 132-134), so the program goes on. -/
def recv2 (junk : Nat → U8) (a : HMAC.State) (eKey : List U8) (msg : List U8) (n : Nat) : Res (List Line) := do
  let ok ← HMAC.tagValidation junk a (msg.drop (16 + n)) msg (16 + n) tagSize
  let d := HC128.init eKey (msg.take 16)
  let (_, io) ← HC128.processPacket d ⟨msg.drop 16, (List.range n).map junk, false⟩ n
  .ok ((if ok = 0 then [.invalidTag] else []) ++ [.validTag, .recovered (io.out.take n)])

end CT.ExampleAE
