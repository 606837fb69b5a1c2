import Verif.Model.ChaCha
import Verif.Model.HC128
import Verif.Model.HMAC
import Verif.Model.Rabbit
import Verif.Model.Sosemanuk

/-!
# Hash, HMAC and stream ciphers on a stack of limited size

`room` is the number of bytes of the stack that are left for the arrays and structures a function declares; what a compiler needs besides
(return addresses, registers, single variables) is left out, so `room` is less than the size of the stack.  Arrays from `new` are
on the heap, which has no limit here.
-/

namespace CT.Stack

/-- What comes out of a call: that of the function, or the stack did not suffice (sha-256.cpp:47-145 and the functions below). -/
inductive Lim (α : Type) where
  | done (r : Res α)
  | exhausted
  deriving DecidableEq

/-- One call after the other (as in hmac.cpp:56-85). -/
def Lim.bind {α β : Type} : Lim α → (α → Lim β) → Lim β
  | .exhausted, _ => .exhausted
  | .done (.ub k), _ => .done (.ub k)
  | .done (.ok a), f => f a

/-- A function with arrays of `n` bytes (sha-256.cpp:57, hc128.cpp:95 and others, cited below). -/
def frame {α : Type} (room n : Nat) (f : Nat → Lim α) : Lim α := if room < n then .exhausted else f (room - n)

/-- `sha256_process_message` (sha-256.cpp:47-145, both copies): `msg[n/4]` and `ss`, 8 + 64 + 8 words (sha-256.h). -/
def sha256 (grow : Nat → Bool) (room : Nat) (junk : Nat → U8) (digest message : List U8) (size : Nat) : Lim (List U8) :=
  let n := if grow size then size / 64 * 64 + 128 else size / 64 * 64 + 64
  if 2 ^ 31 ≤ n then .done (.ub .outOfBounds)
  else frame room (4 * (n / 4) + 320) fun _ => .done (SHA256.processWith grow junk digest message size)

/-- Hash/SHA/SHA-2/SHA-256/sha-256.cpp:51. -/
def hashCopy := sha256 fun size => (size + 1) % 64 > 56

/-- Authentication/HMAC-SHA-256/sha-256.cpp:51. -/
def hmacCopy := sha256 fun size => size % 64 ≥ 56

/-- `hmac_load_key` (hmac.cpp:24-54): `localKey[64]`, `hashedKey[32]`. -/
def loadKey (room : Nat) (junk : Nat → U8) (key : List U8) (keysize : Int) : Lim HMAC.State :=
  frame room 96 fun room =>
    if keysize > 64 then (hmacCopy room junk ((List.range 32).map junk) key keysize.toNat).bind fun _ => .done (HMAC.loadKey junk key keysize)
    else .done (HMAC.loadKey junk key keysize)

/-- `hmac_tag_generation` (hmac.cpp:56-85): `inner_hash[32]`, `outer_computation[96]`, `outer_hash[32]`; two calls of
`sha256_process_message`, with `dataLength + 64` and with 96 bytes. -/
def tagGeneration (room : Nat) (junk : Nat → U8) (cs : HMAC.State) (tag message : List U8) (dataLength : Nat) (tagLength : Int) :
    Lim (List U8) :=
  frame room 160 fun room =>
    if dataLength < 1 then .done (.ok tag)
    else if message.length < dataLength then .done (.ub .outOfBounds)
    else
      let inner := cs.innerKey.take 64 ++ message.take dataLength
      (hmacCopy room junk ((List.range 32).map junk) inner (dataLength + 64)).bind fun innerHash =>
        (hmacCopy room junk ((List.range 32).map junk) (cs.outerKey.take 64 ++ innerHash.take 32) 96).bind fun outerHash =>
          .done (HMAC.memcpyInt tag 0 outerHash tagLength)

/-- `hmac_tag_validation` (hmac.cpp:87-101): `newTag[tagLength]`. -/
def tagValidation (room : Nat) (junk : Nat → U8) (cs : HMAC.State) (tag message : List U8) (dataLength : Nat) (tagLength : Int) : Lim Int :=
  if tagLength < 0 then .done (.ub .outOfBounds)
  else frame room tagLength.toNat fun room =>
    (tagGeneration room junk cs ((List.range tagLength.toNat).map junk) message dataLength tagLength).bind fun newTag =>
      .done (HMAC.compareLoop tag newTag tagLength.toNat 0)

/-- `hc128_process_packet` (hc128.cpp:89-115): `keystream[(size-1)/4 + 1]`. -/
def hc128 (room : Nat) (cs : HC128.State) (io : Io) (size : Nat) : Lim (HC128.State × Io) :=
  if size < 1 then .done (.ok (cs, io))
  else frame room (4 * ((size - 1) / 4 + 1)) fun _ => .done (HC128.processPacket cs io size)

/-- `chacha_process_packet` (chacha.cpp:77-114) and `chacha_block` (46-75): `cs_work`, 16 words; the keystream is on the heap. -/
def chacha (rounds room : Nat) (cs : ChaCha.State) (io : Io) (size : U64) : Lim (ChaCha.State × Io) :=
  frame room 64 fun _ => .done (ChaCha.processPacket rounds cs io size)

/-- `rabbit_process_packet` (rabbit.cpp:155-196), `keystream[4]`, and `rabbit_next_state` (rabbit.h:74-90), `G[8]`. -/
def rabbit (room : Nat) (cs : Rabbit.State) (io : Io) (size : Nat) : Lim (Rabbit.State × Io) :=
  frame room 16 fun room => frame room 32 fun _ => .done (Rabbit.processPacket cs io size)

/-- `sosemanuk_process_packet` (sosemanuk.cpp:38-117): `f_buf[4]`, `s_buf[4]`. -/
def sosemanuk (room : Nat) (cs : Sosemanuk.State) (io : Io) (size : Nat) : Lim (Sosemanuk.State × Io) :=
  frame room 32 fun _ => .done (Sosemanuk.processPacket cs io size)

end CT.Stack
