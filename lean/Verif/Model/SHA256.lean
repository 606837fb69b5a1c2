import Verif.Basic.Mem
import Verif.Basic.Rot

/-!
# Model of the two copies of sha-256.cpp / sha-256.h / sha-256-tables.h

`Hash/SHA/SHA-2/SHA-256/` and `Authentication/HMAC-SHA-256/`; the copies differ in one line
(sha-256.cpp:51), which is the parameter `grow`.
-/

namespace CT.SHA256

/-- `K[64]` (sha-256-tables.h:35-52). -/
def K : List U32 := [
  0x428a2f98, 0x71374491, 0xb5c0fbcf, 0xe9b5dba5, 0x3956c25b, 0x59f111f1, 0x923f82a4, 0xab1c5ed5,
  0xd807aa98, 0x12835b01, 0x243185be, 0x550c7dc3, 0x72be5d74, 0x80deb1fe, 0x9bdc06a7, 0xc19bf174,
  0xe49b69c1, 0xefbe4786, 0x0fc19dc6, 0x240ca1cc, 0x2de92c6f, 0x4a7484aa, 0x5cb0a9dc, 0x76f988da,
  0x983e5152, 0xa831c66d, 0xb00327c8, 0xbf597fc7, 0xc6e00bf3, 0xd5a79147, 0x06ca6351, 0x14292967,
  0x27b70a85, 0x2e1b2138, 0x4d2c6dfc, 0x53380d13, 0x650a7354, 0x766a0abb, 0x81c2c92e, 0x92722c85,
  0xa2bfe8a1, 0xa81a664b, 0xc24b8b70, 0xc76c51a3, 0xd192e819, 0xd6990624, 0xf40e3585, 0x106aa070,
  0x19a4c116, 0x1e376c08, 0x2748774c, 0x34b0bcb5, 0x391c0cb3, 0x4ed8aa4a, 0x5b9cca4f, 0x682e6ff3,
  0x748f82ee, 0x78a5636f, 0x84c87814, 0x8cc70208, 0x90befffa, 0xa4506ceb, 0xbef9a3f7, 0xc67178f2]

/-- `H0[8]` (sha-256-tables.h:56-59). -/
def H0 : Vector U32 8 := #v[0x6a09e667, 0xbb67ae85, 0x3c6ef372, 0xa54ff53a,
  0x510e527f, 0x9b05688c, 0x1f83d9ab, 0x5be0cd19]

/-- sha-256.h:29-32 -/
def ch (x y z : U32) : U32 := (x &&& y) ^^^ (~~~x &&& z)
/-- sha-256.h:34-37 -/
def maj (x y z : U32) : U32 := (x &&& y) ^^^ (x &&& z) ^^^ (y &&& z)
/-- `SIGMA_0` (sha-256.h:39-42) -/
def bSigma0 (x : U32) : U32 := rotr32 x 2 ^^^ rotr32 x 13 ^^^ rotr32 x 22
/-- `SIGMA_1` (sha-256.h:44-47) -/
def bSigma1 (x : U32) : U32 := rotr32 x 6 ^^^ rotr32 x 11 ^^^ rotr32 x 25
/-- `sigma_0` (sha-256.h:49-52) -/
def sSigma0 (x : U32) : U32 := rotr32 x 7 ^^^ rotr32 x 18 ^^^ (x >>> 3)
/-- `sigma_1` (sha-256.h:54-57) -/
def sSigma1 (x : U32) : U32 := rotr32 x 17 ^^^ rotr32 x 19 ^^^ (x >>> 10)

/-- The zero loop of `pad_message` (sha-256.cpp:29-32); `pos` is where `message` points. -/
def zeroLoop (size : Nat) : Nat → Nat → Nat → List U8 → Res (Nat × List U8)
  | 0, _, _, _ => .ub .diverges
  | fuel + 1, k, pos, msg =>
    if (size + 1 + k) % 64 ≠ 56 then do
      let msg ← Mem.wr msg pos 0
      zeroLoop size fuel (k + 1) (pos + 1) msg
    else .ok (pos, msg)

/-- `pad_message` (sha-256.cpp:15-45) on the bytes `msg` of the array. -/
def padMessage (msg : List U8) (size : Nat) : Res (List U8) := do
  let msg ← Mem.wr msg size 0x80
  let (pos, msg) ← zeroLoop size 65 0 (size + 1) msg
  let bl : U64 := BitVec.ofNat 64 (8 * size)
  Mem.wrs msg pos [(bl >>> 56).setWidth 8, (bl >>> 48).setWidth 8, (bl >>> 40).setWidth 8,
    (bl >>> 32).setWidth 8, (bl >>> 24).setWidth 8, (bl >>> 16).setWidth 8, (bl >>> 8).setWidth 8,
    bl.setWidth 8]

/-- Schedule loop, `t < 16` (sha-256.cpp:87-92): words `t .. 15` of block `i` (zero based). -/
def schedIn (msg : List U8) (i : Nat) : Nat → Nat → List U32 → Res (List U32)
  | 0, _, W => .ok W
  | n + 1, t, W => do
    let b0 ← Mem.rd msg (64 * i + 4 * t)
    let b1 ← Mem.rd msg (64 * i + 4 * t + 1)
    let b2 ← Mem.rd msg (64 * i + 4 * t + 2)
    let b3 ← Mem.rd msg (64 * i + 4 * t + 3)
    let v : U32 := (b0.setWidth 32 <<< 24) ||| (b1.setWidth 32 <<< 16) ||| (b2.setWidth 32 <<< 8) ||| b3.setWidth 32
    schedIn msg i n (t + 1) (W.set t v)

/-- Schedule loop, `t ≥ 16` (sha-256.cpp:93-98); `W` has 64 entries, `t < 64`. -/
def schedExt : Nat → Nat → List U32 → List U32
  | 0, _, W => W
  | n + 1, t, W =>
    schedExt n (t + 1) (W.set t
      (sSigma1 (W.getD (t - 2) 0) + W.getD (t - 7) 0 + sSigma0 (W.getD (t - 15) 0) + W.getD (t - 16) 0))

/-- One iteration of the round loop (sha-256.cpp:106-122). -/
def round (v : Vector U32 8) (k w : U32) : Vector U32 8 :=
  let T1 := v[7] + bSigma1 v[4] + ch v[4] v[5] v[6] + k + w
  let T2 := bSigma0 v[0] + maj v[0] v[1] v[2]
  #v[T1 + T2, v[0], v[1], v[2], v[3] + T1, v[4], v[5], v[6]]

/-- The round loop (sha-256.cpp:104-123): `n` rounds from round `t` on. -/
def roundLoop (W : List U32) : Nat → Nat → Vector U32 8 → Vector U32 8
  | 0, _, v => v
  | n + 1, t, v => roundLoop W n (t + 1) (round v (K.getD t 0) (W.getD t 0))

/-- The additions after a block (sha-256.cpp:126-133). -/
def addDigest (v H : Vector U32 8) : Vector U32 8 :=
  #v[v[0] + H[0], v[1] + H[1], v[2] + H[2], v[3] + H[3], v[4] + H[4], v[5] + H[5], v[6] + H[6], v[7] + H[7]]

/-- The block loop (sha-256.cpp:82-134): `n` blocks from block `i` (zero based) on.  `ss.W` is
never read before it is written; it starts as zeros here. -/
def blockLoop (msg : List U8) : Nat → Nat → Vector U32 8 → Res (Vector U32 8)
  | 0, _, H => .ok H
  | n + 1, i, H => do
    let W ← schedIn msg i 16 0 (List.replicate 64 0)
    let W := schedExt 48 16 W
    let v := roundLoop W 64 0 H
    blockLoop msg n (i + 1) (addDigest v H)

/-- One output word (sha-256.cpp:139-142). -/
def swapWord (x : U32) : U32 :=
  ((x <<< 24) &&& 0xff000000) ||| ((x <<< 8) &&& 0x00ff0000) ||| ((x >>> 8) &&& 0x0000ff00) |||
    ((x >>> 24) &&& 0x000000ff)

/-- `sha256_process_message` (sha-256.cpp:47-145).  `digest`, `message` are the bytes reachable from the
pointers, `junk` the initial content of the stack array `msg[n/4]`.  `n` is an `int`: a value
beyond 2^31-1 is truncated to a negative or too small number; the model stops with undefined
behaviour there (array of negative size, or overflow in `memcpy`). -/
def processWith (grow : Nat → Bool) (junk : Nat → U8) (digest message : List U8) (size : Nat) : Res (List U8) := do
  let n := if grow size then size / 64 * 64 + 128 else size / 64 * 64 + 64
  if 2 ^ 31 ≤ n then .ub .outOfBounds
  else if message.length < size then .ub .outOfBounds
  else
    let msg ← Mem.wrs ((List.range n).map junk) 0 (message.take size)
    let msg ← padMessage msg size
    let H ← blockLoop msg (n / 64) 0 H0
    Mem.wrs digest 0 (wordsToBytesLE (H.toList.map swapWord))

/-- The copy in Hash/SHA/SHA-2/SHA-256/sha-256.cpp:51 (`(size + 1)%64 > 56`). -/
def hashCopy := processWith fun size => (size + 1) % 64 > 56

/-- The copy in Authentication/HMAC-SHA-256/sha-256.cpp:51 (`(size)%64 >= 56`). -/
def hmacCopy := processWith fun size => size % 64 ≥ 56

end CT.SHA256
