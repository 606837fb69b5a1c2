import Verif.Model.SHA256

/-!
# Model of Authentication/HMAC-SHA-256/hmac.cpp and hmac.h

`junk` stands for the content of uninitialised stack and heap arrays; what a function computes may
depend on it, and the theorems quantify over it.
-/

namespace CT.HMAC
open CT.SHA256 (hmacCopy)

/-- `hmac_state` (hmac.h:32-37) without the member `key`, which is never used. -/
structure State where
  innerKey : List U8
  outerKey : List U8
  deriving DecidableEq

/-- `memcpy(dst, src, n)` with an `int` size: a negative one converts to a huge `size_t`
(hmac.cpp:39, 81). -/
def memcpyInt (dst : List U8) (i : Nat) (src : List U8) (n : Int) : Res (List U8) :=
  if n < 0 then .ub .outOfBounds
  else if src.length < n.toNat then .ub .outOfBounds
  else Mem.wrs dst i (src.take n.toNat)

/-- `hmac_load_key` (hmac.cpp:24-54). -/
def loadKey (junk : Nat → U8) (key : List U8) (keysize : Int) : Res State := do
  let localKey := (List.range 64).map junk
  let (localKey, keysize) ←
    (if keysize > 64 then do
        let hashedKey ← hmacCopy junk ((List.range 32).map junk) key keysize.toNat
        let localKey ← Mem.wrs localKey 0 (hashedKey.take 32)
        .ok (localKey, 32)
      else do
        let localKey ← memcpyInt localKey 0 key keysize
        .ok (localKey, keysize.toNat) : Res (List U8 × Nat))
  let localKey ← Mem.wrs localKey keysize (List.replicate (64 - keysize) 0)
  .ok { innerKey := localKey.map (0x36 ^^^ ·), outerKey := localKey.map (0x5c ^^^ ·) }

/-- `hmac_tag_generation` (hmac.cpp:56-85); the result is the array `tag` afterwards. -/
def tagGeneration (junk : Nat → U8) (cs : State) (tag message : List U8) (dataLength : Nat) (tagLength : Int) :
    Res (List U8) := do
  if dataLength < 1 then .ok tag
  else
    let inner := (List.range (dataLength + 64)).map junk
    let inner ← Mem.wrs inner 0 (cs.innerKey.take 64)
    if message.length < dataLength then .ub .outOfBounds
    else
      let inner ← Mem.wrs inner 64 (message.take dataLength)
      let innerHash ← hmacCopy junk ((List.range 32).map junk) inner (dataLength + 64)
      let outer := List.replicate 96 0
      let outer ← Mem.wrs outer 0 (cs.outerKey.take 64)
      let outer ← Mem.wrs outer 64 (innerHash.take 32)
      let outerHash ← hmacCopy junk ((List.range 32).map junk) outer 96
      memcpyInt tag 0 outerHash tagLength

/-- Comparison loop of `hmac_tag_validation` (hmac.cpp:95-100), `n` iterations from index `i` on. -/
def compareLoop (tag newTag : List U8) : Nat → Nat → Res Int
  | 0, _ => .ok 1
  | n + 1, i => do
    let a ← Mem.rd tag i
    let b ← Mem.rd newTag i
    if a ≠ b then .ok 0 else compareLoop tag newTag n (i + 1)

/-- `hmac_tag_validation` (hmac.cpp:87-101).  A negative `tagLength` makes the array `newTag` ill
formed. -/
def tagValidation (junk : Nat → U8) (cs : State) (tag message : List U8) (dataLength : Nat) (tagLength : Int) :
    Res Int := do
  if tagLength < 0 then .ub .outOfBounds
  else
    let newTag := (List.range tagLength.toNat).map junk
    let newTag ← tagGeneration junk cs newTag message dataLength tagLength
    compareLoop tag newTag tagLength.toNat 0

end CT.HMAC
