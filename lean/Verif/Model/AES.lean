import Verif.Basic.Blocks
import Verif.Model.AESTables
import Verif.Spec.AES

/-!
# Model of the AES block function (BlockCiphers/AES)

Line numbers are those of BlockCiphers/AES/AES/AES_CTR/{aes_ctr.h, aes_ctr.cpp} unless another file
is named.  The headers of the six copies are the same up to `#include`s; the key expansions are the
same function.  The build flag `ROUND_REDUCED` is the parameter `reduced`; the flags
`x86_INTRINSICS` and `ARM_INTRINSICS` select `encryptX86` and `encryptArm`.

`Sbox[tmp] << 24` shifts a promoted `int` into its sign bit; the value converts to the unsigned
word with the same bits (C++11 after CWG 1457), which is what the model computes.
-/

namespace CT.AES

/-- `T[b]` for a table of 256 words (tables.h:61-326) and a byte index. -/
def tab (t : List U32) (b : U8) : U32 := t.getD b.toNat 0

/-- `(uint32_t) Sbox[b]` (tables.h:26-59). -/
def sboxW (b : U8) : U32 := (sboxTab.getD b.toNat 0).setWidth 32

/-- `(uint8_t)(w >> n)` (aes_ctr.h:54-166). -/
def cut (w : U32) (n : Nat) : U8 := (w >>> n).setWidth 8

/-- `initial_round` (aes_ctr.h:44-52); the four registers and the four round key words are the two
arguments. -/
def initialRound (s k : Quad) : Quad := ⟨s.w0 ^^^ k.w0, s.w1 ^^^ k.w1, s.w2 ^^^ k.w2, s.w3 ^^^ k.w3⟩

/-- One output word of `round` (aes_ctr.h:54-108). -/
def roundWord (a b c d k : U32) : U32 :=
  tab t0 (cut a 0) ^^^ tab t1 (cut b 8) ^^^ tab t2 (cut c 16) ^^^ tab t3 (cut d 24) ^^^ k

/-- `round` (aes_ctr.h:54-108). -/
def round (s k : Quad) : Quad :=
  ⟨roundWord s.w0 s.w1 s.w2 s.w3 k.w0, roundWord s.w1 s.w2 s.w3 s.w0 k.w1,
   roundWord s.w2 s.w3 s.w0 s.w1 k.w2, roundWord s.w3 s.w0 s.w1 s.w2 k.w3⟩

/-- One output word of `final_round` (aes_ctr.h:110-166). -/
def finalWord (a b c d k : U32) : U32 :=
  sboxW (cut a 0) ^^^ (sboxW (cut b 8) <<< 8) ^^^ (sboxW (cut c 16) <<< 16) ^^^
    (sboxW (cut d 24) <<< 24) ^^^ k

/-- `final_round` (aes_ctr.h:110-166). -/
def finalRound (s k : Quad) : Quad :=
  ⟨finalWord s.w0 s.w1 s.w2 s.w3 k.w0, finalWord s.w1 s.w2 s.w3 s.w0 k.w1,
   finalWord s.w2 s.w3 s.w0 s.w1 k.w2, finalWord s.w3 s.w0 s.w1 s.w2 k.w3⟩

/-- `RotByte` (aes_ctr.cpp:19-23). -/
def rotByte (w : U32) : U32 := (w <<< 24) ||| (w >>> 8)

/-- `SubByte` (aes_ctr.cpp:25-33). -/
def subByte (w : U32) : U32 :=
  let ret := sboxW (cut w 0)
  let ret := ret ^^^ (sboxW (cut w 8) <<< 8)
  let ret := ret ^^^ (sboxW (cut w 16) <<< 16)
  ret ^^^ (sboxW (cut w 24) <<< 24)

/-- `key_schedule[i]` for `i < 4` (aes_ctr.cpp:41-46); `key` is the 16 bytes read. -/
def keyWord (key : List U8) (i : Nat) : U32 :=
  (key.getD (4 * i) 0).setWidth 32 ||| ((key.getD (4 * i + 1) 0).setWidth 32 <<< 8) |||
    ((key.getD (4 * i + 2) 0).setWidth 32 <<< 16) ||| ((key.getD (4 * i + 3) 0).setWidth 32 <<< 24)

/-- The loop of aes_ctr.cpp:48-57, `n` more words starting with word `i`. -/
def expandLoop : Nat → Nat → List U32 → List U32
  | 0, _, ks => ks
  | n + 1, i, ks =>
    let temp := ks.getD (i - 1) 0
    let temp := if i % 4 = 0 then subByte (rotByte temp) ^^^ (rconTab.getD (i / 4) 0).setWidth 32 else temp
    expandLoop n (i + 1) (ks ++ [ks.getD (i - 4) 0 ^^^ temp])

/-- `aes_key_expansion` (aes_ctr.cpp:35-58; AES_CFB/aes_cfb.cpp:29-50;
AES_x86: aes_ctr.cpp:40-63, aes_cfb.cpp:34-55; AES_ARM: aes_ctr.cpp:41-64, aes_cfb.cpp:35-56). -/
def keyExpansion (key : List U8) : List U32 :=
  expandLoop 40 4 [keyWord key 0, keyWord key 1, keyWord key 2, keyWord key 3]

/-- The four words `rk[i..i+3]` (aes_ctr.cpp:90-104). -/
def rkAt (rk : List U32) (i : Nat) : Quad :=
  ⟨rk.getD i 0, rk.getD (i + 1) 0, rk.getD (i + 2) 0, rk.getD (i + 3) 0⟩

/-- The block function of the portable code: what `aes_encrypt` (aes_ctr.cpp:90-104,
AES_CFB/aes_cfb.cpp:68-82) leaves in `keystream`, from the registers `s`. -/
def encrypt (reduced : Bool) (rk : List U32) (s : Quad) : Quad :=
  let s := initialRound s (rkAt rk 0)
  let s := if reduced then s else
    let s := round s (rkAt rk 4)
    let s := round s (rkAt rk 8)
    let s := round s (rkAt rk 12)
    round s (rkAt rk 16)
  let s := round s (rkAt rk 20)
  let s := round s (rkAt rk 24)
  let s := round s (rkAt rk 28)
  let s := round s (rkAt rk 32)
  let s := round s (rkAt rk 36)
  finalRound s (rkAt rk 40)

/-! ### The instruction set variants

A 128 bit register loaded from four words holds their memory image, which as in FIPS 197 is read as
the state array.  The instructions are taken from the manuals, which define them by the
transformations of FIPS 197. -/

/-- The state array in the memory image of four words: `s[r, c]` is byte `r` of word `c`
(for the instructions in AES_x86/AES_CTR/aes_ctr.cpp:93-118 and AES_ARM/AES_CTR/aes_ctr.cpp:93-118). -/
def toState (q : Quad) : Spec.AES.State := fun r c =>
  match c with
  | 0 => byteN q.w0 r
  | 1 => byteN q.w1 r
  | 2 => byteN q.w2 r
  | 3 => byteN q.w3 r

/-- Column `c` as a word in memory (AES_x86 and AES_ARM aes_ctr.cpp:93-118). -/
def colWord (s : Spec.AES.State) (c : Fin 4) : U32 := le32 (s 0 c) (s 1 c) (s 2 c) (s 3 c)

/-- The four words whose memory image is the state array (AES_x86 and AES_ARM aes_ctr.cpp:93-118). -/
def ofState (s : Spec.AES.State) : Quad := ⟨colWord s 0, colWord s 1, colWord s 2, colWord s 3⟩

open Spec.AES (subBytes shiftRows mixColumns addRoundKey)

/-- `_mm_xor_si128` (AES_x86 aes_ctr.cpp:106), `veorq_u8` (AES_ARM aes_ctr.cpp:116). -/
def xor128 (a b : Quad) : Quad := ofState (addRoundKey (toState a) (toState b))

/-- `_mm_aesenc_si128` (Intel SDM, AESENC: ShiftRows, SubBytes, MixColumns, xor with the key;
AES_x86 aes_ctr.cpp:107-115). -/
def aesenc (s k : Quad) : Quad :=
  ofState (addRoundKey (mixColumns (subBytes (shiftRows (toState s)))) (toState k))

/-- `_mm_aesenclast_si128` (Intel SDM, AESENCLAST: ShiftRows, SubBytes, xor with the key;
AES_x86 aes_ctr.cpp:116). -/
def aesenclast (s k : Quad) : Quad := ofState (addRoundKey (subBytes (shiftRows (toState s))) (toState k))

/-- `vaeseq_u8` (Arm ARM, AESE: xor with the key, ShiftRows, SubBytes; AES_ARM aes_ctr.cpp:106-115). -/
def aese (s k : Quad) : Quad := ofState (subBytes (shiftRows (addRoundKey (toState s) (toState k))))

/-- `vaesmcq_u8` (Arm ARM, AESMC: MixColumns; AES_ARM aes_ctr.cpp:106-114). -/
def aesmc (s : Quad) : Quad := ofState (mixColumns (toState s))

/-- `keystream` after `aes_encrypt` with `x86_INTRINSICS` (AES_x86/AES_CTR/aes_ctr.cpp:93-118,
AES_x86/AES_CFB_Carry-Over/aes_cfb.cpp:74-99).  `ROUND_REDUCED` has no effect here. -/
def encryptX86 (rk : List U32) (s : Quad) : Quad :=
  let s := xor128 s (rkAt rk 0)
  let s := aesenc s (rkAt rk 4)
  let s := aesenc s (rkAt rk 8)
  let s := aesenc s (rkAt rk 12)
  let s := aesenc s (rkAt rk 16)
  let s := aesenc s (rkAt rk 20)
  let s := aesenc s (rkAt rk 24)
  let s := aesenc s (rkAt rk 28)
  let s := aesenc s (rkAt rk 32)
  let s := aesenc s (rkAt rk 36)
  aesenclast s (rkAt rk 40)

/-- `keystream` after `aes_encrypt` with `ARM_INTRINSICS` (AES_ARM/AES_CTR/aes_ctr.cpp:93-118,
AES_ARM/AES_CFB_Carry-Over/aes_cfb.cpp:75-100). -/
def encryptArm (rk : List U32) (s : Quad) : Quad :=
  let s := aesmc (aese s (rkAt rk 0))
  let s := aesmc (aese s (rkAt rk 4))
  let s := aesmc (aese s (rkAt rk 8))
  let s := aesmc (aese s (rkAt rk 12))
  let s := aesmc (aese s (rkAt rk 16))
  let s := aesmc (aese s (rkAt rk 20))
  let s := aesmc (aese s (rkAt rk 24))
  let s := aesmc (aese s (rkAt rk 28))
  let s := aesmc (aese s (rkAt rk 32))
  let s := aese s (rkAt rk 36)
  xor128 s (rkAt rk 40)

/-! ### State -/

/-- `struct aes_state` (aes_ctr.h:17-26): the registers `reg1 .. reg4` and the round keys. -/
structure State where
  reg : Quad
  rk : List U32
  deriving DecidableEq, Repr

/-- The four words at the start of a byte string (`uint32_t *` reads, as in aes_ctr.cpp:60-70). -/
def quadOf (bs : List U8) : Quad :=
  let w := fun i => le32 (bs.getD (4 * i) 0) (bs.getD (4 * i + 1) 0) (bs.getD (4 * i + 2) 0) (bs.getD (4 * i + 3) 0)
  ⟨w 0, w 1, w 2, w 3⟩

/-! ### Counter mode -/

/-- `aes_load_key` (aes_ctr.cpp:72-75). -/
def loadKey (cs : State) (key : List U8) : State := { cs with rk := keyExpansion key }

/-- `aes_load_iv` (aes_ctr.cpp:60-70); `nonce` is the 12 bytes read. -/
def ctrLoadIv (cs : State) (nonce : List U8) : State :=
  let q := quadOf nonce
  { cs with reg := ⟨q.w0, q.w1, q.w2, le32 0x00 0x00 0x00 0x01⟩ }

/-- The byte swap written out twice in `state_update` (aes_ctr.cpp:114-117, 121-124). -/
def swap32 (x : U32) : U32 :=
  ((x >>> 24) &&& 0x000000ff) ||| ((x >>> 8) &&& 0x0000ff00) ||| ((x <<< 8) &&& 0x00ff0000) |||
    ((x <<< 24) &&& 0xff000000)

/-- `state_update` (aes_ctr.cpp:110-125; AES_x86 and AES_ARM aes_ctr.cpp:146-161). -/
def stateUpdate (cs : State) : State :=
  { cs with reg := { cs.reg with w3 := swap32 (swap32 cs.reg.w3 + 1) } }

/-- The byte loop of aes_ctr.cpp:180-185 (and aes_cfb.cpp:302-307): `n` bytes left, `l = -t`, so
the shift count is `24 + 8 t`; shifting a 32 bit value by 32 or more is undefined. -/
def tailBytes (k : U32) : Nat → Nat → Nat → Io → Res Io
  | 0, _, _, io => .ok io
  | n + 1, t, off, io =>
    let shift := 24 + 8 * t
    if 32 ≤ shift then .ub .badShift else do
      let io ← io.xor8 off (cut k shift)
      tailBytes k n (t + 1) (off + 1) io

/-- The words and then the bytes of an incomplete block (aes_ctr.cpp:168-186, aes_cfb.cpp:290-308):
`n < 16` bytes at offset `off`, `ws` the keystream words in the order in which `k` visits them. -/
def tailLoops (ws : List U32) (n off : Nat) (io : Io) : Res Io := do
  let (m, k, off, io) ← Io.wordLoop ws 16 n 0 off io
  if m > 0 then
    let w ← ksGet ws k
    tailBytes w m 0 off io
  else return io

/-- `aes_ctr_process_packet` (aes_ctr.cpp:127-192; AES_x86 and AES_ARM aes_ctr.cpp:163-227) for a
block function `blk` that does `aes_encrypt` and then `state_update`, on any state type.  `size` is
an `int`; the loop condition `size > 0` makes a negative size an empty packet.  The copy of the
uninitialised pointer `w_state_ptr` into the unused `tmp_ptr` (line 165) is left out. -/
def ctrWith {σ : Type} (blk : σ → σ × Quad) (cs : σ) (io : Io) (size : Int) : Res (σ × Io) := do
  let (left, off, cs, io) ← Io.blockLoop blk (size.toNat + 1) size.toNat 0 cs io
  if left > 0 then
    let r := blk cs
    let io ← tailLoops r.2.toList left off io
    return (r.1, io)
  else return (cs, io)

/-- `aes_encrypt` (which restores the registers, aes_ctr.cpp:87-88, 107) and `state_update`. -/
def ctrBlk (enc : List U32 → Quad → Quad) (cs : State) : State × Quad :=
  (stateUpdate cs, enc cs.rk cs.reg)

/-- The portable variant (BlockCiphers/AES/AES/AES_CTR/aes_ctr.cpp:127-192). -/
def ctrPacket (cs : State) (io : Io) (size : Int) : Res (State × Io) := ctrWith (ctrBlk (encrypt false)) cs io size
/-- The x86 variant (BlockCiphers/AES/AES_x86/AES_CTR/aes_ctr.cpp:163-227). -/
def ctrPacketX86 (cs : State) (io : Io) (size : Int) : Res (State × Io) := ctrWith (ctrBlk encryptX86) cs io size
/-- The ARM variant (BlockCiphers/AES/AES_ARM/AES_CTR/aes_ctr.cpp:163-227). -/
def ctrPacketArm (cs : State) (io : Io) (size : Int) : Res (State × Io) := ctrWith (ctrBlk encryptArm) cs io size

/-! ### Cipher feedback mode -/

/-- `aes_cfb_initialize` and its `aes_load_iv` (AES_CFB/aes_cfb.cpp:52-64). -/
def cfbInit (key iv : List U8) : State := { reg := quadOf iv, rk := keyExpansion key }

/-- A build of the CFB code: its block function, and whether `aes_encrypt` leaves the output block in
the registers (portable: aes_cfb.cpp:68-82 work on the registers; ARM: aes_cfb.cpp:101; x86 with
intrinsics: the registers are not written). -/
structure CfbVariant where
  enc : List U32 → Quad → Quad
  writeBack : Bool

/-- BlockCiphers/AES/AES/AES_CFB/aes_cfb.cpp:66-83 (and the two others without intrinsics). -/
def portable : CfbVariant := ⟨encrypt false, true⟩
/-- BlockCiphers/AES/AES_x86/AES_CFB_Carry-Over/aes_cfb.cpp:71-118 with `x86_INTRINSICS`. -/
def x86 : CfbVariant := ⟨encryptX86, false⟩
/-- BlockCiphers/AES/AES_ARM/AES_CFB_Carry-Over/aes_cfb.cpp:72-119 with `ARM_INTRINSICS`. -/
def arm : CfbVariant := ⟨encryptArm, true⟩

/-- `aes_encrypt` of the CFB code (AES_CFB/aes_cfb.cpp:66-83): new state and `keystream`. -/
def cfbEncrypt (v : CfbVariant) (cs : State) : State × Quad :=
  let ks := v.enc cs.rk cs.reg
  (if v.writeBack then { cs with reg := ks } else cs, ks)

/-- Read through `w_state_ptr` / `tmp_ptr`: the input buffer in decryption mode (`mode ≠ 0`), the
output buffer in encryption mode (aes_cfb.cpp:253-266). -/
def ctRd8 (mode : Bool) (io : Io) (i : Nat) : Res U8 := if mode then io.rd8 i else io.rdOut8 i
def ctRd32 (mode : Bool) (io : Io) (i : Nat) : Res U32 := if mode then io.rd32 i else io.rdOut32 i

/-- `full_state_update` (aes_cfb.cpp:85-91); `rd i` is the word at byte offset `i` of `ctxt`. -/
def fullStateUpdate (rd : Nat → Res U32) : Res Quad := do
  let a ← rd 0
  let b ← rd 4
  let c ← rd 8
  let d ← rd 12
  return ⟨a, b, c, d⟩

/-- `partial_state_update` (aes_cfb.cpp:93-240); `rd8` and `rd32` read at byte offsets of `ctxt`,
which is a `uint8_t*`: `ctxt++` advances one byte (lines 108, 114, 115). -/
def partialStateUpdate (rd8 : Nat → Res U8) (rd32 : Nat → Res U32) (q : Quad) (size : Nat) : Res Quad :=
  let one (r : U32) : Res U32 := do                       -- (reg << 8) ^ *ctxt
    let c ← rd8 0
    return (r <<< 8) ^^^ c.setWidth 32
  let two (r : U32) : Res U32 := do                       -- two bytes
    let c0 ← rd8 0
    let c1 ← rd8 1
    return (r <<< 16) ^^^ (c0.setWidth 32 <<< 8) ^^^ c1.setWidth 32
  let three (r : U32) : Res U32 := do                     -- three bytes
    let c0 ← rd8 0
    let c1 ← rd8 1
    let c2 ← rd8 2
    return (r <<< 24) ^^^ (c0.setWidth 32 <<< 16) ^^^ (c1.setWidth 32 <<< 8) ^^^ c2.setWidth 32
  let sh8 (a b : U32) : U32 := (a <<< 8) ^^^ (b >>> 24)
  let sh16 (a b : U32) : U32 := (a <<< 16) ^^^ (b >>> 16)
  let sh24 (a b : U32) : U32 := (a <<< 24) ^^^ (b >>> 8)
  if size % 4 = 0 then
    if size = 4 then do                                    -- 97-103
      return ⟨q.w1, q.w2, q.w3, ← rd32 0⟩
    else if size = 8 then do                               -- 104-110
      return ⟨q.w2, q.w3, ← rd32 0, ← rd32 1⟩
    else do                                                -- 111-117
      return ⟨q.w3, ← rd32 0, ← rd32 1, ← rd32 2⟩
  else if size % 4 = 1 then
    if size = 1 then do                                    -- 121-129
      return ⟨sh8 q.w0 q.w1, sh8 q.w1 q.w2, sh8 q.w2 q.w3, ← one q.w3⟩
    else if size = 5 then do                               -- 130-137
      return ⟨sh8 q.w1 q.w2, sh8 q.w2 q.w3, ← one q.w3, ← rd32 1⟩
    else if size = 9 then do                               -- 138-145
      return ⟨sh8 q.w2 q.w3, ← one q.w3, ← rd32 1, ← rd32 5⟩
    else if size = 13 then do                              -- 146-154
      return ⟨← one q.w3, ← rd32 1, ← rd32 5, ← rd32 9⟩
    else .ok q
  else if size % 4 = 2 then
    if size = 2 then do                                    -- 158-166
      return ⟨sh16 q.w0 q.w1, sh16 q.w1 q.w2, sh16 q.w2 q.w3, ← two q.w3⟩
    else if size = 6 then do                               -- 167-175
      return ⟨sh16 q.w1 q.w2, sh16 q.w2 q.w3, ← two q.w3, ← rd32 2⟩
    else if size = 10 then do                              -- 176-184
      return ⟨sh16 q.w2 q.w3, ← two q.w3, ← rd32 2, ← rd32 6⟩
    else if size = 14 then do                              -- 185-194
      return ⟨← two q.w3, ← rd32 2, ← rd32 6, ← rd32 10⟩
    else .ok q
  else
    if size = 3 then do                                    -- 198-206
      return ⟨sh24 q.w0 q.w1, sh24 q.w1 q.w2, sh24 q.w2 q.w3, ← three q.w3⟩
    else if size = 7 then do                               -- 207-216 (line 211 uses reg3)
      return ⟨sh24 q.w1 q.w2, sh24 q.w2 q.w3, ← three q.w2, ← rd32 3⟩
    else if size = 11 then do                              -- 217-226
      return ⟨sh24 q.w2 q.w3, ← three q.w3, ← rd32 3, ← rd32 7⟩
    else if size = 15 then do                              -- 227-237
      return ⟨← three q.w3, ← rd32 3, ← rd32 7, ← rd32 11⟩
    else .ok q

/-- `aes_cfb_process_packet` (aes_cfb.cpp:242-314; AES_x86: 277-349; AES_ARM: 278-350), the loop
with `size` bytes left at byte offset `off`; `mode` is `mode != 0`.  In the tail the words are taken
in the order `keystream[3], keystream[2], keystream[1]` (`k--`). -/
def cfbLoop (v : CfbVariant) (mode : Bool) : Nat → Nat → Nat → State → Io → Res (State × Io)
  | 0, _, _, _, _ => .ub .diverges
  | fuel + 1, size, off, cs, io =>
    if size > 0 then
      let r := cfbEncrypt v cs
      let cs := r.1
      let ks := r.2
      if size ≥ 16 then do
        let io ← io.xor32 off ks.w0
        let io ← io.xor32 (off + 4) ks.w1
        let io ← io.xor32 (off + 8) ks.w2
        let io ← io.xor32 (off + 12) ks.w3
        let reg ← fullStateUpdate (fun i => ctRd32 mode io (off + i))
        cfbLoop v mode fuel (size - 16) (off + 16) { cs with reg := reg } io
      else do
        let io ← tailLoops [ks.w3, ks.w2, ks.w1, ks.w0] size off io
        let reg ← partialStateUpdate (fun i => ctRd8 mode io (off + i)) (fun i => ctRd32 mode io (off + i)) cs.reg size
        .ok ({ cs with reg := reg }, io)
    else .ok (cs, io)

/-- `aes_cfb_process_packet` (aes_cfb.cpp:242-314); a negative `int size` is an empty packet. -/
def cfbPacket (v : CfbVariant) (mode : Bool) (cs : State) (io : Io) (size : Int) : Res (State × Io) :=
  cfbLoop v mode (size.toNat + 1) size.toNat 0 cs io

end CT.AES
