import Verif.Model.AES

/-!
# The build flags of the AES code

`-D ROUND_REDUCED` (BlockCiphers/AES/AES/AES_CFB/readme.txt:35-37, "ROUND-REDUCED VERSION (6 rounds)")
together with `-D x86_INTRINSICS` or `-D ARM_INTRINSICS`.
-/

namespace CT.AES

/-- Which of the two instruction set flags is defined; `none` is also the only choice of
BlockCiphers/AES/AES, whose code does not look at them. -/
inductive Isa where
  | none
  | x86
  | arm
deriving DecidableEq, Repr

/-- The block function of a counter mode build: `ROUND_REDUCED` stands in the `#else` branch of the
instruction set flag (AES/AES_CTR/aes_ctr.cpp:91-96; AES_x86/AES_CTR/aes_ctr.cpp:92-143;
AES_ARM/AES_CTR/aes_ctr.cpp:92-143). -/
def encFor (isa : Isa) (reduced : Bool) : List U32 → Quad → Quad :=
  match isa with
  | .none => encrypt reduced
  | .x86 => encryptX86
  | .arm => encryptArm

/-- `aes_ctr_process_packet` of a build (AES/AES_CTR/aes_ctr.cpp:127-192; AES_x86 and AES_ARM
aes_ctr.cpp:163-227). -/
def ctrFor (isa : Isa) (reduced : Bool) (cs : State) (io : Io) (size : Int) : Res (State × Io) :=
  ctrWith (ctrBlk (encFor isa reduced)) cs io size

/-- The CFB code of a build (AES/AES_CFB/aes_cfb.cpp:66-83;
AES_x86/AES_CFB_Carry-Over/aes_cfb.cpp:71-118; AES_ARM/AES_CFB_Carry-Over/aes_cfb.cpp:72-119).  Only
the x86 intrinsics leave the registers alone. -/
def cfbFor (isa : Isa) (reduced : Bool) : CfbVariant := ⟨encFor isa reduced, isa ≠ .x86⟩

end CT.AES
