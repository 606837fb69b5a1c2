import Verif.Model.JoyeLibert
import Verif.Model.HC128
import Mathlib.Data.Nat.Digits.Defs

/-!
# Multi-user labeled homomorphic encryption

AsymmetricCryptography/Labeled_homomorphic_encryption/muLabeledHE/mu_labeled_he.cpp.  `he_ct` is a pair of `mpz_t`.
The linear operations read each input in the GMP call that writes the output of the same name, or
before, so results may be written over inputs.  For the second form of decryption sharing is
modelled by arguments `same…`; the output `alpha` of the products and the output `b` of encryption
are assumed not to be inputs of the same call; `Verif.Model.LHEStore` has the functions without that
assumption.  Text output is left out here; `Verif.Model.LHEOutput` adds it.  `mu_he_setup`
(mu_labeled_he.cpp:13-24) only calls `joye_libert_keygen`, which is modelled in
`Verif.Model.JoyeLibert`.
-/

namespace CT.MuLHE
open CT.Gmp

/-- `he_ct` (mu_labeled_he.h:8-12; mu_labeled_he.cpp:7-11). -/
structure HeCt where
  a : Int
  beta : Int
  deriving DecidableEq, Repr

/-- `mpz_export(keystream, &size, 1, 1, 0, 0, label)` (mu_labeled_he.cpp:68): the bytes of `|label|`, most significant
first, without leading zero bytes. -/
def exportBytes (label : Int) : List U8 :=
  ((Nat.digits 256 label.natAbs).reverse).map (BitVec.ofNat 8)

/-- `mpz_import(b, n, 1, 4, 0, 0, keystream)` (mu_labeled_he.cpp:74): `n` four-byte words in native (little-endian)
byte order, most significant word first. -/
def importWords : Nat → List U8 → Nat → Nat
  | 0, _, acc => acc
  | n + 1, bs, acc =>
    importWords n (bs.drop 4)
      (acc * 2 ^ 32 + (le32 (bs.getD 0 0) (bs.getD 1 0) (bs.getD 2 0) (bs.getD 3 0)).toNat)

/-- The label value (mu_labeled_he.cpp:64-74).  `junk` is what the memory of the array `keystream`, which
is not initialised, holds; the label overwrites its start, or more than the array if it is too long. -/
def labelValue (hc : HC128.State) (junk : List U8) (label : Int) (msgsize : Nat) :
    Res (Int × HC128.State) := do
  let bytes := exportBytes label
  if msgsize / 8 < bytes.length then .ub .outOfBounds else
  let buf := bytes ++ (junk.take (msgsize / 8)).drop bytes.length
  let (hc, io) ← HC128.processPacket hc ⟨[], buf, true⟩ (msgsize / 8)     -- 71
  return ((importWords (msgsize / 32) io.out 0 : Nat), hc)                -- 74

/-- `mu_he_encrypt` (mu_labeled_he.cpp:41-90): ciphertext, label value `b`, and the states of the cipher and of the
random number generator. -/
def heEncrypt (g : Env) (fuel : Nat) (s : g.State) (hc : HC128.State) (junk : List U8)
    (m y N label : Int) (msgsize : Nat) : Res (HeCt × Int × HC128.State × g.State) := do
  let (b, hc) ← labelValue hc junk label msgsize
  let (beta, s) ← JL.encrypt g fuel s b y N msgsize     -- 78
  let a ← Gmp.mod (m - b) (2 ^ msgsize)                 -- 87-89
  return (⟨a, beta⟩, b, hc, s)

/-- `mu_he_eval_mult` (mu_labeled_he.cpp:92-134). -/
def evalMult (g : Env) (fuel : Nat) (s : g.State) (ct1 ct2 : HeCt) (y N : Int) (msgsize : Nat) :
    Res (Int × g.State) := do
  let a1a2 ← Gmp.mod (ct1.a * ct2.a) (2 ^ msgsize)      -- 112-115
  let (alpha, s) ← JL.encrypt g fuel s a1a2 y N msgsize -- 116
  let a2beta1 ← powm ct2.beta ct1.a N                   -- 125 (named the other way round in the code)
  let a1beta2 ← powm ct1.beta ct2.a N                   -- 126
  let alpha ← Gmp.mod (alpha * a1beta2) N               -- 130-131
  let alpha ← Gmp.mod (alpha * a2beta1) N               -- 132-133
  return (alpha, s)

/-- `mu_he_eval_mult_3` (mu_labeled_he.cpp:136-197). -/
def evalMult3 (g : Env) (fuel : Nat) (s : g.State) (ct1 ct2 ct3 : HeCt) (beta12 beta13 beta23 y N : Int)
    (msgsize : Nat) : Res (Int × g.State) := do
  let a12 ← Gmp.mod (ct1.a * ct2.a) (2 ^ msgsize)       -- 161-162
  let a123 ← Gmp.mod (a12 * ct3.a) (2 ^ msgsize)        -- 163-164
  let (alpha, s) ← JL.encrypt g fuel s a123 y N msgsize -- 165
  let a1beta23 ← powm beta23 ct1.a N                    -- 167
  let a2beta13 ← powm beta13 ct2.a N                    -- 168
  let a3beta12 ← powm beta12 ct3.a N                    -- 169
  let a12beta3 ← powm ct3.beta ct1.a N                  -- 171
  let a12beta3 ← powm a12beta3 ct2.a N                  -- 172
  let a13beta2 ← powm ct2.beta ct1.a N                  -- 174
  let a13beta2 ← powm a13beta2 ct3.a N                  -- 175
  let a23beta1 ← powm ct1.beta ct2.a N                  -- 177
  let a23beta1 ← powm a23beta1 ct3.a N                  -- 178
  let alpha ← Gmp.mod (alpha * a1beta23) N              -- 180-181
  let alpha ← Gmp.mod (alpha * a2beta13) N              -- 183-184
  let alpha ← Gmp.mod (alpha * a3beta12) N              -- 186-187
  let alpha ← Gmp.mod (alpha * a12beta3) N              -- 189-190
  let alpha ← Gmp.mod (alpha * a13beta2) N              -- 192-193
  let alpha ← Gmp.mod (alpha * a23beta1) N              -- 195-196
  return (alpha, s)

/-- `mu_he_eval_add` on `he_ct` (mu_labeled_he.cpp:199-219). -/
def evalAdd (c1 c2 : HeCt) (N : Int) (msgsize : Nat) : Res HeCt := do
  let a ← Gmp.mod (c1.a + c2.a) (2 ^ msgsize)           -- 213-214
  let beta ← Gmp.mod (c1.beta * c2.beta) N              -- 217-218
  return ⟨a, beta⟩

/-- `mu_he_eval_add` on multiplication ciphertexts (mu_labeled_he.cpp:221-231). -/
def evalAddA (c1 c2 N : Int) : Res Int := Gmp.mod (c1 * c2) N

/-- `mu_he_eval_sub` on `he_ct` (mu_labeled_he.cpp:233-267).  The result of `mpz_invert` is used without a check;
without an inverse it is undefined. -/
def evalSub (c1 c2 : HeCt) (N : Int) (msgsize : Nat) : Res HeCt := do
  let a_inv ← Gmp.mod (-c2.a) (2 ^ msgsize)             -- 254-255
  let beta_inv ← (match invert c2.beta N with           -- 258
    | some v => .ok v
    | none => .ub .contract : Res Int)
  let a ← Gmp.mod (c1.a + a_inv) (2 ^ msgsize)          -- 261-262
  let beta ← Gmp.mod (c1.beta * beta_inv) N             -- 265-266
  return ⟨a, beta⟩

/-- `mu_he_eval_sub` on multiplication ciphertexts (mu_labeled_he.cpp:269-282). -/
def evalSubA (c1 c2 N : Int) : Res Int := do
  let c2_inv ← (match invert c2 N with                  -- 279
    | some v => .ok v
    | none => .ub .contract : Res Int)
  Gmp.mod (c1 * c2_inv) N                               -- 280-281

/-- `mu_he_eval_cmult` on `he_ct` (mu_labeled_he.cpp:284-303). -/
def evalCmult (c1 : HeCt) (t N : Int) (msgsize : Nat) : Res HeCt := do
  let a ← Gmp.mod (c1.a * t) (2 ^ msgsize)              -- 299-300
  let beta ← powm c1.beta t N                           -- 302
  return ⟨a, beta⟩

/-- `mu_he_eval_cmult` on multiplication ciphertexts (mu_labeled_he.cpp:305-315). -/
def evalCmultA (c t N : Int) : Res Int := powm c t N

/-- `mu_he_decrypt` on `he_ct` (mu_labeled_he.cpp:317-345). -/
def heDecrypt (c : HeCt) (p y : Int) (msgsize : Nat) : Res Int := do
  let b ← JL.decrypt false c.beta p y msgsize           -- 342
  Gmp.mod (c.a + b) (2 ^ msgsize)                       -- 343-344

/-- `mu_he_decrypt` on multiplication ciphertexts (mu_labeled_he.cpp:347-365).  `sameC`, `sameB`: the result `m`
is the same variable as `c`, as `b`. -/
def heDecryptA (sameC sameB : Bool) (c b p y : Int) (msgsize : Nat) : Res Int := do
  let m ← JL.decrypt sameC c p y msgsize                -- 362
  let b := if sameB then m else b
  Gmp.mod (m + b) (2 ^ msgsize)                         -- 363-364

/-- `mu_he_keygen` (mu_labeled_he.cpp:26-39): the user's public and secret key. -/
def muKeygen (g : Env) (fuel : Nat) (s : g.State) (N y : Int) (msgsize : Nat) :
    Res ((Int × Int) × g.State) := do
  let r := g.urandomb s 128                             -- 35
  let (upk, s) ← JL.encrypt g fuel r.2 r.1 y N msgsize  -- 38
  return ((upk, r.1), s)

end CT.MuLHE
