import Verif.Model.JoyeLibert
import Verif.Model.HC128
import Mathlib.Data.Nat.Digits.Defs

/-!
# Labeled homomorphic encryption

AsymmetricCryptography/Labeled_homomorphic_encryption/LabeledHE/labeled_he.cpp.  `he_ct` is a pair of `mpz_t`.
The linear operations read each input in the GMP call that writes the output of the same name, or
before, so results may be written over inputs.  For the second form of decryption sharing is
modelled by arguments `same…`; the output `alpha` of the products and the output `b` of encryption
are assumed not to be inputs of the same call; `Verif.Model.LHEStore` has the functions without that
assumption.  Text output is left out here; `Verif.Model.LHEOutput` adds it.  `he_keygen` (labeled_he.cpp:12-30) only calls
`joye_libert_keygen`, which is modelled in `Verif.Model.JoyeLibert`.
-/

namespace CT.LHE
open CT.Gmp

/-- `he_ct` (labeled_he.h:8-12; labeled_he.cpp:6-10). -/
structure HeCt where
  a : Int
  beta : Int
  deriving DecidableEq, Repr

/-- `mpz_export(keystream, &size, 1, 1, 0, 0, label)` (labeled_he.cpp:60): the bytes of `|label|`, most significant
first, without leading zero bytes. -/
def exportBytes (label : Int) : List U8 :=
  ((Nat.digits 256 label.natAbs).reverse).map (BitVec.ofNat 8)

/-- `mpz_import(b, n, 1, 4, 0, 0, keystream)` (labeled_he.cpp:66): `n` four-byte words in native (little-endian)
byte order, most significant word first. -/
def importWords : Nat → List U8 → Nat → Nat
  | 0, _, acc => acc
  | n + 1, bs, acc =>
    importWords n (bs.drop 4)
      (acc * 2 ^ 32 + (le32 (bs.getD 0 0) (bs.getD 1 0) (bs.getD 2 0) (bs.getD 3 0)).toNat)

/-- The label value (labeled_he.cpp:56-66).  `junk` is what the memory of the array `keystream`, which
is not initialised, holds; the label overwrites its start, or more than the array if it is too long. -/
def labelValue (hc : HC128.State) (junk : List U8) (label : Int) (msgsize : Nat) :
    Res (Int × HC128.State) := do
  let bytes := exportBytes label
  if msgsize / 8 < bytes.length then .ub .outOfBounds else
  let buf := bytes ++ (junk.take (msgsize / 8)).drop bytes.length
  let (hc, io) ← HC128.processPacket hc ⟨[], buf, true⟩ (msgsize / 8)     -- 63
  return ((importWords (msgsize / 32) io.out 0 : Nat), hc)                -- 66

/-- `he_encrypt` (labeled_he.cpp:32-82): ciphertext, label value `b`, and the states of the cipher and of the
random number generator. -/
def heEncrypt (g : Env) (fuel : Nat) (s : g.State) (hc : HC128.State) (junk : List U8)
    (m y N label : Int) (msgsize : Nat) : Res (HeCt × Int × HC128.State × g.State) := do
  let (b, hc) ← labelValue hc junk label msgsize
  let (beta, s) ← JL.encrypt g fuel s b y N msgsize     -- 70
  let a ← Gmp.mod (m - b) (2 ^ msgsize)                 -- 79-81
  return (⟨a, beta⟩, b, hc, s)

/-- `he_eval_mult` (labeled_he.cpp:84-126). -/
def evalMult (g : Env) (fuel : Nat) (s : g.State) (ct1 ct2 : HeCt) (y N : Int) (msgsize : Nat) :
    Res (Int × g.State) := do
  let a1a2 ← Gmp.mod (ct1.a * ct2.a) (2 ^ msgsize)      -- 104-107
  let (alpha, s) ← JL.encrypt g fuel s a1a2 y N msgsize -- 108
  let a2beta1 ← powm ct2.beta ct1.a N                   -- 117 (named the other way round in the code)
  let a1beta2 ← powm ct1.beta ct2.a N                   -- 118
  let alpha ← Gmp.mod (alpha * a1beta2) N               -- 122-123
  let alpha ← Gmp.mod (alpha * a2beta1) N               -- 124-125
  return (alpha, s)

/-- `he_eval_mult_3` (labeled_he.cpp:128-189). -/
def evalMult3 (g : Env) (fuel : Nat) (s : g.State) (ct1 ct2 ct3 : HeCt) (beta12 beta13 beta23 y N : Int)
    (msgsize : Nat) : Res (Int × g.State) := do
  let a12 ← Gmp.mod (ct1.a * ct2.a) (2 ^ msgsize)       -- 153-154
  let a123 ← Gmp.mod (a12 * ct3.a) (2 ^ msgsize)        -- 155-156
  let (alpha, s) ← JL.encrypt g fuel s a123 y N msgsize -- 157
  let a1beta23 ← powm beta23 ct1.a N                    -- 159
  let a2beta13 ← powm beta13 ct2.a N                    -- 160
  let a3beta12 ← powm beta12 ct3.a N                    -- 161
  let a12beta3 ← powm ct3.beta ct1.a N                  -- 163
  let a12beta3 ← powm a12beta3 ct2.a N                  -- 164
  let a13beta2 ← powm ct2.beta ct1.a N                  -- 166
  let a13beta2 ← powm a13beta2 ct3.a N                  -- 167
  let a23beta1 ← powm ct1.beta ct2.a N                  -- 169
  let a23beta1 ← powm a23beta1 ct3.a N                  -- 170
  let alpha ← Gmp.mod (alpha * a1beta23) N              -- 172-173
  let alpha ← Gmp.mod (alpha * a2beta13) N              -- 175-176
  let alpha ← Gmp.mod (alpha * a3beta12) N              -- 178-179
  let alpha ← Gmp.mod (alpha * a12beta3) N              -- 181-182
  let alpha ← Gmp.mod (alpha * a13beta2) N              -- 184-185
  let alpha ← Gmp.mod (alpha * a23beta1) N              -- 187-188
  return (alpha, s)

/-- `he_eval_add` on `he_ct` (labeled_he.cpp:191-211). -/
def evalAdd (c1 c2 : HeCt) (N : Int) (msgsize : Nat) : Res HeCt := do
  let a ← Gmp.mod (c1.a + c2.a) (2 ^ msgsize)           -- 205-206
  let beta ← Gmp.mod (c1.beta * c2.beta) N              -- 209-210
  return ⟨a, beta⟩

/-- `he_eval_add` on multiplication ciphertexts (labeled_he.cpp:213-223). -/
def evalAddA (c1 c2 N : Int) : Res Int := Gmp.mod (c1 * c2) N

/-- `he_eval_sub` on `he_ct` (labeled_he.cpp:225-259).  The result of `mpz_invert` is used without a check;
without an inverse it is undefined. -/
def evalSub (c1 c2 : HeCt) (N : Int) (msgsize : Nat) : Res HeCt := do
  let a_inv ← Gmp.mod (-c2.a) (2 ^ msgsize)             -- 246-247
  let beta_inv ← (match invert c2.beta N with           -- 250
    | some v => .ok v
    | none => .ub .contract : Res Int)
  let a ← Gmp.mod (c1.a + a_inv) (2 ^ msgsize)          -- 253-254
  let beta ← Gmp.mod (c1.beta * beta_inv) N             -- 257-258
  return ⟨a, beta⟩

/-- `he_eval_sub` on multiplication ciphertexts (labeled_he.cpp:261-274). -/
def evalSubA (c1 c2 N : Int) : Res Int := do
  let c2_inv ← (match invert c2 N with                  -- 271
    | some v => .ok v
    | none => .ub .contract : Res Int)
  Gmp.mod (c1 * c2_inv) N                               -- 272-273

/-- `he_eval_cmult` on `he_ct` (labeled_he.cpp:276-295). -/
def evalCmult (c1 : HeCt) (t N : Int) (msgsize : Nat) : Res HeCt := do
  let a ← Gmp.mod (c1.a * t) (2 ^ msgsize)              -- 291-292
  let beta ← powm c1.beta t N                           -- 294
  return ⟨a, beta⟩

/-- `he_eval_cmult` on multiplication ciphertexts (labeled_he.cpp:297-307). -/
def evalCmultA (c t N : Int) : Res Int := powm c t N

/-- `he_decrypt` on `he_ct` (labeled_he.cpp:309-337). -/
def heDecrypt (c : HeCt) (p y : Int) (msgsize : Nat) : Res Int := do
  let b ← JL.decrypt false c.beta p y msgsize           -- 334
  Gmp.mod (c.a + b) (2 ^ msgsize)                       -- 335-336

/-- `he_decrypt` on multiplication ciphertexts (labeled_he.cpp:339-357).  `sameC`, `sameB`: the result `m`
is the same variable as `c`, as `b`. -/
def heDecryptA (sameC sameB : Bool) (c b p y : Int) (msgsize : Nat) : Res Int := do
  let m ← JL.decrypt sameC c p y msgsize                -- 354
  let b := if sameB then m else b
  Gmp.mod (m + b) (2 ^ msgsize)                         -- 355-356

end CT.LHE
