import Verif.Model.LabeledHE

/-!
# Labeled homomorphic encryption with variables

`Verif.Model.LabeledHE` and `Verif.Model.MuLabeledHE` take and give values.  Here the same functions
take and change variables, so that one variable can be passed for several parameters: every GMP call
reads its operands from the store and writes its result to the store at once, in the order of the
code.  Local variables of the functions cannot be shared and stay values.  labeled_he.cpp and
mu_labeled_he.cpp have the same text for these functions up to the prefix `mu_`; the lines cited are
of labeled_he.cpp and, in brackets, of mu_labeled_he.cpp.
-/

namespace CT.LHEStore
open CT.Gmp

/-- The `mpz_t` variables of a program: the members `a` and `beta` of the `he_ct` object number `v`
(labeled_he.h:8-12), and the other ones. -/
inductive Addr where
  | ctA (v : Nat)
  | ctBeta (v : Nat)
  | num (v : Nat)
  deriving DecidableEq, Repr

/-- What the variables (labeled_he.h:8-12 and the `mpz_t` of the caller) hold. -/
abbrev Store := Addr → Int

/-- Writing a variable, the effect of each GMP call in labeled_he.cpp:32-350. -/
def Store.set (s : Store) (x : Addr) (v : Int) : Store := fun z => if z = x then v else s z

/-- `joye_libert_encrypt` (joye_libert.cpp:162-199). -/
def jlEncrypt (g : Env) (fuel : Nat) (r : g.State) (s : Store) (c m y N : Addr) (msgsize : Nat) :
    Res (Store × g.State) := do
  let (x, r) ← JL.pickX g (s N) fuel r                             -- 170-176
  let tmp1 ← powm (s y) (s m) (s N)                                -- 190
  let tmp2 ← powm x (2 ^ msgsize) (s N)                            -- 191
  let s := s.set c (tmp1 * tmp2)                                   -- 193
  let s := s.set c (← Gmp.mod (s c) (s N))                         -- 194
  return (s, r)

/-- `he_encrypt` (labeled_he.cpp:32-82) [mu_labeled_he.cpp:41-90]. -/
def heEncrypt (g : Env) (fuel : Nat) (r : g.State) (hc : HC128.State) (junk : List U8) (s : Store) (c : Nat)
    (b m y N label : Addr) (msgsize : Nat) : Res (Store × HC128.State × g.State) := do
  let (v, hc) ← LHE.labelValue hc junk (s label) msgsize           -- 56-63 [64-71]
  let s := s.set b v                                               -- 66 [74]
  let (s, r) ← jlEncrypt g fuel r s (.ctBeta c) b y N msgsize      -- 70 [78]
  let s := s.set (.ctA c) (s m - s b)                              -- 80 [88]
  let s := s.set (.ctA c) (← Gmp.mod (s (.ctA c)) (2 ^ msgsize))   -- 81 [89]
  return (s, hc, r)

/-- `he_eval_mult` (labeled_he.cpp:84-126) [92-134]. -/
def evalMult (g : Env) (fuel : Nat) (r : g.State) (s : Store) (alpha : Addr) (ct1 ct2 : Nat) (y N : Addr)
    (msgsize : Nat) : Res (Store × g.State) := do
  let a1a2 ← Gmp.mod (s (.ctA ct1) * s (.ctA ct2)) (2 ^ msgsize)   -- 106-107 [114-115]
  let (x, r) ← JL.pickX g (s N) fuel r                             -- 108 [116]: joye_libert_encrypt,
  let tmp1 ← powm (s y) a1a2 (s N)                                 --   the message is a local variable
  let tmp2 ← powm x (2 ^ msgsize) (s N)
  let s := s.set alpha (tmp1 * tmp2)
  let s := s.set alpha (← Gmp.mod (s alpha) (s N))
  let a2beta1 ← powm (s (.ctBeta ct2)) (s (.ctA ct1)) (s N)        -- 117 [125]
  let a1beta2 ← powm (s (.ctBeta ct1)) (s (.ctA ct2)) (s N)        -- 118 [126]
  let s := s.set alpha (s alpha * a1beta2)                         -- 122 [130]
  let s := s.set alpha (← Gmp.mod (s alpha) (s N))                 -- 123 [131]
  let s := s.set alpha (s alpha * a2beta1)                         -- 124 [132]
  let s := s.set alpha (← Gmp.mod (s alpha) (s N))                 -- 125 [133]
  return (s, r)

/-- The statements `mpz_mul(alpha, alpha, v); mpz_mod(alpha, alpha, N);` (labeled_he.cpp:172-188)
[180-196]. -/
def mulMod (alpha N : Addr) (s : Store) (v : Int) : Res Store := do
  let s := s.set alpha (s alpha * v)
  return s.set alpha (← Gmp.mod (s alpha) (s N))

/-- `he_eval_mult_3` (labeled_he.cpp:128-189) [136-197]. -/
def evalMult3 (g : Env) (fuel : Nat) (r : g.State) (s : Store) (alpha : Addr) (ct1 ct2 ct3 : Nat)
    (beta12 beta13 beta23 y N : Addr) (msgsize : Nat) : Res (Store × g.State) := do
  let a12 ← Gmp.mod (s (.ctA ct1) * s (.ctA ct2)) (2 ^ msgsize)    -- 153-154 [161-162]
  let a123 ← Gmp.mod (a12 * s (.ctA ct3)) (2 ^ msgsize)            -- 155-156 [163-164]
  let (x, r) ← JL.pickX g (s N) fuel r                             -- 157 [165]: joye_libert_encrypt
  let tmp1 ← powm (s y) a123 (s N)
  let tmp2 ← powm x (2 ^ msgsize) (s N)
  let s := s.set alpha (tmp1 * tmp2)
  let s := s.set alpha (← Gmp.mod (s alpha) (s N))
  let a1beta23 ← powm (s beta23) (s (.ctA ct1)) (s N)              -- 159 [167]
  let a2beta13 ← powm (s beta13) (s (.ctA ct2)) (s N)              -- 160 [168]
  let a3beta12 ← powm (s beta12) (s (.ctA ct3)) (s N)              -- 161 [169]
  let a12beta3 ← powm (s (.ctBeta ct3)) (s (.ctA ct1)) (s N)       -- 163 [171]
  let a12beta3 ← powm a12beta3 (s (.ctA ct2)) (s N)                -- 164 [172]
  let a13beta2 ← powm (s (.ctBeta ct2)) (s (.ctA ct1)) (s N)       -- 166 [174]
  let a13beta2 ← powm a13beta2 (s (.ctA ct3)) (s N)                -- 167 [175]
  let a23beta1 ← powm (s (.ctBeta ct1)) (s (.ctA ct2)) (s N)       -- 169 [177]
  let a23beta1 ← powm a23beta1 (s (.ctA ct3)) (s N)                -- 170 [178]
  let s ← mulMod alpha N s a1beta23                                -- 172-173 [180-181]
  let s ← mulMod alpha N s a2beta13                                -- 175-176 [183-184]
  let s ← mulMod alpha N s a3beta12                                -- 178-179 [186-187]
  let s ← mulMod alpha N s a12beta3                                -- 181-182 [189-190]
  let s ← mulMod alpha N s a13beta2                                -- 184-185 [192-193]
  let s ← mulMod alpha N s a23beta1                                -- 187-188 [195-196]
  return (s, r)

/-- `he_eval_add` on `he_ct` (labeled_he.cpp:191-211) [199-219]. -/
def evalAdd (s : Store) (c c1 c2 : Nat) (N : Addr) (msgsize : Nat) : Res Store := do
  let s := s.set (.ctA c) (s (.ctA c1) + s (.ctA c2))              -- 205 [213]
  let s := s.set (.ctA c) (← Gmp.mod (s (.ctA c)) (2 ^ msgsize))   -- 206 [214]
  let s := s.set (.ctBeta c) (s (.ctBeta c1) * s (.ctBeta c2))     -- 209 [217]
  let s := s.set (.ctBeta c) (← Gmp.mod (s (.ctBeta c)) (s N))     -- 210 [218]
  return s

/-- `he_eval_add` on multiplication ciphertexts (labeled_he.cpp:213-223) [221-231]. -/
def evalAddA (s : Store) (c c1 c2 N : Addr) : Res Store := do
  let s := s.set c (s c1 * s c2)                                   -- 221 [229]
  return s.set c (← Gmp.mod (s c) (s N))                           -- 222 [230]

/-- `mpz_invert` into a local variable, which is then used (labeled_he.cpp:250, 271) [258, 279]; without an
inverse its value is undefined. -/
def inverse (a n : Int) : Res Int :=
  match invert a n with
  | some v => .ok v
  | none => .ub .contract

/-- `he_eval_sub` on `he_ct` (labeled_he.cpp:225-259) [233-267]. -/
def evalSub (s : Store) (c c1 c2 : Nat) (N : Addr) (msgsize : Nat) : Res Store := do
  let a_inv ← Gmp.mod (-s (.ctA c2)) (2 ^ msgsize)                 -- 246-247 [254-255]
  let beta_inv ← inverse (s (.ctBeta c2)) (s N)                    -- 250 [258]
  let s := s.set (.ctA c) (s (.ctA c1) + a_inv)                    -- 253 [261]
  let s := s.set (.ctA c) (← Gmp.mod (s (.ctA c)) (2 ^ msgsize))   -- 254 [262]
  let s := s.set (.ctBeta c) (s (.ctBeta c1) * beta_inv)           -- 257 [265]
  let s := s.set (.ctBeta c) (← Gmp.mod (s (.ctBeta c)) (s N))     -- 258 [266]
  return s

/-- `he_eval_sub` on multiplication ciphertexts (labeled_he.cpp:261-274) [269-282]. -/
def evalSubA (s : Store) (c c1 c2 N : Addr) : Res Store := do
  let c2_inv ← inverse (s c2) (s N)                                -- 271 [279]
  let s := s.set c (s c1 * c2_inv)                                 -- 272 [280]
  return s.set c (← Gmp.mod (s c) (s N))                           -- 273 [281]

/-- `he_eval_cmult` on `he_ct` (labeled_he.cpp:276-295) [284-303]. -/
def evalCmult (s : Store) (c c1 : Nat) (a N : Addr) (msgsize : Nat) : Res Store := do
  let s := s.set (.ctA c) (s (.ctA c1) * s a)                      -- 291 [299]
  let s := s.set (.ctA c) (← Gmp.mod (s (.ctA c)) (2 ^ msgsize))   -- 292 [300]
  return s.set (.ctBeta c) (← powm (s (.ctBeta c1)) (s a) (s N))   -- 294 [302]

/-- `he_eval_cmult` on multiplication ciphertexts (labeled_he.cpp:297-307) [305-315]. -/
def evalCmultA (s : Store) (alpha c constant N : Addr) : Res Store := do
  return s.set alpha (← powm (s c) (s constant) (s N))             -- 306 [314]

/-- `he_decrypt` on `he_ct` (labeled_he.cpp:309-337) [317-345].  The result of `joye_libert_decrypt` is a
local variable. -/
def heDecrypt (s : Store) (m : Addr) (c : Nat) (p y : Addr) (msgsize : Nat) : Res Store := do
  let b ← JL.decrypt false (s (.ctBeta c)) (s p) (s y) msgsize     -- 334 [342]
  let s := s.set m (s (.ctA c) + b)                                -- 335 [343]
  return s.set m (← Gmp.mod (s m) (2 ^ msgsize))                   -- 336 [344]

end CT.LHEStore
