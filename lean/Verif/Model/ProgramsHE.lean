import Verif.Model.LabeledHE

/-!
# Models of the example programs of Joye-Libert and labeled homomorphic encryption

The programs print integers.  A model gives the printed labels and integers in order, without the lines of fixed text
and without the lines that the library functions print themselves (for those see `Verif.Model.LHEOutput`).
The messages and sizes, constants in the code, are arguments.  The program of muLabeledHE does not compile (it includes
a header that does not exist and calls functions that are not declared).
-/

namespace CT.Programs
open CT.Gmp

/-- `main` of AsymmetricCryptography/Joye_libert/main.cpp:8-49. -/
def jlMain (g : Env) (fuel : Nat) (m1 m2 : Int) (msgsize keysize : Nat) : Res (List (String × Int)) := do
  let ((N, y, p), _) ← JL.keygen g fuel msgsize keysize                       -- 20
  let (c1, s) ← JL.encrypt g fuel g.init m1 y N msgsize                       -- 30-37
  let (c2, _) ← JL.encrypt g fuel s m2 y N msgsize                            -- 38
  let c1 ← Gmp.mod (c1 * c2) N                                                -- 40-41
  let recov_m ← JL.decrypt false c1 p y msgsize                               -- 46
  return [("m1: ", m1), ("m2: ", m2), ("recov_m = m1 + m2: ", recov_m)]

/-- `main` of AsymmetricCryptography/Labeled_homomorphic_encryption/LabeledHE/main.cpp:7-213.  `junk i` is the
uninitialised memory of the label buffer in the `i`-th encryption. -/
def lheMain (g : Env) (fuel : Nat) (junk : Nat → List U8) (hc_key hc_iv : List U8) (m1 m2 m3 label1 label2 label3 : Int)
    (msgsize keysize : Nat) : Res (List (String × Int)) := do
  let ptspace : Int := 2 ^ msgsize                                            -- 25
  let ((N, y, p), _) ← JL.keygen g fuel msgsize keysize                       -- 30
  let hc_cs := HC128.init hc_key hc_iv                                        -- 39
  let (c1, b1, hc_cs, s) ← LHE.heEncrypt g fuel g.init hc_cs (junk 0) m1 y N label1 msgsize  -- 73
  let (c2, b2, hc_cs, s) ← LHE.heEncrypt g fuel s hc_cs (junk 1) m2 y N label2 msgsize       -- 74
  let (c3, b3, _, s) ← LHE.heEncrypt g fuel s hc_cs (junk 2) m3 y N label3 msgsize           -- 75
  let c_add ← LHE.evalAdd c1 c2 N msgsize                                     -- 92
  let c_sub ← LHE.evalSub c2 c3 N msgsize                                     -- 101
  let (c_mul, s) ← LHE.evalMult g fuel s c1 c2 y N msgsize                    -- 108
  let b_mul ← Gmp.mod (b1 * b2) ptspace                                       -- 109-110
  let beta12 ← Gmp.mod (b1 * b2) ptspace                                      -- 124-125
  let beta13 ← Gmp.mod (b1 * b3) ptspace                                      -- 127-128
  let beta23 ← Gmp.mod (b2 * b3) ptspace                                      -- 130-131
  let (beta12, s) ← JL.encrypt g fuel s beta12 y N msgsize                    -- 133
  let (beta13, s) ← JL.encrypt g fuel s beta13 y N msgsize                    -- 134
  let (beta23, s) ← JL.encrypt g fuel s beta23 y N msgsize                    -- 135
  let (c_triple_mul, _) ← LHE.evalMult3 g fuel s c1 c2 c3 beta12 beta13 beta23 y N msgsize  -- 137
  let b_triple_mul ← Gmp.mod (b1 * b2) ptspace                                -- 138-139
  let b_triple_mul ← Gmp.mod (b_triple_mul * b3) ptspace                      -- 140-141
  let c_triple_double_add ← LHE.evalAddA c_mul c_triple_mul N                 -- 163
  let b_triple_double_add ← Gmp.mod (b_mul + b_triple_mul) ptspace            -- 164-165
  let c_triple_double_sub ← LHE.evalSubA c_triple_mul c_mul N                 -- 172
  let b_triple_double_sub ← Gmp.mod (b_triple_mul - b_mul) ptspace            -- 173-174
  let recov_m1 ← LHE.heDecrypt c1 p y msgsize                                 -- 190
  let recov_m2 ← LHE.heDecrypt c2 p y msgsize                                 -- 191
  let recov_add ← LHE.heDecrypt c_add p y msgsize                             -- 192
  let recov_sub ← LHE.heDecrypt c_sub p y msgsize                             -- 193
  let recov_mul ← LHE.heDecryptA false false c_mul b_mul p y msgsize          -- 194
  let recov_triple_mul ← LHE.heDecryptA false false c_triple_mul b_triple_mul p y msgsize    -- 195
  let recov_triple_double_add ← LHE.heDecryptA false false c_triple_double_add b_triple_double_add p y msgsize  -- 196-197
  let recov_triple_double_sub ← LHE.heDecryptA false false c_triple_double_sub b_triple_double_sub p y msgsize  -- 198-199
  return [("Original Message m1: ", m1), ("Original Message m2: ", m2), ("Original Message m3: ", m3),
    ("a1: ", c1.a), ("beta1: ", c1.beta), ("a2: ", c2.a), ("beta2: ", c2.beta), ("a3: ", c3.a), ("beta3: ", c3.beta),
    ("Recovered message 1: ", recov_m1), ("Recovered message 2: ", recov_m2), ("Recovered message add: ", recov_add),
    ("Recovered message sub: ", recov_sub), ("Recovered message mul: ", recov_mul),
    ("Recovered message triple mul: ", recov_triple_mul),
    ("Recovered message triple-double add: ", recov_triple_double_add),
    ("Recovered message triple-double sub: ", recov_triple_double_sub)]

end CT.Programs
