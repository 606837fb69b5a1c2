import Verif.Model.LabeledHE
import Verif.Model.MuLabeledHE

/-!
# Text that labeled homomorphic encryption writes to standard output

The models of `Verif.Model.LabeledHE` and `Verif.Model.MuLabeledHE` leave out the text that the library functions
print themselves (unconditionally, not only in debug builds).  Here encryption and subtraction are modelled with it.
The `printf` family and `std::cout` write to the same stream in program order.  The functions not listed print
nothing (the output of `joye_libert.cpp` is inside `#ifdef DEBUG`).
-/

namespace CT.LHE
open CT.Gmp

/-- The decimal digits of a natural number, without leading zeros (`%Zd` of `gmp_printf`, by the GMP manual;
labeled_he.cpp:68). -/
def decNat (n : Nat) : List Char :=
  if n < 10 then [Char.ofNat (48 + n)] else decNat (n / 10) ++ [Char.ofNat (48 + n % 10)]

/-- `%Zd` of `gmp_printf` (labeled_he.cpp:68), by the GMP manual. -/
def decInt (v : Int) : List Char := (if v < 0 then ['-'] else []) ++ decNat v.natAbs

/-- `he_encrypt` (labeled_he.cpp:32-82) with what it prints (68). -/
def heEncryptText (g : Env) (fuel : Nat) (s : g.State) (hc : HC128.State) (junk : List U8)
    (m y N label : Int) (msgsize : Nat) : Res (List Char × HeCt × Int × HC128.State × g.State) := do
  let (b, hc) ← labelValue hc junk label msgsize
  let out := ['b', ':', ' '] ++ decInt b ++ ['\n']      -- 68
  let (beta, s) ← JL.encrypt g fuel s b y N msgsize     -- 70
  let a ← Gmp.mod (m - b) (2 ^ msgsize)                 -- 79-81
  return (out, ⟨a, beta⟩, b, hc, s)

/-- `he_eval_sub` on `he_ct` (labeled_he.cpp:225-259) with what it prints (235, 244, 248, 249, 252, 256). -/
def evalSubText (c1 c2 : HeCt) (N : Int) (msgsize : Nat) : Res (List Char × HeCt) := do
  let out := "Inside sub\n".toList                      -- 235
  let out := out ++ "Computing inverse a\n".toList      -- 244
  let a_inv ← Gmp.mod (-c2.a) (2 ^ msgsize)             -- 246-247
  let out := out ++ "additive inverse a: ".toList ++ decInt a_inv ++ ['\n']    -- 248
  let out := out ++ "Computing inverse b\n".toList      -- 249
  let beta_inv ← (match invert c2.beta N with           -- 250
    | some v => .ok v
    | none => .ub .contract : Res Int)
  let out := out ++ "Adding a\n".toList                 -- 252
  let a ← Gmp.mod (c1.a + a_inv) (2 ^ msgsize)          -- 253-254
  let out := out ++ "Multiplying beta\n".toList         -- 256
  let beta ← Gmp.mod (c1.beta * beta_inv) N             -- 257-258
  return (out, ⟨a, beta⟩)

end CT.LHE

namespace CT.MuLHE
open CT.Gmp
open CT.LHE (decInt)

/-- `mu_he_encrypt` (mu_labeled_he.cpp:41-90) with what it prints (76). -/
def heEncryptText (g : Env) (fuel : Nat) (s : g.State) (hc : HC128.State) (junk : List U8)
    (m y N label : Int) (msgsize : Nat) : Res (List Char × HeCt × Int × HC128.State × g.State) := do
  let (b, hc) ← labelValue hc junk label msgsize
  let out := ['b', ':', ' '] ++ decInt b ++ ['\n']      -- 76
  let (beta, s) ← JL.encrypt g fuel s b y N msgsize     -- 78
  let a ← Gmp.mod (m - b) (2 ^ msgsize)                 -- 87-89
  return (out, ⟨a, beta⟩, b, hc, s)

/-- `mu_he_eval_sub` on `he_ct` (mu_labeled_he.cpp:233-267) with what it prints (243, 252, 256, 257, 260, 264). -/
def evalSubText (c1 c2 : HeCt) (N : Int) (msgsize : Nat) : Res (List Char × HeCt) := do
  let out := "Inside sub\n".toList                      -- 243
  let out := out ++ "Computing inverse a\n".toList      -- 252
  let a_inv ← Gmp.mod (-c2.a) (2 ^ msgsize)             -- 254-255
  let out := out ++ "additive inverse a: ".toList ++ decInt a_inv ++ ['\n']    -- 256
  let out := out ++ "Computing inverse b\n".toList      -- 257
  let beta_inv ← (match invert c2.beta N with           -- 258
    | some v => .ok v
    | none => .ub .contract : Res Int)
  let out := out ++ "Adding a\n".toList                 -- 260
  let a ← Gmp.mod (c1.a + a_inv) (2 ^ msgsize)          -- 261-262
  let out := out ++ "Multiplying beta\n".toList         -- 264
  let beta ← Gmp.mod (c1.beta * beta_inv) N             -- 265-266
  return (out, ⟨a, beta⟩)

end CT.MuLHE
