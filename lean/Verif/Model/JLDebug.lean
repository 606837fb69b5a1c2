import Verif.Model.LHEOutput

/-!
# What Joye-Libert prints in a build with `DEBUG`

`joye_libert_keygen` and `joye_libert_encrypt` of `Verif.Model.JoyeLibert` with the text they write to standard output when `DEBUG` is
defined.  `gmp_printf` and `std::cout` write to the same stream in program order.
-/

namespace CT.JL
open CT.Gmp CT.LHE

/-- `joye_libert_keygen` with `DEBUG` (joye_libert.cpp:13-160): the text, `(N, y, p)`, and `q`. -/
def keygenText (g : Env) (fuel : Nat) (msgsize keysize : Nat) : Res (List Char × (Int × Int × Int) × Int) := do
  let d : Int := 2 ^ msgsize                            -- 42
  let r := g.urandomb g.init (keysize / 2)              -- 45
  let m ← Gmp.mod r.1 d                                 -- 50
  let out := "Find appropriate p\n".toList              -- 63
  let p ← findP g d fuel (r.1 - m + 1)                  -- 70-98
  let out := out ++ "Good value for p: ".toList ++ decInt p ++ ['\n']          -- 89
  let out := out ++ "Find appropriate q\n".toList       -- 102
  let r2 := g.urandomb r.2 (keysize / 2)                -- 104
  let q ← findQ g fuel (g.nextprime r2.1)               -- 105-126
  let out := out ++ "Good value for q: ".toList ++ decInt q ++ ['\n']          -- 117
  let N := p * q                                        -- 129
  let out := out ++ "Resulting value for N: ".toList ++ decInt N ++ ['\n']     -- 131
  let (y, _) ← findY g p q N fuel 0 r2.2                -- 143-148
  let out := out ++ "Good value for y: ".toList ++ decInt y ++ ['\n']          -- 150
  let out := out ++ "Jacobi: ".toList ++ decInt (jacobiSym y N.toNat) ++ ['\n']                 -- 156
  let out := out ++ "Legendre y/p final: ".toList ++ decInt (jacobiSym y p.toNat) ++ ['\n']     -- 157
  let out := out ++ "Legendre y/q final: ".toList ++ decInt (jacobiSym y q.toNat) ++ ['\n']     -- 158
  return (out, (N, y, p), q)

/-- `joye_libert_encrypt` with `DEBUG` (joye_libert.cpp:162-199): the text and the result. -/
def encryptText (g : Env) (fuel : Nat) (s : g.State) (m y N : Int) (msgsize : Nat) : Res (List Char × Int × g.State) := do
  let (x, s) ← pickX g N fuel s                         -- 170-176
  let out := "x: ".toList ++ decInt x ++ ['\n']         -- 178
  let t1 ← powm y m N                                   -- 190
  let t2 ← powm x (2 ^ msgsize) N                       -- 191
  let c ← Gmp.mod (t1 * t2) N                           -- 193-194
  let out := out ++ "c: ".toList ++ decInt c ++ ['\n']  -- 197
  return (out, c, s)

end CT.JL
