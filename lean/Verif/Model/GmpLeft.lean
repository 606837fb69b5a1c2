import Verif.Model.LabeledHE

/-!
# Variables that a call leaves in memory

`mpz_init` makes a variable whose digits are on the heap until `mpz_clear`.  None of the functions of joye_libert.cpp, labeled_he.cpp and
mu_labeled_he.cpp calls `mpz_clear`, so the local variables stay there, with the values they have at the end of the call.  Here are the
functions again with the list of these variables: name and last value, in the order of initialisation.  The members of `he_ct` objects
and the variables of the caller are not in the list.  The functions of mu_labeled_he.cpp are the same with other names (there he_encrypt
is at lines 40-90 and the others follow eight lines later than in labeled_he.cpp).
-/

namespace CT

/-- Names and values of variables (those of joye_libert.cpp:13-258, labeled_he.cpp and mu_labeled_he.cpp). -/
abbrev Vars := List (String × Int)

namespace JL
open CT.Gmp

/-- `joye_libert_keygen` (joye_libert.cpp:13-160).  `pseudo_test_q` and `t` are initialised and not used; `tmp` was used last for `q`
modulo 4 (line 112). -/
def keygenL (g : Env) (fuel : Nat) (msgsize keysize : Nat) : Res ((Int × Int × Int) × Vars) := do
  let d : Int := 2 ^ msgsize
  let r := g.urandomb g.init (keysize / 2)
  let m ← Gmp.mod r.1 d
  let p ← findP g d fuel (r.1 - m + 1)
  let pp ← divexact (p - 1) d
  let r2 := g.urandomb r.2 (keysize / 2)
  let q ← findQ g fuel (g.nextprime r2.1)
  let tmp ← Gmp.mod q 4
  let N := p * q
  let (y, _) ← findY g p q N fuel 0 r2.2
  return ((N, y, p), [("q", q), ("p_test", p), ("q_test", q), ("pseudo_safeness_divisor", d), ("pseudo_test_p", pp),
    ("pseudo_test_q", 0), ("mod", m), ("one", 1), ("t", 0), ("tmp", tmp)])

/-- `joye_libert_encrypt` (joye_libert.cpp:162-199). -/
def encryptL (g : Env) (fuel : Nat) (s : g.State) (m y N : Int) (msgsize : Nat) : Res ((Int × g.State) × Vars) := do
  let (x, s) ← pickX g N fuel s
  let t1 ← powm y m N
  let t2 ← powm x (2 ^ msgsize) N
  let c ← Gmp.mod (t1 * t2) N
  return ((c, s), [("x", x), ("k_exp", 2 ^ msgsize), ("tmp1", t1), ("tmp2", t2)])

/-- The loop and the last step of `joye_libert_decrypt` (joye_libert.cpp:237-257): the message and `B`, `D`, `C`, `z`, `exp_c`. -/
def decLoopL (p : Int) : Nat → (m B C D z e : Int) → Res (Int × (Int × Int × Int × Int × Int))
  | 0, m, B, C, D, z, e => .ok (if C ≠ 1 then m + B else m, (B, D, C, z, e))
  | n + 1, m, B, C, D, _, _ => do
    let z ← powm C (2 ^ (n + 1)) p
    let D' ← powm D 2 p
    if z ≠ 1 then
      let C' ← Gmp.mod (C * D) p
      decLoopL p n (m + B) (B + B) C' D' z (2 ^ (n + 1))
    else decLoopL p n m (B + B) C D' z (2 ^ (n + 1))

/-- `joye_libert_decrypt` (joye_libert.cpp:201-258), with different variables for `m` and `c`. -/
def decryptL (c p y : Int) (msgsize : Nat) : Res (Int × Vars) := do
  let e ← divexact (p - 1) (2 ^ msgsize)
  let D ← powm y (-e) p
  let C ← powm c e p
  let (m, B, D, C, z, ec) ← decLoopL p (msgsize - 1) 0 1 C D 0 0
  return (m, [("B", B), ("D", D), ("C", C), ("exp_msgsize", 2 ^ msgsize), ("exp_y", e), ("neg_exp_y", -e), ("p_1", p - 1), ("z", z),
    ("exp_c", ec)])

end JL

namespace LHE
open CT.Gmp

/-- `he_encrypt` (labeled_he.cpp:32-82): the locals `beta` and `a` are initialised and not used. -/
def heEncryptL (g : Env) (fuel : Nat) (s : g.State) (hc : HC128.State) (junk : List U8) (m y N label : Int) (msgsize : Nat) :
    Res ((HeCt × Int × HC128.State × g.State) × Vars) := do
  let (b, hc) ← labelValue hc junk label msgsize
  let ((beta, s), l) ← JL.encryptL g fuel s b y N msgsize
  let a ← Gmp.mod (m - b) (2 ^ msgsize)
  return ((⟨a, beta⟩, b, hc, s), [("beta", 0)] ++ l ++ [("a", 0), ("ptspace", 2 ^ msgsize)])

/-- `he_eval_mult` (labeled_he.cpp:84-126). -/
def evalMultL (g : Env) (fuel : Nat) (s : g.State) (ct1 ct2 : HeCt) (y N : Int) (msgsize : Nat) : Res ((Int × g.State) × Vars) := do
  let a1a2 ← Gmp.mod (ct1.a * ct2.a) (2 ^ msgsize)
  let ((alpha, s), l) ← JL.encryptL g fuel s a1a2 y N msgsize
  let a2beta1 ← powm ct2.beta ct1.a N
  let a1beta2 ← powm ct1.beta ct2.a N
  let alpha ← Gmp.mod (alpha * a1beta2) N
  let alpha ← Gmp.mod (alpha * a2beta1) N
  return ((alpha, s), [("a1a2", a1a2), ("a1beta2", a1beta2), ("a2beta1", a2beta1), ("ptspace", 2 ^ msgsize)] ++ l)

/-- `he_eval_mult_3` (labeled_he.cpp:128-189). -/
def evalMult3L (g : Env) (fuel : Nat) (s : g.State) (ct1 ct2 ct3 : HeCt) (beta12 beta13 beta23 y N : Int) (msgsize : Nat) :
    Res ((Int × g.State) × Vars) := do
  let a12 ← Gmp.mod (ct1.a * ct2.a) (2 ^ msgsize)
  let a123 ← Gmp.mod (a12 * ct3.a) (2 ^ msgsize)
  let ((alpha, s), l) ← JL.encryptL g fuel s a123 y N msgsize
  let a1beta23 ← powm beta23 ct1.a N
  let a2beta13 ← powm beta13 ct2.a N
  let a3beta12 ← powm beta12 ct3.a N
  let a12beta3 ← powm ct3.beta ct1.a N
  let a12beta3 ← powm a12beta3 ct2.a N
  let a13beta2 ← powm ct2.beta ct1.a N
  let a13beta2 ← powm a13beta2 ct3.a N
  let a23beta1 ← powm ct1.beta ct2.a N
  let a23beta1 ← powm a23beta1 ct3.a N
  let alpha ← Gmp.mod (alpha * a1beta23) N
  let alpha ← Gmp.mod (alpha * a2beta13) N
  let alpha ← Gmp.mod (alpha * a3beta12) N
  let alpha ← Gmp.mod (alpha * a12beta3) N
  let alpha ← Gmp.mod (alpha * a13beta2) N
  let alpha ← Gmp.mod (alpha * a23beta1) N
  return ((alpha, s), [("a1a2a3", a123), ("a1beta23", a1beta23), ("a2beta13", a2beta13), ("a3beta12", a3beta12), ("a12beta3", a12beta3),
    ("a13beta2", a13beta2), ("a23beta1", a23beta1), ("ptspace", 2 ^ msgsize)] ++ l)

/-- `he_eval_add` on `he_ct` (labeled_he.cpp:191-211). -/
def evalAddL (c1 c2 : HeCt) (N : Int) (msgsize : Nat) : Res (HeCt × Vars) := do
  let a ← Gmp.mod (c1.a + c2.a) (2 ^ msgsize)
  let beta ← Gmp.mod (c1.beta * c2.beta) N
  return (⟨a, beta⟩, [("ptspace", 2 ^ msgsize)])

/-- `he_eval_add` on multiplication ciphertexts (labeled_he.cpp:213-223): no local variable. -/
def evalAddAL (c1 c2 N : Int) : Res (Int × Vars) := do
  let c ← Gmp.mod (c1 * c2) N
  return (c, [])

/-- `he_eval_sub` on `he_ct` (labeled_he.cpp:225-259). -/
def evalSubL (c1 c2 : HeCt) (N : Int) (msgsize : Nat) : Res (HeCt × Vars) := do
  let a_inv ← Gmp.mod (-c2.a) (2 ^ msgsize)
  let beta_inv ← (match invert c2.beta N with
    | some v => .ok v
    | none => .ub .contract : Res Int)
  let a ← Gmp.mod (c1.a + a_inv) (2 ^ msgsize)
  let beta ← Gmp.mod (c1.beta * beta_inv) N
  return (⟨a, beta⟩, [("ptspace", 2 ^ msgsize), ("a_inv", a_inv), ("beta_inv", beta_inv)])

/-- `he_eval_sub` on multiplication ciphertexts (labeled_he.cpp:261-274). -/
def evalSubAL (c1 c2 N : Int) : Res (Int × Vars) := do
  let c2_inv ← (match invert c2 N with
    | some v => .ok v
    | none => .ub .contract : Res Int)
  let c ← Gmp.mod (c1 * c2_inv) N
  return (c, [("c2_inv", c2_inv)])

/-- `he_eval_cmult` on `he_ct` (labeled_he.cpp:276-295). -/
def evalCmultL (c1 : HeCt) (t N : Int) (msgsize : Nat) : Res (HeCt × Vars) := do
  let a ← Gmp.mod (c1.a * t) (2 ^ msgsize)
  let beta ← powm c1.beta t N
  return (⟨a, beta⟩, [("ptspace", 2 ^ msgsize)])

/-- `he_eval_cmult` on multiplication ciphertexts (labeled_he.cpp:297-307): no local variable. -/
def evalCmultAL (c t N : Int) : Res (Int × Vars) := do
  let r ← powm c t N
  return (r, [])

/-- `he_decrypt` on `he_ct` (labeled_he.cpp:309-337). -/
def heDecryptL (c : HeCt) (p y : Int) (msgsize : Nat) : Res (Int × Vars) := do
  let (b, l) ← JL.decryptL c.beta p y msgsize
  let m ← Gmp.mod (c.a + b) (2 ^ msgsize)
  return (m, [("b", b), ("ptspace", 2 ^ msgsize)] ++ l)

/-- `he_decrypt` on multiplication ciphertexts (labeled_he.cpp:339-357), with different variables for the result and the arguments. -/
def heDecryptAL (c b p y : Int) (msgsize : Nat) : Res (Int × Vars) := do
  let (m, l) ← JL.decryptL c p y msgsize
  let r ← Gmp.mod (m + b) (2 ^ msgsize)
  return (r, [("ptspace", 2 ^ msgsize)] ++ l)

end LHE

end CT
