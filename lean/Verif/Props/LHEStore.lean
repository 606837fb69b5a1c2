import Verif.Model.LHEStore
import Verif.Props.LabeledHE

/-!
# Labeled homomorphic encryption with shared variables (C105 - C107)
-/

namespace CT.Props.LHEStore
open CT.LHEStore CT.JL CT.Gmp CT.Spec.JL CT.Props.JoyeLibert CT.Props.LHE

/-- The value of a `he_ct` variable. -/
def ctOf (s : Store) (v : ℕ) : LHE.HeCt := ⟨s (.ctA v), s (.ctBeta v)⟩

@[simp] theorem set_self (s : Store) (x : Addr) (v : ℤ) : s.set x v x = v := by simp [Store.set]
theorem set_ne (s : Store) {x z : Addr} (v : ℤ) (h : z ≠ x) : s.set x v z = s z := by simp [Store.set, h]
@[simp] theorem set_set (s : Store) (x : Addr) (v w : ℤ) : (s.set x v).set x w = s.set x w := by
  funext z
  by_cases h : z = x <;> simp [Store.set, h]

/-- Writing a `he_ct` variable. -/
def setCt (s : Store) (v : ℕ) (c : LHE.HeCt) : Store := (s.set (.ctA v) c.a).set (.ctBeta v) c.beta

theorem ctOf_setCt (s : Store) (v w : ℕ) (c : LHE.HeCt) : ctOf (setCt s v c) w = if w = v then c else ctOf s w := by
  by_cases h : w = v <;> simp [ctOf, setCt, Store.set, h]

theorem num_setCt (s : Store) (v w : ℕ) (c : LHE.HeCt) : setCt s v c (.num w) = s (.num w) := by
  simp [setCt, Store.set]

theorem ctOf_setNum (s : Store) (v w : ℕ) (x : ℤ) : ctOf (s.set (.num v) x) w = ctOf s w := by
  simp [ctOf, Store.set]

theorem num_setNum (s : Store) (v w : ℕ) (x : ℤ) : s.set (.num v) x (.num w) = if w = v then x else s (.num w) := by
  simp [Store.set]

/-! ### The functions in terms of values -/

theorem evalAdd_eq (s : Store) (c c1 c2 n k : ℕ) :
    evalAdd s c c1 c2 (.num n) k = (do
      let r ← LHE.evalAdd (ctOf s c1) (ctOf s c2) (s (.num n)) k
      return setCt s c r) := by
  simp only [evalAdd, LHE.evalAdd, mod_ok (pow_ne_zero k (two_ne_zero (α := ℤ))), Res.ok_bind, set_self, set_set, ctOf]
  simp only [Store.set, reduceCtorEq, if_false]
  unfold Gmp.mod
  split
  · rfl
  · simp only [Res.ok_bind, Res.pure_eq, setCt]

theorem evalSub_eq (s : Store) (c c1 c2 n k : ℕ) :
    evalSub s c c1 c2 (.num n) k = (do
      let r ← LHE.evalSub (ctOf s c1) (ctOf s c2) (s (.num n)) k
      return setCt s c r) := by
  simp only [evalSub, LHE.evalSub, mod_ok (pow_ne_zero k (two_ne_zero (α := ℤ))), Res.ok_bind, ctOf, inverse]
  cases invert (s (.ctBeta c2)) (s (.num n)) with
  | none => rfl
  | some v =>
    simp only [Res.ok_bind, set_self, set_set]
    simp only [Store.set, reduceCtorEq, if_false]
    unfold Gmp.mod
    split
    · rfl
    · simp only [Res.ok_bind, Res.pure_eq, setCt]

theorem evalCmult_eq (s : Store) (c c1 n k : ℕ) (t : Addr) (ht : t ≠ .ctA c) :
    evalCmult s c c1 t (.num n) k = (do
      let r ← LHE.evalCmult (ctOf s c1) (s t) (s (.num n)) k
      return setCt s c r) := by
  simp only [evalCmult, LHE.evalCmult, mod_ok (pow_ne_zero k (two_ne_zero (α := ℤ))), Res.ok_bind, set_self, set_set,
    ctOf, set_ne _ _ ht]
  simp only [Store.set, reduceCtorEq, if_false]
  cases powm (s (.ctBeta c1)) (s t) (s (.num n)) with
  | ub w => rfl
  | ok v => rfl

theorem evalAddA_eq (s : Store) (c c1 c2 N : Addr) (h : N ≠ c) :
    evalAddA s c c1 c2 N = (do return s.set c (← LHE.evalAddA (s c1) (s c2) (s N))) := by
  simp only [evalAddA, LHE.evalAddA, set_self, set_ne _ _ h, set_set]

theorem evalSubA_eq (s : Store) (c c1 c2 N : Addr) (h : N ≠ c) :
    evalSubA s c c1 c2 N = (do return s.set c (← LHE.evalSubA (s c1) (s c2) (s N))) := by
  simp only [evalSubA, LHE.evalSubA, inverse]
  cases invert (s c2) (s N) with
  | none => rfl
  | some v => simp only [Res.ok_bind, set_self, set_ne _ _ h, set_set]

/-! ### Programs (C105) -/

/-- What a variable that is not part of a `he_ct` stands for: a plain number, or, as a multiplication
ciphertext, a message with a label value. -/
inductive Num where
  | const (x : ℤ)
  | alpha (m b : ℤ)

/-- What the variables of a program stand for; `none` for a variable without meaning.  `ct v` is the
message and the label value of a `he_ct`. -/
structure Plain where
  ct : ℕ → Option (ℤ × ℤ)
  num : ℕ → Option Num

/-- The statements: calls of `he_eval_add`, `he_eval_sub` and `he_eval_cmult` in both forms, with any
variables, the same ones or different ones. -/
inductive Stmt where
  | add (c c1 c2 : ℕ)
  | sub (c c1 c2 : ℕ)
  | cmult (c c1 t : ℕ)
  | addA (c c1 c2 : ℕ)
  | subA (c c1 c2 : ℕ)
  | cmultA (c c1 t : ℕ)

/-- The call on the store; the modulus is in variable `n`. -/
def Stmt.exec (n k : ℕ) : Stmt → Store → Res Store
  | add c c1 c2, s => evalAdd s c c1 c2 (.num n) k
  | sub c c1 c2, s => evalSub s c c1 c2 (.num n) k
  | cmult c c1 t, s => evalCmult s c c1 (.num t) (.num n) k
  | addA c c1 c2, s => evalAddA s (.num c) (.num c1) (.num c2) (.num n)
  | subA c c1 c2, s => evalSubA s (.num c) (.num c1) (.num c2) (.num n)
  | cmultA c c1 t, s => evalCmultA s (.num c) (.num c1) (.num t) (.num n)

/-- Running a program. -/
def execAll (n k : ℕ) : List Stmt → Store → Res Store
  | [], s => .ok s
  | i :: is, s => do execAll n k is (← i.exec n k s)

/-- The assignment the statement stands for, on messages; `none` if an operand has no meaning or not
the kind required, or the modulus is overwritten. -/
def Stmt.val (n : ℕ) (P : Plain) : Stmt → Option Plain
  | add c c1 c2 =>
    match P.ct c1, P.ct c2 with
    | some (m1, b1), some (m2, b2) => some { P with ct := Function.update P.ct c (some (m1 + m2, b1 + b2)) }
    | _, _ => none
  | sub c c1 c2 =>
    match P.ct c1, P.ct c2 with
    | some (m1, b1), some (m2, b2) => some { P with ct := Function.update P.ct c (some (m1 - m2, b1 - b2)) }
    | _, _ => none
  | cmult c c1 t =>
    match P.ct c1, P.num t with
    | some (m1, b1), some (.const x) => some { P with ct := Function.update P.ct c (some (x * m1, x * b1)) }
    | _, _ => none
  | addA c c1 c2 =>
    match P.num c1, P.num c2 with
    | some (.alpha m1 b1), some (.alpha m2 b2) =>
      if c = n then none else some { P with num := Function.update P.num c (some (.alpha (m1 + m2) (b1 + b2))) }
    | _, _ => none
  | subA c c1 c2 =>
    match P.num c1, P.num c2 with
    | some (.alpha m1 b1), some (.alpha m2 b2) =>
      if c = n then none else some { P with num := Function.update P.num c (some (.alpha (m1 - m2) (b1 - b2))) }
    | _, _ => none
  | cmultA c c1 t =>
    match P.num c1, P.num t with
    | some (.alpha m1 b1), some (.const x) =>
      if c = n then none else some { P with num := Function.update P.num c (some (.alpha (x * m1) (x * b1))) }
    | _, _ => none

def valAll (n : ℕ) : List Stmt → Plain → Option Plain
  | [], P => some P
  | i :: is, P => (i.val n P).bind (valAll n is)

/-- The store holds ciphertexts and numbers for what the variables stand for. -/
structure Holds (k p q : ℕ) (y : ℤ) (P : Plain) (s : Store) : Prop where
  ct : ∀ v m b, P.ct v = some (m, b) → Ct k p q y (ctOf s v) m b
  alpha : ∀ v m b, P.num v = some (.alpha m b) → Alpha k p q y (s (.num v)) m b
  const : ∀ v x, P.num v = some (.const x) → s (.num v) = x

theorem Holds.setCt {k p q : ℕ} {y : ℤ} {P : Plain} {s : Store} (h : Holds k p q y P s) {c : ℕ} {r : LHE.HeCt}
    {m b : ℤ} (hr : Ct k p q y r m b) :
    Holds k p q y { P with ct := Function.update P.ct c (some (m, b)) } (LHEStore.setCt s c r) where
  ct v m' b' e := by
    rw [ctOf_setCt]
    by_cases hv : v = c
    · subst hv
      simp only [Function.update_self, Option.some.injEq, Prod.mk.injEq] at e
      rw [if_pos rfl, ← e.1, ← e.2]; exact hr
    · simp only [Function.update_of_ne hv] at e
      rw [if_neg hv]; exact h.ct v m' b' e
  alpha v m' b' e := by rw [num_setCt]; exact h.alpha v m' b' e
  const v x e := by rw [num_setCt]; exact h.const v x e

theorem Holds.setNum {k p q : ℕ} {y : ℤ} {P : Plain} {s : Store} (h : Holds k p q y P s) {c : ℕ} {r : ℤ}
    {m b : ℤ} (hr : Alpha k p q y r m b) :
    Holds k p q y { P with num := Function.update P.num c (some (.alpha m b)) } (s.set (.num c) r) where
  ct v m' b' e := by rw [ctOf_setNum]; exact h.ct v m' b' e
  alpha v m' b' e := by
    rw [num_setNum]
    by_cases hv : v = c
    · subst hv
      simp only [Function.update_self, Option.some.injEq, Num.alpha.injEq] at e
      rw [if_pos rfl, ← e.1, ← e.2]; exact hr
    · simp only [Function.update_of_ne hv] at e
      rw [if_neg hv]; exact h.alpha v m' b' e
  const v x e := by
    rw [num_setNum]
    by_cases hv : v = c
    · subst hv
      simp [Function.update_self] at e
    · simp only [Function.update_of_ne hv] at e
      rw [if_neg hv]; exact h.const v x e

theorem alpha_total {k p q : ℕ} {y : ℤ} (key : Key k p q y) {a1 a2 m1 b1 m2 b2 : ℤ}
    (h1 : Alpha k p q y a1 m1 b1) (h2 : Alpha k p q y a2 m2 b2) (t : ℤ) :
    (∃ c, LHE.evalAddA a1 a2 (p * q) = .ok c) ∧ (∃ c, LHE.evalSubA a1 a2 (p * q) = .ok c) ∧
      (∃ c, LHE.evalCmultA a1 t (p * q) = .ok c) := by
  have := key.neZero
  obtain ⟨Y, hY⟩ := key.unit
  have hcast : ((p * q : ℕ) : ℤ) = (p : ℤ) * q := by push_cast; rfl
  obtain ⟨a, e1, -⟩ := LHE.evalAddA_enc (alpha_enc key hY h1) (alpha_enc key hY h2)
  obtain ⟨b, e2, -⟩ := LHE.evalSubA_enc (alpha_enc key hY h1) (alpha_enc key hY h2)
  obtain ⟨c, e3, -⟩ := LHE.evalCmultA_enc (alpha_enc key hY h1) t
  rw [hcast] at e1 e2 e3
  exact ⟨⟨a, e1⟩, ⟨b, e2⟩, ⟨c, e3⟩⟩

theorem exec_holds {k p q n : ℕ} {y : ℤ} (key : Key k p q y) (i : Stmt) {P P' : Plain} {s : Store}
    (h : Holds k p q y P s) (hN : P.num n = some (.const (p * q))) (hv : i.val n P = some P') :
    ∃ s', i.exec n k s = .ok s' ∧ Holds k p q y P' s' ∧ P'.num n = some (.const (p * q)) := by
  have hn := h.const n _ hN
  cases i with
  | add c c1 c2 =>
    simp only [Stmt.val] at hv
    split at hv
    · rename_i m1 b1 m2 b2 e1 e2
      obtain rfl := Option.some.inj hv
      have h1 := h.ct _ _ _ e1
      have h2 := h.ct _ _ _ e2
      obtain ⟨⟨r, hr⟩, -⟩ := lhe_linear_total key h1 h2 0
      exact ⟨_, by rw [Stmt.exec, evalAdd_eq, hn, hr]; rfl, h.setCt (Ct.add h1 h2 hr), hN⟩
    · cases hv
  | sub c c1 c2 =>
    simp only [Stmt.val] at hv
    split at hv
    · rename_i m1 b1 m2 b2 e1 e2
      obtain rfl := Option.some.inj hv
      have h1 := h.ct _ _ _ e1
      have h2 := h.ct _ _ _ e2
      obtain ⟨-, ⟨r, hr⟩, -⟩ := lhe_linear_total key h1 h2 0
      exact ⟨_, by rw [Stmt.exec, evalSub_eq, hn, hr]; rfl, h.setCt (Ct.sub h1 h2 hr), hN⟩
    · cases hv
  | cmult c c1 t =>
    simp only [Stmt.val] at hv
    split at hv
    · rename_i m1 b1 x e1 e2
      obtain rfl := Option.some.inj hv
      have h1 := h.ct _ _ _ e1
      have h2 := h.const _ _ e2
      obtain ⟨-, -, r, hr⟩ := lhe_linear_total key h1 h1 x
      exact ⟨_, by rw [Stmt.exec, evalCmult_eq _ _ _ _ _ _ (by simp), hn, h2, hr]; rfl, h.setCt (Ct.cmult h1 x hr), hN⟩
    · cases hv
  | addA c c1 c2 =>
    simp only [Stmt.val] at hv
    split at hv
    · rename_i m1 b1 m2 b2 e1 e2
      split at hv
      · cases hv
      · rename_i hc
        obtain rfl := Option.some.inj hv
        have h1 := h.alpha _ _ _ e1
        have h2 := h.alpha _ _ _ e2
        obtain ⟨⟨r, hr⟩, -⟩ := alpha_total key h1 h2 0
        refine ⟨_, by rw [Stmt.exec, evalAddA_eq _ _ _ _ _ (by simpa using Ne.symm hc), hn, hr]; rfl,
          h.setNum (Alpha.add h1 h2 hr), ?_⟩
        simp only [Function.update_of_ne (Ne.symm hc)]; exact hN
    · cases hv
  | subA c c1 c2 =>
    simp only [Stmt.val] at hv
    split at hv
    · rename_i m1 b1 m2 b2 e1 e2
      split at hv
      · cases hv
      · rename_i hc
        obtain rfl := Option.some.inj hv
        have h1 := h.alpha _ _ _ e1
        have h2 := h.alpha _ _ _ e2
        obtain ⟨-, ⟨r, hr⟩, -⟩ := alpha_total key h1 h2 0
        refine ⟨_, by rw [Stmt.exec, evalSubA_eq _ _ _ _ _ (by simpa using Ne.symm hc), hn, hr]; rfl,
          h.setNum (Alpha.sub h1 h2 hr), ?_⟩
        simp only [Function.update_of_ne (Ne.symm hc)]; exact hN
    · cases hv
  | cmultA c c1 t =>
    simp only [Stmt.val] at hv
    split at hv
    · rename_i m1 b1 x e1 e2
      split at hv
      · cases hv
      · rename_i hc
        obtain rfl := Option.some.inj hv
        have h1 := h.alpha _ _ _ e1
        have h2 := h.const _ _ e2
        obtain ⟨-, -, r, hr⟩ := alpha_total key h1 h1 x
        refine ⟨_, by rw [Stmt.exec, evalCmultA, hn, h2, ← LHE.evalCmultA, hr]; rfl,
          h.setNum (Alpha.cmult h1 x hr), ?_⟩
        simp only [Function.update_of_ne (Ne.symm hc)]; exact hN
    · cases hv

theorem execAll_holds {k p q n : ℕ} {y : ℤ} (key : Key k p q y) : ∀ (is : List Stmt) {P P' : Plain} {s : Store},
    Holds k p q y P s → P.num n = some (.const (p * q)) → valAll n is P = some P' →
    ∃ s', execAll n k is s = .ok s' ∧ Holds k p q y P' s'
  | [], P, P', s, h, _, hv => ⟨s, rfl, by cases hv; exact h⟩
  | i :: is, P, P', s, h, hN, hv => by
    rw [valAll] at hv
    obtain ⟨P1, h1, h2⟩ := Option.bind_eq_some_iff.mp hv
    obtain ⟨s1, e1, g1, g2⟩ := exec_holds key i h hN h1
    obtain ⟨s2, e2, g3⟩ := execAll_holds key is g1 g2 h2
    exact ⟨s2, by rw [execAll, e1]; exact e2, g3⟩

/-- C105: a program of linear operations, in which every result may be written over any operand or any
other variable except the modulus, does on ciphertexts what it says: it has a defined result, and
afterwards every variable decrypts to the message which the same assignments give, modulo `2^k`. -/
theorem lhe_programs_in_place {k p q n : ℕ} {y : ℤ} (key : Key k p q y) (is : List Stmt) (P P' : Plain) (s : Store)
    (h : Holds k p q y P s) (hN : P.num n = some (.const (p * q))) (hv : valAll n is P = some P') :
    ∃ s', execAll n k is s = .ok s' ∧
      (∀ v m b, P'.ct v = some (m, b) → LHE.heDecrypt (ctOf s' v) p y k = .ok (m % 2 ^ k)) ∧
      (∀ v m b b', P'.num v = some (.alpha m b) → b' ≡ b [ZMOD 2 ^ k] →
        LHE.heDecryptA false false (s' (.num v)) b' p y k = .ok (m % 2 ^ k)) ∧
      (∀ v x, P'.num v = some (.const x) → s' (.num v) = x) := by
  obtain ⟨s', e, g⟩ := execAll_holds key is h hN hv
  exact ⟨s', e, fun v m b hc => lhe_linear_partial key (g.ct v m b hc),
    fun v m b b' hc hb => lhe_product_partial key (g.alpha v m b hc) hb, g.const⟩

/-- C105, decryption: the result may be written over any variable, also the ciphertext or the key, and
nothing else changes. -/
theorem lhe_decrypt_any_variable {k p q : ℕ} {y : ℤ} (key : Key k p q y) (s : Store) (r : Addr) (c : ℕ) (ap ay : Addr)
    (hp : s ap = p) (hy : s ay = y) {m b : ℤ} (hc : Ct k p q y (ctOf s c) m b) :
    ∃ s', heDecrypt s r c ap ay k = .ok s' ∧ s' r = m % 2 ^ k ∧ ∀ z, z ≠ r → s' z = s z := by
  have h := lhe_linear_partial key hc
  rw [LHE.heDecrypt] at h
  obtain ⟨b', h1, h2⟩ := Res.bind_eq_ok h
  simp only [ctOf] at h1 h2
  rw [mod_ok (pow_ne_zero k two_ne_zero), Res.ok_inj] at h2
  refine ⟨s.set r (m % 2 ^ k), ?_, set_self _ _ _, fun z hz => set_ne _ _ hz⟩
  simp only [heDecrypt, hp, hy, h1, Res.ok_bind, set_self, set_set, mod_ok (pow_ne_zero k (two_ne_zero (α := ℤ))), h2,
    Res.pure_eq]

/-- Variables for an example: `he_ct` 0 and 1 hold fresh encryptions of 3 and 1, variable 0 the modulus,
variable 1 the constant 2, variable 2 the product of the two, variable 3 the public element, variables 4 and 6 encryptions
of 0. -/
def exStore : Store
  | .ctA 0 => 3
  | .ctA 1 => 1
  | .ctBeta _ => 81
  | .num 0 => 91
  | .num 1 => 2
  | .num 2 => 33
  | .num 3 => 5
  | .num 4 => 81
  | .num 6 => 81
  | _ => 0

def exPlain : Plain where
  ct := fun v => if v = 0 then some (3, 0) else if v = 1 then some (1, 0) else none
  num := fun v => if v = 0 then some (.const 91) else if v = 1 then some (.const 2) else
    if v = 2 then some (.alpha 3 0) else none

theorem exAlpha : Alpha 2 13 7 5 33 (3 * 1) (0 * 0) :=
  Alpha.mult (ct_small 3) (ct_small 1) (constEnv 3) 1 () () mult_small ⟨-11, 4, by norm_num⟩

theorem exHolds : Holds 2 13 7 5 exPlain exStore where
  ct v m b e := by
    simp only [exPlain] at e
    split at e
    · rename_i h; subst h; cases e; exact ct_small 3
    · split at e
      · rename_i h; subst h; cases e; exact ct_small 1
      · cases e
  alpha v m b e := by
    simp only [exPlain] at e
    split at e
    · cases e
    · split at e
      · cases e
      · split at e
        · rename_i h
          subst h
          cases e
          exact exAlpha
        · cases e
  const v x e := by
    simp only [exPlain] at e
    split at e
    · rename_i h; subst h; cases e; rfl
    · split at e
      · rename_i h; subst h; cases e; rfl
      · split at e <;> cases e

/-- The hypotheses are met: `c0 = c0 + c0; c1 = c0 - c1; c0 = 2*c0; d2 = d2 + d2; d1 = 2*d2` where the
last statement writes over its constant. -/
example : ∃ P', Key 2 13 7 5 ∧ Holds 2 13 7 5 exPlain exStore ∧
    exPlain.num 0 = some (.const ((13 : ℕ) * (7 : ℕ))) ∧
    valAll 0 [.add 0 0 0, .sub 1 0 1, .cmult 0 0 1, .addA 2 2 2, .cmultA 1 2 1] exPlain = some P' ∧
    P'.ct 0 = some (12, 0) ∧ P'.ct 1 = some (5, 0) ∧ P'.num 1 = some (.alpha 12 0) :=
  ⟨_, key13, exHolds, by simp [exPlain], rfl, rfl, rfl, rfl⟩

/-! ### Products (C106) -/

theorem evalMult_eq (g : Env) (fuel : ℕ) (r : g.State) (s : Store) (al : Addr) (c1 c2 : ℕ) (y N : Addr) (k : ℕ)
    (h1 : .ctA c1 ≠ al) (h2 : .ctA c2 ≠ al) (h3 : .ctBeta c1 ≠ al) (h4 : .ctBeta c2 ≠ al) (h5 : N ≠ al) :
    evalMult g fuel r s al c1 c2 y N k = (do
      let v ← LHE.evalMult g fuel r (ctOf s c1) (ctOf s c2) (s y) (s N) k
      return (s.set al v.1, v.2)) := by
  simp only [evalMult, LHE.evalMult, JL.encrypt, ctOf, set_self, set_set, set_ne _ _ h1, set_ne _ _ h2,
    set_ne _ _ h3, set_ne _ _ h4, set_ne _ _ h5, bind_assoc, Res.ok_bind, Res.pure_eq]

theorem evalMult3_eq (g : Env) (fuel : ℕ) (r : g.State) (s : Store) (al : Addr) (c1 c2 c3 : ℕ)
    (t12 t13 t23 y N : Addr) (k : ℕ)
    (h1 : .ctA c1 ≠ al) (h2 : .ctA c2 ≠ al) (h3 : .ctA c3 ≠ al) (h4 : .ctBeta c1 ≠ al) (h5 : .ctBeta c2 ≠ al)
    (h6 : .ctBeta c3 ≠ al) (h7 : t12 ≠ al) (h8 : t13 ≠ al) (h9 : t23 ≠ al) (h10 : N ≠ al) :
    evalMult3 g fuel r s al c1 c2 c3 t12 t13 t23 y N k = (do
      let v ← LHE.evalMult3 g fuel r (ctOf s c1) (ctOf s c2) (ctOf s c3) (s t12) (s t13) (s t23) (s y) (s N) k
      return (s.set al v.1, v.2)) := by
  simp only [evalMult3, LHE.evalMult3, JL.encrypt, mulMod, ctOf, set_self, set_set, set_ne _ _ h1, set_ne _ _ h2,
    set_ne _ _ h3, set_ne _ _ h4, set_ne _ _ h5, set_ne _ _ h6, set_ne _ _ h7, set_ne _ _ h8, set_ne _ _ h9,
    set_ne _ _ h10, bind_assoc, Res.ok_bind, Res.pure_eq]

/-- C106, the part that holds: if the result of a product is none of the members of the factors and not
the modulus (it may be the variable of the public element `y`), then it decrypts, given the product of
the label values, to the product of the messages, and no other variable changes.  Missing from the
full statement: results written over a factor (`lhe_product_in_place_refuted`), and the draws of C58. -/
theorem lhe_product_in_place_partial {k p q : ℕ} {y : ℤ} (key : Key k p q y) (g : Env) (fuel : ℕ) (r r' : g.State)
    (s s' : Store) (al : Addr) (c1 c2 : ℕ) (ay aN : Addr) (hy : s ay = y) (hN : s aN = p * q)
    (h1 : .ctA c1 ≠ al) (h2 : .ctA c2 ≠ al) (h3 : .ctBeta c1 ≠ al) (h4 : .ctBeta c2 ≠ al) (h5 : aN ≠ al)
    {m1 m2 b1 b2 b' : ℤ} (i1 : Ct k p q y (ctOf s c1) m1 b1) (i2 : Ct k p q y (ctOf s c2) m2 b2)
    (h : evalMult g fuel r s al c1 c2 ay aN k = .ok (s', r')) (hco : IsCoprime (s' al) ((p : ℤ) * q))
    (hb : b' ≡ b1 * b2 [ZMOD 2 ^ k]) :
    LHE.heDecryptA false false (s' al) b' p y k = .ok (m1 * m2 % 2 ^ k) ∧ ∀ z, z ≠ al → s' z = s z := by
  rw [evalMult_eq g fuel r s al c1 c2 ay aN k h1 h2 h3 h4 h5, hy, hN] at h
  obtain ⟨⟨v, r1⟩, e1, e2⟩ := Res.bind_eq_ok h
  simp only [Res.pure_eq, Res.ok_inj, Prod.mk.injEq] at e2
  obtain ⟨rfl, rfl⟩ := e2
  rw [set_self] at hco ⊢
  exact ⟨lhe_product_partial key (Alpha.mult i1 i2 g fuel r _ e1 hco) hb, fun z hz => set_ne _ _ hz⟩

/-- C106, the part that holds, for three factors: the result may not be one of the three products of
label values either. -/
theorem lhe_product3_in_place_partial {k p q : ℕ} {y : ℤ} (key : Key k p q y) (g : Env) (fuel : ℕ) (r r' : g.State)
    (s s' : Store) (al : Addr) (c1 c2 c3 : ℕ) (t12 t13 t23 ay aN : Addr) (hy : s ay = y) (hN : s aN = p * q)
    (h1 : .ctA c1 ≠ al) (h2 : .ctA c2 ≠ al) (h3 : .ctA c3 ≠ al) (h4 : .ctBeta c1 ≠ al) (h5 : .ctBeta c2 ≠ al)
    (h6 : .ctBeta c3 ≠ al) (h7 : t12 ≠ al) (h8 : t13 ≠ al) (h9 : t23 ≠ al) (h10 : aN ≠ al)
    {m1 m2 m3 b1 b2 b3 b' : ℤ} (i1 : Ct k p q y (ctOf s c1) m1 b1) (i2 : Ct k p q y (ctOf s c2) m2 b2)
    (i3 : Ct k p q y (ctOf s c3) m3 b3) (i12 : Encrypts k p q y (s t12) (b1 * b2))
    (i13 : Encrypts k p q y (s t13) (b1 * b3)) (i23 : Encrypts k p q y (s t23) (b2 * b3))
    (h : evalMult3 g fuel r s al c1 c2 c3 t12 t13 t23 ay aN k = .ok (s', r'))
    (hco : IsCoprime (s' al) ((p : ℤ) * q)) (hb : b' ≡ b1 * b2 * b3 [ZMOD 2 ^ k]) :
    LHE.heDecryptA false false (s' al) b' p y k = .ok (m1 * m2 * m3 % 2 ^ k) ∧ ∀ z, z ≠ al → s' z = s z := by
  rw [evalMult3_eq g fuel r s al c1 c2 c3 t12 t13 t23 ay aN k h1 h2 h3 h4 h5 h6 h7 h8 h9 h10, hy, hN] at h
  obtain ⟨⟨v, r1⟩, e1, e2⟩ := Res.bind_eq_ok h
  simp only [Res.pure_eq, Res.ok_inj, Prod.mk.injEq] at e2
  obtain ⟨rfl, rfl⟩ := e2
  rw [set_self] at hco ⊢
  exact ⟨lhe_product_partial key (Alpha.mult3 i1 i2 i3 i12 i13 i23 g fuel r _ e1 hco) hb, fun z hz => set_ne _ _ hz⟩

theorem ex_mult (al : Addr) (v : ℤ) (hal : al = .num 2 ∧ v = 33 ∨ al = .ctBeta 0 ∧ v = 30) :
    evalMult (constEnv 3) 1 () exStore al 0 1 (.num 3) (.num 0) 2 = .ok (exStore.set al v, ()) := by
  rcases hal with ⟨rfl, rfl⟩ | ⟨rfl, rfl⟩
  · simp [evalMult, Store.set, exStore, pickX, constEnv, powm, Gmp.mod, Int.reduceToNat]
  · simp [evalMult, Store.set, exStore, pickX, constEnv, powm, Gmp.mod, Int.reduceToNat]

/-- The hypotheses are met: the product of 3 and 1. -/
example : Key 2 13 7 5 ∧ exStore (.num 3) = 5 ∧ exStore (.num 0) = (13 : ℕ) * (7 : ℕ) ∧
    Ct 2 13 7 5 (ctOf exStore 0) 3 0 ∧ Ct 2 13 7 5 (ctOf exStore 1) 1 0 ∧
    evalMult (constEnv 3) 1 () exStore (.num 2) 0 1 (.num 3) (.num 0) 2 = .ok (exStore.set (.num 2) 33, ()) ∧
    IsCoprime (33 : ℤ) (((13 : ℕ) : ℤ) * (7 : ℕ)) :=
  ⟨key13, rfl, by norm_num [exStore], ct_small 3, ct_small 1, ex_mult _ _ (.inl ⟨rfl, rfl⟩), ⟨-11, 4, by norm_num⟩⟩

/-- C106 is false: the product of encryptions of 3 and 1, written over `beta` of the first, decrypts to
2 although all draws are good. -/
theorem lhe_product_in_place_refuted :
    ¬ ∀ (k p q : ℕ) (y : ℤ) (_ : Key k p q y) (g : Env) (fuel : ℕ) (r r' : g.State) (s s' : Store) (al : Addr)
      (c1 c2 : ℕ) (ay aN : Addr) (m1 m2 b1 b2 : ℤ), s ay = y → s aN = p * q → aN ≠ al →
      Ct k p q y (ctOf s c1) m1 b1 → Ct k p q y (ctOf s c2) m2 b2 →
      evalMult g fuel r s al c1 c2 ay aN k = .ok (s', r') → IsCoprime (s' al) ((p : ℤ) * q) →
      LHE.heDecryptA false false (s' al) (b1 * b2) p y k = .ok (m1 * m2 % 2 ^ k) := by
  intro h
  have := h 2 13 7 5 key13 (constEnv 3) 1 () () exStore _ (.ctBeta 0) 0 1 (.num 3) (.num 0) 3 1 0 0 rfl
    (by norm_num [exStore]) (by simp) (ct_small 3) (ct_small 1) (ex_mult _ _ (.inr ⟨rfl, rfl⟩))
    (by rw [set_self]; exact ⟨-3, 1, by norm_num⟩)
  rw [set_self] at this
  revert this
  decide +kernel

theorem ex_mult3 : evalMult3 (constEnv 3) 1 () exStore (.num 4) 0 1 1 (.num 4) (.num 6) (.num 6) (.num 3) (.num 0) 2 =
    .ok (exStore.set (.num 4) 88, ()) := by
  simp [evalMult3, mulMod, Store.set, exStore, pickX, constEnv, powm, Gmp.mod, Int.reduceToNat]

/-- C106 is false for three factors as well: written over one of the products of label values, the
product of 3, 1 and 1 decrypts to 2. -/
theorem lhe_product3_in_place_refuted :
    ¬ ∀ (k p q : ℕ) (y : ℤ) (_ : Key k p q y) (g : Env) (fuel : ℕ) (r r' : g.State) (s s' : Store)
      (c1 c2 c3 : ℕ) (t12 t13 t23 ay aN : Addr) (m1 m2 m3 b1 b2 b3 : ℤ), s ay = y → s aN = p * q → aN ≠ t12 →
      Ct k p q y (ctOf s c1) m1 b1 → Ct k p q y (ctOf s c2) m2 b2 → Ct k p q y (ctOf s c3) m3 b3 →
      Encrypts k p q y (s t12) (b1 * b2) → Encrypts k p q y (s t13) (b1 * b3) →
      Encrypts k p q y (s t23) (b2 * b3) →
      evalMult3 g fuel r s t12 c1 c2 c3 t12 t13 t23 ay aN k = .ok (s', r') → IsCoprime (s' t12) ((p : ℤ) * q) →
      LHE.heDecryptA false false (s' t12) (b1 * b2 * b3) p y k = .ok (m1 * m2 * m3 % 2 ^ k) := by
  intro h
  have e : Encrypts 2 13 7 5 81 (0 * 0) := ⟨0, 3, by decide, ⟨-30, 1, by norm_num⟩, by decide⟩
  have := h 2 13 7 5 key13 (constEnv 3) 1 () () exStore _ 0 1 1 (.num 4) (.num 6) (.num 6) (.num 3) (.num 0) 3 1 1
    0 0 0 rfl (by norm_num [exStore]) (by simp) (ct_small 3) (ct_small 1) (ct_small 1) e e e ex_mult3
    (by rw [set_self]; exact ⟨30, -29, by norm_num⟩)
  rw [set_self] at this
  revert this
  decide +kernel

/-! ### Encryption (C107) -/

theorem heEncrypt_eq (g : Env) (fuel : ℕ) (r : g.State) (hc : HC128.State) (junk : List U8) (s : Store) (c : ℕ)
    (b m y N label : Addr) (k : ℕ) (h1 : y ≠ b) (h2 : N ≠ b) (h3 : N ≠ .ctBeta c) (h4 : m ≠ b) (h5 : m ≠ .ctBeta c)
    (h6 : b ≠ .ctBeta c) :
    heEncrypt g fuel r hc junk s c b m y N label k = (do
      let v ← LHE.heEncrypt g fuel r hc junk (s m) (s y) (s N) (s label) k
      return (setCt (s.set b v.2.1) c v.1, v.2.2.1, v.2.2.2)) := by
  simp only [heEncrypt, LHE.heEncrypt, jlEncrypt, JL.encrypt, bind_assoc, set_self, set_set, set_ne _ _ h1,
    set_ne _ _ h2, set_ne _ _ h3, set_ne _ _ h4, set_ne _ _ h5, set_ne _ _ h6, Res.ok_bind, Res.pure_eq]
  cases LHE.labelValue hc junk (s label) k with
  | ub w => rfl
  | ok v =>
    simp only [Res.ok_bind]
    cases pickX g (s N) fuel r with
    | ub w => rfl
    | ok x =>
      simp only [Res.ok_bind]
      cases powm (s y) v.1 (s N) with
      | ub w => rfl
      | ok t1 =>
        simp only [Res.ok_bind]
        cases powm x.1 (2 ^ k) (s N) with
        | ub w => rfl
        | ok t2 =>
          simp only [Res.ok_bind]
          unfold Gmp.mod
          by_cases hN : s N = 0
          · simp [hN]
          · simp only [hN, if_false, Res.ok_bind, setCt, pow_ne_zero k (two_ne_zero (α := ℤ))]
            congr 2
            funext z
            by_cases g1 : z = .ctBeta c <;> by_cases g2 : z = .ctA c <;> simp [g1, g2, Store.set]

/-- C107, the part that holds: whatever other variables are shared, in particular label value and label,
or message and first member of the ciphertext: if the label value is not written over the message or
the public key, and the ciphertext not over label value, modulus or (its second member) the message,
then the ciphertext decrypts to the message that was passed, unless its `beta` is a multiple of `p`,
and no variables but label value and ciphertext change.  Missing from the full statement: label value
and message in the same variable (`lhe_encrypt_shared_exact`, `lhe_encrypt_shared_refuted`). -/
theorem lhe_encrypt_shared_partial {k p q : ℕ} {y : ℤ} (hk : k ≠ 0) (key : Key k p q y) (g : Env) (fuel : ℕ)
    (r r' : g.State) (hc hc' : HC128.State) (junk : List U8) (s s' : Store) (c : ℕ) (b m ay aN label : Addr)
    (hy : s ay = y) (hN : s aN = p * q) (h1 : ay ≠ b) (h2 : aN ≠ b) (h3 : aN ≠ .ctBeta c) (h4 : m ≠ b)
    (h5 : m ≠ .ctBeta c) (h6 : b ≠ .ctBeta c)
    (h : heEncrypt g fuel r hc junk s c b m ay aN label k = .ok (s', hc', r')) (hp : ¬ (p : ℤ) ∣ s' (.ctBeta c)) :
    LHE.heDecrypt (ctOf s' c) p y k = .ok (s m % 2 ^ k) ∧
      ∀ z, z ≠ b → z ≠ .ctA c → z ≠ .ctBeta c → s' z = s z := by
  rw [heEncrypt_eq g fuel r hc junk s c b m ay aN label k h1 h2 h3 h4 h5 h6, hy, hN] at h
  obtain ⟨⟨ct, v, hc1, r1⟩, e1, e2⟩ := Res.bind_eq_ok h
  simp only [Res.pure_eq, Res.ok_inj, Prod.mk.injEq] at e2
  obtain ⟨rfl, rfl, rfl⟩ := e2
  have hbeta : setCt (s.set b v) c ct (.ctBeta c) = ct.beta := by simp [setCt]
  rw [hbeta] at hp
  refine ⟨?_, fun z z1 z2 z3 => ?_⟩
  · rw [ctOf_setCt, if_pos rfl, lhe_fresh_exact hk key g fuel r _ hc _ junk _ _ _ ct e1, if_neg hp]
  · rw [setCt, set_ne _ _ z3, set_ne _ _ z2, set_ne _ _ z1]

/-- C107, exact outcome for the usual case of sharing: with label value and message in the same
variable the message is lost; the ciphertext decrypts to the label value. -/
theorem lhe_encrypt_shared_exact {k p q : ℕ} {y : ℤ} (hk : k ≠ 0) (key : Key k p q y) (g : Env) (fuel : ℕ)
    (r r' : g.State) (hc hc' : HC128.State) (junk : List U8) (s s' : Store) (c : ℕ) (m ay aN label : Addr)
    (hy : s ay = y) (hN : s aN = p * q) (h1 : ay ≠ m) (h2 : aN ≠ m) (h3 : aN ≠ .ctBeta c)
    (h5 : m ≠ .ctBeta c) (h6 : m ≠ .ctA c)
    (h : heEncrypt g fuel r hc junk s c m m ay aN label k = .ok (s', hc', r')) (hp : ¬ (p : ℤ) ∣ s' (.ctBeta c)) :
    s' (.ctA c) = 0 ∧ LHE.heDecrypt (ctOf s' c) p y k = .ok (s' m % 2 ^ k) := by
  simp only [heEncrypt, jlEncrypt, bind_assoc, set_self, set_set, set_ne _ _ h1,
    set_ne _ _ h2, set_ne _ _ h3, Res.ok_bind, Res.pure_eq, sub_self] at h
  obtain ⟨⟨v, hc1⟩, e1, h⟩ := Res.bind_eq_ok h
  simp only at h
  obtain ⟨⟨x, r1⟩, e2, h⟩ := Res.bind_eq_ok h
  obtain ⟨t1, e3, h⟩ := Res.bind_eq_ok h
  obtain ⟨t2, e4, h⟩ := Res.bind_eq_ok h
  obtain ⟨ct, e5, h⟩ := Res.bind_eq_ok h
  rw [mod_ok (pow_ne_zero k two_ne_zero)] at h
  simp only [Res.ok_bind, Int.zero_emod, Res.ok_inj, Prod.mk.injEq] at h
  obtain ⟨rfl, rfl, rfl⟩ := h
  rw [set_ne _ _ (by simp), set_self] at hp
  have he : JL.encrypt g fuel r v y (p * q) k = .ok (ct, r1) := by
    rw [← hy, ← hN]
    simp only [JL.encrypt, e2, e3, e4, e5, Res.ok_bind, Res.pure_eq]
  have hd := jl_round_trip_exact hk key g fuel r r1 v ct he
  rw [if_neg hp] at hd
  refine ⟨set_self _ _ _, ?_⟩
  rw [set_ne _ _ h6, set_ne _ _ h5, set_self]
  simp only [LHE.heDecrypt, ctOf, set_self, set_ne (z := Addr.ctBeta c) (x := .ctA c) _ _ (by simp), hd, Res.ok_bind,
    mod_ok (pow_ne_zero k (two_ne_zero (α := ℤ))), zero_add, Int.emod_emod_of_dvd _ (dvd_refl _)]

/-- The variables of the example with message 3 in variable 2. -/
def exStore3 : Store := exStore.set (.num 2) 3

/-- Encryption of the message 3 in variable 2 under label 0 in variable 5, label value to variable 7. -/
theorem ex_encrypt (hc : HC128.State) :
    heEncrypt (constEnv 3) 1 () hc [] exStore3 0 (.num 7) (.num 2) (.num 3) (.num 0) (.num 5) 2 =
      .ok (setCt (exStore3.set (.num 7) 0) 0 ⟨3, 81⟩, hc, ()) := by
  have e := encrypt_small hc 3 3 81 enc_small3
  refine (heEncrypt_eq (constEnv 3) 1 () hc [] exStore3 0 (.num 7) (.num 2) (.num 3) (.num 0) (.num 5) 2
    (by simp) (by simp) (by simp) (by simp) (by simp) (by simp)).trans ?_
  have e1 : exStore3 (.num 2) = 3 ∧ exStore3 (.num 3) = 5 ∧ exStore3 (.num 0) = ((13 : ℕ) * (7 : ℕ)) ∧
    exStore3 (.num 5) = 0 := ⟨rfl, rfl, rfl, rfl⟩
  rw [e1.1, e1.2.1, e1.2.2.1, e1.2.2.2, e]
  rfl

/-- The same with the label value to the variable of the message. -/
theorem ex_encrypt_shared (hc : HC128.State) :
    heEncrypt (constEnv 3) 1 () hc [] exStore3 0 (.num 2) (.num 2) (.num 3) (.num 0) (.num 5) 2 =
      .ok (setCt (exStore3.set (.num 2) 0) 0 ⟨0, 81⟩, hc, ()) := by
  have : LHE.labelValue hc [] 0 2 = .ok (0, hc) := by
    simp [LHE.labelValue, LHE.exportBytes, HC128.processPacket, LHE.importWords]
  simp [heEncrypt, jlEncrypt, Store.set, exStore3, exStore, pickX, constEnv, powm, Gmp.mod, Int.reduceToNat, this, setCt]
  funext z
  by_cases g1 : z = .ctBeta 0 <;> by_cases g2 : z = .ctA 0 <;> simp [g1, g2, Store.set]

/-- The hypotheses of both theorems are met. -/
example (hc : HC128.State) : (2 : ℕ) ≠ 0 ∧ Key 2 13 7 5 ∧ exStore3 (.num 3) = 5 ∧
    exStore3 (.num 0) = (13 : ℕ) * (7 : ℕ) ∧
    (∃ s', heEncrypt (constEnv 3) 1 () hc [] exStore3 0 (.num 7) (.num 2) (.num 3) (.num 0) (.num 5) 2 =
      .ok (s', hc, ()) ∧ ¬ ((13 : ℕ) : ℤ) ∣ s' (.ctBeta 0)) ∧
    ∃ s', heEncrypt (constEnv 3) 1 () hc [] exStore3 0 (.num 2) (.num 2) (.num 3) (.num 0) (.num 5) 2 =
      .ok (s', hc, ()) ∧ ¬ ((13 : ℕ) : ℤ) ∣ s' (.ctBeta 0) :=
  ⟨by decide, key13, rfl, rfl, ⟨_, ex_encrypt hc, by simp [setCt]⟩, ⟨_, ex_encrypt_shared hc, by simp [setCt]⟩⟩

/-- C107 is false: the message 3, in the variable of the label value, decrypts to the label value 0. -/
theorem lhe_encrypt_shared_refuted :
    ¬ ∀ (k p q : ℕ) (y : ℤ) (_ : Key k p q y) (g : Env) (fuel : ℕ) (r r' : g.State) (hc hc' : HC128.State)
      (junk : List U8) (s s' : Store) (c : ℕ) (b m ay aN label : Addr), s ay = y → s aN = p * q → ay ≠ b → aN ≠ b →
      aN ≠ .ctBeta c → b ≠ .ctBeta c →
      heEncrypt g fuel r hc junk s c b m ay aN label k = .ok (s', hc', r') → ¬ (p : ℤ) ∣ s' (.ctBeta c) →
      LHE.heDecrypt (ctOf s' c) p y k = .ok (s m % 2 ^ k) := by
  intro h
  have := h 2 13 7 5 key13 (constEnv 3) 1 () () (HC128.init [] []) _ [] exStore3 _ 0 (.num 2) (.num 2) (.num 3) (.num 0)
    (.num 5) rfl rfl (by simp) (by simp) (by simp) (by simp) (ex_encrypt_shared _) (by simp [setCt])
  rw [ctOf_setCt, if_pos rfl] at this
  revert this
  decide +kernel

/-! ### Constant multiples by a member of the ciphertext -/

/-- C106, constant multiples: with the constant in member `a` of the result, as in `c = c.a * c1`, the
second member of the result is computed with the new value of `a`: an encryption of 1 with `a = 2`,
label value 3, multiplied with its own `a` gives 0 and not 2. -/
theorem lhe_cmult_shared_refuted :
    ¬ ∀ (k p q : ℕ) (y : ℤ) (_ : Key k p q y) (s s' : Store) (c c1 : ℕ) (t aN : Addr) (m1 b1 : ℤ),
      s aN = p * q → Encrypts k p q y (s (.ctBeta c1)) b1 → s (.ctA c1) ≡ m1 - b1 [ZMOD 2 ^ k] →
      evalCmult s c c1 t aN k = .ok s' → LHE.heDecrypt (ctOf s' c) p y k = .ok (s t * m1 % 2 ^ k) := by
  intro h
  have := h 2 13 7 5 key13 (setCt exStore 0 ⟨2, 34⟩) (setCt exStore 0 ⟨0, 1⟩) 0 0 (.ctA 0) (.num 0) 1 3 rfl
    ⟨3, 1, by decide, isCoprime_one_left, by decide⟩ (by decide) (by
      simp [evalCmult, setCt, Store.set, exStore, powm, Gmp.mod]
      funext z
      simp only [Store.set]
      by_cases g1 : z = .ctBeta 0 <;> by_cases g2 : z = .ctA 0 <;> simp [g1, g2])
  rw [ctOf_setCt, if_pos rfl] at this
  revert this
  decide +kernel

end CT.Props.LHEStore
