import Verif.Model.GmpLeft
import Verif.Props.LabeledHE

/-! # C147: memory left by the asymmetric functions -/

namespace CT.Props.GmpLeft
open CT CT.Gmp CT.Spec.JL

/-! ### The functions are those of the other models -/

/-- The result of a function without the variables it leaves. -/
def erase {α : Type} (r : Res (α × Vars)) : Res α := r.bind fun x => .ok x.1

/-- The variables only. -/
def left {α : Type} (r : Res (α × Vars)) : Res Vars := r.bind fun x => .ok x.2

theorem findP_div (g : Env) (d : Int) : ∀ (fuel : Nat) (t p : Int), JL.findP g d fuel t = .ok p → ∃ v, divexact (p - 1) d = .ok v
  | 0, _, _, h => by cases h
  | f + 1, t, p, h => by
    rw [JL.findP] at h
    split at h
    · obtain ⟨v, h1, h2⟩ := Res.bind_eq_ok h
      split at h2
      · obtain rfl := Res.ok_inj.mp h2
        exact ⟨v, h1⟩
      · exact findP_div g d f _ p h2
    · exact findP_div g d f _ p h

theorem keygen_erase (g : Env) (fuel k keysize : Nat) :
    erase (JL.keygenL g fuel k keysize) = (JL.keygen g fuel k keysize).bind fun r => .ok r.1 := by
  have hd : (2 : Int) ^ k ≠ 0 := by positivity
  simp only [JL.keygenL, JL.keygen, JL.mod_ok hd, Res.ok_bind, JL.mod_ok (show (4 : Int) ≠ 0 by decide)]
  cases hp : JL.findP g (2 ^ k) fuel ((g.urandomb g.init (keysize / 2)).1 - (g.urandomb g.init (keysize / 2)).1 % 2 ^ k + 1) with
  | ub w => rfl
  | ok p =>
  obtain ⟨v, hv⟩ := findP_div g _ _ _ _ hp
  simp only [Res.ok_bind, hv]
  cases JL.findQ g fuel (g.nextprime (g.urandomb (g.urandomb g.init (keysize / 2)).2 (keysize / 2)).1) with
  | ub w => rfl
  | ok q =>
  simp only [Res.ok_bind]
  cases JL.findY g p q (p * q) fuel 0 (g.urandomb (g.urandomb g.init (keysize / 2)).2 (keysize / 2)).2 with
  | ub w => rfl
  | ok y => rfl

theorem encrypt_erase (g : Env) (fuel : Nat) (s : g.State) (m y N : Int) (k : Nat) :
    erase (JL.encryptL g fuel s m y N k) = JL.encrypt g fuel s m y N k := by
  rw [JL.encryptL, JL.encrypt]
  cases JL.pickX g N fuel s with
  | ub w => rfl
  | ok x =>
  simp only [Res.ok_bind]
  cases powm y m N with
  | ub w => rfl
  | ok t1 =>
  simp only [Res.ok_bind]
  cases powm x.1 (2 ^ k) N with
  | ub w => rfl
  | ok t2 =>
  simp only [Res.ok_bind]
  cases Gmp.mod (t1 * t2) N <;> rfl

theorem decLoop_erase (p : Int) : ∀ (n : Nat) (m B C D z e : Int),
    (JL.decLoopL p n m B C D z e).bind (fun x => .ok x.1) = JL.decLoop p n m B C D
  | 0, _, _, _, _, _, _ => rfl
  | n + 1, m, B, C, D, z, e => by
    rw [JL.decLoopL, JL.decLoop]
    cases powm C (2 ^ (n + 1)) p with
    | ub w => rfl
    | ok z' =>
    simp only [Res.ok_bind]
    cases powm D 2 p with
    | ub w => rfl
    | ok D' =>
    simp only [Res.ok_bind]
    split
    · cases Gmp.mod (C * D) p with
      | ub w => rfl
      | ok C' => exact decLoop_erase p n _ _ _ _ _ _
    · exact decLoop_erase p n _ _ _ _ _ _

theorem decrypt_erase (c p y : Int) (k : Nat) : erase (JL.decryptL c p y k) = JL.decrypt false c p y k := by
  rw [JL.decryptL, JL.decrypt]
  cases divexact (p - 1) (2 ^ k) with
  | ub w => rfl
  | ok e =>
  simp only [Res.ok_bind, Bool.false_eq_true, if_false]
  cases powm y (-e) p with
  | ub w => rfl
  | ok D =>
  simp only [Res.ok_bind]
  cases powm c e p with
  | ub w => rfl
  | ok C =>
  simp only [Res.ok_bind]
  rw [← decLoop_erase p (k - 1) 0 1 C D 0 0]
  cases JL.decLoopL p (k - 1) 0 1 C D 0 0 <;> rfl

theorem bind_erase {α β : Type} (r : Res (α × Vars)) (f : α × Vars → Res (β × Vars)) (h : α → Res β) (hf : ∀ a l, erase (f (a, l)) = h a) :
    erase (r.bind f) = (erase r).bind h := by
  cases r with
  | ub w => rfl
  | ok x => exact hf x.1 x.2

theorem erase_bind {α β : Type} (r : Res α) (f : α → Res (β × Vars)) : erase (r.bind f) = r.bind fun a => erase (f a) := by
  cases r <;> rfl

/-- C147, the functions with their variables are the functions of the other models. -/
theorem gmp_left_erase (g : Env) (fuel : Nat) (s : g.State) (hc : HC128.State) (junk : List U8) (m y N p label t b : Int)
    (c1 c2 c3 : LHE.HeCt) (b12 b13 b23 d1 d2 : Int) (k keysize : Nat) :
    erase (JL.keygenL g fuel k keysize) = (JL.keygen g fuel k keysize).bind (fun r => .ok r.1) ∧
    erase (JL.encryptL g fuel s m y N k) = JL.encrypt g fuel s m y N k ∧
    erase (JL.decryptL d1 p y k) = JL.decrypt false d1 p y k ∧
    erase (LHE.heEncryptL g fuel s hc junk m y N label k) = LHE.heEncrypt g fuel s hc junk m y N label k ∧
    erase (LHE.evalMultL g fuel s c1 c2 y N k) = LHE.evalMult g fuel s c1 c2 y N k ∧
    erase (LHE.evalMult3L g fuel s c1 c2 c3 b12 b13 b23 y N k) = LHE.evalMult3 g fuel s c1 c2 c3 b12 b13 b23 y N k ∧
    erase (LHE.evalAddL c1 c2 N k) = LHE.evalAdd c1 c2 N k ∧ erase (LHE.evalAddAL d1 d2 N) = LHE.evalAddA d1 d2 N ∧
    erase (LHE.evalSubL c1 c2 N k) = LHE.evalSub c1 c2 N k ∧ erase (LHE.evalSubAL d1 d2 N) = LHE.evalSubA d1 d2 N ∧
    erase (LHE.evalCmultL c1 t N k) = LHE.evalCmult c1 t N k ∧ erase (LHE.evalCmultAL d1 t N) = LHE.evalCmultA d1 t N ∧
    erase (LHE.heDecryptL c1 p y k) = LHE.heDecrypt c1 p y k ∧
    erase (LHE.heDecryptAL d1 b p y k) = LHE.heDecryptA false false d1 b p y k := by
  have hb : ∀ {α β : Type} (r : Res α) (f : α → Res β), (r >>= f) = r.bind f := fun _ _ => rfl
  refine ⟨keygen_erase .., encrypt_erase .., decrypt_erase .., ?_, ?_, ?_, ?_, ?_, ?_, ?_, ?_, ?_, ?_, ?_⟩
  · simp only [LHE.heEncryptL, LHE.heEncrypt, hb, erase_bind]
    congr 1
    funext x
    rw [← encrypt_erase]
    cases JL.encryptL g fuel s x.1 y N k <;> rfl
  · simp only [LHE.evalMultL, LHE.evalMult, hb, erase_bind]
    congr 1
    funext x
    rw [← encrypt_erase]
    cases JL.encryptL g fuel s x y N k <;> rfl
  · simp only [LHE.evalMult3L, LHE.evalMult3, hb, erase_bind]
    congr 1
    funext x
    congr 1
    funext x
    rw [← encrypt_erase]
    cases JL.encryptL g fuel s x y N k <;> rfl
  · simp only [LHE.evalAddL, LHE.evalAdd, hb, erase_bind]
    rfl
  · simp only [LHE.evalAddAL, LHE.evalAddA, hb, erase_bind]
    cases Gmp.mod (d1 * d2) N <;> rfl
  · simp only [LHE.evalSubL, LHE.evalSub, hb, erase_bind]
    cases invert c2.beta N <;> rfl
  · simp only [LHE.evalSubAL, LHE.evalSubA, hb, erase_bind]
    cases invert d2 N with
    | none => rfl
    | some v =>
      show (Gmp.mod (d1 * v) N).bind _ = Gmp.mod (d1 * v) N
      cases Gmp.mod (d1 * v) N <;> rfl
  · simp only [LHE.evalCmultL, LHE.evalCmult, hb, erase_bind]
    rfl
  · simp only [LHE.evalCmultAL, LHE.evalCmultA, hb, erase_bind]
    cases powm d1 t N <;> rfl
  · simp only [LHE.heDecryptL, LHE.heDecrypt, hb]
    rw [← decrypt_erase]
    refine bind_erase _ _ _ fun a l => ?_
    rw [erase_bind]
    show (Gmp.mod (c1.a + a) (2 ^ k)).bind _ = Gmp.mod (c1.a + a) (2 ^ k)
    cases Gmp.mod (c1.a + a) (2 ^ k) <;> rfl
  · simp only [LHE.heDecryptAL, LHE.heDecryptA, hb]
    rw [← decrypt_erase]
    refine bind_erase _ _ _ fun a l => ?_
    rw [erase_bind]
    show (Gmp.mod (a + b) (2 ^ k)).bind _ = Gmp.mod (a + b) (2 ^ k)
    cases Gmp.mod (a + b) (2 ^ k) <;> rfl

/-! ### How much a session leaves -/

/-- Calls of a program, with their arguments. -/
inductive Call (g : Env)
  | keygen (fuel k keysize : Nat)
  | encrypt (fuel : Nat) (s : g.State) (m y N : Int) (k : Nat)
  | decrypt (c p y : Int) (k : Nat)
  | heEncrypt (fuel : Nat) (s : g.State) (hc : HC128.State) (junk : List U8) (m y N label : Int) (k : Nat)
  | evalMult (fuel : Nat) (s : g.State) (c1 c2 : LHE.HeCt) (y N : Int) (k : Nat)
  | evalMult3 (fuel : Nat) (s : g.State) (c1 c2 c3 : LHE.HeCt) (b12 b13 b23 y N : Int) (k : Nat)
  | evalAdd (c1 c2 : LHE.HeCt) (N : Int) (k : Nat)
  | evalAddA (c1 c2 N : Int)
  | evalSub (c1 c2 : LHE.HeCt) (N : Int) (k : Nat)
  | evalSubA (c1 c2 N : Int)
  | evalCmult (c : LHE.HeCt) (t N : Int) (k : Nat)
  | evalCmultA (c t N : Int)
  | heDecrypt (c : LHE.HeCt) (p y : Int) (k : Nat)
  | heDecryptA (c b p y : Int) (k : Nat)

/-- The variables that a call leaves. -/
def Call.left {g : Env} : Call g → Res Vars
  | .keygen fuel k ks => GmpLeft.left (JL.keygenL g fuel k ks)
  | .encrypt fuel s m y N k => GmpLeft.left (JL.encryptL g fuel s m y N k)
  | .decrypt c p y k => GmpLeft.left (JL.decryptL c p y k)
  | .heEncrypt fuel s hc junk m y N label k => GmpLeft.left (LHE.heEncryptL g fuel s hc junk m y N label k)
  | .evalMult fuel s c1 c2 y N k => GmpLeft.left (LHE.evalMultL g fuel s c1 c2 y N k)
  | .evalMult3 fuel s c1 c2 c3 b12 b13 b23 y N k => GmpLeft.left (LHE.evalMult3L g fuel s c1 c2 c3 b12 b13 b23 y N k)
  | .evalAdd c1 c2 N k => GmpLeft.left (LHE.evalAddL c1 c2 N k)
  | .evalAddA c1 c2 N => GmpLeft.left (LHE.evalAddAL c1 c2 N)
  | .evalSub c1 c2 N k => GmpLeft.left (LHE.evalSubL c1 c2 N k)
  | .evalSubA c1 c2 N => GmpLeft.left (LHE.evalSubAL c1 c2 N)
  | .evalCmult c t N k => GmpLeft.left (LHE.evalCmultL c t N k)
  | .evalCmultA c t N => GmpLeft.left (LHE.evalCmultAL c t N)
  | .heDecrypt c p y k => GmpLeft.left (LHE.heDecryptL c p y k)
  | .heDecryptA c b p y k => GmpLeft.left (LHE.heDecryptAL c b p y k)

/-- Number of variables that a call leaves: a table. -/
def Call.count {g : Env} : Call g → Nat
  | .keygen .. => 10
  | .encrypt .. => 4
  | .decrypt .. => 9
  | .heEncrypt .. => 7
  | .evalMult .. => 8
  | .evalMult3 .. => 12
  | .evalAdd .. => 1
  | .evalAddA .. => 0
  | .evalSub .. => 3
  | .evalSubA .. => 1
  | .evalCmult .. => 1
  | .evalCmultA .. => 0
  | .heDecrypt .. => 11
  | .heDecryptA .. => 10

/-- What is in memory after a session: the variables of all its calls. -/
def session {g : Env} : List (Call g) → Res Vars
  | [] => .ok []
  | c :: cs => c.left.bind fun l => (session cs).bind fun l' => .ok (l ++ l')

theorem encrypt_length {g : Env} {fuel : Nat} {s : g.State} {m y N : Int} {k : Nat} {r : (Int × g.State) × Vars}
    (h : JL.encryptL g fuel s m y N k = .ok r) : r.2.length = 4 := by
  rw [JL.encryptL] at h
  obtain ⟨x, -, h⟩ := Res.bind_eq_ok h
  obtain ⟨t1, -, h⟩ := Res.bind_eq_ok h
  obtain ⟨t2, -, h⟩ := Res.bind_eq_ok h
  obtain ⟨c, -, h⟩ := Res.bind_eq_ok h
  obtain rfl := Res.ok_inj.mp h
  rfl

theorem decrypt_length {c p y : Int} {k : Nat} {r : Int × Vars} (h : JL.decryptL c p y k = .ok r) : r.2.length = 9 := by
  rw [JL.decryptL] at h
  obtain ⟨x, -, h⟩ := Res.bind_eq_ok h
  obtain ⟨t1, -, h⟩ := Res.bind_eq_ok h
  obtain ⟨t2, -, h⟩ := Res.bind_eq_ok h
  obtain ⟨c, -, h⟩ := Res.bind_eq_ok h
  obtain rfl := Res.ok_inj.mp h
  rfl

theorem left_length {α : Type} {r : Res (α × Vars)} {n : Nat} {l : Vars} (h : left r = .ok l) (hr : ∀ x, r = .ok x → x.2.length = n) :
    l.length = n := by
  obtain ⟨x, h1, h2⟩ := Res.bind_eq_ok h
  obtain rfl := Res.ok_inj.mp h2
  exact hr x h1

theorem call_length {g : Env} (c : Call g) (l : Vars) (h : c.left = .ok l) : l.length = c.count := by
  cases c with
  | keygen fuel k ks =>
    refine left_length h fun r h => ?_
    simp only [JL.keygenL] at h
    obtain ⟨x, -, h⟩ := Res.bind_eq_ok h
    obtain ⟨x, -, h⟩ := Res.bind_eq_ok h
    obtain ⟨x, -, h⟩ := Res.bind_eq_ok h
    obtain ⟨x, -, h⟩ := Res.bind_eq_ok h
    obtain ⟨x, -, h⟩ := Res.bind_eq_ok h
    obtain ⟨x, -, h⟩ := Res.bind_eq_ok h
    obtain rfl := Res.ok_inj.mp h
    rfl
  | encrypt => exact left_length h fun r h => encrypt_length h
  | decrypt => exact left_length h fun r h => decrypt_length h
  | heEncrypt =>
    refine left_length h fun r h => ?_
    simp only [LHE.heEncryptL] at h
    obtain ⟨x, -, h⟩ := Res.bind_eq_ok h
    obtain ⟨e, he, h⟩ := Res.bind_eq_ok h
    obtain ⟨x, -, h⟩ := Res.bind_eq_ok h
    obtain rfl := Res.ok_inj.mp h
    show ([("beta", 0)] ++ e.2 ++ _ : Vars).length = 7
    simp only [List.length_append, encrypt_length he, List.length_cons, List.length_nil]
  | evalMult =>
    refine left_length h fun r h => ?_
    simp only [LHE.evalMultL] at h
    obtain ⟨x, -, h⟩ := Res.bind_eq_ok h
    obtain ⟨e, he, h⟩ := Res.bind_eq_ok h
    obtain ⟨x, -, h⟩ := Res.bind_eq_ok h
    obtain ⟨x, -, h⟩ := Res.bind_eq_ok h
    obtain ⟨x, -, h⟩ := Res.bind_eq_ok h
    obtain ⟨x, -, h⟩ := Res.bind_eq_ok h
    obtain rfl := Res.ok_inj.mp h
    show (_ ++ e.2 : Vars).length = 8
    simp only [List.length_append, encrypt_length he, List.length_cons, List.length_nil]
  | evalMult3 =>
    refine left_length h fun r h => ?_
    simp only [LHE.evalMult3L] at h
    obtain ⟨x, -, h⟩ := Res.bind_eq_ok h
    obtain ⟨x, -, h⟩ := Res.bind_eq_ok h
    obtain ⟨e, he, h⟩ := Res.bind_eq_ok h
    iterate 15 obtain ⟨x, -, h⟩ := Res.bind_eq_ok h
    obtain rfl := Res.ok_inj.mp h
    show (_ ++ e.2 : Vars).length = 12
    simp only [List.length_append, encrypt_length he, List.length_cons, List.length_nil]
  | evalAdd =>
    refine left_length h fun r h => ?_
    simp only [LHE.evalAddL] at h
    iterate 2 obtain ⟨x, -, h⟩ := Res.bind_eq_ok h
    obtain rfl := Res.ok_inj.mp h
    rfl
  | evalAddA =>
    refine left_length h fun r h => ?_
    simp only [LHE.evalAddAL] at h
    obtain ⟨x, -, h⟩ := Res.bind_eq_ok h
    obtain rfl := Res.ok_inj.mp h
    rfl
  | evalSub =>
    refine left_length h fun r h => ?_
    simp only [LHE.evalSubL] at h
    iterate 4 obtain ⟨x, -, h⟩ := Res.bind_eq_ok h
    obtain rfl := Res.ok_inj.mp h
    rfl
  | evalSubA =>
    refine left_length h fun r h => ?_
    simp only [LHE.evalSubAL] at h
    iterate 2 obtain ⟨x, -, h⟩ := Res.bind_eq_ok h
    obtain rfl := Res.ok_inj.mp h
    rfl
  | evalCmult =>
    refine left_length h fun r h => ?_
    simp only [LHE.evalCmultL] at h
    iterate 2 obtain ⟨x, -, h⟩ := Res.bind_eq_ok h
    obtain rfl := Res.ok_inj.mp h
    rfl
  | evalCmultA =>
    refine left_length h fun r h => ?_
    simp only [LHE.evalCmultAL] at h
    obtain ⟨x, -, h⟩ := Res.bind_eq_ok h
    obtain rfl := Res.ok_inj.mp h
    rfl
  | heDecrypt =>
    refine left_length h fun r h => ?_
    simp only [LHE.heDecryptL] at h
    obtain ⟨e, he, h⟩ := Res.bind_eq_ok h
    obtain ⟨x, -, h⟩ := Res.bind_eq_ok h
    obtain rfl := Res.ok_inj.mp h
    show (_ ++ e.2 : Vars).length = 11
    simp only [List.length_append, decrypt_length he, List.length_cons, List.length_nil]
  | heDecryptA =>
    refine left_length h fun r h => ?_
    simp only [LHE.heDecryptAL] at h
    obtain ⟨e, he, h⟩ := Res.bind_eq_ok h
    obtain ⟨x, -, h⟩ := Res.bind_eq_ok h
    obtain rfl := Res.ok_inj.mp h
    show (_ ++ e.2 : Vars).length = 10
    simp only [List.length_append, decrypt_length he, List.length_cons, List.length_nil]

/-- C147, exact count: after any session, memory holds as many forgotten variables as the table says. -/
theorem gmp_left_count {g : Env} : ∀ (cs : List (Call g)) (l : Vars), session cs = .ok l → l.length = (cs.map Call.count).sum
  | [], _, h => by
    obtain rfl := Res.ok_inj.mp h
    rfl
  | c :: cs, l, h => by
    rw [session] at h
    obtain ⟨l1, h1, h⟩ := Res.bind_eq_ok h
    obtain ⟨l2, h2, h⟩ := Res.bind_eq_ok h
    obtain rfl := Res.ok_inj.mp h
    rw [List.length_append, call_length c l1 h1, gmp_left_count cs l2 h2, List.map_cons, List.sum_cons]

/-- A session: encrypt 3 and decrypt; it leaves thirteen variables. -/
theorem small_session : session (g := JoyeLibert.constEnv 2) [.encrypt 1 () 3 5 91 2, .decrypt 89 13 5 2] =
    .ok [("x", 2), ("k_exp", 4), ("tmp1", 34), ("tmp2", 16), ("B", 2), ("D", 12), ("C", 12), ("exp_msgsize", 4), ("exp_y", 3),
      ("neg_exp_y", -3), ("p_1", 12), ("z", 12), ("exp_c", 2)] := by
  have h1 : (Call.encrypt (g := JoyeLibert.constEnv 2) 1 () 3 5 91 2).left =
      .ok [("x", 2), ("k_exp", 4), ("tmp1", 34), ("tmp2", 16)] := by decide +kernel
  have h2 : (Call.decrypt (g := JoyeLibert.constEnv 2) 89 13 5 2).left = .ok [("B", 2), ("D", 12), ("C", 12), ("exp_msgsize", 4),
      ("exp_y", 3), ("neg_exp_y", -3), ("p_1", 12), ("z", 12), ("exp_c", 2)] := by decide +kernel
  rw [session, h1, session, h2, session]
  rfl

/-- C147 as stated is false: a call that encrypts one message leaves four variables, and repeating it leaves as many as one likes. -/
theorem gmp_left_refuted : ¬ ∀ (g : Env) (cs : List (Call g)) (l : Vars), session cs = .ok l → l = [] := by
  intro h
  have := h _ _ _ small_session
  cases this

theorem session_append {g : Env} : ∀ (cs ds : List (Call g)) (l l' : Vars), session cs = .ok l → session ds = .ok l' →
    session (cs ++ ds) = .ok (l ++ l')
  | [], _, _, _, h, h' => by
    obtain rfl := Res.ok_inj.mp h
    exact h'
  | c :: cs, ds, l, l', h, h' => by
    rw [session] at h
    obtain ⟨l1, h1, h⟩ := Res.bind_eq_ok h
    obtain ⟨l2, h2, h⟩ := Res.bind_eq_ok h
    obtain rfl := Res.ok_inj.mp h
    rw [List.cons_append, session, h1, Res.bind, session_append cs ds l2 l' h2 h', Res.bind, List.append_assoc]

/-- C147, memory grows without bound: a session that runs can be repeated, and if it leaves anything, what it leaves is there once more
after each repetition. -/
theorem gmp_left_unbounded {g : Env} (cs : List (Call g)) (l : Vars) (h : session cs = .ok l) (n : Nat) :
    ∃ L, session (List.replicate n cs).flatten = .ok L ∧ L = (List.replicate n l).flatten ∧ L.length = n * (cs.map Call.count).sum := by
  refine ⟨(List.replicate n l).flatten, ?_, rfl, ?_⟩
  · induction n with
    | zero => rfl
    | succ n ih =>
      rw [List.replicate_succ, List.flatten_cons, List.replicate_succ, List.flatten_cons]
      exact session_append _ _ _ _ h ih
  · rw [← gmp_left_count cs l h]
    simp

/-- A thousand encryptions and decryptions leave 13000 variables. -/
example : ∃ L, session (g := JoyeLibert.constEnv 2)
    (List.replicate 1000 [.encrypt 1 () 3 5 91 2, .decrypt 89 13 5 2]).flatten = .ok L ∧ L.length = 13000 := by
  obtain ⟨L, h1, -, h2⟩ := gmp_left_unbounded _ _ small_session 1000
  exact ⟨L, h1, h2⟩

/-! ### What they say -/

/-- C147, secret key left by key generation: the factors of the modulus, and the secret prime `(p-1)/2^k`. -/
theorem gmp_left_keygen (g : Env) (fuel k keysize : Nat) (N y p : Int) (l : Vars)
    (h : JL.keygenL g fuel k keysize = .ok ((N, y, p), l)) :
    ∃ q d, ("p_test", p) ∈ l ∧ ("q", q) ∈ l ∧ ("pseudo_test_p", d) ∈ l ∧ N = p * q ∧ p = 2 ^ k * d + 1 := by
  simp only [JL.keygenL] at h
  obtain ⟨m, -, h⟩ := Res.bind_eq_ok h
  obtain ⟨p', -, h⟩ := Res.bind_eq_ok h
  obtain ⟨d, hd, h⟩ := Res.bind_eq_ok h
  obtain ⟨q, -, h⟩ := Res.bind_eq_ok h
  obtain ⟨t, -, h⟩ := Res.bind_eq_ok h
  obtain ⟨y', -, h⟩ := Res.bind_eq_ok h
  have h := Res.ok_inj.mp h
  simp only [Prod.mk.injEq] at h
  obtain ⟨⟨rfl, rfl, rfl⟩, rfl⟩ := h
  refine ⟨q, d, by simp, by simp, by simp, rfl, ?_⟩
  rw [divexact] at hd
  split at hd
  · rename_i hn
    obtain rfl := Res.ok_inj.mp hd
    rw [Int.mul_ediv_cancel' hn.2]
    ring
  · cases hd

/-- Key generation that ends: the modulus is 39 and the factors 13 and 3 stay in memory. -/
example : ∃ l, JL.keygenL (JoyeLibert.constEnv 2 0) 4 2 64 = .ok ((39, 2, 13), l) ∧ ("p_test", 13) ∈ l ∧ ("q", 3) ∈ l := by
  have h := keygen_erase (JoyeLibert.constEnv 2 0) 4 2 64
  rw [JoyeLibert.keygen_small] at h
  obtain ⟨⟨r, l⟩, h1, h2⟩ := Res.bind_eq_ok h
  obtain rfl : r = (39, 2, 13) := Res.ok_inj.mp h2
  obtain ⟨q, d, e1, e2, -, e3, -⟩ := gmp_left_keygen _ _ _ _ _ _ _ _ h1
  obtain rfl : q = 3 := by omega
  exact ⟨l, h1, e1, e2⟩

/-- C147, secret key left by decryption: `p - 1`. -/
theorem gmp_left_decrypt (c p y m : Int) (k : Nat) (l : Vars) (h : JL.decryptL c p y k = .ok (m, l)) : ("p_1", p - 1) ∈ l := by
  rw [JL.decryptL] at h
  obtain ⟨x, -, h⟩ := Res.bind_eq_ok h
  obtain ⟨t1, -, h⟩ := Res.bind_eq_ok h
  obtain ⟨t2, -, h⟩ := Res.bind_eq_ok h
  obtain ⟨c, -, h⟩ := Res.bind_eq_ok h
  have h := Res.ok_inj.mp h
  simp only [Prod.mk.injEq] at h
  obtain ⟨-, rfl⟩ := h
  simp

theorem decLoopL_top (p : Int) : ∀ (n : Nat) (m B C D z e r B' D' C' z' e' : Int), 0 ≤ m → m < B →
    JL.decLoopL p n m B C D z e = .ok (r, (B', D', C', z', e')) → B' = B * 2 ^ n ∧ 0 ≤ r ∧ (C' = 1 ↔ r < B')
  | 0, m, B, C, D, z, e, r, B', D', C', z', e', h0, hB, h => by
    have h := Res.ok_inj.mp h
    simp only [Prod.mk.injEq] at h
    obtain ⟨rfl, rfl, rfl, rfl, rfl, rfl⟩ := h
    refine ⟨by ring, ?_, ?_⟩
    · split <;> omega
    · split <;> constructor <;> intro h <;> omega
  | n + 1, m, B, C, D, z, e, r, B', D', C', z', e', h0, hB, h => by
    rw [JL.decLoopL] at h
    obtain ⟨z2, -, h⟩ := Res.bind_eq_ok h
    obtain ⟨D2, -, h⟩ := Res.bind_eq_ok h
    split at h
    · obtain ⟨C2, -, h⟩ := Res.bind_eq_ok h
      obtain ⟨e1, e2⟩ := decLoopL_top p n _ _ _ _ _ _ _ _ _ _ _ _ (by omega) (by omega) h
      exact ⟨by rw [e1]; ring, e2⟩
    · obtain ⟨e1, e2⟩ := decLoopL_top p n _ _ _ _ _ _ _ _ _ _ _ _ (by omega) (by omega) h
      exact ⟨by rw [e1]; ring, e2⟩

/-- C147, message left by decryption: the variable `C` is 1 if the highest bit of the message is 0 and another number if it is 1. -/
theorem gmp_left_decrypt_top (c p y m : Int) (k : Nat) (l : Vars) (h : JL.decryptL c p y k = .ok (m, l)) :
    ∃ C, ("C", C) ∈ l ∧ 0 ≤ m ∧ (C = 1 ↔ m < 2 ^ (k - 1)) := by
  rw [JL.decryptL] at h
  obtain ⟨x, -, h⟩ := Res.bind_eq_ok h
  obtain ⟨t1, -, h⟩ := Res.bind_eq_ok h
  obtain ⟨t2, -, h⟩ := Res.bind_eq_ok h
  obtain ⟨⟨r, B, D, C, z, e⟩, h1, h⟩ := Res.bind_eq_ok h
  have h := Res.ok_inj.mp h
  simp only [Prod.mk.injEq] at h
  obtain ⟨rfl, rfl⟩ := h
  obtain ⟨rfl, h2, h3⟩ := decLoopL_top p _ _ _ _ _ _ _ _ _ _ _ _ _ (le_refl 0) (by decide) h1
  exact ⟨C, by simp, h2, by rw [h3, one_mul]⟩

/-- The ciphertext 89 is of 3, the ciphertext 5 of 1. -/
example : ∃ l l', JL.decryptL 89 13 5 2 = .ok (3, l) ∧ ("C", 12) ∈ l ∧ JL.decryptL 5 13 5 2 = .ok (1, l') ∧ ("C", 1) ∈ l' :=
  ⟨[("B", 2), ("D", 12), ("C", 12), ("exp_msgsize", 4), ("exp_y", 3), ("neg_exp_y", -3), ("p_1", 12), ("z", 12), ("exp_c", 2)],
    [("B", 2), ("D", 12), ("C", 1), ("exp_msgsize", 4), ("exp_y", 3), ("neg_exp_y", -3), ("p_1", 12), ("z", 12), ("exp_c", 2)],
    by decide +kernel, by decide, by decide +kernel, by decide⟩

/-- C147, left by homomorphic evaluation: the four factors of a product, with the coin that should hide them, the product of the two masked
messages, and what was subtracted. -/
theorem gmp_left_eval (g : Env) (fuel : Nat) (s s' : g.State) (c1 c2 c : LHE.HeCt) (y N alpha d1 d2 d : Int) (k : Nat) (l : Vars) :
    (LHE.evalMultL g fuel s c1 c2 y N k = .ok ((alpha, s'), l) →
      ∃ x t1 t2 b1 b2, JL.pickX g N fuel s = .ok (x, s') ∧ ("x", x) ∈ l ∧ ("a1a2", c1.a * c2.a % 2 ^ k) ∈ l ∧
        ("tmp1", t1) ∈ l ∧ ("tmp2", t2) ∈ l ∧ ("a2beta1", b1) ∈ l ∧ ("a1beta2", b2) ∈ l ∧ alpha = t1 * t2 * b1 * b2 % N) ∧
    (LHE.evalSubL c1 c2 N k = .ok (c, l) →
      ∃ ai bi, ("a_inv", ai) ∈ l ∧ ("beta_inv", bi) ∈ l ∧ c2.a % 2 ^ k = -ai % 2 ^ k ∧ c2.beta * bi % N = 1 % N) ∧
    (LHE.evalSubAL d1 d2 N = .ok (d, l) → ∃ i, ("c2_inv", i) ∈ l ∧ d2 * i % N = 1 % N) := by
  have hd : (2 : Int) ^ k ≠ 0 := by positivity
  have hi : ∀ {a v : Int}, (match invert a N with
      | some v => .ok v
      | none => .ub .contract : Res Int) = .ok v → a * v % N = 1 % N := by
    intro a v h
    by_cases hN : N = 0
    · subst hN
      simp [invert] at h
    by_cases hc : IsCoprime a N
    · obtain ⟨w, h1, h2, -⟩ := JL.invert_spec hN hc
      rw [h1] at h
      obtain rfl := Res.ok_inj.mp h
      exact h2
    · rw [JL.invert_none hc] at h
      cases h
  refine ⟨fun h => ?_, fun h => ?_, fun h => ?_⟩
  · simp only [LHE.evalMultL, JL.encryptL, JL.mod_ok hd, Res.ok_bind] at h
    obtain ⟨⟨⟨al, s1⟩, l'⟩, h1, h⟩ := Res.bind_eq_ok h
    obtain ⟨⟨x, s2⟩, hx, h1⟩ := Res.bind_eq_ok h1
    obtain ⟨t1, -, h1⟩ := Res.bind_eq_ok h1
    obtain ⟨t2, -, h1⟩ := Res.bind_eq_ok h1
    obtain ⟨c0, hc0, h1⟩ := Res.bind_eq_ok h1
    obtain ⟨b1, -, h⟩ := Res.bind_eq_ok h
    obtain ⟨b2, -, h⟩ := Res.bind_eq_ok h
    obtain ⟨al2, h2, h⟩ := Res.bind_eq_ok h
    obtain ⟨al3, h3, h⟩ := Res.bind_eq_ok h
    have h1 := Res.ok_inj.mp h1
    have h := Res.ok_inj.mp h
    simp only [Prod.mk.injEq] at h h1
    obtain ⟨⟨rfl, rfl⟩, rfl⟩ := h1
    obtain ⟨⟨rfl, rfl⟩, rfl⟩ := h
    have hN : N ≠ 0 := by
      rintro rfl
      simp [Gmp.mod] at h2
    rw [JL.mod_ok hN] at hc0 h2 h3
    obtain rfl := Res.ok_inj.mp hc0
    obtain rfl := Res.ok_inj.mp h2
    obtain rfl := Res.ok_inj.mp h3
    refine ⟨x, t1, t2, b1, b2, hx, by simp, by simp, by simp, by simp, by simp, by simp, ?_⟩
    have e : t1 * t2 % N * b2 % N * b1 ≡ t1 * t2 * b2 * b1 [ZMOD N] :=
      ((Int.mod_modEq _ _).trans ((Int.mod_modEq _ _).mul_right _)).mul_right _
    exact e.trans (by rw [mul_right_comm])
  · simp only [LHE.evalSubL, JL.mod_ok hd, Res.ok_bind] at h
    obtain ⟨bi, hb, h⟩ := Res.bind_eq_ok h
    obtain ⟨b, -, h⟩ := Res.bind_eq_ok h
    have h := Res.ok_inj.mp h
    simp only [Prod.mk.injEq] at h
    obtain ⟨-, rfl⟩ := h
    refine ⟨-c2.a % 2 ^ k, bi, by simp, by simp, ?_, hi hb⟩
    exact (Int.emod_emod_of_dvd _ (dvd_refl _)).symm.trans (by
      have : c2.a % 2 ^ k ≡ -(-c2.a % 2 ^ k) [ZMOD 2 ^ k] := by
        calc c2.a % 2 ^ k ≡ c2.a [ZMOD 2 ^ k] := Int.mod_modEq _ _
          _ = -(-c2.a) := (neg_neg _).symm
          _ ≡ -(-c2.a % 2 ^ k) [ZMOD 2 ^ k] := (Int.mod_modEq _ _).symm.neg
      exact this)
  · rw [LHE.evalSubAL] at h
    obtain ⟨i, hb, h⟩ := Res.bind_eq_ok h
    obtain ⟨b, -, h⟩ := Res.bind_eq_ok h
    have h := Res.ok_inj.mp h
    simp only [Prod.mk.injEq] at h
    obtain ⟨-, rfl⟩ := h
    exact ⟨i, by simp, hi hb⟩

/-- Two ciphertexts subtracted modulo 91. -/
example : LHE.evalSubL ⟨3, 34⟩ ⟨1, 16⟩ 91 2 = .ok (⟨2, 59⟩, [("ptspace", 4), ("a_inv", 3), ("beta_inv", 74)]) := by decide +kernel

/-- C147, left by labeled decryption: the secret key and the mask of the message. -/
theorem gmp_left_he_decrypt (c : LHE.HeCt) (p y m : Int) (k : Nat) (l : Vars) (h : LHE.heDecryptL c p y k = .ok (m, l)) :
    ∃ b, ("p_1", p - 1) ∈ l ∧ ("b", b) ∈ l ∧ m = (c.a + b) % 2 ^ k := by
  have hd : (2 : Int) ^ k ≠ 0 := by positivity
  simp only [LHE.heDecryptL, JL.mod_ok hd] at h
  obtain ⟨⟨b, l'⟩, h1, h⟩ := Res.bind_eq_ok h
  have h := Res.ok_inj.mp h
  simp only [Prod.mk.injEq] at h
  obtain ⟨rfl, rfl⟩ := h
  exact ⟨b, List.mem_append_right _ (gmp_left_decrypt _ _ _ _ _ _ h1), by simp, rfl⟩

/-- The ciphertext (1, 89) decrypts to 0; the mask 3 and `p - 1 = 12` stay. -/
example : ∃ l, LHE.heDecryptL ⟨1, 89⟩ 13 5 2 = .ok (0, l) ∧ ("b", 3) ∈ l ∧ ("p_1", 12) ∈ l :=
  ⟨[("b", 3), ("ptspace", 4), ("B", 2), ("D", 12), ("C", 12), ("exp_msgsize", 4), ("exp_y", 3), ("neg_exp_y", -3), ("p_1", 12),
    ("z", 12), ("exp_c", 2)], by decide +kernel, by decide, by decide⟩

theorem one_coin {k p q : ℕ} {y : ℤ} (m : ℕ) : Encrypts k p q y (y ^ m % (p * q)) m :=
  ⟨m, 1, rfl, isCoprime_one_left, by rw [one_pow, mul_one]; exact Int.mod_modEq _ _⟩

/-- Left by encryption: the random number, and the message in a form which anybody can check a guess against. -/
theorem left_encrypt {k p q : ℕ} {y : ℤ} (key : Key k p q y) (g : Env) (fuel : ℕ) (s s' : g.State) (m : ℕ) (c : ℤ) (l : Vars)
    (h : JL.encryptL g fuel s m y (p * q) k = .ok ((c, s'), l)) :
    ∃ x, JL.pickX g (p * q) fuel s = .ok (x, s') ∧ ("x", x) ∈ l ∧ ("tmp1", y ^ m % (p * q)) ∈ l := by
  have hN : ((p : ℤ) * q) ≠ 0 := by
    have := key.neZero.out
    exact_mod_cast this
  simp only [JL.encryptL, JL.powm_nonneg hN (Int.natCast_nonneg m), JL.powm_two_pow hN, JL.mod_ok hN, Int.toNat_natCast] at h
  obtain ⟨⟨x, s1⟩, h1, h⟩ := Res.bind_eq_ok h
  have h := Res.ok_inj.mp h
  simp only [Prod.mk.injEq] at h
  obtain ⟨⟨-, rfl⟩, rfl⟩ := h
  exact ⟨x, h1, by simp, by simp⟩

theorem guess {k p q : ℕ} {y : ℤ} (key : Key k p q y) (m m' : ℕ) (h : y ^ m' % (p * q) = y ^ m % (p * q)) : m' % 2 ^ k = m % 2 ^ k := by
  have h1 := JL.decrypt_encrypts key (one_coin (k := k) (p := p) (q := q) (y := y) m)
  have h2 := JL.decrypt_encrypts key (one_coin (k := k) (p := p) (q := q) (y := y) m')
  rw [h, h1, Res.ok_inj] at h2
  exact_mod_cast h2.symm

/-- C147, message and coin left by encryption: for every key, message and random numbers, the variable `x` is the coin, and `tmp1` is a
number from which anybody who knows the public key can check a guess of the message: among the messages, only the right one gives it. -/
theorem gmp_left_encrypt {k p q : ℕ} {y : ℤ} (key : Key k p q y) (g : Env) (fuel : ℕ) (s s' : g.State) (m : ℕ) (hm : m < 2 ^ k) (c : ℤ)
    (l : Vars) (h : JL.encryptL g fuel s m y (p * q) k = .ok ((c, s'), l)) :
    ∃ x t, JL.pickX g (p * q) fuel s = .ok (x, s') ∧ ("x", x) ∈ l ∧ ("tmp1", t) ∈ l ∧
      ∀ m' : ℕ, m' < 2 ^ k → (y ^ m' % (p * q) = t ↔ m' = m) := by
  obtain ⟨x, h1, h2, h3⟩ := left_encrypt key g fuel s s' m c l h
  refine ⟨x, _, h1, h2, h3, fun m' hm' => ⟨fun e => ?_, fun e => by rw [e]⟩⟩
  have := guess key m m' e
  rwa [Nat.mod_eq_of_lt hm', Nat.mod_eq_of_lt hm] at this

theorem encrypt91 : JL.encryptL (JoyeLibert.constEnv 2) 1 () ((3 : ℕ) : ℤ) 5 ((13 : ℕ) * (7 : ℕ)) 2 =
    .ok ((89, ()), [("x", 2), ("k_exp", 4), ("tmp1", 34), ("tmp2", 16)]) := by
  simp only [JL.encryptL, JL.powm_nonneg (show ((13 : ℕ) : ℤ) * (7 : ℕ) ≠ 0 by decide) (Int.natCast_nonneg 3),
    JL.powm_two_pow (show ((13 : ℕ) : ℤ) * (7 : ℕ) ≠ 0 by decide), JL.mod_ok (show ((13 : ℕ) : ℤ) * (7 : ℕ) ≠ 0 by decide),
    Int.toNat_natCast]
  have : JL.pickX (JoyeLibert.constEnv 2) ((13 : ℕ) * (7 : ℕ)) 1 () = .ok (2, ()) := rfl
  rw [this]
  rfl

/-- The key with `p = 13`, `q = 7`, `y = 5`: after encryption of 3, memory holds 34, which is 5^3 modulo 91. -/
example : Key 2 13 7 5 ∧ JL.encryptL (JoyeLibert.constEnv 2) 1 () ((3 : ℕ) : ℤ) 5 ((13 : ℕ) * (7 : ℕ)) 2 =
    .ok ((89, ()), [("x", 2), ("k_exp", 4), ("tmp1", 34), ("tmp2", 16)]) := ⟨JoyeLibert.key13, encrypt91⟩

/-- C147, message left by labeled encryption: with the ciphertext, a number from which anybody can check a guess of the mask, and with
it the message. -/
theorem gmp_left_he_encrypt {k p q : ℕ} {y : ℤ} (key : Key k p q y) (g : Env) (fuel : ℕ) (s s' : g.State) (hc hc' : HC128.State)
    (junk : List U8) (m label b : ℤ) (ct : LHE.HeCt) (l : Vars)
    (h : LHE.heEncryptL g fuel s hc junk m y (p * q) label k = .ok ((ct, b, hc', s'), l)) :
    ∃ t, ("tmp1", t) ∈ l ∧ y ^ b.toNat % (p * q) = t ∧
      ∀ b' : ℕ, y ^ b' % (p * q) = t → m % 2 ^ k = (ct.a + b') % 2 ^ k := by
  have hd : (2 : Int) ^ k ≠ 0 := by positivity
  simp only [LHE.heEncryptL, JL.mod_ok hd] at h
  obtain ⟨⟨b0, hc0⟩, h0, h⟩ := Res.bind_eq_ok h
  obtain ⟨⟨⟨beta, s1⟩, l'⟩, h1, h⟩ := Res.bind_eq_ok h
  have h := Res.ok_inj.mp h
  simp only [Prod.mk.injEq] at h
  obtain ⟨⟨rfl, rfl, rfl, rfl⟩, rfl⟩ := h
  obtain ⟨n, rfl⟩ : ∃ n : ℕ, b0 = n := by
    rw [LHE.labelValue] at h0
    split at h0
    · cases h0
    · obtain ⟨x, -, h0⟩ := Res.bind_eq_ok h0
      have h0 := Res.ok_inj.mp h0
      simp only [Prod.mk.injEq] at h0
      exact ⟨_, h0.1.symm⟩
  obtain ⟨x, -, -, h3⟩ := left_encrypt key g fuel s s1 n beta l' h1
  refine ⟨_, List.mem_append_left _ (List.mem_append_right _ h3), by rw [Int.toNat_natCast], fun b' e => ?_⟩
  have := guess key n b' e
  have e2 : (b' : ℤ) ≡ n [ZMOD 2 ^ k] := by
    rw [Int.ModEq]
    exact_mod_cast this
  show m % 2 ^ k = ((m - n) % 2 ^ k + b') % 2 ^ k
  rw [Int.add_emod, e2, ← Int.add_emod, Int.emod_add_emod, sub_add_cancel]

/-- The message 3 under the label 0, whose mask is 0 for two-bit messages. -/
example (hc : HC128.State) : Key 2 13 7 5 ∧
    LHE.heEncryptL (JoyeLibert.constEnv 2) 1 () hc [] 3 5 ((13 : ℕ) * (7 : ℕ)) 0 2 = .ok ((⟨3, 16⟩, 0, hc, ()),
      [("beta", 0), ("x", 2), ("k_exp", 4), ("tmp1", 1), ("tmp2", 16), ("a", 0), ("ptspace", 4)]) := by
  refine ⟨JoyeLibert.key13, ?_⟩
  have h : LHE.labelValue hc [] 0 2 = .ok (0, hc) := by
    simp [LHE.labelValue, LHE.exportBytes, HC128.processPacket, LHE.importWords]
  have h1 : JL.encryptL (JoyeLibert.constEnv 2) 1 () 0 5 ((13 : ℕ) * (7 : ℕ)) 2 =
      .ok ((16, ()), [("x", 2), ("k_exp", 4), ("tmp1", 1), ("tmp2", 16)]) := by
    simp only [JL.encryptL, JL.powm_nonneg (show ((13 : ℕ) : ℤ) * (7 : ℕ) ≠ 0 by decide) (le_refl 0),
      JL.powm_two_pow (show ((13 : ℕ) : ℤ) * (7 : ℕ) ≠ 0 by decide), JL.mod_ok (show ((13 : ℕ) : ℤ) * (7 : ℕ) ≠ 0 by decide)]
    have : JL.pickX (JoyeLibert.constEnv 2) ((13 : ℕ) * (7 : ℕ)) 1 () = .ok (2, ()) := rfl
    rw [this]
    rfl
  simp only [LHE.heEncryptL, h, Res.ok_bind, h1]
  rfl

/-- C147, the part that holds: adding multiplication ciphertexts and multiplying them by constants leaves nothing.  Missing from the full
statement: the other functions, for which it is false (`gmp_left_refuted`). -/
theorem gmp_left_partial (c1 c2 t N r : Int) (l : Vars) :
    (LHE.evalAddAL c1 c2 N = .ok (r, l) → l = []) ∧ (LHE.evalCmultAL c1 t N = .ok (r, l) → l = []) := by
  constructor
  · intro h
    rw [LHE.evalAddAL] at h
    obtain ⟨x, -, h⟩ := Res.bind_eq_ok h
    have h := Res.ok_inj.mp h
    simp only [Prod.mk.injEq] at h
    exact h.2.symm
  · intro h
    rw [LHE.evalCmultAL] at h
    obtain ⟨x, -, h⟩ := Res.bind_eq_ok h
    have h := Res.ok_inj.mp h
    simp only [Prod.mk.injEq] at h
    exact h.2.symm

/-- Adding 34 and 16, and three times 34, modulo 91. -/
example : LHE.evalAddAL 34 16 91 = .ok (89, []) ∧ LHE.evalCmultAL 34 3 91 = .ok (83, []) := by decide +kernel

end CT.Props.GmpLeft
