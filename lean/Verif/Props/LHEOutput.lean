import Verif.Model.LHEOutput
import Verif.Props.LabeledHE
import Verif.Props.MuLabeledHE

/-!
# Text that labeled homomorphic encryption writes to standard output (C115)
-/

namespace CT.Props.LHEOutput
open CT.JL CT.Gmp CT.Spec.JL CT.Props.JoyeLibert
open CT.LHE (decNat decInt)

/-! ## Reading the text (specification) -/

/-- The value of a string of decimal digits. -/
def digitsValue (cs : List Char) : ℕ := cs.foldl (fun v c => 10 * v + (c.toNat - 48)) 0

/-- What a reader of standard output who also has the component `a` of the ciphertext computes: the number in the
line `b: …`, added to `a` modulo `2^k`. -/
def readMessage (k : ℕ) (text : List Char) (a : ℤ) : ℤ := (a + digitsValue ((text.drop 3).dropLast)) % 2 ^ k

theorem digit_char : ∀ d, d < 10 → (Char.ofNat (48 + d)).toNat - 48 = d := by decide

theorem digitsValue_decNat (n : ℕ) : digitsValue (decNat n) = n := by
  induction n using Nat.strong_induction_on with
  | _ n ih =>
    rw [decNat]
    by_cases h : n < 10
    · rw [if_pos h, digitsValue, List.foldl_cons, List.foldl_nil, digit_char n h, Nat.mul_zero, Nat.zero_add]
    · have := ih (n / 10) (by omega)
      rw [digitsValue] at this
      rw [if_neg h, digitsValue, List.foldl_append, this, List.foldl_cons, List.foldl_nil, digit_char _ (Nat.mod_lt _ (by decide))]
      omega

theorem digitsValue_decInt {v : ℤ} (h : 0 ≤ v) : (digitsValue (decInt v) : ℤ) = v := by
  rw [decInt, if_neg (by omega), List.nil_append, digitsValue_decNat]
  omega

theorem readMessage_line (k : ℕ) {b : ℤ} (h : 0 ≤ b) (a : ℤ) :
    readMessage k (['b', ':', ' '] ++ decInt b ++ ['\n']) a = (a + b) % 2 ^ k := by
  rw [readMessage]
  have : ((['b', ':', ' '] ++ decInt b ++ ['\n']).drop 3).dropLast = decInt b := by
    simp
  rw [this, digitsValue_decInt h]

section
open CT.LHE

/-- The model with text has the same result as the model without. -/
theorem lhe_text_erase (g : Env) (fuel : ℕ) (s : g.State) (hc : HC128.State) (junk : List U8) (m y N label : ℤ) (k : ℕ)
    (c1 c2 : HeCt) :
    (heEncryptText g fuel s hc junk m y N label k >>= fun r => .ok r.2) = heEncrypt g fuel s hc junk m y N label k ∧
    (evalSubText c1 c2 N k >>= fun r => .ok r.2) = evalSub c1 c2 N k := by
  constructor
  · rw [heEncryptText, heEncrypt]
    cases labelValue hc junk label k with
    | ub u => rfl
    | ok r =>
      obtain ⟨b, hc'⟩ := r
      simp only [Res.ok_bind]
      cases JL.encrypt g fuel s b y N k with
      | ub u => rfl
      | ok r => simp only [Res.ok_bind, mod_ok two_ne, Res.pure_eq]
  · rw [evalSubText, evalSub]
    simp only [mod_ok two_ne, Res.ok_bind]
    cases invert c2.beta N with
    | none => rfl
    | some v =>
      simp only [Res.ok_bind]
      cases Gmp.mod (c1.beta * v) N <;> rfl

theorem heEncryptText_split (g : Env) {fuel k : ℕ} {s s' : g.State} {hc hc' : HC128.State} {junk : List U8}
    {m y N label b : ℤ} {ct : HeCt} {text : List Char}
    (h : heEncryptText g fuel s hc junk m y N label k = .ok (text, ct, b, hc', s')) :
    labelValue hc junk label k = .ok (b, hc') ∧ text = ['b', ':', ' '] ++ decInt b ++ ['\n'] ∧
      ct.a = (m - b) % 2 ^ k ∧ 0 ≤ b := by
  rw [heEncryptText] at h
  obtain ⟨⟨b0, hc0⟩, h1, h⟩ := Res.bind_eq_ok h
  simp only at h
  obtain ⟨⟨c, s0⟩, h2, h⟩ := Res.bind_eq_ok h
  simp only [mod_ok two_ne, Res.ok_bind, Res.pure_eq, Res.ok_inj, Prod.mk.injEq] at h
  obtain ⟨rfl, rfl, rfl, rfl, rfl⟩ := h
  refine ⟨h1, rfl, rfl, ?_⟩
  rw [labelValue] at h1
  simp only at h1
  split at h1
  · cases h1
  · obtain ⟨⟨_, _⟩, _, h1⟩ := Res.bind_eq_ok h1
    simp only [Res.pure_eq, Res.ok_inj, Prod.mk.injEq] at h1
    omega

/-- C115 is false: from the text that `he_encrypt` prints and the component `a` of the ciphertext, without any key,
the message (modulo `2^k`) can be read off, in every call. -/
theorem lhe_text_reveals (g : Env) (fuel k : ℕ) (s s' : g.State) (hc hc' : HC128.State) (junk : List U8)
    (m y N label b : ℤ) (ct : HeCt) (text : List Char)
    (h : heEncryptText g fuel s hc junk m y N label k = .ok (text, ct, b, hc', s')) :
    readMessage k text ct.a = m % 2 ^ k := by
  obtain ⟨-, h2, h3, h4⟩ := heEncryptText_split g h
  rw [h2, readMessage_line k h4, h3, Int.emod_add_emod, show m - b + b = m by ring]

/-- C115, the part that holds: the text itself depends only on the cipher state, the label, the message size and the
uninitialised memory; not on the message, the public key and the random numbers.  What subtraction prints depends only
on the component `a` of the second ciphertext.  Missing from the full statement: the text does not help to find the
message (`lhe_text_refuted`). -/
theorem lhe_text_partial :
    (∀ (g g' : Env) (fuel fuel' k : ℕ) (s s1 : g.State) (s' s1' : g'.State) (hc hc1 hc1' : HC128.State) (junk : List U8)
      (m m' y y' N N' label b b' : ℤ) (ct ct' : HeCt) (text text' : List Char),
      heEncryptText g fuel s hc junk m y N label k = .ok (text, ct, b, hc1, s1) →
      heEncryptText g' fuel' s' hc junk m' y' N' label k = .ok (text', ct', b', hc1', s1') → text = text') ∧
    (∀ (c1 c1' c2 c2' c c' : HeCt) (N N' : ℤ) (k : ℕ) (text text' : List Char), c2.a = c2'.a →
      evalSubText c1 c2 N k = .ok (text, c) → evalSubText c1' c2' N' k = .ok (text', c') → text = text') := by
  constructor
  · intro g g' fuel fuel' k s s1 s' s1' hc hc1 hc1' junk m m' y y' N N' label b b' ct ct' text text' h h'
    obtain ⟨h1, h2, -⟩ := heEncryptText_split g h
    obtain ⟨h1', h2', -⟩ := heEncryptText_split g' h'
    rw [h1, Res.ok_inj, Prod.mk.injEq] at h1'
    rw [h2, h2', h1'.1]
  · intro c1 c1' c2 c2' c c' N N' k text text' e h h'
    have key : ∀ (c1 c2 c : HeCt) (N : ℤ) (text : List Char), evalSubText c1 c2 N k = .ok (text, c) →
        text = "Inside sub\n".toList ++ "Computing inverse a\n".toList ++ "additive inverse a: ".toList ++
          decInt (-c2.a % 2 ^ k) ++ ['\n'] ++ "Computing inverse b\n".toList ++ "Adding a\n".toList ++
          "Multiplying beta\n".toList := by
      intro c1 c2 c N text h
      rw [evalSubText] at h
      simp only [mod_ok two_ne, Res.ok_bind] at h
      cases hi : invert c2.beta N with
      | none => rw [hi] at h; cases h
      | some v =>
        rw [hi] at h
        simp only [Res.ok_bind] at h
        obtain ⟨_, -, h⟩ := Res.bind_eq_ok h
        simp only [Res.pure_eq, Res.ok_inj, Prod.mk.injEq] at h
        exact h.1.symm
    rw [key _ _ _ _ _ h, key _ _ _ _ _ h', e]

/-- Encryption with text of a 32-bit message under a valid key, with a label of four bytes and coin 1. -/
theorem lhe_text_exists (hc : HC128.State) (m : ℤ) : ∃ text ct b hc',
    heEncryptText (constEnv 1) 1 () hc [1, 2, 3, 4] m 3 ((184683593729 : ℕ) * (7 : ℕ)) 16777217 32 =
      .ok (text, ct, b, hc', ()) := by
  have hb : exportBytes 16777217 = [1, 0, 0, 1] := by simp [exportBytes]
  obtain ⟨b, hc', hv⟩ : ∃ b hc', labelValue hc [1, 2, 3, 4] 16777217 32 = .ok (b, hc') :=
    ⟨_, _, labelValue_eq hc _ _ _ (by rw [hb]; decide) (by decide) (by decide)⟩
  obtain ⟨c, he⟩ := Props.LHE.encrypt_exists b
  exact ⟨['b', ':', ' '] ++ decInt b ++ ['\n'], ⟨(m - b) % 2 ^ 32, c⟩, b, hc', by
    simp only [heEncryptText, hv, he, Res.ok_bind, mod_ok two_ne, Res.pure_eq]⟩

/-- The hypotheses are met: two calls with different messages, and a subtraction. -/
example (hc : HC128.State) : (∃ text ct b hc', Key 32 184683593729 7 3 ∧
    heEncryptText (constEnv 1) 1 () hc [1, 2, 3, 4] 10 3 ((184683593729 : ℕ) * (7 : ℕ)) 16777217 32 =
      .ok (text, ct, b, hc', ()) ∧ readMessage 32 text ct.a = 10) ∧
    evalSubText ⟨2, 3⟩ ⟨3, 5⟩ 91 2 = .ok ("Inside sub\nComputing inverse a\nadditive inverse a: 1\nComputing inverse b\nAdding a\nMultiplying beta\n".toList,
      ⟨3, 37⟩) := by
  refine ⟨?_, by decide +kernel⟩
  obtain ⟨text, ct, b, hc', h⟩ := lhe_text_exists hc 10
  exact ⟨text, ct, b, hc', key32, h, lhe_text_reveals _ _ _ _ _ _ _ _ _ _ _ _ _ _ _ h⟩

/-- C115 is false, as a negation: it is not the case that every reader (a function of text, component `a` and size)
fails on some message under a valid key. -/
theorem lhe_text_refuted :
    ¬ ∀ reader : List Char → ℤ → ℕ → ℤ, ∃ (k p q : ℕ) (y : ℤ) (_ : Key k p q y) (g : Env) (fuel : ℕ) (s s' : g.State)
      (hc hc' : HC128.State) (junk : List U8) (m label b : ℤ) (ct : HeCt) (text : List Char), 0 ≤ m ∧ m < 2 ^ k ∧
      heEncryptText g fuel s hc junk m y (p * q) label k = .ok (text, ct, b, hc', s') ∧ reader text ct.a k ≠ m := by
  intro h
  obtain ⟨k, p, q, y, -, g, fuel, s, s', hc, hc', junk, m, label, b, ct, text, h0, h1, h2, h3⟩ :=
    h (fun t a k => readMessage k t a)
  refine h3 ?_
  rw [lhe_text_reveals g fuel k s s' hc hc' junk m y _ label b ct text h2, Int.emod_eq_of_lt h0 h1]

/-- Without the text, the component `a` alone does not determine the message: for every reader of `a` there are two
messages one of which it gets wrong (both are encrypted under a valid key, with the same label and cipher state and
different contents of the uninitialised memory). -/
theorem lhe_no_text_hides (hc : HC128.State) (reader : ℤ → ℤ) :
    ∃ (junk : List U8) (m b : ℤ) (ct : HeCt) (hc' : HC128.State), 0 ≤ m ∧ m < 2 ^ 32 ∧
      heEncrypt (constEnv 1) 1 () hc junk m 3 ((184683593729 : ℕ) * (7 : ℕ)) 1 32 = .ok (ct, b, hc', ()) ∧
      reader ct.a ≠ m := by
  have hb : exportBytes 1 = [1] := by simp [exportBytes]
  have l1 := labelValue_eq hc [0, 0, 0, 0] 1 32 (by rw [hb]; decide) (by decide) (by decide)
  have l2 := labelValue_eq hc [0, 1, 0, 0] 1 32 (by rw [hb]; decide) (by decide) (by decide)
  obtain ⟨v1, v2, hc', m1, m2, lt1, lt2, hne⟩ : ∃ (v1 v2 : ℕ) (hc' : HC128.State),
      labelValue hc [0, 0, 0, 0] 1 32 = .ok ((v1 : ℤ), hc') ∧ labelValue hc [0, 1, 0, 0] 1 32 = .ok ((v2 : ℤ), hc') ∧
      v1 < 2 ^ 32 ∧ v2 < 2 ^ 32 ∧ v1 ≠ v2 := by
    refine ⟨_, _, _, l1, l2, ?_⟩
    clear l1 l2
    have hlen := HC128.pktKs_length hc (32 / 8)
    generalize HC128.pktKs hc (32 / 8) = ks at *
    obtain ⟨k0, k1, k2, k3, rfl⟩ : ∃ a b c d, ks = [a, b, c, d] := by
      match ks, hlen with
      | [a, b, c, d], _ => exact ⟨a, b, c, d, rfl⟩
    have lt : ∀ bs : List U8, importWords (32 / 32) bs 0 < 2 ^ 32 := fun bs => by
      rw [show 32 / 32 = 1 from rfl, importWords, importWords, Nat.zero_mul, Nat.zero_add]
      exact BitVec.isLt _
    refine ⟨lt _, lt _, fun e => ?_⟩
    simp only [hb, importWords_eq, Spec.LHE.value] at e
    simp [List.range, List.range.loop, Spec.LHE.word] at e
    have : (1 ^^^ k1) = k1 := BitVec.eq_of_toNat_eq (by simpa using e.symm)
    revert this
    generalize k1 = w
    revert w
    decide
  have enc : ∀ {junk : List U8} {v : ℕ}, labelValue hc junk 1 32 = .ok ((v : ℤ), hc') →
      ∃ c, heEncrypt (constEnv 1) 1 () hc junk v 3 ((184683593729 : ℕ) * (7 : ℕ)) 1 32 = .ok (⟨0, c⟩, v, hc', ()) := by
    intro junk v h
    obtain ⟨c, he⟩ := Props.LHE.encrypt_exists v
    refine ⟨c, ?_⟩
    simp only [heEncrypt, h, he, Res.ok_bind, mod_ok two_ne, Res.pure_eq, Int.sub_self, Int.zero_emod]
  obtain ⟨c1, h1⟩ := enc m1
  obtain ⟨c2, h2⟩ := enc m2
  by_cases h : reader 0 = v1
  · exact ⟨_, v2, v2, _, hc', by omega, by exact_mod_cast lt2, h2, fun e => hne (by
      have : (v1 : ℤ) = v2 := h.symm.trans e
      exact_mod_cast this)⟩
  · exact ⟨_, v1, v1, _, hc', by omega, by exact_mod_cast lt1, h1, h⟩

end

/-! ## The multi-user variant -/

section
open CT.MuLHE

/-- The model with text has the same result as the model without. -/
theorem mulhe_text_erase (g : Env) (fuel : ℕ) (s : g.State) (hc : HC128.State) (junk : List U8) (m y N label : ℤ) (k : ℕ)
    (c1 c2 : HeCt) :
    (heEncryptText g fuel s hc junk m y N label k >>= fun r => .ok r.2) = heEncrypt g fuel s hc junk m y N label k ∧
    (evalSubText c1 c2 N k >>= fun r => .ok r.2) = evalSub c1 c2 N k := by
  constructor
  · rw [heEncryptText, heEncrypt]
    cases labelValue hc junk label k with
    | ub u => rfl
    | ok r =>
      obtain ⟨b, hc'⟩ := r
      simp only [Res.ok_bind]
      cases JL.encrypt g fuel s b y N k with
      | ub u => rfl
      | ok r => simp only [Res.ok_bind, mod_ok two_ne, Res.pure_eq]
  · rw [evalSubText, evalSub]
    simp only [mod_ok two_ne, Res.ok_bind]
    cases invert c2.beta N with
    | none => rfl
    | some v =>
      simp only [Res.ok_bind]
      cases Gmp.mod (c1.beta * v) N <;> rfl

theorem muEncryptText_split (g : Env) {fuel k : ℕ} {s s' : g.State} {hc hc' : HC128.State} {junk : List U8}
    {m y N label b : ℤ} {ct : HeCt} {text : List Char}
    (h : heEncryptText g fuel s hc junk m y N label k = .ok (text, ct, b, hc', s')) :
    labelValue hc junk label k = .ok (b, hc') ∧ text = ['b', ':', ' '] ++ decInt b ++ ['\n'] ∧
      ct.a = (m - b) % 2 ^ k ∧ 0 ≤ b := by
  rw [heEncryptText] at h
  obtain ⟨⟨b0, hc0⟩, h1, h⟩ := Res.bind_eq_ok h
  simp only at h
  obtain ⟨⟨c, s0⟩, h2, h⟩ := Res.bind_eq_ok h
  simp only [mod_ok two_ne, Res.ok_bind, Res.pure_eq, Res.ok_inj, Prod.mk.injEq] at h
  obtain ⟨rfl, rfl, rfl, rfl, rfl⟩ := h
  refine ⟨h1, rfl, rfl, ?_⟩
  rw [labelValue] at h1
  simp only at h1
  split at h1
  · cases h1
  · obtain ⟨⟨_, _⟩, _, h1⟩ := Res.bind_eq_ok h1
    simp only [Res.pure_eq, Res.ok_inj, Prod.mk.injEq] at h1
    omega

/-- C115 is false: from the text that `mu_he_encrypt` prints and the component `a` of the ciphertext, without any key,
the message (modulo `2^k`) can be read off, in every call. -/
theorem mulhe_text_reveals (g : Env) (fuel k : ℕ) (s s' : g.State) (hc hc' : HC128.State) (junk : List U8)
    (m y N label b : ℤ) (ct : HeCt) (text : List Char)
    (h : heEncryptText g fuel s hc junk m y N label k = .ok (text, ct, b, hc', s')) :
    readMessage k text ct.a = m % 2 ^ k := by
  obtain ⟨-, h2, h3, h4⟩ := muEncryptText_split g h
  rw [h2, readMessage_line k h4, h3, Int.emod_add_emod, show m - b + b = m by ring]

/-- C115, the part that holds: the text itself depends only on the cipher state, the label, the message size and the
uninitialised memory; not on the message, the public key and the random numbers.  What subtraction prints depends only
on the component `a` of the second ciphertext.  Missing from the full statement: the text does not help to find the
message (`mulhe_text_refuted`). -/
theorem mulhe_text_partial :
    (∀ (g g' : Env) (fuel fuel' k : ℕ) (s s1 : g.State) (s' s1' : g'.State) (hc hc1 hc1' : HC128.State) (junk : List U8)
      (m m' y y' N N' label b b' : ℤ) (ct ct' : HeCt) (text text' : List Char),
      heEncryptText g fuel s hc junk m y N label k = .ok (text, ct, b, hc1, s1) →
      heEncryptText g' fuel' s' hc junk m' y' N' label k = .ok (text', ct', b', hc1', s1') → text = text') ∧
    (∀ (c1 c1' c2 c2' c c' : HeCt) (N N' : ℤ) (k : ℕ) (text text' : List Char), c2.a = c2'.a →
      evalSubText c1 c2 N k = .ok (text, c) → evalSubText c1' c2' N' k = .ok (text', c') → text = text') := by
  constructor
  · intro g g' fuel fuel' k s s1 s' s1' hc hc1 hc1' junk m m' y y' N N' label b b' ct ct' text text' h h'
    obtain ⟨h1, h2, -⟩ := muEncryptText_split g h
    obtain ⟨h1', h2', -⟩ := muEncryptText_split g' h'
    rw [h1, Res.ok_inj, Prod.mk.injEq] at h1'
    rw [h2, h2', h1'.1]
  · intro c1 c1' c2 c2' c c' N N' k text text' e h h'
    have key : ∀ (c1 c2 c : HeCt) (N : ℤ) (text : List Char), evalSubText c1 c2 N k = .ok (text, c) →
        text = "Inside sub\n".toList ++ "Computing inverse a\n".toList ++ "additive inverse a: ".toList ++
          decInt (-c2.a % 2 ^ k) ++ ['\n'] ++ "Computing inverse b\n".toList ++ "Adding a\n".toList ++
          "Multiplying beta\n".toList := by
      intro c1 c2 c N text h
      rw [evalSubText] at h
      simp only [mod_ok two_ne, Res.ok_bind] at h
      cases hi : invert c2.beta N with
      | none => rw [hi] at h; cases h
      | some v =>
        rw [hi] at h
        simp only [Res.ok_bind] at h
        obtain ⟨_, -, h⟩ := Res.bind_eq_ok h
        simp only [Res.pure_eq, Res.ok_inj, Prod.mk.injEq] at h
        exact h.1.symm
    rw [key _ _ _ _ _ h, key _ _ _ _ _ h', e]

/-- Encryption with text of a 32-bit message under a valid key, with a label of four bytes and coin 1. -/
theorem mulhe_text_exists (hc : HC128.State) (m : ℤ) : ∃ text ct b hc',
    heEncryptText (constEnv 1) 1 () hc [1, 2, 3, 4] m 3 ((184683593729 : ℕ) * (7 : ℕ)) 16777217 32 =
      .ok (text, ct, b, hc', ()) := by
  have hb : exportBytes 16777217 = [1, 0, 0, 1] := by simp [exportBytes]
  obtain ⟨b, hc', hv⟩ : ∃ b hc', labelValue hc [1, 2, 3, 4] 16777217 32 = .ok (b, hc') :=
    ⟨_, _, labelValue_eq hc _ _ _ (by rw [hb]; decide) (by decide) (by decide)⟩
  obtain ⟨c, he⟩ := Props.MuLHE.encrypt_exists b
  exact ⟨['b', ':', ' '] ++ decInt b ++ ['\n'], ⟨(m - b) % 2 ^ 32, c⟩, b, hc', by
    simp only [heEncryptText, hv, he, Res.ok_bind, mod_ok two_ne, Res.pure_eq]⟩

/-- The hypotheses are met: two calls with different messages, and a subtraction. -/
example (hc : HC128.State) : (∃ text ct b hc', Key 32 184683593729 7 3 ∧
    heEncryptText (constEnv 1) 1 () hc [1, 2, 3, 4] 10 3 ((184683593729 : ℕ) * (7 : ℕ)) 16777217 32 =
      .ok (text, ct, b, hc', ()) ∧ readMessage 32 text ct.a = 10) ∧
    evalSubText ⟨2, 3⟩ ⟨3, 5⟩ 91 2 = .ok ("Inside sub\nComputing inverse a\nadditive inverse a: 1\nComputing inverse b\nAdding a\nMultiplying beta\n".toList,
      ⟨3, 37⟩) := by
  refine ⟨?_, by decide +kernel⟩
  obtain ⟨text, ct, b, hc', h⟩ := mulhe_text_exists hc 10
  exact ⟨text, ct, b, hc', key32, h, mulhe_text_reveals _ _ _ _ _ _ _ _ _ _ _ _ _ _ _ h⟩

/-- C115 is false, as a negation: it is not the case that every reader (a function of text, component `a` and size)
fails on some message under a valid key. -/
theorem mulhe_text_refuted :
    ¬ ∀ reader : List Char → ℤ → ℕ → ℤ, ∃ (k p q : ℕ) (y : ℤ) (_ : Key k p q y) (g : Env) (fuel : ℕ) (s s' : g.State)
      (hc hc' : HC128.State) (junk : List U8) (m label b : ℤ) (ct : HeCt) (text : List Char), 0 ≤ m ∧ m < 2 ^ k ∧
      heEncryptText g fuel s hc junk m y (p * q) label k = .ok (text, ct, b, hc', s') ∧ reader text ct.a k ≠ m := by
  intro h
  obtain ⟨k, p, q, y, -, g, fuel, s, s', hc, hc', junk, m, label, b, ct, text, h0, h1, h2, h3⟩ :=
    h (fun t a k => readMessage k t a)
  refine h3 ?_
  rw [mulhe_text_reveals g fuel k s s' hc hc' junk m y _ label b ct text h2, Int.emod_eq_of_lt h0 h1]

/-- Without the text, the component `a` alone does not determine the message: for every reader of `a` there are two
messages one of which it gets wrong (both are encrypted under a valid key, with the same label and cipher state and
different contents of the uninitialised memory). -/
theorem mulhe_no_text_hides (hc : HC128.State) (reader : ℤ → ℤ) :
    ∃ (junk : List U8) (m b : ℤ) (ct : HeCt) (hc' : HC128.State), 0 ≤ m ∧ m < 2 ^ 32 ∧
      heEncrypt (constEnv 1) 1 () hc junk m 3 ((184683593729 : ℕ) * (7 : ℕ)) 1 32 = .ok (ct, b, hc', ()) ∧
      reader ct.a ≠ m := by
  have hb : exportBytes 1 = [1] := by simp [exportBytes]
  have l1 := labelValue_eq hc [0, 0, 0, 0] 1 32 (by rw [hb]; decide) (by decide) (by decide)
  have l2 := labelValue_eq hc [0, 1, 0, 0] 1 32 (by rw [hb]; decide) (by decide) (by decide)
  obtain ⟨v1, v2, hc', m1, m2, lt1, lt2, hne⟩ : ∃ (v1 v2 : ℕ) (hc' : HC128.State),
      labelValue hc [0, 0, 0, 0] 1 32 = .ok ((v1 : ℤ), hc') ∧ labelValue hc [0, 1, 0, 0] 1 32 = .ok ((v2 : ℤ), hc') ∧
      v1 < 2 ^ 32 ∧ v2 < 2 ^ 32 ∧ v1 ≠ v2 := by
    refine ⟨_, _, _, l1, l2, ?_⟩
    clear l1 l2
    have hlen := HC128.pktKs_length hc (32 / 8)
    generalize HC128.pktKs hc (32 / 8) = ks at *
    obtain ⟨k0, k1, k2, k3, rfl⟩ : ∃ a b c d, ks = [a, b, c, d] := by
      match ks, hlen with
      | [a, b, c, d], _ => exact ⟨a, b, c, d, rfl⟩
    have lt : ∀ bs : List U8, importWords (32 / 32) bs 0 < 2 ^ 32 := fun bs => by
      rw [show 32 / 32 = 1 from rfl, importWords, importWords, Nat.zero_mul, Nat.zero_add]
      exact BitVec.isLt _
    refine ⟨lt _, lt _, fun e => ?_⟩
    simp only [hb, importWords_eq, Spec.LHE.value] at e
    simp [List.range, List.range.loop, Spec.LHE.word] at e
    have : (1 ^^^ k1) = k1 := BitVec.eq_of_toNat_eq (by simpa using e.symm)
    revert this
    generalize k1 = w
    revert w
    decide
  have enc : ∀ {junk : List U8} {v : ℕ}, labelValue hc junk 1 32 = .ok ((v : ℤ), hc') →
      ∃ c, heEncrypt (constEnv 1) 1 () hc junk v 3 ((184683593729 : ℕ) * (7 : ℕ)) 1 32 = .ok (⟨0, c⟩, v, hc', ()) := by
    intro junk v h
    obtain ⟨c, he⟩ := Props.MuLHE.encrypt_exists v
    refine ⟨c, ?_⟩
    simp only [heEncrypt, h, he, Res.ok_bind, mod_ok two_ne, Res.pure_eq, Int.sub_self, Int.zero_emod]
  obtain ⟨c1, h1⟩ := enc m1
  obtain ⟨c2, h2⟩ := enc m2
  by_cases h : reader 0 = v1
  · exact ⟨_, v2, v2, _, hc', by omega, by exact_mod_cast lt2, h2, fun e => hne (by
      have : (v1 : ℤ) = v2 := h.symm.trans e
      exact_mod_cast this)⟩
  · exact ⟨_, v1, v1, _, hc', by omega, by exact_mod_cast lt1, h1, h⟩

end

end CT.Props.LHEOutput
