import Verif.Model.JLDebug
import Verif.Props.JoyeLibert
import Verif.Props.LHEOutput

/-! # C163: what Joye-Libert prints in a build with `DEBUG` -/

namespace CT.Props.JLDebug
open CT.JL CT.Gmp CT.Spec.JL CT.Props.JoyeLibert CT.Props.LHEOutput
open CT.LHE (decNat decInt)

/-! ## Reading the text (specification) -/

/-- The number that a text begins with. -/
def number (text : List Char) : ℤ := digitsValue (text.takeWhile Char.isDigit)

/-- A reader of the text of key generation: the number behind the first 37 characters, which are the same in all texts. -/
def readP (text : List Char) : ℤ := number (text.drop 37)

/-- A reader of the text of encryption: the number behind `x: `. -/
def readX (text : List Char) : ℤ := number (text.drop 3)

/-- The number behind `c: ` in the second line. -/
def readC (text : List Char) : ℤ := number (((text.drop 3).dropWhile Char.isDigit).drop 4)

/-- Does the text belong to an encryption of `m` under the public key `(N, y)`, with messages of `k` bits? -/
def checks (k : ℕ) (N y m : ℤ) (text : List Char) : Bool := (y ^ m.toNat * readX text ^ 2 ^ k) % N == readC text

theorem digit_isDigit : ∀ d, d < 10 → (Char.ofNat (48 + d)).isDigit = true := by decide

theorem decNat_digits (n : ℕ) : ∀ c ∈ decNat n, c.isDigit = true := by
  induction n using Nat.strong_induction_on with
  | _ n ih =>
    rw [decNat]
    by_cases h : n < 10
    · rw [if_pos h]
      intro c hc
      rw [List.mem_singleton] at hc
      rw [hc]; exact digit_isDigit n h
    · rw [if_neg h]
      intro c hc
      rcases List.mem_append.mp hc with hc | hc
      · exact ih _ (by omega) c hc
      · rw [List.mem_singleton] at hc
        rw [hc]; exact digit_isDigit _ (Nat.mod_lt _ (by decide))

theorem decInt_nonneg {v : ℤ} (h : 0 ≤ v) : decInt v = decNat v.natAbs := by
  rw [decInt, if_neg (by omega), List.nil_append]

theorem span_line {v : ℤ} (h : 0 ≤ v) (rest : List Char) :
    (decInt v ++ '\n' :: rest).takeWhile Char.isDigit = decInt v ∧ (decInt v ++ '\n' :: rest).dropWhile Char.isDigit = '\n' :: rest := by
  rw [decInt_nonneg h]
  constructor
  · rw [List.takeWhile_append_of_pos (decNat_digits _)]
    have : ('\n' :: rest).takeWhile Char.isDigit = [] := by rw [List.takeWhile_cons_of_neg (by decide)]
    rw [this, List.append_nil]
  · rw [List.dropWhile_append_of_pos (decNat_digits _), List.dropWhile_cons_of_neg (by decide)]

theorem number_line {v : ℤ} (h : 0 ≤ v) (rest : List Char) : number (decInt v ++ '\n' :: rest) = v := by
  rw [number, (span_line h rest).1, digitsValue_decInt h]

/-! ## C163 -/

/-- C163: a build with `DEBUG` computes what one without computes. -/
theorem jl_debug_erase (g : Env) (fuel k keysize : ℕ) (s : g.State) (m y N : ℤ) :
    (keygenText g fuel k keysize >>= fun r => .ok r.2) = keygen g fuel k keysize ∧
    (encryptText g fuel s m y N k >>= fun r => .ok r.2) = encrypt g fuel s m y N k := by
  constructor
  · rw [keygenText, keygen]
    simp only [mod_ok (CT.LHE.two_ne (k := k)), Res.ok_bind]
    cases findP g (2 ^ k) fuel _ with
    | ub u => rfl
    | ok p =>
      simp only [Res.ok_bind]
      cases findQ g fuel _ with
      | ub u => rfl
      | ok q =>
        simp only [Res.ok_bind]
        cases findY g p q (p * q) fuel 0 _ with
        | ub u => rfl
        | ok r => rfl
  · rw [encryptText, encrypt]
    cases pickX g N fuel s with
    | ub u => rfl
    | ok r =>
      simp only [Res.ok_bind]
      cases powm y m N with
      | ub u => rfl
      | ok t1 =>
        simp only [Res.ok_bind]
        cases powm r.1 (2 ^ k) N with
        | ub u => rfl
        | ok t2 =>
          simp only [Res.ok_bind]
          cases Gmp.mod (t1 * t2) N <;> rfl

/-- Message 2, encrypted with the coin 3. -/
theorem text_encrypt : encryptText (constEnv 3) 1 () 2 5 ((13 : ℕ) * (7 : ℕ)) 2 = .ok ("x: 3\nc: 23\n".toList, 23, ()) := by
  have d : decInt 3 = ['3'] ∧ decInt 23 = ['2', '3'] := by decide +kernel
  simp [encryptText, pickX, constEnv, powm, Gmp.mod, Int.reduceToNat, d.1, d.2]

/-- Without the text that is the encryption of C53. -/
example : encrypt (constEnv 3) 1 () 2 5 ((13 : ℕ) * (7 : ℕ)) 2 = .ok (23, ()) := by
  rw [← (jl_debug_erase (constEnv 3) 1 2 64 () 2 5 _).2, text_encrypt, Res.ok_bind]

/-- What key generation prints, for a primality test that is right about the numbers it accepts: both primes, the public key, and
three lines that are the same for all keys. -/
theorem jl_debug_text (g : Env) (hpr : ∀ n, g.probabPrime n = true → n.toNat.Prime) (fuel k keysize : ℕ) (text : List Char)
    (N y p q : ℤ) (h : keygenText g fuel k keysize = .ok (text, (N, y, p), q)) :
    text = "Find appropriate p\nGood value for p: ".toList ++ decInt p ++ "\nFind appropriate q\nGood value for q: ".toList ++ decInt q ++
      "\nResulting value for N: ".toList ++ decInt N ++ "\nGood value for y: ".toList ++ decInt y ++
      "\nJacobi: 1\nLegendre y/p final: -1\nLegendre y/q final: -1\n".toList := by
  have he := (jl_debug_erase g fuel k keysize g.init 0 0 0).1
  rw [h, Res.ok_bind] at he
  obtain ⟨P, Q, rfl, rfl, rfl, key, -, -, hy0, hy1, -⟩ := jl_keygen_post g hpr fuel k keysize N y p q he.symm
  rw [keygenText] at h
  simp only [mod_ok (CT.LHE.two_ne (k := k)), Res.ok_bind] at h
  obtain ⟨p', hp, h⟩ := Res.bind_eq_ok h
  obtain ⟨q', hq, h⟩ := Res.bind_eq_ok h
  obtain ⟨⟨y', s'⟩, hy, h⟩ := Res.bind_eq_ok h
  simp only [Res.pure_eq, Res.ok_inj, Prod.mk.injEq] at h
  obtain ⟨ht, ⟨hN, rfl, rfl⟩, rfl⟩ := h
  have hpos : (0 : ℤ) < (P : ℤ) * Q := by
    have := key.p_prime.pos; have := key.q_prime.pos; positivity
  obtain ⟨-, j1, j2⟩ := findY_spec g hpos fuel ⟨le_refl _, hpos⟩ hy
  have j3 : jacobiSym y' ((P : ℤ) * Q).toNat = 1 := by
    have e : ((P : ℤ) * Q).toNat = P * Q := by rw [← Nat.cast_mul, Int.toNat_natCast]
    have := key.p_prime.ne_zero; have := key.q_prime.ne_zero
    rw [Int.toNat_natCast] at j1 j2
    rw [e, jacobiSym.mul_right' _ (by assumption) (by assumption), j1, j2]; rfl
  rw [j1, j2, j3] at ht
  have d1 : decInt 1 = ['1'] := by decide +kernel
  have d2 : decInt (-1) = ['-', '1'] := by decide +kernel
  rw [d1, d2] at ht
  rw [← ht]
  simp only [List.append_assoc]
  rfl

/-- The text for the key of `keygen_small`: `N` = 39, `y` = 2, `p` = 13, `q` = 3. -/
theorem text_small : keygenText (constEnv 2 0) 4 2 64 = .ok ("Find appropriate p\nGood value for p: 13\nFind appropriate q\n\
Good value for q: 3\nResulting value for N: 39\nGood value for y: 2\nJacobi: 1\nLegendre y/p final: -1\n\
Legendre y/q final: -1\n".toList, (39, 2, 13), 3) := by
  have he := (jl_debug_erase (constEnv 2 0) 4 2 64 () 0 0 0).1
  rw [keygen_small] at he
  obtain ⟨⟨text, r⟩, h1, h2⟩ := Res.bind_eq_ok he
  rw [Res.ok_inj] at h2
  change r = _ at h2
  subst h2
  rw [h1, jl_debug_text (constEnv 2 0) (fun n h => by simpa [constEnv] using h) 4 2 64 text _ _ _ _ h1]
  have d : decInt 13 = ['1', '3'] ∧ decInt 3 = ['3'] ∧ decInt 39 = ['3', '9'] ∧ decInt 2 = ['2'] := by decide +kernel
  rw [d.1, d.2.1, d.2.2.1, d.2.2.2]
  refine congrArg Res.ok (Prod.ext ?_ rfl)
  decide +kernel

example := jl_debug_text (constEnv 2 0) (fun n h => by simpa [constEnv] using h) 4 2 64 _ _ _ _ _ text_small

/-- C163 is false: whoever sees what key generation prints opens every ciphertext that the key owner opens. -/
theorem jl_debug_opens (g : Env) (hpr : ∀ n, g.probabPrime n = true → n.toNat.Prime) (fuel k keysize : ℕ) (text : List Char)
    (N y p q : ℤ) (h : keygenText g fuel k keysize = .ok (text, (N, y, p), q)) :
    readP text = p ∧ ∀ c, decrypt false c (readP text) y k = decrypt false c p y k := by
  have he := (jl_debug_erase g fuel k keysize g.init 0 0 0).1
  rw [h, Res.ok_bind] at he
  obtain ⟨P, Q, rfl, -⟩ := jl_keygen_post g hpr fuel k keysize N y p q he.symm
  have ht := jl_debug_text g hpr fuel k keysize text N y P q h
  have hr : readP text = P := by
    rw [ht]
    simp only [List.append_assoc]
    rw [readP, List.drop_left' (by decide)]
    exact number_line (by omega) _
  rw [hr]
  exact ⟨rfl, fun _ => rfl⟩

example := jl_debug_opens (constEnv 2 0) (fun n h => by simpa [constEnv] using h) 4 2 64 _ _ _ _ _ text_small

/-- C163 is false: whoever sees what encryption prints, and the public key, tells the message from all others by trying (unless the
ciphertext is one that decryption does not open either). -/
theorem jl_debug_checks {k p q : ℕ} {y : ℤ} (hk : k ≠ 0) (key : Key k p q y) (g : Env) (fuel : ℕ)
    (s s' : g.State) (m c : ℤ) (hm : 0 ≤ m ∧ m < 2 ^ k) (text : List Char)
    (h : encryptText g fuel s m y (p * q) k = .ok (text, c, s')) (hc : ¬ (p : ℤ) ∣ c) (m' : ℤ) (hm' : 0 ≤ m' ∧ m' < 2 ^ k) :
    checks k (p * q) y m' text = true ↔ m' = m := by
  have hpos : (0 : ℤ) < (p : ℤ) * q := by
    have := key.p_prime.pos; have := key.q_prime.pos; positivity
  have he := (jl_debug_erase g fuel k 0 s m y (p * q)).2
  rw [h, Res.ok_bind] at he
  have d1 := jl_round_trip_partial hk key g fuel s s' m c hm he.symm hc
  rw [encryptText] at h
  obtain ⟨⟨x, s1⟩, h1, h⟩ := Res.bind_eq_ok h
  simp only [powm_two_pow hpos.ne', powm_nonneg hpos.ne' hm.1, mod_ok hpos.ne', Res.ok_bind, Res.pure_eq, Res.ok_inj, Prod.mk.injEq] at h
  obtain ⟨ht, hcc, rfl⟩ := h
  have hx := (pickX_spec g hpos fuel s h1).1
  have hc0 : 0 ≤ c := by rw [← hcc]; exact Int.emod_nonneg _ hpos.ne'
  rw [hcc] at ht
  have rx : readX text = x := by
    rw [← ht]
    simp only [List.append_assoc]
    rw [readX, List.drop_left' (by decide)]
    exact number_line hx.le _
  have rc : readC text = c := by
    rw [← ht]
    simp only [List.append_assoc]
    rw [readC, List.drop_left' (by decide), List.singleton_append, (span_line hx.le _).2]
    change number (decInt c ++ '\n' :: []) = c
    exact number_line hc0 _
  have hE : ∀ a : ℤ, 0 ≤ a → encrypt g fuel s a y (p * q) k = .ok ((y ^ a.toNat * x ^ 2 ^ k) % (p * q), s1) := by
    intro a ha
    rw [encrypt, h1, Res.ok_bind]
    simp only [powm_two_pow hpos.ne', powm_nonneg hpos.ne' ha, mod_ok hpos.ne', Res.ok_bind, Res.pure_eq]
    rw [← Int.mul_emod]
  rw [checks, rx, rc, beq_iff_eq]
  constructor
  · intro e
    have h3 := hE m' hm'.1
    rw [e] at h3
    have := jl_round_trip_partial hk key g fuel s s1 m' c hm' h3 hc
    rw [d1, Res.ok_inj] at this
    exact this.symm
  · rintro rfl
    rw [hE m' hm.1, Res.ok_inj, Prod.mk.injEq] at he
    exact he.1.symm

/-- The text `x: 3`, `c: 23` belongs to the message 2 and not to 1. -/
example : checks 2 ((13 : ℕ) * (7 : ℕ)) 5 2 "x: 3\nc: 23\n".toList = true ∧ ¬ checks 2 ((13 : ℕ) * (7 : ℕ)) 5 1 "x: 3\nc: 23\n".toList = true := by
  have h := fun m' hm' => jl_debug_checks (by decide) key13 (constEnv 3) 1 () () 2 23 (by decide) _ text_encrypt (by decide) m' hm'
  exact ⟨(h 2 (by decide)).mpr rfl, fun e => by have := (h 1 (by decide)).mp e; omega⟩

end CT.Props.JLDebug
