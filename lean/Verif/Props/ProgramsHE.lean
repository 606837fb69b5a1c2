import Verif.Model.ProgramsHE
import Verif.Props.LabeledHE
import Mathlib.Tactic.NormNum.IsCoprime

/-!
# Keys and example programs of the homomorphic schemes (C100 - C103)
-/

namespace CT.Props.ProgramsHE
open CT.JL CT.Gmp CT.Spec.JL CT.Programs CT.Props.JoyeLibert CT.Props.LHE CT.LHE

/-! ### C100: keys of different users -/

theorem findP_det (g : Env) (d : ℤ) : ∀ (f f' : ℕ) (p a b : ℤ), findP g d f p = .ok a → findP g d f' p = .ok b → a = b := by
  intro f
  induction f with
  | zero => intro f' p a b h; simp [findP] at h
  | succ f ih =>
    intro f' p a b h h'
    cases f' with
    | zero => simp [findP] at h'
    | succ f' =>
      rw [findP] at h h'
      by_cases h1 : g.probabPrime p = true
      · simp only [h1, if_true] at h h'
        obtain ⟨t, e1, h⟩ := Res.bind_eq_ok h
        rw [e1, Res.ok_bind] at h'
        by_cases h2 : g.probabPrime t = true
        · simp only [h2, if_true, Res.pure_eq, Res.ok_inj] at h h'
          rw [← h, ← h']
        · simp only [h2, Bool.false_eq_true, if_false] at h h'
          exact ih f' _ a b h h'
      · simp only [h1, Bool.false_eq_true, if_false] at h h'
        exact ih f' _ a b h h'

theorem findQ_det (g : Env) : ∀ (f f' : ℕ) (q a b : ℤ), findQ g f q = .ok a → findQ g f' q = .ok b → a = b := by
  intro f
  induction f with
  | zero => intro f' p a b h; simp [findQ] at h
  | succ f ih =>
    intro f' q a b h h'
    cases f' with
    | zero => simp [findQ] at h'
    | succ f' =>
      rw [findQ] at h h'
      split at h
      · rename_i hc
        rw [if_pos hc, Res.ok_inj] at h'
        rw [Res.ok_inj] at h
        rw [← h, ← h']
      · rename_i hc
        rw [if_neg hc] at h'
        exact ih f' _ a b h h'

theorem findY_det (g : Env) (p q N : ℤ) : ∀ (f f' : ℕ) (y : ℤ) (s : g.State) (a b : ℤ × g.State),
    findY g p q N f y s = .ok a → findY g p q N f' y s = .ok b → a = b := by
  intro f
  induction f with
  | zero => intro f' y s a b h; simp [findY] at h
  | succ f ih =>
    intro f' y s a b h h'
    cases f' with
    | zero => simp [findY] at h'
    | succ f' =>
      rw [findY] at h h'
      split at h
      · rename_i hc
        rw [if_pos hc] at h'
        exact ih f' _ _ a b h h'
      · rename_i hc
        rw [if_neg hc, Res.ok_inj] at h'
        rw [Res.ok_inj] at h
        rw [← h, ← h']

theorem keygen_split (g : Env) {fuel k keysize : ℕ} {N y p q : ℤ} (h : keygen g fuel k keysize = .ok ((N, y, p), q)) :
    ∃ s', findP g (2 ^ k) fuel ((g.urandomb g.init (keysize / 2)).1 - (g.urandomb g.init (keysize / 2)).1 % 2 ^ k + 1) = .ok p ∧
      findQ g fuel (g.nextprime (g.urandomb (g.urandomb g.init (keysize / 2)).2 (keysize / 2)).1) = .ok q ∧ N = p * q ∧
      findY g p q N fuel 0 (g.urandomb (g.urandomb g.init (keysize / 2)).2 (keysize / 2)).2 = .ok (y, s') := by
  have hd : (0 : ℤ) < 2 ^ k := by positivity
  simp only [keygen, mod_ok hd.ne', Res.ok_bind] at h
  obtain ⟨p', hp, h⟩ := Res.bind_eq_ok h
  obtain ⟨q', hq, h⟩ := Res.bind_eq_ok h
  obtain ⟨⟨y', s'⟩, hy, h⟩ := Res.bind_eq_ok h
  simp only [Res.pure_eq, Res.ok_inj, Prod.mk.injEq] at h
  obtain ⟨⟨rfl, rfl, rfl⟩, rfl⟩ := h
  exact ⟨s', hp, hq, rfl, hy⟩

/-- C100 is false for all sizes: whoever generates a key of the same sizes gets the same key, secret factor included. -/
theorem jl_keygen_same_key_refuted (g : Env) (k keysize fuel fuel' : ℕ) (N y p q N' y' p' q' : ℤ)
    (h : keygen g fuel k keysize = .ok ((N, y, p), q)) (h' : keygen g fuel' k keysize = .ok ((N', y', p'), q')) :
    (N', y', p', q') = (N, y, p, q) := by
  obtain ⟨s, a1, a2, a3, a4⟩ := keygen_split g h
  obtain ⟨s', b1, b2, b3, b4⟩ := keygen_split g h'
  have e1 := findP_det g _ _ _ _ _ _ b1 a1
  have e2 := findQ_det g _ _ _ _ _ b2 a2
  subst e1 e2
  have e3 : N' = N := by rw [a3, b3]
  subst e3
  have e4 := findY_det g _ _ _ _ _ _ _ _ _ b4 a4
  simp only [Prod.mk.injEq] at e4
  rw [e4.1]

example (fuel : ℕ) (N y p q : ℤ) (h : keygen (constEnv 2 0) fuel 2 64 = .ok ((N, y, p), q)) : (N, y, p, q) = (39, 2, 13, 3) :=
  jl_keygen_same_key_refuted _ 2 64 4 fuel 39 2 13 3 N y p q keygen_small h

/-- So anybody decrypts: a key pair generated by someone else with the same sizes recovers every message that was
encrypted with a ciphertext that is not a multiple of the factor. -/
theorem jl_foreign_key_decrypts (g : Env) (hpr : ∀ n, g.probabPrime n = true → n.toNat.Prime) (k keysize fuel fuel' : ℕ) (hk : k ≠ 0)
    (N y p q N' y' p' q' : ℤ) (h : keygen g fuel k keysize = .ok ((N, y, p), q))
    (h' : keygen g fuel' k keysize = .ok ((N', y', p'), q')) (f : ℕ) (s s' : g.State) (m c : ℤ)
    (hm : 0 ≤ m ∧ m < 2 ^ k) (he : encrypt g f s m y N k = .ok (c, s')) (hc : ¬ p ∣ c) :
    decrypt false c p' y' k = .ok m := by
  have e := jl_keygen_same_key_refuted g k keysize fuel fuel' N y p q N' y' p' q' h h'
  simp only [Prod.mk.injEq] at e
  obtain ⟨-, rfl, rfl, -⟩ := e
  obtain ⟨P, Q, rfl, rfl, rfl, key, -⟩ := jl_keygen_post g hpr fuel k keysize N _ _ q h
  exact jl_round_trip_partial hk key g f s s' m c hm he hc

example (fuel : ℕ) (N y p q : ℤ) (h : keygen (constEnv 2 0) fuel 2 64 = .ok ((N, y, p), q)) : decrypt false 32 p y 2 = .ok 1 :=
  jl_foreign_key_decrypts _ (fun n h => by simpa [constEnv] using h) 2 64 4 fuel (by decide) 39 2 13 3 N y p q keygen_small h 1 () () 1 32 (by decide)
    (by simp [encrypt, pickX, constEnv, powm, Gmp.mod]) (by decide)

/-- And keys for different message sizes share the factor `q`: the greatest common divisor of two moduli of the
same size reveals it. -/
theorem jl_moduli_share_factor (g : Env) (hpr : ∀ n, g.probabPrime n = true → n.toNat.Prime) (k k' keysize fuel fuel' : ℕ)
    (N y p q N' y' p' q' : ℤ) (h : keygen g fuel k keysize = .ok ((N, y, p), q))
    (h' : keygen g fuel' k' keysize = .ok ((N', y', p'), q')) : q' = q ∧ q ∣ N ∧ q ∣ N' ∧ 1 < q ∧ 1 < Int.gcd N N' := by
  obtain ⟨s, a1, a2, a3, a4⟩ := keygen_split g h
  obtain ⟨s', b1, b2, b3, b4⟩ := keygen_split g h'
  have e2 := findQ_det g _ _ _ _ _ b2 a2
  subst e2
  obtain ⟨P, Q, hP, hQ, hN, key, -⟩ := jl_keygen_post g hpr fuel k keysize N _ _ q' h
  have h1 : q' ∣ N := ⟨p, by rw [a3, mul_comm]⟩
  have h2 : q' ∣ N' := ⟨p', by rw [b3, mul_comm]⟩
  have hq : 1 < q' := by rw [hQ]; exact_mod_cast key.q_prime.one_lt
  have hg : q' ∣ (Int.gcd N N' : ℤ) := Int.dvd_coe_gcd h1 h2
  refine ⟨rfl, h1, h2, hq, ?_⟩
  have hN0 : N ≠ 0 := by
    rw [hN]
    have := key.p_prime.pos; have := key.q_prime.pos
    positivity
  have hpos : 0 < (Int.gcd N N' : ℤ) := by
    have := Int.gcd_pos_of_ne_zero_left N' hN0
    exact_mod_cast this
  have := Int.le_of_dvd hpos hg
  omega

/-- The hypotheses are met by the key of `keygen_small`. -/
example : keygen (constEnv 2 0) 4 2 64 = .ok ((39, 2, 13), 3) ∧
    ∀ n, (constEnv 2 0).probabPrime n = true → n.toNat.Prime :=
  ⟨keygen_small, fun n h => by simpa [constEnv] using h⟩

/-! ### C101: the sum of two ciphertexts -/

theorem EncU.of_cast {n k : ℕ} {Y : (ZMod n)ˣ} {c c' m : ℤ} (h : EncU k Y c m) (e : (c' : ZMod n) = c) : EncU k Y c' m := by
  obtain ⟨u, hu⟩ := h
  exact ⟨u, e.trans hu⟩

/-- Encryption of any message, modulo `p`. -/
theorem encrypt_mod_p {k p q : ℕ} {y : ℤ} (key : Key k p q y) (g : Env) {fuel : ℕ} {s s' : g.State} {m c : ℤ}
    (h : encrypt g fuel s m y (p * q) k = .ok (c, s')) :
    ∃ Y : (ZMod p)ˣ, (Y : ZMod p) = y ∧ (¬ (p : ℤ) ∣ c → EncU k Y c m) := by
  have := key.neZero
  have hp : Fact p.Prime := ⟨key.p_prime⟩
  obtain ⟨Y, hY⟩ := key.unit
  have hd : p ∣ p * q := Dvd.intro q rfl
  have hYp : ((ZMod.unitsMap hd Y : (ZMod p)ˣ) : ZMod p) = y := by
    have := congrArg (ZMod.castHom hd (ZMod p)) hY
    rw [map_intCast] at this
    exact this
  refine ⟨_, hYp, fun hc => ?_⟩
  obtain ⟨x, -, hx, -⟩ := encrypt_spec g hY (by push_cast; exact h)
  refine coprime_coin (x := x) ?_ ((isCoprime_prime hp.out).mpr hc)
  have := congrArg (ZMod.castHom hd (ZMod p)) hx
  rw [map_intCast, map_mul, map_pow, map_intCast] at this
  rw [this, ← map_zpow]
  rfl

/-- The product of two ciphertexts, exactly: it decrypts to the sum of the messages modulo `2^k` if neither ciphertext
is a multiple of `p`, and to the all-ones message otherwise. -/
theorem jl_sum_exact {k p q : ℕ} {y : ℤ} (hk : k ≠ 0) (key : Key k p q y) (g : Env) (fuel : ℕ) (s1 s1' s2 s2' : g.State)
    (m1 m2 c1 c2 : ℤ) (h1 : encrypt g fuel s1 m1 y (p * q) k = .ok (c1, s1'))
    (h2 : encrypt g fuel s2 m2 y (p * q) k = .ok (c2, s2')) :
    decrypt false (c1 * c2 % (p * q)) p y k = .ok (if (p : ℤ) ∣ c1 ∨ (p : ℤ) ∣ c2 then 2 ^ k - 1 else (m1 + m2) % 2 ^ k) := by
  have hp : Fact p.Prime := ⟨key.p_prime⟩
  obtain ⟨Y, hY, e1⟩ := encrypt_mod_p key g h1
  obtain ⟨Y', hY', e2⟩ := encrypt_mod_p key g h2
  have : Y' = Y := Units.ext (hY'.trans hY.symm)
  subst this
  have hd : (p : ℤ) ∣ (p : ℤ) * q := Dvd.intro _ rfl
  have hcast : ((c1 * c2 % ((p : ℤ) * q) : ℤ) : ZMod p) = ((c1 * c2 : ℤ) : ZMod p) := by
    rw [ZMod.intCast_eq_intCast_iff]
    exact (Int.mod_modEq _ _).of_dvd hd
  by_cases hc : (p : ℤ) ∣ c1 ∨ (p : ℤ) ∣ c2
  · rw [if_pos hc]
    refine decrypt_zero hY key.p_mod ?_ hk false
    rw [Int.emod_def]
    exact dvd_sub ((Nat.prime_iff_prime_int.mp key.p_prime).dvd_mul.mpr hc) (dvd_mul_of_dvd_left hd _)
  · rw [if_neg hc]
    rw [not_or] at hc
    have := (e1 hc.1).mul (e2 hc.2)
    refine decrypt_eq hY key.y_p key.p_mod (EncU.of_cast this ?_)
    rw [hcast, ZMod.intCast_mod]

/-- C101, exact outcome: whatever messages and sizes the program is given, when it ends it prints them and the sum modulo
`2^k` if neither ciphertext is a multiple of the factor, and the all-ones message otherwise. -/
theorem jl_main_exact (g : Env) (hpr : ∀ n, g.probabPrime n = true → n.toNat.Prime) (fuel k keysize : ℕ) (hk : k ≠ 0)
    (m1 m2 : ℤ) (out : List (String × ℤ)) (h : jlMain g fuel m1 m2 k keysize = .ok out) :
    ∃ N y p q c1 s1 c2 s2, keygen g fuel k keysize = .ok ((N, y, p), q) ∧ encrypt g fuel g.init m1 y N k = .ok (c1, s1) ∧
      encrypt g fuel s1 m2 y N k = .ok (c2, s2) ∧
      out = [("m1: ", m1), ("m2: ", m2),
        ("recov_m = m1 + m2: ", if p ∣ c1 ∨ p ∣ c2 then 2 ^ k - 1 else (m1 + m2) % 2 ^ k)] := by
  unfold jlMain at h
  obtain ⟨⟨⟨N, y, p⟩, q⟩, h0, h⟩ := Res.bind_eq_ok h
  obtain ⟨⟨c1, s1⟩, h1, h⟩ := Res.bind_eq_ok h
  obtain ⟨⟨c2, s2⟩, h2, h⟩ := Res.bind_eq_ok h
  obtain ⟨c, h3, h⟩ := Res.bind_eq_ok h
  obtain ⟨m, h4, hout⟩ := Res.bind_eq_ok h
  obtain ⟨P, Q, rfl, rfl, rfl, key, -⟩ := jl_keygen_post g hpr fuel k keysize N y p q h0
  refine ⟨_, _, _, _, c1, s1, c2, s2, h0, h1, h2, ?_⟩
  have hN : ((P : ℤ) * Q) ≠ 0 := by
    have := key.p_prime.pos; have := key.q_prime.pos
    positivity
  rw [mod_ok hN, Res.ok_inj] at h3
  rw [← h3, jl_sum_exact hk key g fuel _ _ _ _ m1 m2 c1 c2 h1 h2, Res.ok_inj] at h4
  rw [Res.pure_eq, Res.ok_inj] at hout
  rw [← hout, ← h4]

/-! ### C102: the program of labeled homomorphic encryption -/

/-- The states of the random number generator of the program, which only draws numbers below `N`. -/
def draws (g : Env) (N : ℤ) : ℕ → g.State
  | 0 => g.init
  | n + 1 => (g.urandomm (draws g N n) N).2

/-- Every number drawn is 0 (and drawn again) or coprime to `N`. -/
def GoodDraws (g : Env) (N : ℤ) : Prop := ∀ n, (g.urandomm (draws g N n) N).1 = 0 ∨ IsCoprime (g.urandomm (draws g N n) N).1 N

theorem pickX_good (g : Env) {N : ℤ} (hg : GoodDraws g N) : ∀ (fuel n : ℕ) {x : ℤ} {s' : g.State},
    pickX g N fuel (draws g N n) = .ok (x, s') → IsCoprime x N ∧ ∃ n', s' = draws g N n' := by
  intro fuel
  induction fuel with
  | zero => intro n x s' h; simp [pickX] at h
  | succ f ih =>
    intro n x s' h
    rw [pickX] at h
    split at h
    · exact ih (n + 1) h
    · rename_i hx
      rw [Res.ok_inj] at h
      have := hg n
      rw [h] at this hx
      exact ⟨this.resolve_left hx, n + 1, by rw [draws, h]⟩

theorem enc_good {k p q : ℕ} {y : ℤ} (key : Key k p q y) (g : Env) (hg : GoodDraws g (p * q)) {Y : (ZMod (p * q))ˣ}
    (hY : (Y : ZMod (p * q)) = y) {fuel n : ℕ} {s' : g.State} {m c : ℤ}
    (h : encrypt g fuel (draws g (p * q) n) m y (p * q) k = .ok (c, s')) : EncU k Y c m ∧ ∃ n', s' = draws g (p * q) n' := by
  have := key.neZero
  obtain ⟨x, h1, h2, -⟩ := encrypt_spec g hY (by push_cast; exact h)
  push_cast at h1
  obtain ⟨h3, h4⟩ := pickX_good g hg _ _ h1
  refine ⟨coprime_coin h2 ?_, h4⟩
  obtain ⟨X, hX⟩ := unit_of_isCoprime (n := p * q) (by push_cast; exact h3)
  exact isCoprime_of_unit (Y := Y ^ m * X ^ 2 ^ k) (by rw [h2, ← hX]; simp)

theorem heEncrypt_good {k p q : ℕ} {y : ℤ} (key : Key k p q y) (g : Env) (hg : GoodDraws g (p * q)) {Y : (ZMod (p * q))ˣ}
    (hY : (Y : ZMod (p * q)) = y) {fuel n : ℕ} {s' : g.State} {hc hc' : HC128.State} {junk : List U8} {m label b : ℤ} {ct : HeCt}
    (h : heEncrypt g fuel (draws g (p * q) n) hc junk m y (p * q) label k = .ok (ct, b, hc', s')) :
    Rep k Y ct m b ∧ ∃ n', s' = draws g (p * q) n' := by
  obtain ⟨-, h2, h3⟩ := heEncrypt_split g h
  obtain ⟨e, e'⟩ := enc_good key g hg hY h2
  exact ⟨⟨e, by rw [h3]; exact Int.mod_modEq _ _⟩, e'⟩

theorem evalMult_good {k p q : ℕ} {y : ℤ} (key : Key k p q y) (g : Env) (hg : GoodDraws g (p * q)) {Y : (ZMod (p * q))ˣ}
    (hY : (Y : ZMod (p * q)) = y) {fuel n : ℕ} {s' : g.State} {c1 c2 : HeCt} {m1 m2 b1 b2 al : ℤ}
    (h1 : Rep k Y c1 m1 b1) (h2 : Rep k Y c2 m2 b2)
    (h : evalMult g fuel (draws g (p * q) n) c1 c2 y (p * q) k = .ok (al, s')) :
    EncU k Y al (m1 * m2 - b1 * b2) ∧ ∃ n', s' = draws g (p * q) n' := by
  have := key.neZero
  have hcast : ((p * q : ℕ) : ℤ) = (p : ℤ) * q := by push_cast; rfl
  have h0 := h
  obtain ⟨u, u1, u2⟩ := h2.1.powm c1.a
  obtain ⟨v, v1, v2⟩ := h1.1.powm c2.a
  rw [hcast] at u1 v1
  have hN : ((p : ℤ) * q) ≠ 0 := by rw [← hcast]; exact n_ne
  simp only [evalMult, mod_ok two_ne, Res.ok_bind, u1, v1] at h
  obtain ⟨⟨a, s1⟩, e1, e2⟩ := Res.bind_eq_ok h
  simp only [mod_ok hN, Res.ok_bind, Res.pure_eq, Res.ok_inj, Prod.mk.injEq] at e2
  obtain ⟨rfl, rfl⟩ := e2
  obtain ⟨e, e'⟩ := enc_good key g hg hY e1
  refine ⟨evalMult_enc hY g h1 h2 (by rw [hcast]; exact h0) ?_, e'⟩
  have := ((e.mul v2).mul u2).unit
  rw [hcast] at this
  obtain ⟨U, hU⟩ := this
  exact isCoprime_of_unit (Y := U) (by rw [← hcast]; exact hU.symm)

theorem evalMult3_good {k p q : ℕ} {y : ℤ} (key : Key k p q y) (g : Env) (hg : GoodDraws g (p * q)) {Y : (ZMod (p * q))ˣ}
    (hY : (Y : ZMod (p * q)) = y) {fuel n : ℕ} {s' : g.State} {c1 c2 c3 : HeCt} {m1 m2 m3 b1 b2 b3 t12 t13 t23 al : ℤ}
    (h1 : Rep k Y c1 m1 b1) (h2 : Rep k Y c2 m2 b2) (h3 : Rep k Y c3 m3 b3) (h12 : EncU k Y t12 (b1 * b2))
    (h13 : EncU k Y t13 (b1 * b3)) (h23 : EncU k Y t23 (b2 * b3))
    (h : evalMult3 g fuel (draws g (p * q) n) c1 c2 c3 t12 t13 t23 y (p * q) k = .ok (al, s')) :
    EncU k Y al (m1 * m2 * m3 - b1 * b2 * b3) ∧ ∃ n', s' = draws g (p * q) n' := by
  have := key.neZero
  have hcast : ((p * q : ℕ) : ℤ) = (p : ℤ) * q := by push_cast; rfl
  have h0 := h
  have hN : ((p : ℤ) * q) ≠ 0 := by rw [← hcast]; exact n_ne
  obtain ⟨u1, e1, f1⟩ := h23.powm c1.a
  obtain ⟨u2, e2, f2⟩ := h13.powm c2.a
  obtain ⟨u3, e3, f3⟩ := h12.powm c3.a
  obtain ⟨v1, g1, i1⟩ := h3.1.powm c1.a
  obtain ⟨v2, g2, i2⟩ := i1.powm c2.a
  obtain ⟨v3, g3, i3⟩ := h2.1.powm c1.a
  obtain ⟨v4, g4, i4⟩ := i3.powm c3.a
  obtain ⟨v5, g5, i5⟩ := h1.1.powm c2.a
  obtain ⟨v6, g6, i6⟩ := i5.powm c3.a
  rw [hcast] at e1 e2 e3 g1 g2 g3 g4 g5 g6
  simp only [evalMult3, mod_ok two_ne, Res.ok_bind, e1, e2, e3, g1, g2, g3, g4, g5, g6] at h
  obtain ⟨⟨a, s1⟩, w1, w2⟩ := Res.bind_eq_ok h
  simp only [mod_ok hN, Res.ok_bind, Res.pure_eq, Res.ok_inj, Prod.mk.injEq] at w2
  obtain ⟨rfl, rfl⟩ := w2
  obtain ⟨e, e'⟩ := enc_good key g hg hY w1
  refine ⟨evalMult3_enc hY g h1 h2 h3 h12 h13 h23 (by rw [hcast]; exact h0) ?_, e'⟩
  have := ((((((e.mul f1).mul f2).mul f3).mul i2).mul i4).mul i6).unit
  rw [hcast] at this
  obtain ⟨U, hU⟩ := this
  exact isCoprime_of_unit (Y := U) (by rw [← hcast]; exact hU.symm)

/-- The lines of the program that a user checks: label and recovered number. -/
def recovered (m1 m2 m3 : ℤ) (k : ℕ) : List (String × ℤ) :=
  [("Recovered message 1: ", m1 % 2 ^ k), ("Recovered message 2: ", m2 % 2 ^ k),
    ("Recovered message add: ", (m1 + m2) % 2 ^ k), ("Recovered message sub: ", (m2 - m3) % 2 ^ k),
    ("Recovered message mul: ", m1 * m2 % 2 ^ k), ("Recovered message triple mul: ", m1 * m2 * m3 % 2 ^ k),
    ("Recovered message triple-double add: ", (m1 * m2 + m1 * m2 * m3) % 2 ^ k),
    ("Recovered message triple-double sub: ", (m1 * m2 * m3 - m1 * m2) % 2 ^ k)]

/-- C102, the part that holds: whatever messages, labels and sizes the program is given, if it ends and every number drawn
for encryption is 0 or coprime to `N`, the eight recovered numbers are the messages, their sum, difference, products,
and sum and difference of products, modulo `2^k`.  Missing from the full statement: other draws, for which it is false. -/
theorem lhe_main_partial (g : Env) (hpr : ∀ n, g.probabPrime n = true → n.toNat.Prime) (fuel k keysize : ℕ)
    (junk : ℕ → List U8) (hc_key hc_iv : List U8) (m1 m2 m3 l1 l2 l3 : ℤ) (out : List (String × ℤ))
    (hg : ∀ N y p q, keygen g fuel k keysize = .ok ((N, y, p), q) → GoodDraws g N)
    (h : lheMain g fuel junk hc_key hc_iv m1 m2 m3 l1 l2 l3 k keysize = .ok out) :
    out.take 3 = [("Original Message m1: ", m1), ("Original Message m2: ", m2), ("Original Message m3: ", m3)] ∧
      out.drop 9 = recovered m1 m2 m3 k := by
  unfold lheMain at h
  obtain ⟨⟨⟨N, y, p⟩, q⟩, h0, h⟩ := Res.bind_eq_ok h
  obtain ⟨P, Q, rfl, rfl, rfl, key, -⟩ := jl_keygen_post g hpr fuel k keysize N y p q h0
  have hg := hg _ _ _ _ h0
  have := key.neZero
  obtain ⟨Y, hY⟩ := key.unit
  have hcast : ((P * Q : ℕ) : ℤ) = (P : ℤ) * Q := by push_cast; rfl
  obtain ⟨⟨c1, b1, hc1, s1⟩, h1, h⟩ := Res.bind_eq_ok h
  obtain ⟨r1, n1, rfl⟩ := heEncrypt_good key g hg hY (n := 0) h1
  obtain ⟨⟨c2, b2, hc2, s2⟩, h2, h⟩ := Res.bind_eq_ok h
  obtain ⟨r2, n2, rfl⟩ := heEncrypt_good key g hg hY h2
  obtain ⟨⟨c3, b3, hc3, s3⟩, h3, h⟩ := Res.bind_eq_ok h
  obtain ⟨r3, n3, rfl⟩ := heEncrypt_good key g hg hY h3
  obtain ⟨ca, e1, ra⟩ := evalAdd_rep r1 r2
  obtain ⟨cs, e2, rs⟩ := evalSub_rep r2 r3
  rw [hcast] at e1 e2
  dsimp only at h
  rw [e1, Res.ok_bind, e2, Res.ok_bind] at h
  obtain ⟨⟨cm, s4⟩, h4, h⟩ := Res.bind_eq_ok h
  obtain ⟨rm, n4, rfl⟩ := evalMult_good key g hg hY r1 r2 h4
  simp only [mod_ok two_ne, Res.ok_bind] at h
  obtain ⟨⟨t12, s5⟩, h5, h⟩ := Res.bind_eq_ok h
  obtain ⟨r5, n5, rfl⟩ := enc_good key g hg hY h5
  obtain ⟨⟨t13, s6⟩, h6, h⟩ := Res.bind_eq_ok h
  obtain ⟨r6, n6, rfl⟩ := enc_good key g hg hY h6
  obtain ⟨⟨t23, s7⟩, h7, h⟩ := Res.bind_eq_ok h
  obtain ⟨r7, n7, rfl⟩ := enc_good key g hg hY h7
  obtain ⟨⟨ct, s8⟩, h8, h⟩ := Res.bind_eq_ok h
  obtain ⟨rt, -⟩ := evalMult3_good key g hg hY r1 r2 r3 (r5.congr (Int.mod_modEq _ _)) (r6.congr (Int.mod_modEq _ _))
    (r7.congr (Int.mod_modEq _ _)) h8
  obtain ⟨cta, e3, rta⟩ := evalAddA_enc rm rt
  obtain ⟨cts, e4, rts⟩ := evalSubA_enc rt rm
  rw [hcast] at e3 e4
  have hb2 : b1 * b2 % 2 ^ k ≡ b1 * b2 [ZMOD 2 ^ k] := Int.mod_modEq _ _
  have hb3 : b1 * b2 % 2 ^ k * b3 % 2 ^ k ≡ b1 * b2 * b3 [ZMOD 2 ^ k] := (Int.mod_modEq _ _).trans (hb2.mul_right _)
  have d1 := heDecrypt_rep key hY r1
  have d2 := heDecrypt_rep key hY r2
  have d3 := heDecrypt_rep key hY ra
  have d4 := heDecrypt_rep key hY rs
  have d5 := heDecryptA_enc key hY rm hb2
  have d6 := heDecryptA_enc key hY rt hb3
  have d7 := heDecryptA_enc key hY (m := m1 * m2 + m1 * m2 * m3) (b := b1 * b2 + b1 * b2 * b3)
    (b' := (b1 * b2 % 2 ^ k + b1 * b2 % 2 ^ k * b3 % 2 ^ k) % 2 ^ k) (rta.of_eq (by ring))
    ((Int.mod_modEq _ _).trans (hb2.add hb3))
  have d8 := heDecryptA_enc key hY (m := m1 * m2 * m3 - m1 * m2) (b := b1 * b2 * b3 - b1 * b2)
    (b' := (b1 * b2 % 2 ^ k * b3 % 2 ^ k - b1 * b2 % 2 ^ k) % 2 ^ k) (rts.of_eq (by ring))
    ((Int.mod_modEq _ _).trans (hb3.sub hb2))
  simp only [e3, e4, d1, d2, d3, d4, d5, d6, d7, d8, Res.ok_bind, Res.pure_eq, Res.ok_inj] at h
  subst h
  exact ⟨rfl, rfl⟩

theorem pickX_tot (g : Env) {N : ℤ} {f n : ℕ} (h : (g.urandomm (draws g N n) N).1 ≠ 0) :
    pickX g N (f + 1) (draws g N n) = .ok ((g.urandomm (draws g N n) N).1, draws g N (n + 1)) := by
  rw [pickX]
  simp only [h, if_false]
  rfl

/-- C102: the program ends if key generation does, the numbers drawn for encryption are coprime to `N` (so not 0), and
the labels have at most `k/8` bytes. -/
theorem lhe_main_total (g : Env) (hpr : ∀ n, g.probabPrime n = true → n.toNat.Prime) (fuel k keysize : ℕ) (hk : k < 2 ^ 32)
    (junk : ℕ → List U8) (hj : ∀ i, k / 8 ≤ (junk i).length) (hc_key hc_iv : List U8) (m1 m2 m3 l1 l2 l3 N y p q : ℤ)
    (hl1 : l1.natAbs < 256 ^ (k / 8)) (hl2 : l2.natAbs < 256 ^ (k / 8)) (hl3 : l3.natAbs < 256 ^ (k / 8))
    (h0 : keygen g fuel k keysize = .ok ((N, y, p), q)) (hd : ∀ n, IsCoprime (g.urandomm (draws g N n) N).1 N) :
    ∃ out, lheMain g fuel junk hc_key hc_iv m1 m2 m3 l1 l2 l3 k keysize = .ok out := by
  obtain ⟨f, rfl⟩ : ∃ f, fuel = f + 1 := by
    cases fuel with
    | zero =>
      obtain ⟨s, a1, -⟩ := keygen_split g h0
      simp [findP] at a1
    | succ f => exact ⟨f, rfl⟩
  obtain ⟨P, Q, rfl, rfl, rfl, key, -⟩ := jl_keygen_post g hpr _ k keysize N y p q h0
  have hg : GoodDraws g ((P : ℤ) * Q) := fun n => Or.inr (hd n)
  have hne : ∀ n, (g.urandomm (draws g ((P : ℤ) * Q) n) ((P : ℤ) * Q)).1 ≠ 0 := fun n e => by
    have := hd n
    rw [e, isCoprime_zero_left, Int.isUnit_iff] at this
    have := key.p_prime.two_le; have := key.q_prime.two_le
    have : (4 : ℤ) ≤ (P : ℤ) * Q := by exact_mod_cast Nat.mul_le_mul ‹2 ≤ P› ‹2 ≤ Q›
    omega
  have := key.neZero
  obtain ⟨Y, hY⟩ := key.unit
  have hcast : ((P * Q : ℕ) : ℤ) = (P : ℤ) * Q := by push_cast; rfl
  have et : ∀ n m, ∃ c, encrypt g (f + 1) (draws g ((P : ℤ) * Q) n) m y ((P : ℤ) * Q) k =
      .ok (c, draws g ((P : ℤ) * Q) (n + 1)) := fun n m => by
    obtain ⟨c, hc⟩ := encrypt_total (k := k) g hY m (by rw [hcast]; exact pickX_tot g (f := f) (hne n))
    exact ⟨c, by rw [hcast] at hc; exact hc⟩
  have ht : ∀ n hc i m l, l.natAbs < 256 ^ (k / 8) → ∃ ct b hc', heEncrypt g (f + 1) (draws g ((P : ℤ) * Q) n) hc (junk i) m y
      ((P : ℤ) * Q) l k = .ok (ct, b, hc', draws g ((P : ℤ) * Q) (n + 1)) := fun n hc i m l hl => by
    have e := labelValue_eq hc (junk i) l k ((exportBytes_length l _).mpr hl) (hj i) hk
    obtain ⟨c, hc⟩ := et n _
    exact ⟨_, _, _, by rw [heEncrypt, e, Res.ok_bind]; dsimp only; rw [hc, Res.ok_bind, mod_ok two_ne]; rfl⟩
  obtain ⟨c1, b1, hc1, h1⟩ := ht 0 (HC128.init hc_key hc_iv) 0 m1 l1 hl1
  obtain ⟨c2, b2, hc2, h2⟩ := ht 1 hc1 1 m2 l2 hl2
  obtain ⟨c3, b3, hc3, h3⟩ := ht 2 hc2 2 m3 l3 hl3
  obtain ⟨r1, -⟩ := heEncrypt_good key g hg hY h1
  obtain ⟨r2, -⟩ := heEncrypt_good key g hg hY h2
  obtain ⟨r3, -⟩ := heEncrypt_good key g hg hY h3
  obtain ⟨ca, e1, ra⟩ := evalAdd_rep r1 r2
  obtain ⟨cs, e2, rs⟩ := evalSub_rep r2 r3
  obtain ⟨cm, h4⟩ := evalMult_total hY g r1 r2 (by rw [hcast]; exact pickX_tot g (f := f) (hne 3))
  rw [hcast] at e1 e2 h4
  obtain ⟨rm, -⟩ := evalMult_good key g hg hY r1 r2 h4
  obtain ⟨t12, h5⟩ := et 4 (b1 * b2 % 2 ^ k)
  obtain ⟨t13, h6⟩ := et 5 (b1 * b3 % 2 ^ k)
  obtain ⟨t23, h7⟩ := et 6 (b2 * b3 % 2 ^ k)
  obtain ⟨r5, -⟩ := enc_good key g hg hY h5
  obtain ⟨r6, -⟩ := enc_good key g hg hY h6
  obtain ⟨r7, -⟩ := enc_good key g hg hY h7
  have r5' := r5.congr (Int.mod_modEq (b1 * b2) (2 ^ k))
  have r6' := r6.congr (Int.mod_modEq (b1 * b3) (2 ^ k))
  have r7' := r7.congr (Int.mod_modEq (b2 * b3) (2 ^ k))
  obtain ⟨ct, h8⟩ := evalMult3_total hY g r1 r2 r3 r5' r6' r7' (by rw [hcast]; exact pickX_tot g (f := f) (hne 7))
  rw [hcast] at h8
  obtain ⟨rt, -⟩ := evalMult3_good key g hg hY r1 r2 r3 r5' r6' r7' h8
  obtain ⟨cta, e3, rta⟩ := evalAddA_enc rm rt
  obtain ⟨cts, e4, rts⟩ := evalSubA_enc rt rm
  rw [hcast] at e3 e4
  have hb2 : b1 * b2 % 2 ^ k ≡ b1 * b2 [ZMOD 2 ^ k] := Int.mod_modEq _ _
  have hb3 : b1 * b2 % 2 ^ k * b3 % 2 ^ k ≡ b1 * b2 * b3 [ZMOD 2 ^ k] := (Int.mod_modEq _ _).trans (hb2.mul_right _)
  have d1 := heDecrypt_rep key hY r1
  have d2 := heDecrypt_rep key hY r2
  have d3 := heDecrypt_rep key hY ra
  have d4 := heDecrypt_rep key hY rs
  have d5 := heDecryptA_enc key hY rm hb2
  have d6 := heDecryptA_enc key hY rt hb3
  have d7 := heDecryptA_enc key hY (m := m1 * m2 + m1 * m2 * m3) (b := b1 * b2 + b1 * b2 * b3)
    (b' := (b1 * b2 % 2 ^ k + b1 * b2 % 2 ^ k * b3 % 2 ^ k) % 2 ^ k) (rta.of_eq (by ring))
    ((Int.mod_modEq _ _).trans (hb2.add hb3))
  have d8 := heDecryptA_enc key hY (m := m1 * m2 * m3 - m1 * m2) (b := b1 * b2 * b3 - b1 * b2)
    (b' := (b1 * b2 % 2 ^ k * b3 % 2 ^ k - b1 * b2 % 2 ^ k) % 2 ^ k) (rts.of_eq (by ring))
    ((Int.mod_modEq _ _).trans (hb3.sub hb2))
  have h1 : heEncrypt g (f + 1) g.init (HC128.init hc_key hc_iv) (junk 0) m1 y ((P : ℤ) * Q) l1 k =
    .ok (c1, b1, hc1, draws g ((P : ℤ) * Q) 1) := h1
  simp only [lheMain, h0, h1, h2, h3, e1, e2, h4, mod_ok two_ne, h5, h6, h7, h8, e3, e4, d1, d2, d3, d4, d5, d6, d7, d8, Res.ok_bind,
    Res.pure_eq]
  exact ⟨_, rfl⟩

/-! ### Witnesses: the sizes of the shipped programs -/

/-- A random number generator that draws `p` and then 5 for the primes; for numbers below `N` it draws `coin` before that
and 3 afterwards. -/
noncomputable def twoEnv (p coin : ℤ) : Env where
  State := ℕ
  init := 0
  urandomb s n := ((if s = 0 then p else 5) % 2 ^ n, s + 1)
  urandomb_range _ n := ⟨Int.emod_nonneg _ (by positivity), Int.emod_lt_of_pos _ (by positivity)⟩
  urandomm s n := ((if s < 2 then coin else 3) % n, s)
  urandomm_range _ n hn := ⟨Int.emod_nonneg _ hn.ne', Int.emod_lt_of_pos _ hn⟩
  probabPrime n := decide n.toNat.Prime
  nextprime n := (Nat.find (Nat.exists_infinite_primes (n.toNat + 1)) : ℤ)
  nextprime_gt n := by
    have := (Nat.find_spec (Nat.exists_infinite_primes (n.toNat + 1))).1
    omega

theorem prime64 : Nat.Prime 3006819284014656913409 :=
  prime_of_sqMod (e := 163) (k := 63) (a := 3) (by norm_num) (by norm_num) (by decide +kernel)
    (by decide +kernel) (by decide +kernel)

theorem keygen_two (k e P : ℕ) (coin : ℤ) (hk : k ≠ 0) (hP : P = 2 ^ k * e + 1) (hlt : P < 2 ^ 1024) (pP : P.Prime)
    (pe : e.Prime) (hj : jacobiSym 3 P = -1) :
    keygen (twoEnv P coin) 2 k 2048 = .ok (((P : ℤ) * 7, 3, (P : ℤ)), 7) := by
  have hpp : ∀ n, (twoEnv P coin).probabPrime n = decide n.toNat.Prime := fun _ => rfl
  have n5 : (twoEnv P coin).nextprime 5 = 7 := by
    show ((Nat.find _ : ℕ) : ℤ) = ((7 : ℕ) : ℤ)
    rw [Nat.cast_inj, Nat.find_eq_iff]
    exact ⟨⟨by decide, by norm_num⟩, by decide⟩
  have hPz : (P : ℤ) = 2 ^ k * e + 1 := by rw [hP]; push_cast; rfl
  have hu1 : (twoEnv P coin).urandomb (twoEnv P coin).init (2048 / 2) = ((P : ℤ), (1 : ℕ)) := by
    show ((P : ℤ) % 2 ^ 1024, (1 : ℕ)) = _
    rw [Int.emod_eq_of_lt (by omega) (by exact_mod_cast hlt)]
  have hu2 : (twoEnv P coin).urandomb (1 : ℕ) (2048 / 2) = ((5 : ℤ), (2 : ℕ)) := by
    show ((5 : ℤ) % 2 ^ 1024, (2 : ℕ)) = _
    rw [Int.emod_eq_of_lt (by omega) (lt_of_lt_of_le (by norm_num) (pow_le_pow_right₀ (by norm_num) (show 8 ≤ 1024 by decide)))]
  have hm : (P : ℤ) % 2 ^ k = 1 := by
    rw [hPz, Int.mul_add_emod_self_left, Int.emod_eq_of_lt (by omega)]
    exact one_lt_pow₀ (by norm_num) hk
  have hfP : findP (twoEnv P coin) (2 ^ k) 2 P = .ok P := by
    rw [findP, hpp, Int.toNat_natCast, if_pos (decide_eq_true pP)]
    have : divexact ((P : ℤ) - 1) (2 ^ k) = .ok (e : ℤ) := by
      rw [hPz, add_sub_cancel_right, divexact, if_pos ⟨two_ne, Dvd.intro _ rfl⟩, Int.mul_ediv_cancel_left _ two_ne]
    rw [this, Res.ok_bind, hpp, Int.toNat_natCast, if_pos (decide_eq_true pe)]
    rfl
  have hfQ : findQ (twoEnv P coin) 2 7 = .ok 7 := by
    rw [findQ, hpp]
    exact if_pos ⟨decide_eq_true (show Nat.Prime 7 by norm_num), by norm_num⟩
  have t7 : Int.toNat 7 = 7 := rfl
  have hum : (twoEnv P coin).urandomm (2 : ℕ) ((P : ℤ) * 7) = ((3 : ℤ), (2 : ℕ)) := by
    show ((3 : ℤ) % ((P : ℤ) * 7), (2 : ℕ)) = _
    rw [Int.emod_eq_of_lt (by omega) (by have := pP.two_le; omega)]
  have hfY : findY (twoEnv P coin) P 7 (P * 7) 2 0 (2 : ℕ) = .ok (3, (2 : ℕ)) := by
    refine (findY.eq_2 (twoEnv P coin) P 7 (P * 7) 0 (2 : ℕ) 1).trans ?_
    rw [t7, if_pos (Or.inr (by norm_num))]
    dsimp only
    rw [hum]
    refine (findY.eq_2 (twoEnv P coin) P 7 (P * 7) 3 (2 : ℕ) 0).trans ?_
    rw [t7, Int.toNat_natCast, hj]
    exact if_neg (by norm_num)
  rw [keygen]
  dsimp only
  rw [hu1]
  dsimp only
  rw [mod_ok two_ne, Res.ok_bind, hm, sub_add_cancel, hfP, Res.ok_bind, hu2]
  dsimp only
  rw [n5, hfQ, Res.ok_bind, hfY]
  rfl

set_option exponentiation.threshold 1024 in
theorem keygen_64 (coin : ℤ) : keygen (twoEnv (3006819284014656913409 : ℕ) coin) 2 64 2048 =
    .ok ((((3006819284014656913409 : ℕ) : ℤ) * 7, 3, ((3006819284014656913409 : ℕ) : ℤ)), 7) :=
  keygen_two 64 163 _ coin (by decide) (by norm_num)
    (lt_of_lt_of_le (by norm_num) (Nat.pow_le_pow_right (by norm_num) (show 128 ≤ 1024 by decide))) prime64 (by norm_num) (by norm_num)

set_option exponentiation.threshold 1024 in
theorem keygen_32 (coin : ℤ) : keygen (twoEnv (184683593729 : ℕ) coin) 2 32 2048 =
    .ok ((((184683593729 : ℕ) : ℤ) * 7, 3, ((184683593729 : ℕ) : ℤ)), 7) :=
  keygen_two 32 43 _ coin (by decide) (by norm_num)
    (lt_of_lt_of_le (by norm_num) (Nat.pow_le_pow_right (by norm_num) (show 128 ≤ 1024 by decide))) prime32 (by norm_num) (by norm_num)

theorem twoEnv_prime (p coin : ℤ) : ∀ n, (twoEnv p coin).probabPrime n = true → n.toNat.Prime :=
  fun n h => by simpa [twoEnv] using h

theorem twoEnv_draws (p coin N : ℤ) (n : ℕ) : draws (twoEnv p coin) N n = (0 : ℕ) := by
  induction n with
  | zero => rfl
  | succ n ih => rw [draws, ih]; rfl

theorem twoEnv_draw (p coin N : ℤ) (n : ℕ) (h : 0 ≤ coin ∧ coin < N) :
    ((twoEnv p coin).urandomm (draws (twoEnv p coin) N n) N).1 = coin := by
  rw [twoEnv_draws]
  exact Int.emod_eq_of_lt h.1 h.2

/-- C101: the program ends if key generation does and the first two numbers drawn are not 0. -/
theorem jl_main_total (g : Env) (hpr : ∀ n, g.probabPrime n = true → n.toNat.Prime) (fuel k keysize : ℕ) (hk : k ≠ 0)
    (m1 m2 N y p q : ℤ) (h0 : keygen g fuel k keysize = .ok ((N, y, p), q)) (hd : ∀ n < 2, (g.urandomm (draws g N n) N).1 ≠ 0) :
    ∃ out, jlMain g fuel m1 m2 k keysize = .ok out := by
  obtain ⟨f, rfl⟩ : ∃ f, fuel = f + 1 := by
    cases fuel with
    | zero =>
      obtain ⟨s, a1, -⟩ := keygen_split g h0
      simp [findP] at a1
    | succ f => exact ⟨f, rfl⟩
  have h0' := h0
  obtain ⟨P, Q, rfl, rfl, rfl, key, -⟩ := jl_keygen_post g hpr _ k keysize N y p q h0
  have := key.neZero
  have hp : Fact P.Prime := ⟨key.p_prime⟩
  obtain ⟨Y, hY⟩ := key.unit
  have hcast : ((P * Q : ℕ) : ℤ) = (P : ℤ) * Q := by push_cast; rfl
  have hN : ((P : ℤ) * Q) ≠ 0 := by rw [← hcast]; exact n_ne
  obtain ⟨c1, e1⟩ := encrypt_total (k := k) g hY m1 (by rw [hcast]; exact pickX_tot g (f := f) (hd 0 (by decide)))
  obtain ⟨c2, e2⟩ := encrypt_total (k := k) g hY m2 (by rw [hcast]; exact pickX_tot g (f := f) (hd 1 (by decide)))
  rw [hcast] at e1 e2
  have e1' : encrypt g (f + 1) g.init m1 y ((P : ℤ) * Q) k = .ok (c1, draws g ((P : ℤ) * Q) 1) := e1
  unfold jlMain
  rw [h0']
  simp only [Res.ok_bind]
  rw [e1', Res.ok_bind]
  dsimp only
  rw [e2, Res.ok_bind]
  dsimp only
  rw [mod_ok hN, Res.ok_bind, jl_sum_exact hk key g _ _ _ _ _ m1 m2 c1 c2 e1 e2, Res.ok_bind]
  exact ⟨_, rfl⟩

theorem jl_main_two (coin : ℤ) (hc : 0 < coin ∧ coin < ((3006819284014656913409 : ℕ) : ℤ) * 7) :
    jlMain (twoEnv (3006819284014656913409 : ℕ) coin) 2 999 150 64 2048 = .ok [("m1: ", 999), ("m2: ", 150),
      ("recov_m = m1 + m2: ", if ((3006819284014656913409 : ℕ) : ℤ) ∣ coin then 2 ^ 64 - 1 else 1149)] := by
  obtain ⟨out, h⟩ := jl_main_total (twoEnv (3006819284014656913409 : ℕ) coin) (twoEnv_prime _ _) 2 64 2048 (by decide) 999 150 _ _ _ _
    (keygen_64 coin) (fun n _ => by rw [twoEnv_draw _ _ _ _ ⟨hc.1.le, hc.2⟩]; exact hc.1.ne')
  obtain ⟨N, y, p, q, c1, s1, c2, s2, h0, h1, h2, rfl⟩ := jl_main_exact _ (twoEnv_prime _ _) 2 64 2048 (by decide) 999 150 out h
  rw [keygen_64, Res.ok_inj] at h0
  simp only [Prod.mk.injEq] at h0
  obtain ⟨⟨rfl, rfl, rfl⟩, rfl⟩ := h0
  rw [h]
  have hpx : ∀ f, pickX (twoEnv (3006819284014656913409 : ℕ) coin) (((3006819284014656913409 : ℕ) : ℤ) * 7) (f + 1) (0 : ℕ) =
      .ok (coin, (0 : ℕ)) := fun f => by
    have := pickX_tot (twoEnv (3006819284014656913409 : ℕ) coin) (N := ((3006819284014656913409 : ℕ) : ℤ) * 7) (f := f) (n := 0)
      (by rw [twoEnv_draw _ _ _ _ ⟨hc.1.le, hc.2⟩]; exact hc.1.ne')
    rw [twoEnv_draw _ _ _ _ ⟨hc.1.le, hc.2⟩, twoEnv_draws, twoEnv_draws] at this
    exact this
  obtain ⟨P, Q, hP, hQ, -, key, -⟩ := jl_keygen_post _ (twoEnv_prime _ _) _ _ _ _ _ _ _ (keygen_64 coin)
  obtain rfl : P = 3006819284014656913409 := by exact_mod_cast hP.symm
  obtain rfl : Q = 7 := by exact_mod_cast hQ.symm
  have := key.neZero
  obtain ⟨Y, hY⟩ := key.unit
  obtain ⟨x1, e1, f1, -⟩ := encrypt_spec _ hY (by rw [Nat.cast_mul]; exact h1)
  have e1 : pickX (twoEnv (3006819284014656913409 : ℕ) coin) (((3006819284014656913409 : ℕ) : ℤ) * 7) 2 (0 : ℕ) = .ok (x1, s1) := by
    rw [Nat.cast_mul] at e1; exact e1
  rw [hpx, Res.ok_inj] at e1
  obtain ⟨rfl, rfl⟩ := Prod.mk.inj e1
  obtain ⟨x2, e2, f2, -⟩ := encrypt_spec _ hY (by rw [Nat.cast_mul]; exact h2)
  have e2 : pickX (twoEnv (3006819284014656913409 : ℕ) coin) (((3006819284014656913409 : ℕ) : ℤ) * 7) 2 (0 : ℕ) = .ok (x2, s2) := by
    rw [Nat.cast_mul] at e2; exact e2
  rw [hpx, Res.ok_inj] at e2
  obtain ⟨rfl, rfl⟩ := Prod.mk.inj e2
  simp only [dvd_cipher key.p_prime (Dvd.intro 7 rfl) f1, dvd_cipher key.p_prime (Dvd.intro 7 rfl) f2, or_self,
    show ((999 : ℤ) + 150) % 2 ^ 64 = 1149 by norm_num]

/-- The program as shipped (999, 150, messages of 64 bits, modulus of 2048 bits) prints 1149 for these draws. -/
example : jlMain (twoEnv (3006819284014656913409 : ℕ) 3) 2 999 150 64 2048 = .ok [("m1: ", 999), ("m2: ", 150),
    ("recov_m = m1 + m2: ", 1149)] := by
  rw [jl_main_two 3 (by norm_num), if_neg (by norm_num)]

/-- C101 is false: for other draws the program as shipped prints 2^64 - 1. -/
theorem jl_main_refuted : ¬ ∀ (g : Env) (fuel : ℕ) (out : List (String × ℤ)), (∀ n, g.probabPrime n = true → n.toNat.Prime) →
    jlMain g fuel 999 150 64 2048 = .ok out → out = [("m1: ", 999), ("m2: ", 150), ("recov_m = m1 + m2: ", 1149)] := by
  intro h
  have := h _ 2 _ (twoEnv_prime _ _) (jl_main_two 3006819284014656913409 (by norm_num))
  rw [if_pos (by norm_num)] at this
  revert this
  decide

/-- C102 for the program as shipped: 10, 15, 5 with labels 1, 2, 3, messages of 32 bits. -/
example (junk : ℕ → List U8) (hj : ∀ i, 4 ≤ (junk i).length) (key iv : List U8) :
    ∃ out, lheMain (twoEnv (184683593729 : ℕ) 3) 2 junk key iv 10 15 5 1 2 3 32 2048 = .ok out ∧
      (out.drop 9).map Prod.snd = [10, 15, 25, 10, 150, 750, 900, 600] := by
  have hco : ∀ n, IsCoprime ((twoEnv (184683593729 : ℕ) 3).urandomm (draws (twoEnv (184683593729 : ℕ) 3)
      (((184683593729 : ℕ) : ℤ) * 7) n) (((184683593729 : ℕ) : ℤ) * 7)).1 (((184683593729 : ℕ) : ℤ) * 7) := fun n => by
    rw [twoEnv_draw _ _ _ _ (by norm_num)]
    norm_num
  obtain ⟨out, h⟩ := lhe_main_total _ (twoEnv_prime _ _) 2 32 2048 (by decide) junk hj key iv 10 15 5 1 2 3 _ _ _ _ (by decide)
    (by decide) (by decide) (keygen_32 3) hco
  refine ⟨out, h, ?_⟩
  rw [(lhe_main_partial _ (twoEnv_prime _ _) 2 32 2048 junk key iv 10 15 5 1 2 3 out (fun N y p q e => by
    rw [keygen_32, Res.ok_inj] at e
    obtain ⟨e, -⟩ := Prod.mk.inj e
    obtain ⟨rfl, -⟩ := Prod.mk.inj e
    exact fun n => Or.inr (hco n)) h).2]
  decide

theorem heEncrypt_of (g : Env) {fuel k : ℕ} {s s' : g.State} {hc hc' : HC128.State} {junk : List U8} {m y N label v c : ℤ}
    (e : labelValue hc junk label k = .ok (v, hc')) (e1 : encrypt g fuel s v y N k = .ok (c, s')) :
    heEncrypt g fuel s hc junk m y N label k = .ok (⟨(m - v) % 2 ^ k, c⟩, v, hc', s') := by
  rw [heEncrypt, e, Res.ok_bind]
  dsimp only
  rw [e1, Res.ok_bind, mod_ok two_ne]
  rfl

theorem lhe_main_bad (junk : ℕ → List U8) (hj : ∀ i, 4 ≤ (junk i).length) (hc_key hc_iv : List U8) :
    lheMain (twoEnv (184683593729 : ℕ) 184683593729) 2 junk hc_key hc_iv 10 15 5 1 2 3 32 2048 = .ub .contract := by
  have h0 := keygen_32 184683593729
  obtain ⟨P, Q, hP, hQ, -, key, -⟩ := jl_keygen_post _ (twoEnv_prime _ _) _ _ _ _ _ _ _ h0
  obtain rfl : P = 184683593729 := by exact_mod_cast hP.symm
  obtain rfl : Q = 7 := by exact_mod_cast hQ.symm
  have := key.neZero
  obtain ⟨Y, hY⟩ := key.unit
  have hN : (((184683593729 : ℕ) : ℤ) * 7) ≠ 0 := by norm_num
  have hpx : pickX (twoEnv (184683593729 : ℕ) 184683593729) (((184683593729 : ℕ) : ℤ) * 7) 2 (0 : ℕ) =
      .ok (184683593729, (0 : ℕ)) := by
    have := pickX_tot (twoEnv (184683593729 : ℕ) 184683593729) (N := ((184683593729 : ℕ) : ℤ) * 7) (f := 1) (n := 0)
      (by rw [twoEnv_draw _ _ _ _ (by norm_num)]; norm_num)
    rw [twoEnv_draw _ _ _ _ (by norm_num), twoEnv_draws, twoEnv_draws] at this
    exact this
  have et : ∀ m, ∃ c, encrypt (twoEnv (184683593729 : ℕ) 184683593729) 2 (0 : ℕ) m 3 (((184683593729 : ℕ) : ℤ) * 7) 32 =
      .ok (c, (0 : ℕ)) ∧ ((184683593729 : ℕ) : ℤ) ∣ c := fun m => by
    obtain ⟨c, e1⟩ := encrypt_total (k := 32) (twoEnv (184683593729 : ℕ) 184683593729) hY m (by rw [Nat.cast_mul]; exact hpx)
    have e2 := e1
    rw [Nat.cast_mul] at e2
    refine ⟨c, e2, ?_⟩
    obtain ⟨x1, f0, f1, -⟩ := encrypt_spec _ hY e1
    have f0 : pickX (twoEnv (184683593729 : ℕ) 184683593729) (((184683593729 : ℕ) : ℤ) * 7) 2 (0 : ℕ) = .ok (x1, (0 : ℕ)) := by
      rw [Nat.cast_mul] at f0; exact f0
    rw [hpx, Res.ok_inj] at f0
    obtain ⟨rfl, -⟩ := Prod.mk.inj f0
    rw [dvd_cipher key.p_prime (Dvd.intro 7 rfl) f1]
    norm_num
  have ht : ∀ hc i m l, l.natAbs < 256 ^ (32 / 8) → ∃ ct b hc', heEncrypt (twoEnv (184683593729 : ℕ) 184683593729) 2 (0 : ℕ) hc (junk i)
      m 3 (((184683593729 : ℕ) : ℤ) * 7) l 32 = .ok (ct, b, hc', (0 : ℕ)) ∧ ((184683593729 : ℕ) : ℤ) ∣ ct.beta := fun hc i m l hl => by
    obtain ⟨v, hc', e⟩ : ∃ v hc', labelValue hc (junk i) l 32 = .ok (v, hc') :=
      ⟨_, _, labelValue_eq hc (junk i) l 32 ((exportBytes_length l _).mpr hl) (hj i) (by decide)⟩
    obtain ⟨c, e1, e2⟩ := et v
    exact ⟨⟨(m - v) % 2 ^ 32, c⟩, v, hc', heEncrypt_of (twoEnv (184683593729 : ℕ) 184683593729) e e1, e2⟩
  obtain ⟨c1, b1, hc1, h1, -⟩ := ht (HC128.init hc_key hc_iv) 0 10 1 (by decide)
  obtain ⟨c2, b2, hc2, h2, -⟩ := ht hc1 1 15 2 (by decide)
  obtain ⟨c3, b3, hc3, h3, d3⟩ := ht hc2 2 5 3 (by decide)
  have hinv : invert c3.beta (((184683593729 : ℕ) : ℤ) * 7) = none := by
    refine invert_none fun hco => ?_
    have := IsCoprime.of_mul_right_left hco
    rw [isCoprime_prime key.p_prime] at this
    exact this d3
  have hadd : ∃ c, evalAdd c1 c2 (((184683593729 : ℕ) : ℤ) * 7) 32 = .ok c :=
    ⟨_, by rw [evalAdd, mod_ok two_ne, Res.ok_bind, mod_ok hN, Res.ok_bind]; rfl⟩
  have hsub : evalSub c2 c3 (((184683593729 : ℕ) : ℤ) * 7) 32 = .ub .contract := by
    rw [evalSub, mod_ok two_ne, Res.ok_bind, hinv]; rfl
  obtain ⟨ca, hadd⟩ := hadd
  have h1 : heEncrypt (twoEnv (184683593729 : ℕ) 184683593729) 2 (twoEnv (184683593729 : ℕ) 184683593729).init
    (HC128.init hc_key hc_iv) (junk 0) 10 3 (((184683593729 : ℕ) : ℤ) * 7) 1 32 = .ok (c1, b1, hc1, (0 : ℕ)) := h1
  unfold lheMain
  rw [h0, Res.ok_bind]
  dsimp only
  rw [h1, Res.ok_bind]
  dsimp only
  rw [h2, Res.ok_bind]
  dsimp only
  rw [h3, Res.ok_bind]
  dsimp only
  rw [hadd, Res.ok_bind, hsub]
  rfl

/-- C102 is false: for other draws the program as shipped computes with the undefined result of `mpz_invert`. -/
theorem lhe_main_refuted : ¬ ∀ (g : Env) (fuel : ℕ) (junk : ℕ → List U8) (key iv : List U8),
    (∀ n, g.probabPrime n = true → n.toNat.Prime) → (∀ i, 4 ≤ (junk i).length) →
    (∃ N y p q, keygen g fuel 32 2048 = .ok ((N, y, p), q) ∧ ∀ n, (g.urandomm (draws g N n) N).1 ≠ 0) →
    ∃ out, lheMain g fuel junk key iv 10 15 5 1 2 3 32 2048 = .ok out ∧
      (out.drop 9).map Prod.snd = [10, 15, 25, 10, 150, 750, 900, 600] := by
  intro h
  obtain ⟨out, h1, -⟩ := h _ 2 (fun _ => [0, 0, 0, 0]) [] [] (twoEnv_prime _ _) (fun _ => le_refl _)
    ⟨_, _, _, _, keygen_32 184683593729, fun n => by rw [twoEnv_draw _ _ _ _ (by norm_num)]; norm_num⟩
  rw [lhe_main_bad _ (fun _ => le_refl _)] at h1
  cases h1

end CT.Props.ProgramsHE
