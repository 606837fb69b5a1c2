import Verif.Props.JLRerandomise
import Verif.Props.LabeledHE
import Verif.Props.MuLabeledHE

/-!
# Labeled homomorphic encryption: products look like fresh ciphertexts (C129)
-/

namespace CT.Props.LHEFresh
open CT.Gmp CT.JL CT.Spec.JL CT.Props.JoyeLibert CT.Props.JLRerandomise

theorem mulmod (a b c N : ℤ) : a * b % N * c % N = a * (b * c % N) % N :=
  (((Int.mod_modEq (a * b) N).mul_right c).trans (by rw [mul_assoc]; exact ((Int.mod_modEq (b * c) N).mul_left a).symm))

/-- Times a ciphertext: the randomness of one factor re-randomises the product. -/
theorem fresh_core {k p q : ℕ} {y : ℤ} (key : Key k p q y) {Y : (ZMod (p * q))ˣ} (hY : (Y : ZMod (p * q)) = y) {C d A v : ℤ}
    (h : EncU k Y C d) (hv : d + A ≡ v [ZMOD 2 ^ k]) :
    ∃ σ : ℤ → ℤ, Set.BijOn σ (Coins (p * q)) (Coins (p * q)) ∧
      ∀ (g g' : Env) (f f' : ℕ) (s : g.State) (s' : g'.State), (g.urandomm s (p * q)).1 ≠ 0 →
        (g'.urandomm s' (p * q)).1 = σ (g.urandomm s (p * q)).1 →
        ∃ c t t', encrypt g (f + 1) s A y (p * q) k = .ok (c, t) ∧
          encrypt g' (f' + 1) s' (v % 2 ^ k) y (p * q) k = .ok (c * C % (p * q), t') := by
  have hn := key.neZero
  obtain ⟨σ, h1, h2⟩ := jl_sum_like_fresh key ((encrypts_iff rfl hY C d).mpr h) A
  refine ⟨σ, h1, fun g g' f f' s s' a b => ?_⟩
  obtain ⟨c, t, t', e1, e2⟩ := h2 g g' f f' s s' a b
  refine ⟨c, t, t', e1, ?_⟩
  rw [mul_comm c, ← e2, show v % 2 ^ k = (d + A) % 2 ^ k from hv.symm]

section
open CT.LHE CT.Props.LHE

/-- C129, one key: for all ciphertexts `c1` of `m1` and `c2` of `m2` that decrypt there is a permutation of the random numbers
from 1 to `N - 1` such that the product computed with a random number is the Joye-Libert encryption of `m1 m2 - b1 b2`, reduced
modulo `2^k`, with the permuted one (`b1`, `b2` the label values).  So it is distributed like a fresh encryption of that number:
nobody can tell from it which messages or ciphertexts were multiplied. -/
theorem lhe_product_like_fresh {k p q : ℕ} {y : ℤ} (key : Key k p q y) {c1 c2 : HeCt} {m1 m2 b1 b2 : ℤ}
    (h1 : Ct k p q y c1 m1 b1) (h2 : Ct k p q y c2 m2 b2) :
    ∃ σ : ℤ → ℤ, Set.BijOn σ (Coins (p * q)) (Coins (p * q)) ∧
      ∀ (g g' : Env) (f f' : ℕ) (s : g.State) (s' : g'.State), (g.urandomm s (p * q)).1 ≠ 0 →
        (g'.urandomm s' (p * q)).1 = σ (g.urandomm s (p * q)).1 →
        ∃ al t t', evalMult g (f + 1) s c1 c2 y (p * q) k = .ok (al, t) ∧
          encrypt g' (f' + 1) s' ((m1 * m2 - b1 * b2) % 2 ^ k) y (p * q) k = .ok (al, t') := by
  have hn := key.neZero
  obtain ⟨Y, hY⟩ := key.unit
  have hcast : ((p * q : ℕ) : ℤ) = (p : ℤ) * q := by push_cast; rfl
  have r1 := ct_rep key hY h1
  have r2 := ct_rep key hY h2
  obtain ⟨u, u1, u2⟩ := r2.1.powm c1.a
  obtain ⟨v, v1, v2⟩ := r1.1.powm c2.a
  obtain ⟨σ, e1, e2⟩ := fresh_core key hY (A := c1.a * c2.a % 2 ^ k) (v := m1 * m2 - b1 * b2) (v2.mul u2) (by
    have q3 : c1.a * c2.a % 2 ^ k ≡ (m1 - b1) * (m2 - b2) [ZMOD 2 ^ k] := (Int.mod_modEq _ _).trans (r1.2.mul r2.2)
    refine (((r2.2.mul_left b1).add (r1.2.mul_left b2)).add q3).trans ?_
    rw [show b1 * (m2 - b2) + b2 * (m1 - b1) + (m1 - b1) * (m2 - b2) = m1 * m2 - b1 * b2 by ring])
  refine ⟨σ, e1, fun g g' f f' s s' a b => ?_⟩
  obtain ⟨c, t, t', i1, i2⟩ := e2 g g' f f' s s' a b
  rw [← hcast] at i1 i2 ⊢
  refine ⟨_, t, t', ?_, i2⟩
  simp only [evalMult, mod_ok two_ne, Res.ok_bind, u1, v1, i1, mod_ok n_ne, Res.pure_eq, mulmod _ _ _ ((p * q : ℕ) : ℤ)]

/-- C129 for products of three. -/
theorem lhe_product3_like_fresh {k p q : ℕ} {y : ℤ} (key : Key k p q y) {c1 c2 c3 : HeCt} {m1 m2 m3 b1 b2 b3 t12 t13 t23 : ℤ}
    (h1 : Ct k p q y c1 m1 b1) (h2 : Ct k p q y c2 m2 b2) (h3 : Ct k p q y c3 m3 b3) (h12 : Encrypts k p q y t12 (b1 * b2))
    (h13 : Encrypts k p q y t13 (b1 * b3)) (h23 : Encrypts k p q y t23 (b2 * b3)) :
    ∃ σ : ℤ → ℤ, Set.BijOn σ (Coins (p * q)) (Coins (p * q)) ∧
      ∀ (g g' : Env) (f f' : ℕ) (s : g.State) (s' : g'.State), (g.urandomm s (p * q)).1 ≠ 0 →
        (g'.urandomm s' (p * q)).1 = σ (g.urandomm s (p * q)).1 →
        ∃ al t t', evalMult3 g (f + 1) s c1 c2 c3 t12 t13 t23 y (p * q) k = .ok (al, t) ∧
          encrypt g' (f' + 1) s' ((m1 * m2 * m3 - b1 * b2 * b3) % 2 ^ k) y (p * q) k = .ok (al, t') := by
  have hn := key.neZero
  obtain ⟨Y, hY⟩ := key.unit
  have hcast : ((p * q : ℕ) : ℤ) = (p : ℤ) * q := by push_cast; rfl
  have r1 := ct_rep key hY h1
  have r2 := ct_rep key hY h2
  have r3 := ct_rep key hY h3
  obtain ⟨u1, e1, f1⟩ := ((encrypts_iff rfl hY _ _).mp h23).powm c1.a
  obtain ⟨u2, e2, f2⟩ := ((encrypts_iff rfl hY _ _).mp h13).powm c2.a
  obtain ⟨u3, e3, f3⟩ := ((encrypts_iff rfl hY _ _).mp h12).powm c3.a
  obtain ⟨v1, g1, i1⟩ := r3.1.powm c1.a
  obtain ⟨v2, g2, i2⟩ := i1.powm c2.a
  obtain ⟨v3, g3, i3⟩ := r2.1.powm c1.a
  obtain ⟨v4, g4, i4⟩ := i3.powm c3.a
  obtain ⟨v5, g5, i5⟩ := r1.1.powm c2.a
  obtain ⟨v6, g6, i6⟩ := i5.powm c3.a
  obtain ⟨σ, w1, w2⟩ := fresh_core key hY (A := c1.a * c2.a % 2 ^ k * c3.a % 2 ^ k) (v := m1 * m2 * m3 - b1 * b2 * b3)
    (f1.mul (f2.mul (f3.mul (i2.mul (i4.mul i6))))) (by
    have q1 := r1.2
    have q2 := r2.2
    have q3 := r3.2
    have w1 : c1.a * c2.a % 2 ^ k ≡ (m1 - b1) * (m2 - b2) [ZMOD 2 ^ k] := (Int.mod_modEq _ _).trans (q1.mul q2)
    have w2 : c1.a * c2.a % 2 ^ k * c3.a % 2 ^ k ≡ (m1 - b1) * (m2 - b2) * (m3 - b3) [ZMOD 2 ^ k] :=
      (Int.mod_modEq _ _).trans (w1.mul q3)
    refine (((q1.mul_left (b2 * b3)).add ((q2.mul_left (b1 * b3)).add ((q3.mul_left (b1 * b2)).add
      (((q1.mul_left b3).mul q2).add (((q1.mul_left b2).mul q3).add ((q2.mul_left b1).mul q3)))))).add w2).trans ?_
    rw [show b2 * b3 * (m1 - b1) + (b1 * b3 * (m2 - b2) + (b1 * b2 * (m3 - b3) + (b3 * (m1 - b1) * (m2 - b2)
      + (b2 * (m1 - b1) * (m3 - b3) + b1 * (m2 - b2) * (m3 - b3))))) + (m1 - b1) * (m2 - b2) * (m3 - b3)
      = m1 * m2 * m3 - b1 * b2 * b3 by ring])
  refine ⟨σ, w1, fun g g' f f' s s' a b => ?_⟩
  obtain ⟨c, t, t', j1, j2⟩ := w2 g g' f f' s s' a b
  rw [← hcast] at j1 j2 ⊢
  refine ⟨_, t, t', ?_, j2⟩
  simp only [evalMult3, mod_ok two_ne, Res.ok_bind, e1, e2, e3, g1, g2, g3, g4, g5, g6, j1, mod_ok n_ne, Res.pure_eq, mulmod _ _ _ ((p * q : ℕ) : ℤ)]

/-- C129 fails for the other operations, which draw no random number: two multiples of a ciphertext that stand for the same
message and label value differ, so that the owner of the key learns more about the multiplier than the result. -/
theorem lhe_multiple_like_fresh_refuted :
    ¬ ∀ (k p q : ℕ) (y : ℤ) (_ : Key k p q y) (c : HeCt) (m b : ℤ) (_ : Ct k p q y c m b) (t t' : ℤ), t ≡ t' [ZMOD 2 ^ k] →
      evalCmult c t (p * q) k = evalCmult c t' (p * q) k := by
  intro h
  have := h 2 13 7 5 key13 ⟨3 % 4, 81⟩ 3 0 (ct_small 3) 1 5 (by decide)
  revert this
  decide +kernel

/-- A multiple by zero is recognised by anybody: it is `(0, 1)`. -/
theorem lhe_multiple_zero (c : HeCt) {N : ℤ} (hN : 1 < N) (k : ℕ) : evalCmult c 0 N k = .ok ⟨0, 1⟩ := by
  have hN0 : N ≠ 0 := by omega
  simp [evalCmult, powm, Gmp.mod, hN0, Int.emod_eq_of_lt (show (0 : ℤ) ≤ 1 by omega) hN]

/-- The hypotheses are met: ciphertexts of 3 and 1 under the key of `key13`, whose product with the random number 3 is 33. -/
example : Ct 2 13 7 5 ⟨3 % 4, 81⟩ 3 0 ∧ Ct 2 13 7 5 ⟨1 % 4, 81⟩ 1 0 ∧ Key 2 13 7 5 ∧ (3 : ℤ) ∈ Coins ((13 : ℕ) * (7 : ℕ)) ∧
    evalMult (constEnv 3) 1 () ⟨3, 81⟩ ⟨1, 81⟩ 5 ((13 : ℕ) * (7 : ℕ)) 2 = .ok (33, ()) :=
  ⟨ct_small 3, ct_small 1, key13, ⟨by norm_num, by norm_num⟩, mult_small⟩
end

section
open CT.MuLHE CT.Props.MuLHE

/-- C129, several users: for all ciphertexts `c1` of `m1` and `c2` of `m2` that decrypt there is a permutation of the random numbers
from 1 to `N - 1` such that the product computed with a random number is the Joye-Libert encryption of `m1 m2 - b1 b2`, reduced
modulo `2^k`, with the permuted one (`b1`, `b2` the label values).  So it is distributed like a fresh encryption of that number:
nobody can tell from it which messages or ciphertexts were multiplied. -/
theorem mu_product_like_fresh {k p q : ℕ} {y : ℤ} (key : Key k p q y) {c1 c2 : HeCt} {m1 m2 b1 b2 : ℤ}
    (h1 : Ct k p q y c1 m1 b1) (h2 : Ct k p q y c2 m2 b2) :
    ∃ σ : ℤ → ℤ, Set.BijOn σ (Coins (p * q)) (Coins (p * q)) ∧
      ∀ (g g' : Env) (f f' : ℕ) (s : g.State) (s' : g'.State), (g.urandomm s (p * q)).1 ≠ 0 →
        (g'.urandomm s' (p * q)).1 = σ (g.urandomm s (p * q)).1 →
        ∃ al t t', evalMult g (f + 1) s c1 c2 y (p * q) k = .ok (al, t) ∧
          encrypt g' (f' + 1) s' ((m1 * m2 - b1 * b2) % 2 ^ k) y (p * q) k = .ok (al, t') := by
  have hn := key.neZero
  obtain ⟨Y, hY⟩ := key.unit
  have hcast : ((p * q : ℕ) : ℤ) = (p : ℤ) * q := by push_cast; rfl
  have r1 := ct_rep key hY h1
  have r2 := ct_rep key hY h2
  obtain ⟨u, u1, u2⟩ := r2.1.powm c1.a
  obtain ⟨v, v1, v2⟩ := r1.1.powm c2.a
  obtain ⟨σ, e1, e2⟩ := fresh_core key hY (A := c1.a * c2.a % 2 ^ k) (v := m1 * m2 - b1 * b2) (v2.mul u2) (by
    have q3 : c1.a * c2.a % 2 ^ k ≡ (m1 - b1) * (m2 - b2) [ZMOD 2 ^ k] := (Int.mod_modEq _ _).trans (r1.2.mul r2.2)
    refine (((r2.2.mul_left b1).add (r1.2.mul_left b2)).add q3).trans ?_
    rw [show b1 * (m2 - b2) + b2 * (m1 - b1) + (m1 - b1) * (m2 - b2) = m1 * m2 - b1 * b2 by ring])
  refine ⟨σ, e1, fun g g' f f' s s' a b => ?_⟩
  obtain ⟨c, t, t', i1, i2⟩ := e2 g g' f f' s s' a b
  rw [← hcast] at i1 i2 ⊢
  refine ⟨_, t, t', ?_, i2⟩
  simp only [evalMult, mod_ok two_ne, Res.ok_bind, u1, v1, i1, mod_ok n_ne, Res.pure_eq, mulmod _ _ _ ((p * q : ℕ) : ℤ)]

/-- C129 for products of three. -/
theorem mu_product3_like_fresh {k p q : ℕ} {y : ℤ} (key : Key k p q y) {c1 c2 c3 : HeCt} {m1 m2 m3 b1 b2 b3 t12 t13 t23 : ℤ}
    (h1 : Ct k p q y c1 m1 b1) (h2 : Ct k p q y c2 m2 b2) (h3 : Ct k p q y c3 m3 b3) (h12 : Encrypts k p q y t12 (b1 * b2))
    (h13 : Encrypts k p q y t13 (b1 * b3)) (h23 : Encrypts k p q y t23 (b2 * b3)) :
    ∃ σ : ℤ → ℤ, Set.BijOn σ (Coins (p * q)) (Coins (p * q)) ∧
      ∀ (g g' : Env) (f f' : ℕ) (s : g.State) (s' : g'.State), (g.urandomm s (p * q)).1 ≠ 0 →
        (g'.urandomm s' (p * q)).1 = σ (g.urandomm s (p * q)).1 →
        ∃ al t t', evalMult3 g (f + 1) s c1 c2 c3 t12 t13 t23 y (p * q) k = .ok (al, t) ∧
          encrypt g' (f' + 1) s' ((m1 * m2 * m3 - b1 * b2 * b3) % 2 ^ k) y (p * q) k = .ok (al, t') := by
  have hn := key.neZero
  obtain ⟨Y, hY⟩ := key.unit
  have hcast : ((p * q : ℕ) : ℤ) = (p : ℤ) * q := by push_cast; rfl
  have r1 := ct_rep key hY h1
  have r2 := ct_rep key hY h2
  have r3 := ct_rep key hY h3
  obtain ⟨u1, e1, f1⟩ := ((encrypts_iff rfl hY _ _).mp h23).powm c1.a
  obtain ⟨u2, e2, f2⟩ := ((encrypts_iff rfl hY _ _).mp h13).powm c2.a
  obtain ⟨u3, e3, f3⟩ := ((encrypts_iff rfl hY _ _).mp h12).powm c3.a
  obtain ⟨v1, g1, i1⟩ := r3.1.powm c1.a
  obtain ⟨v2, g2, i2⟩ := i1.powm c2.a
  obtain ⟨v3, g3, i3⟩ := r2.1.powm c1.a
  obtain ⟨v4, g4, i4⟩ := i3.powm c3.a
  obtain ⟨v5, g5, i5⟩ := r1.1.powm c2.a
  obtain ⟨v6, g6, i6⟩ := i5.powm c3.a
  obtain ⟨σ, w1, w2⟩ := fresh_core key hY (A := c1.a * c2.a % 2 ^ k * c3.a % 2 ^ k) (v := m1 * m2 * m3 - b1 * b2 * b3)
    (f1.mul (f2.mul (f3.mul (i2.mul (i4.mul i6))))) (by
    have q1 := r1.2
    have q2 := r2.2
    have q3 := r3.2
    have w1 : c1.a * c2.a % 2 ^ k ≡ (m1 - b1) * (m2 - b2) [ZMOD 2 ^ k] := (Int.mod_modEq _ _).trans (q1.mul q2)
    have w2 : c1.a * c2.a % 2 ^ k * c3.a % 2 ^ k ≡ (m1 - b1) * (m2 - b2) * (m3 - b3) [ZMOD 2 ^ k] :=
      (Int.mod_modEq _ _).trans (w1.mul q3)
    refine (((q1.mul_left (b2 * b3)).add ((q2.mul_left (b1 * b3)).add ((q3.mul_left (b1 * b2)).add
      (((q1.mul_left b3).mul q2).add (((q1.mul_left b2).mul q3).add ((q2.mul_left b1).mul q3)))))).add w2).trans ?_
    rw [show b2 * b3 * (m1 - b1) + (b1 * b3 * (m2 - b2) + (b1 * b2 * (m3 - b3) + (b3 * (m1 - b1) * (m2 - b2)
      + (b2 * (m1 - b1) * (m3 - b3) + b1 * (m2 - b2) * (m3 - b3))))) + (m1 - b1) * (m2 - b2) * (m3 - b3)
      = m1 * m2 * m3 - b1 * b2 * b3 by ring])
  refine ⟨σ, w1, fun g g' f f' s s' a b => ?_⟩
  obtain ⟨c, t, t', j1, j2⟩ := w2 g g' f f' s s' a b
  rw [← hcast] at j1 j2 ⊢
  refine ⟨_, t, t', ?_, j2⟩
  simp only [evalMult3, mod_ok two_ne, Res.ok_bind, e1, e2, e3, g1, g2, g3, g4, g5, g6, j1, mod_ok n_ne, Res.pure_eq, mulmod _ _ _ ((p * q : ℕ) : ℤ)]

/-- C129 fails for the other operations, which draw no random number: two multiples of a ciphertext that stand for the same
message and label value differ, so that the owner of the key learns more about the multiplier than the result. -/
theorem mu_multiple_like_fresh_refuted :
    ¬ ∀ (k p q : ℕ) (y : ℤ) (_ : Key k p q y) (c : HeCt) (m b : ℤ) (_ : Ct k p q y c m b) (t t' : ℤ), t ≡ t' [ZMOD 2 ^ k] →
      evalCmult c t (p * q) k = evalCmult c t' (p * q) k := by
  intro h
  have := h 2 13 7 5 key13 ⟨3 % 4, 81⟩ 3 0 (ct_small 3) 1 5 (by decide)
  revert this
  decide +kernel

/-- A multiple by zero is recognised by anybody: it is `(0, 1)`. -/
theorem mu_multiple_zero (c : HeCt) {N : ℤ} (hN : 1 < N) (k : ℕ) : evalCmult c 0 N k = .ok ⟨0, 1⟩ := by
  have hN0 : N ≠ 0 := by omega
  simp [evalCmult, powm, Gmp.mod, hN0, Int.emod_eq_of_lt (show (0 : ℤ) ≤ 1 by omega) hN]

/-- The hypotheses are met: ciphertexts of 3 and 1 under the key of `key13`, whose product with the random number 3 is 33. -/
example : Ct 2 13 7 5 ⟨3 % 4, 81⟩ 3 0 ∧ Ct 2 13 7 5 ⟨1 % 4, 81⟩ 1 0 ∧ Key 2 13 7 5 ∧ (3 : ℤ) ∈ Coins ((13 : ℕ) * (7 : ℕ)) ∧
    evalMult (constEnv 3) 1 () ⟨3, 81⟩ ⟨1, 81⟩ 5 ((13 : ℕ) * (7 : ℕ)) 2 = .ok (33, ()) :=
  ⟨ct_small 3, ct_small 1, key13, ⟨by norm_num, by norm_num⟩, mult_small⟩
end

end CT.Props.LHEFresh
