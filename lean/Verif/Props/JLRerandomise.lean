import Verif.Props.JoyeLibert

/-!
# Joye-Libert: sums look like fresh ciphertexts (C122)
-/

namespace CT.Props.JLRerandomise
open CT.Gmp CT.JL CT.Spec.JL CT.Props.JoyeLibert

/-- The random numbers that encryption may use: those from 1 to `N - 1`. -/
def Coins (N : ℤ) : Set ℤ := {x | 0 < x ∧ x < N}

/-- Multiplication by a number coprime to the modulus permutes the coins. -/
theorem coins_bijOn {N w : ℤ} (hN : 1 < N) (hw : IsCoprime w N) : Set.BijOn (fun x => w * x % N) (Coins N) (Coins N) := by
  have maps : ∀ v : ℤ, IsCoprime v N → Set.MapsTo (fun x => v * x % N) (Coins N) (Coins N) := by
    rintro v hv x ⟨hx, hx'⟩
    have h0 := Int.emod_nonneg (v * x) (show N ≠ 0 by omega)
    refine ⟨lt_of_le_of_ne h0 fun e => ?_, Int.emod_lt_of_pos _ (by omega)⟩
    have hd : N ∣ x := hv.symm.dvd_of_dvd_mul_left (Int.dvd_of_emod_eq_zero e.symm)
    have := Int.le_of_dvd hx hd
    omega
  obtain ⟨a, b, hab⟩ := id hw
  have ha : IsCoprime a N := ⟨w, b, by linear_combination hab⟩
  have inv : ∀ x ∈ Coins N, a * (w * x % N) % N = x ∧ w * (a * x % N) % N = x := by
    rintro x ⟨h0, h1⟩
    have hx : x % N = x := Int.emod_eq_of_lt h0.le h1
    constructor
    · rw [Int.mul_emod, Int.emod_emod, ← Int.mul_emod, show a * (w * x) = x + N * (-(b * x)) by linear_combination x * hab,
        Int.add_mul_emod_self_left, hx]
    · rw [Int.mul_emod, Int.emod_emod, ← Int.mul_emod, show w * (a * x) = x + N * (-(b * x)) by linear_combination x * hab,
        Int.add_mul_emod_self_left, hx]
  refine ⟨maps w hw, fun x hx x' hx' h => ?_, fun x hx => ⟨_, maps a ha hx, (inv x hx).2⟩⟩
  have h' : w * x % N = w * x' % N := h
  rw [← (inv x hx).1, h', (inv x' hx').1]

theorem pickX_one (g : Env) (N : ℤ) (f : ℕ) (s : g.State) (h : (g.urandomm s N).1 ≠ 0) :
    pickX g N (f + 1) s = .ok (g.urandomm s N) := by
  simp only [pickX, if_neg h]

/-- C122: let `c1` be a ciphertext of `m1`.  For every message `m2` there is a permutation of the random numbers from 1
to `N - 1` such that the product of `c1` and the encryption of `m2` with a random number is the encryption of the sum, reduced
modulo `2^k`, with the permuted random number.  So the product is distributed like a fresh encryption of the sum: nobody
learns from it (not even with the private key) which messages or ciphertexts it was made of.  With `m2 = 0` this is the
re-randomisation of `c1`. -/
theorem jl_sum_like_fresh {k p q : ℕ} {y : ℤ} (key : Key k p q y) {c1 m1 : ℤ} (h1 : Encrypts k p q y c1 m1) (m2 : ℤ) :
    ∃ σ : ℤ → ℤ, Set.BijOn σ (Coins (p * q)) (Coins (p * q)) ∧
      ∀ (g g' : Env) (f f' : ℕ) (s : g.State) (s' : g'.State), (g.urandomm s (p * q)).1 ≠ 0 →
        (g'.urandomm s' (p * q)).1 = σ (g.urandomm s (p * q)).1 →
        ∃ c2 t t', encrypt g (f + 1) s m2 y (p * q) k = .ok (c2, t) ∧
          encrypt g' (f' + 1) s' ((m1 + m2) % 2 ^ k) y (p * q) k = .ok (c1 * c2 % (p * q), t') := by
  have hn := key.neZero
  obtain ⟨Y, hY⟩ := key.unit
  have hcast : ((p * q : ℕ) : ℤ) = (p : ℤ) * q := by push_cast; rfl
  have hN : (1 : ℤ) < (p : ℤ) * q := by
    have a := key.p_prime.two_le
    have b := key.q_prime.two_le
    rw [← hcast]
    exact_mod_cast (show 1 < p * q by nlinarith)
  obtain ⟨u, hu⟩ := (encrypts_iff rfl hY c1 m1).mp h1
  obtain ⟨w, hw⟩ : ∃ w : ℤ, (w : ZMod (p * q)) = ((Y ^ ((m1 + m2) / 2 ^ k) * u : (ZMod (p * q))ˣ) : ZMod (p * q)) :=
    ⟨_, ZMod.intCast_zmod_cast _⟩
  have hwc : IsCoprime w ((p : ℤ) * q) := by rw [← hcast]; exact isCoprime_of_unit hw.symm
  refine ⟨fun x => w * x % (p * q), coins_bijOn hN hwc, fun g g' f f' s s' n1 hx' => ?_⟩
  have hr := g.urandomm_range s (p * q) (by omega)
  have hx : (g.urandomm s (p * q)).1 ∈ Coins (p * q) := ⟨by omega, hr.2⟩
  have hσ := (coins_bijOn hN hwc).mapsTo hx
  have n2 : (g'.urandomm s' (p * q)).1 ≠ 0 := by rw [hx']; exact hσ.1.ne'
  have e1 := pickX_one g _ f s n1
  have e2 := pickX_one g' _ f' s' n2
  rw [← hcast] at e1 e2
  obtain ⟨c2, r2⟩ := encrypt_total (k := k) g hY m2 e1
  obtain ⟨c3, r3⟩ := encrypt_total (k := k) g' hY ((m1 + m2) % 2 ^ k) e2
  obtain ⟨x, t1, t2, -⟩ := encrypt_spec g hY r2
  obtain ⟨x', t1', t2', b1, b2⟩ := encrypt_spec g' hY r3
  rw [e1, Res.ok_inj] at t1
  rw [e2, Res.ok_inj] at t1'
  have vx : (g.urandomm s (p * q : ℕ)).1 = x := by rw [t1]
  have vx' : (g'.urandomm s' (p * q : ℕ)).1 = x' := by rw [t1']
  rw [hcast] at vx vx'
  have key2 : x' = w * x % (p * q) := by rw [← vx', hx', vx]
  refine ⟨c2, _, (g'.urandomm s' ((p * q : ℕ) : ℤ)).2, by rw [← hcast]; exact r2, ?_⟩
  have : c1 * c2 % (p * q) = c3 := by
    have hz : ((c1 * c2 : ℤ) : ZMod (p * q)) = (c3 : ℤ) := by
      rw [Int.cast_mul, hu, t2, t2', key2, ← hcast, ZMod.intCast_mod, Int.cast_mul, hw]
      have hm : m1 + m2 = (m1 + m2) % 2 ^ k + (m1 + m2) / 2 ^ k * ((2 ^ k : ℕ) : ℤ) := by
        have := Int.emod_add_mul_ediv (m1 + m2) (2 ^ k)
        push_cast
        linarith
      have hp : Y ^ m1 * Y ^ m2 = Y ^ ((m1 + m2) % 2 ^ k) * (Y ^ ((m1 + m2) / 2 ^ k)) ^ (2 ^ k) := by
        rw [← zpow_add, ← zpow_natCast (Y ^ _), ← zpow_mul, ← zpow_add, ← hm]
      have hp' := congrArg (Units.val) hp
      push_cast at hp' ⊢
      linear_combination ((u : ZMod (p * q)) ^ 2 ^ k * (x : ZMod (p * q)) ^ 2 ^ k) * hp'
    have := (ZMod.intCast_eq_intCast_iff' _ _ _).mp hz
    rw [hcast] at this b2
    rw [this, Int.emod_eq_of_lt b1 b2]
  rw [this, ← hcast]
  exact r3

/-- The hypotheses are met: 23 is a ciphertext of 2 under the key of `key13`; and 2 is one of the coins. -/
example : Encrypts 2 13 7 5 23 2 ∧ (2 : ℤ) ∈ Coins ((13 : ℕ) * (7 : ℕ)) ∧ ((constEnv 2).urandomm () ((13 : ℕ) * (7 : ℕ))).1 = 2 := by
  refine ⟨⟨2, 3, rfl, ?_, ?_⟩, ⟨by norm_num, by norm_num⟩, by simp [constEnv]⟩
  · rw [Int.isCoprime_iff_gcd_eq_one]; decide
  · show (23 : ℤ) % _ = _
    norm_num

end CT.Props.JLRerandomise
