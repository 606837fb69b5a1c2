import Verif.Props.JoyeLibert
import Mathlib.RingTheory.IntegralDomain

/-!
# Joye-Libert decryption of arbitrary numbers (C103)
-/

namespace CT.Props.JLAny
open CT.JL CT.Gmp CT.Spec.JL CT.Props.JoyeLibert

/-- A number that is not a square modulo a prime generates the units modulo `2^k`-th powers. -/
theorem exists_encU {k p : ℕ} [hp : Fact p.Prime] (Y : (ZMod p)ˣ) (hY : ¬ IsSquare (Y : ZMod p))
    {c : ℤ} {C : (ZMod p)ˣ} (hc : (c : ZMod p) = C) : ∃ m, EncU k Y c m := by
  obtain ⟨γ, hγ⟩ := IsCyclic.exists_generator (α := (ZMod p)ˣ)
  obtain ⟨a, ha⟩ := Subgroup.mem_zpowers_iff.mp (hγ Y)
  obtain ⟨b, hb⟩ := Subgroup.mem_zpowers_iff.mp (hγ C)
  have hodd : Odd a := by
    rw [← Int.not_even_iff_odd]
    rintro ⟨r, hr⟩
    refine hY ⟨((γ ^ r : (ZMod p)ˣ) : ZMod p), ?_⟩
    rw [← Units.val_mul, ← zpow_add, ← hr, ha]
  have hcop : IsCoprime a ((2 : ℤ) ^ k) := by
    refine IsCoprime.pow_right ?_
    obtain ⟨r, hr⟩ := hodd
    exact ⟨1, -r, by rw [hr]; ring⟩
  obtain ⟨u, v, huv⟩ := hcop
  refine ⟨u * b, γ ^ (v * b), ?_⟩
  rw [hc, ← hb, ← ha]
  congr 1
  rw [← zpow_mul, ← zpow_natCast, ← zpow_mul, ← zpow_add]
  congr 1
  push_cast
  linear_combination (-b) * huv

theorem comp_any {k p q : ℕ} {y : ℤ} (key : Key k p q y) {Y : (ZMod p)ˣ} (m c : ℕ → ℤ)
    (hc : ∀ i, IsCoprime (c i) ((p : ℤ) * q)) (h : ∀ i, EncU k Y (c i) (m i)) (e : Lin) :
    ∃ v, e.comp (p * q) c = .ok v ∧ IsCoprime v ((p : ℤ) * q) ∧ EncU k Y v (e.val m) := by
  have hn := key.neZero
  have hp : Fact p.Prime := ⟨key.p_prime⟩
  have hcast : ((p * q : ℕ) : ℤ) = (p : ℤ) * q := by push_cast; rfl
  have hne : (p : ℤ) * q ≠ 0 := by rw [← hcast]; exact n_ne
  have hd : p ∣ p * q := dvd_mul_right _ _
  have tr : ∀ (v : ℤ) (V : (ZMod (p * q))ˣ), (v : ZMod (p * q)) = V →
      (v : ZMod p) = (ZMod.unitsMap hd V : (ZMod p)ˣ) := by
    intro v V hv
    have := congrArg (ZMod.castHom hd (ZMod p)) hv
    rw [map_intCast] at this
    exact this
  induction e with
  | var i => exact ⟨c i, rfl, hc i, h i⟩
  | add a b iha ihb =>
    obtain ⟨u, hu, cu, w, ew⟩ := iha
    obtain ⟨v, hv, cv, x, ex⟩ := ihb
    refine ⟨_, by simp only [Lin.comp, hu, hv, Res.ok_bind]; exact mod_ok hne, ?_, w * x, ?_⟩
    · have := cu.mul_left cv
      rw [Int.emod_def, sub_eq_add_neg, ← mul_neg]
      exact IsCoprime.add_mul_left_left this _
    · have hm : ((u * v % ((p : ℤ) * q) : ℤ) : ZMod p) = ((u * v : ℤ) : ZMod p) := by
        rw [ZMod.intCast_eq_intCast_iff, Int.ModEq, Int.emod_emod_of_dvd _ ⟨q, rfl⟩]
      rw [hm, Int.cast_mul, ew, ex, ← Units.val_mul, Lin.val, zpow_add, mul_pow]
      congr 1
      exact mul_mul_mul_comm _ _ _ _
  | neg a iha =>
    obtain ⟨u, hu, cu, w, ew⟩ := iha
    obtain ⟨U, hU⟩ := unit_of_isCoprime (n := p * q) (by rw [hcast]; exact cu)
    obtain ⟨v, h1, h2⟩ := invert_unit hU.symm
    refine ⟨v, ?_, ?_, w⁻¹, ?_⟩
    · rw [hcast] at h1
      simp only [Lin.comp, hu, Res.ok_bind, h1]
    · rw [← hcast]; exact isCoprime_of_unit h2.symm
    · have e1 := tr _ _ hU.symm
      rw [e1] at ew
      have ew' := Units.ext ew
      rw [tr _ _ h2, map_inv, ew', Lin.val, mul_inv, zpow_neg, inv_pow]
  | mul a t iha =>
    obtain ⟨u, hu, cu, w, ew⟩ := iha
    obtain ⟨U, hU⟩ := unit_of_isCoprime (n := p * q) (by rw [hcast]; exact cu)
    obtain ⟨v, h1, h2, -⟩ := powm_unit hU.symm t
    refine ⟨v, ?_, ?_, w ^ t, ?_⟩
    · rw [hcast] at h1
      simp only [Lin.comp, hu, Res.ok_bind, h1]
    · rw [← hcast]; exact isCoprime_of_unit h2.symm
    · have e1 := tr _ _ hU.symm
      rw [e1] at ew
      have ew' := Units.ext ew
      rw [tr _ _ h2, map_zpow, ew', Lin.val, mul_zpow, mul_comm t, zpow_mul, ← zpow_natCast, ← zpow_natCast,
        ← zpow_mul, ← zpow_mul, ← zpow_mul w, mul_comm ((2 ^ k : ℕ) : ℤ)]

/-- C103, first half: decryption is defined for every number, whether or not anybody encrypted
anything to it, and gives a `k`-bit message; it depends on the number modulo `p` alone. -/
theorem jl_decrypt_any {k p q : ℕ} {y : ℤ} (hk : k ≠ 0) (key : Key k p q y) (c : ℤ) :
    ∃ m, decrypt false c p y k = .ok m ∧ 0 ≤ m ∧ m < 2 ^ k ∧
      ∀ c', c' ≡ c [ZMOD p] → decrypt false c' p y k = .ok m := by
  have hp : Fact p.Prime := ⟨key.p_prime⟩
  obtain ⟨Y, hY⟩ := unit_of_isCoprime
    ((isCoprime_prime key.p_prime).mpr (not_dvd_of_not_square key.y_p))
  by_cases hc : (p : ℤ) ∣ c
  · refine ⟨2 ^ k - 1, decrypt_zero hY key.p_mod hc hk false, ?_, by omega, fun c' h => ?_⟩
    · have : (0 : ℤ) < 2 ^ k := by positivity
      omega
    · exact decrypt_zero hY key.p_mod ((Int.ModEq.dvd_iff h).mpr hc) hk false
  · obtain ⟨C, hC⟩ := unit_of_isCoprime ((isCoprime_prime key.p_prime).mpr hc)
    obtain ⟨m, hm⟩ := exists_encU (k := k) Y (by rw [hY]; exact key.y_p) hC.symm
    refine ⟨m % 2 ^ k, decrypt_eq hY key.y_p key.p_mod hm, Int.emod_nonneg _ (by positivity),
      Int.emod_lt_of_pos _ (by positivity), fun c' h => decrypt_eq hY key.y_p key.p_mod ?_⟩
    obtain ⟨u, hu⟩ := hm
    exact ⟨u, by rw [← hu, ZMod.intCast_eq_intCast_iff]; exact h⟩

example : ∃ m, decrypt false 10 (13 : ℕ) 5 2 = .ok m ∧ decrypt false 23 (13 : ℕ) 5 2 = .ok m := by
  obtain ⟨m, h, -, -, h'⟩ := jl_decrypt_any (by decide) key13 10
  exact ⟨m, h, h' 23 (by decide)⟩

/-- C103, second half: for numbers coprime to `N`, any linear expression computed on them decrypts to
the expression's value on their decryptions, modulo `2^k`. -/
theorem jl_decrypt_linear {k p q : ℕ} {y : ℤ} (key : Key k p q y) (m c : ℕ → ℤ)
    (hc : ∀ i, IsCoprime (c i) ((p : ℤ) * q)) (hm : ∀ i, decrypt false (c i) p y k = .ok (m i)) (e : Lin) :
    ∃ v, e.comp (p * q) c = .ok v ∧ decrypt false v p y k = .ok (e.val m % 2 ^ k) := by
  have hp : Fact p.Prime := ⟨key.p_prime⟩
  obtain ⟨Y, hY⟩ := unit_of_isCoprime
    ((isCoprime_prime key.p_prime).mpr (not_dvd_of_not_square key.y_p))
  have h : ∀ i, EncU k Y (c i) (m i) := by
    intro i
    obtain ⟨C, hC⟩ := unit_of_isCoprime (IsCoprime.of_isCoprime_of_dvd_right (hc i) ⟨(q : ℤ), rfl⟩)
    obtain ⟨m', hm'⟩ := exists_encU (k := k) Y (by rw [hY]; exact key.y_p) hC.symm
    have e1 := decrypt_eq hY key.y_p key.p_mod hm'
    rw [hm i, Res.ok_inj] at e1
    exact hm'.congr (by rw [e1]; exact (Int.mod_modEq _ _).symm)
  obtain ⟨v, h1, -, h3⟩ := comp_any key m c hc h e
  exact ⟨v, h1, decrypt_eq hY key.y_p key.p_mod h3⟩

/-- The hypotheses are met by a number that is not a ciphertext: 10 is a square modulo 13 and not
modulo 7, so it is not `5^m * x^4` modulo 91; it decrypts to 2. -/
example : Key 2 13 7 5 ∧ (∀ _ : ℕ, IsCoprime (10 : ℤ) (((13 : ℕ) : ℤ) * (7 : ℕ))) ∧
    decrypt false 10 (13 : ℕ) 5 2 = .ok 2 :=
  ⟨key13, fun _ => ⟨-9, 1, by norm_num⟩, by decide +kernel⟩

end CT.Props.JLAny
