import Verif.Model.JoyeLibert
import Verif.Spec.JoyeLibert
import Mathlib.NumberTheory.LegendreSymbol.Basic
import Mathlib.FieldTheory.Finite.Basic
import Mathlib.GroupTheory.OrderOfElement
import Mathlib.Data.Int.ModEq
import Mathlib.Tactic.Ring
import Mathlib.Tactic.LinearCombination

namespace CT.JL
open CT.Gmp CT.Spec.JL

/-! ## GMP -/

theorem mod_ok {n d : Int} (hd : d ≠ 0) : Gmp.mod n d = .ok (n % d) := by simp [Gmp.mod, hd]

theorem powm_nonneg {b e n : Int} (hn : n ≠ 0) (he : 0 ≤ e) : powm b e n = .ok (b ^ e.toNat % n) := by
  simp [powm, hn, he]

theorem powm_two_pow {b n : Int} (hn : n ≠ 0) (k : Nat) :
    powm b (2 ^ k) n = .ok (b ^ 2 ^ k % n) := by
  rw [powm_nonneg hn (by positivity)]
  congr 3

theorem invert_spec {a n : Int} (hn : n ≠ 0) (h : IsCoprime a n) :
    ∃ v, invert a n = some v ∧ a * v ≡ 1 [ZMOD n] ∧ 0 ≤ v ∧ v < |n| := by
  have hg : Int.gcd a n = 1 := Int.isCoprime_iff_gcd_eq_one.mp h
  refine ⟨Int.gcdA a n % n, by simp [invert, hn, hg], ?_, Int.emod_nonneg _ hn, Int.emod_lt_abs _ hn⟩
  have := Int.gcd_eq_gcd_ab a n
  rw [hg] at this
  have h1 : a * (Int.gcdA a n % n) ≡ a * Int.gcdA a n [ZMOD n] := (Int.mod_modEq _ _).mul_left _
  refine h1.trans ?_
  refine (Int.modEq_iff_dvd.mpr ⟨Int.gcdB a n, ?_⟩)
  push_cast at this
  linear_combination this

theorem invert_none {a n : Int} (h : ¬ IsCoprime a n) : invert a n = none := by
  have hg : ¬ Int.gcd a n = 1 := fun e => h (Int.isCoprime_iff_gcd_eq_one.mpr e)
  simp [invert, hg]

/-! ## Decryption -/

section
variable {k p : ℕ} [hp : Fact p.Prime]

theorem p_ne : (p : ℤ) ≠ 0 := by exact_mod_cast hp.out.ne_zero

theorem emod_range (a : ℤ) : 0 ≤ a % (p : ℤ) ∧ a % (p : ℤ) < p :=
  ⟨Int.emod_nonneg _ p_ne, Int.emod_lt_of_pos _ (by exact_mod_cast hp.out.pos)⟩

theorem cast_eq_one {v : ℤ} (h : 0 ≤ v ∧ v < p) : v = 1 ↔ (v : ZMod p) = 1 := by
  constructor
  · rintro rfl; simp
  · intro e
    have e' : ((v : ℤ) : ZMod p) = ((1 : ℤ) : ZMod p) := by simpa using e
    have := (ZMod.intCast_eq_intCast_iff v 1 p).mp e'
    have h1 : (1 : ℤ) < p := by exact_mod_cast hp.out.one_lt
    rw [Int.ModEq, Int.emod_eq_of_lt h.1 h.2, Int.emod_eq_of_lt (by decide) h1] at this
    exact this

theorem decLoop_eq (g : (ZMod p)ˣ) (hg : ∀ i : ℤ, g ^ i = 1 ↔ (2 : ℤ) ^ k ∣ i) :
    ∀ (n i : ℕ) (M m C D : ℤ), i + n + 1 = k → (2 : ℤ) ^ i ∣ M → 0 ≤ C ∧ C < p →
      (C : ZMod p) = ((g ^ M : (ZMod p)ˣ) : ZMod p) →
      (D : ZMod p) = ((g ^ (-(2 : ℤ) ^ i) : (ZMod p)ˣ) : ZMod p) →
      decLoop p n m (2 ^ i) C D = .ok (m + M % 2 ^ k) := by
  intro n
  induction n with
  | zero =>
    intro i M m C D hk hM hC hCg hD
    have hk' : k = i + 1 := by omega
    subst hk'
    have h1 : C = 1 ↔ (2 : ℤ) ^ (i + 1) ∣ M := by
      rw [cast_eq_one hC, hCg, ← hg, Units.val_eq_one]
    obtain ⟨t, rfl⟩ := hM
    have hpos : (0 : ℤ) < 2 ^ i := by positivity
    rw [decLoop]
    rw [pow_succ, Int.mul_emod_mul_of_pos _ _ hpos]
    rw [pow_succ, mul_dvd_mul_iff_left hpos.ne'] at h1
    rcases Int.emod_two_eq_zero_or_one t with e | e
    · rw [e, if_neg (by rw [not_not, h1]; omega)]; simp
    · rw [e, if_pos (by rw [ne_eq, h1]; omega)]; simp
  | succ n ih =>
    intro i M m C D hk hM hC hCg hD
    have hpos : (0 : ℤ) < 2 ^ i := by positivity
    rw [decLoop, powm_two_pow p_ne, powm_nonneg p_ne (by decide)]
    simp only [Res.ok_bind]
    have hz : (C ^ 2 ^ (n + 1) % (p : ℤ) = 1) ↔ (2 : ℤ) ^ (i + 1) ∣ M := by
      rw [cast_eq_one (emod_range _), ZMod.intCast_mod]
      push_cast
      rw [hCg, ← Units.val_pow_eq_pow_val, Units.val_eq_one, ← zpow_natCast, ← zpow_mul, hg]
      push_cast
      have : (2 : ℤ) ^ k = 2 ^ (i + 1) * 2 ^ (n + 1) := by rw [← pow_add]; congr 1; omega
      rw [this, mul_dvd_mul_iff_right (by positivity)]
    have hD' : ((D ^ (2 : ℤ).toNat % (p : ℤ) : ℤ) : ZMod p)
        = ((g ^ (-(2 : ℤ) ^ (i + 1)) : (ZMod p)ˣ) : ZMod p) := by
      rw [ZMod.intCast_mod]
      push_cast
      rw [hD, ← Units.val_pow_eq_pow_val, ← zpow_natCast, ← zpow_mul]
      rw [pow_succ]; simp
    have hB : (2 : ℤ) ^ i + 2 ^ i = 2 ^ (i + 1) := by ring
    by_cases hd : (2 : ℤ) ^ (i + 1) ∣ M
    · rw [if_neg (by rw [not_not, hz]; exact hd), hB]
      exact ih (i + 1) M m C _ (by omega) hd hC hCg hD'
    · rw [if_pos (by rw [ne_eq, hz]; exact hd), mod_ok p_ne]
      simp only [Res.ok_bind]
      rw [hB, ih (i + 1) (M - 2 ^ i) (m + 2 ^ i) _ _ (by omega) ?_ (emod_range _) ?_ hD']
      · congr 1
        obtain ⟨t, rfl⟩ := hM
        have e2 : (2 : ℤ) ^ k = 2 ^ i * 2 ^ (n + 2) := by rw [← pow_add]; congr 1; omega
        have e3 : (2 : ℤ) ^ i * t - 2 ^ i = 2 ^ i * (t - 1) := by ring
        rw [e3, e2, Int.mul_emod_mul_of_pos _ _ hpos, Int.mul_emod_mul_of_pos _ _ hpos]
        rw [pow_succ, mul_dvd_mul_iff_left hpos.ne'] at hd
        have e4 : (t - 1) % 2 ^ (n + 2) = t % 2 ^ (n + 2) - 1 := by
          have hq : (2 : ℤ) ^ (n + 2) = 2 * 2 ^ (n + 1) := by ring
          have hqp : (0 : ℤ) < 2 ^ (n + 1) := by positivity
          rw [hq]
          generalize (2 : ℤ) ^ (n + 1) = Q at *
          have h0 := Int.emod_nonneg t (b := 2 * Q) (by omega)
          have h1 := Int.emod_lt_of_pos t (b := 2 * Q) (by omega)
          have h2 : t % (2 * Q) % 2 = t % 2 := Int.emod_emod_of_dvd _ ⟨Q, rfl⟩
          have h3 : (t - 1) % (2 * Q) = (t % (2 * Q) - 1) % (2 * Q) := by
            rw [Int.emod_sub_emod]
          rw [h3, Int.emod_eq_of_lt (by omega) (by omega)]
        rw [e4]; ring
      · obtain ⟨t, rfl⟩ := hM
        rw [pow_succ, mul_dvd_mul_iff_left hpos.ne'] at hd
        rw [show (2 : ℤ) ^ i * t - 2 ^ i = 2 ^ i * (t - 1) by ring, pow_succ,
          mul_dvd_mul_iff_left hpos.ne']
        omega
      · rw [ZMod.intCast_mod]
        push_cast
        rw [hCg, hD, ← Units.val_mul, ← zpow_add, sub_eq_add_neg, Units.val_zpow_eq_zpow_val]

/-- With a ciphertext divisible by `p` every bit of the result is set. -/
theorem decLoop_zero : ∀ (n : ℕ) (m B D : ℤ),
    decLoop p n m B 0 D = .ok (m + B * (2 ^ (n + 1) - 1)) := by
  intro n
  induction n with
  | zero => intro m B D; simp [decLoop]
  | succ n ih =>
    intro m B D
    rw [decLoop, powm_two_pow p_ne, powm_nonneg p_ne (by decide)]
    simp only [Res.ok_bind]
    rw [zero_pow (by positivity), if_pos (by simp), mod_ok p_ne]
    simp only [Res.ok_bind, zero_mul, Int.zero_emod]
    rw [ih]
    congr 1
    ring

theorem order_eq (Y : (ZMod p)ˣ) (hY : ¬ IsSquare (Y : ZMod p)) (e : ℕ) (he : p = 2 ^ k * e + 1)
    (i : ℤ) : (Y ^ e) ^ i = 1 ↔ (2 : ℤ) ^ k ∣ i := by
  have hc : (Y ^ e) ^ 2 ^ k = 1 := by
    rw [← pow_mul, mul_comm, show 2 ^ k * e = p - 1 by omega]
    exact ZMod.units_pow_card_sub_one_eq_one p Y
  cases k with
  | zero =>
    have : Y ^ e = 1 := by simpa using hc
    simp [this]
  | succ k =>
    have h2 : Fact (Nat.Prime 2) := ⟨Nat.prime_two⟩
    have hn : ¬ (Y ^ e) ^ 2 ^ k = 1 := by
      intro h
      apply hY
      rw [ZMod.euler_criterion p Y.ne_zero]
      have e1 : p / 2 = 2 ^ k * e := by
        rw [pow_succ] at he
        have : 2 ^ k * 2 * e = 2 * (2 ^ k * e) := by ring
        omega
      rw [e1, mul_comm, pow_mul, ← Units.val_pow_eq_pow_val, ← Units.val_pow_eq_pow_val, h]
      rfl
    have ho := orderOf_eq_prime_pow hn hc
    rw [← orderOf_dvd_iff_zpow_eq_one, ho]
    push_cast
    rfl

end

section
variable {n : ℕ}

theorem n_ne [h : NeZero n] : (n : ℤ) ≠ 0 := by exact_mod_cast h.out

/-- `c` is, modulo `n`, a ciphertext of `m` under the unit `Y`. -/
def EncU (k : ℕ) (Y : (ZMod n)ˣ) (c m : ℤ) : Prop :=
  ∃ u : (ZMod n)ˣ, (c : ZMod n) = ((Y ^ m * u ^ 2 ^ k : (ZMod n)ˣ) : ZMod n)

theorem isCoprime_of_unit {y : ℤ} {Y : (ZMod n)ˣ} (hy : (Y : ZMod n) = y) : IsCoprime y (n : ℤ) := by
  rw [isCoprime_comm, ← ZMod.coe_int_isUnit_iff_isCoprime, ← hy]
  exact Y.isUnit

theorem unit_of_isCoprime {y : ℤ} (h : IsCoprime y (n : ℤ)) : ∃ Y : (ZMod n)ˣ, (Y : ZMod n) = y := by
  rw [isCoprime_comm, ← ZMod.coe_int_isUnit_iff_isCoprime] at h
  exact h

theorem invert_unit [NeZero n] {b : ℤ} {u : (ZMod n)ˣ} (hb : (b : ZMod n) = u) :
    ∃ v, invert b n = some v ∧ (v : ZMod n) = ((u⁻¹ : (ZMod n)ˣ) : ZMod n) := by
  obtain ⟨v, h1, h2, -⟩ := invert_spec (n_ne (n := n)) (isCoprime_of_unit hb.symm)
  refine ⟨v, h1, ?_⟩
  have := (ZMod.intCast_eq_intCast_iff _ _ _).mpr h2
  push_cast at this
  rw [hb] at this
  rw [← Units.inv_mul_cancel_left u v, this, mul_one]

theorem powm_unit [NeZero n] {b : ℤ} {u : (ZMod n)ˣ} (hb : (b : ZMod n) = u) (e : ℤ) :
    ∃ v, powm b e n = .ok v ∧ (v : ZMod n) = ((u ^ e : (ZMod n)ˣ) : ZMod n) ∧ 0 ≤ v ∧ v < n := by
  have hr : ∀ a : ℤ, 0 ≤ a % (n : ℤ) ∧ a % (n : ℤ) < n := fun a =>
    ⟨Int.emod_nonneg _ n_ne, Int.emod_lt_of_pos _ (by have := n_ne (n := n); omega)⟩
  by_cases he : 0 ≤ e
  · refine ⟨_, powm_nonneg n_ne he, ?_, hr _⟩
    rw [ZMod.intCast_mod]
    push_cast
    rw [hb]
    obtain ⟨n, rfl⟩ := Int.eq_ofNat_of_zero_le he
    simp
  · obtain ⟨v, h1, h3⟩ := invert_unit hb
    refine ⟨v ^ (-e).toNat % n, by simp [powm, he, h1, NeZero.ne n], ?_, hr _⟩
    rw [ZMod.intCast_mod]
    obtain ⟨i, hi⟩ := Int.eq_ofNat_of_zero_le (a := -e) (by omega)
    have : e = -(i : ℤ) := by omega
    subst this
    rw [neg_neg, Int.toNat_natCast, Int.cast_pow, h3, ← Units.val_pow_eq_pow_val, zpow_neg,
      zpow_natCast, inv_pow]

theorem EncU.mul {k : ℕ} {Y : (ZMod n)ˣ} {c1 c2 m1 m2 : ℤ} (h1 : EncU k Y c1 m1) (h2 : EncU k Y c2 m2) :
    EncU k Y (c1 * c2 % n) (m1 + m2) := by
  obtain ⟨u, hu⟩ := h1
  obtain ⟨v, hv⟩ := h2
  refine ⟨u * v, ?_⟩
  rw [ZMod.intCast_mod, Int.cast_mul, hu, hv, ← Units.val_mul, zpow_add, mul_pow]
  congr 1
  exact mul_mul_mul_comm _ _ _ _

theorem EncU.unit {k : ℕ} {Y : (ZMod n)ˣ} {c m : ℤ} (h : EncU k Y c m) :
    ∃ U : (ZMod n)ˣ, (c : ZMod n) = U := by
  obtain ⟨u, hu⟩ := h
  exact ⟨_, hu⟩

theorem EncU.powm [NeZero n] {k : ℕ} {Y : (ZMod n)ˣ} {c m : ℤ} (h : EncU k Y c m) (e : ℤ) :
    ∃ v, Gmp.powm c e n = .ok v ∧ EncU k Y v (m * e) := by
  obtain ⟨u, hu⟩ := h
  obtain ⟨v, h1, h2, -⟩ := powm_unit hu e
  refine ⟨v, h1, u ^ e, ?_⟩
  rw [h2, mul_zpow, zpow_mul, ← zpow_natCast, ← zpow_natCast, ← zpow_mul, ← zpow_mul,
    ← zpow_mul u, mul_comm ((2 ^ k : ℕ) : ℤ)]

theorem EncU.invert [NeZero n] {k : ℕ} {Y : (ZMod n)ˣ} {c m : ℤ} (h : EncU k Y c m) :
    ∃ v, Gmp.invert c n = some v ∧ EncU k Y v (-m) := by
  obtain ⟨u, hu⟩ := h
  obtain ⟨v, h1, h2⟩ := invert_unit hu
  refine ⟨v, h1, u⁻¹, ?_⟩
  rw [h2, mul_inv, zpow_neg, inv_pow]

theorem EncU.congr {k : ℕ} {Y : (ZMod n)ˣ} {c m m' : ℤ} (h : EncU k Y c m) (hm : m ≡ m' [ZMOD 2 ^ k]) :
    EncU k Y c m' := by
  obtain ⟨u, hu⟩ := h
  obtain ⟨t, ht⟩ := (Int.modEq_iff_dvd.mp hm.symm)
  refine ⟨Y ^ t * u, ?_⟩
  have : m = m' + t * ((2 ^ k : ℕ) : ℤ) := by push_cast; linear_combination ht
  rw [hu, this, zpow_add, zpow_mul, zpow_natCast, mul_pow, mul_assoc]

theorem EncU.of_eq {k : ℕ} {Y : (ZMod n)ˣ} {c m m' : ℤ} (h : EncU k Y c m) (hm : m = m') :
    EncU k Y c m' := hm ▸ h

theorem EncU.map {n' : ℕ} (hd : n' ∣ n) {k : ℕ} {Y : (ZMod n)ˣ} {c m : ℤ} (h : EncU k Y c m) :
    EncU k (ZMod.unitsMap hd Y) c m := by
  obtain ⟨u, hu⟩ := h
  refine ⟨ZMod.unitsMap hd u, ?_⟩
  have := congrArg (ZMod.castHom hd (ZMod n')) hu
  rw [map_intCast] at this
  rw [this, ← map_zpow, ← map_pow, ← map_mul]
  rfl

end

section
variable {k p : ℕ} [hp : Fact p.Prime]

theorem decrypt_eq {y c m : ℤ} {Y : (ZMod p)ˣ} (hy : (Y : ZMod p) = y) (hY : ¬ IsSquare (y : ZMod p))
    (hm : p ≡ 1 [MOD 2 ^ k]) (hc : EncU k Y c m) :
    decrypt false c p y k = .ok (m % 2 ^ k) := by
  obtain ⟨e, he⟩ : ∃ e, p = 2 ^ k * e + 1 := by
    obtain ⟨e, he⟩ := (Nat.modEq_iff_dvd' hp.out.one_lt.le).mp hm.symm
    exact ⟨e, by have := hp.out.one_lt; omega⟩
  have hg := order_eq Y (by rw [hy]; exact hY) e he
  obtain ⟨u, hu⟩ := hc
  have hdiv : divexact ((p : ℤ) - 1) (2 ^ k) = .ok (e : ℤ) := by
    have h1 : (p : ℤ) - 1 = 2 ^ k * e := by rw [he]; push_cast; ring
    rw [divexact, if_pos ⟨by positivity, ⟨_, h1⟩⟩, h1, Int.mul_ediv_cancel_left _ (by positivity)]
  obtain ⟨D, d1, d2, -⟩ := powm_unit hy.symm (-(e : ℤ))
  obtain ⟨C, c1, c2, c3⟩ := powm_unit hu (e : ℤ)
  have c4 : (C : ZMod p) = (((Y ^ e) ^ m : (ZMod p)ˣ) : ZMod p) := by
    rw [c2]
    congr 1
    rw [mul_zpow, zpow_natCast, zpow_natCast, ← pow_mul u, show 2 ^ k * e = p - 1 by omega,
      ZMod.units_pow_card_sub_one_eq_one p u, mul_one, ← zpow_natCast, ← zpow_mul, mul_comm m,
      zpow_mul, zpow_natCast]
  simp only [decrypt, hdiv, d1, c1, Res.ok_bind, Bool.false_eq_true, if_false]
  cases k with
  | zero =>
    have : C = 1 := by
      rw [cast_eq_one c3, c4, Units.val_eq_one, hg]; simp
    simp [decLoop, this]
  | succ k =>
    have := decLoop_eq (k := k + 1) (Y ^ e) hg k 0 m 0 C D (by omega) (by simp) c3 c4 (by
      rw [d2]; simp)
    simpa using this

theorem decrypt_zero {y c : ℤ} {Y : (ZMod p)ˣ} (hy : (Y : ZMod p) = y)
    (hm : p ≡ 1 [MOD 2 ^ k]) (hc : (p : ℤ) ∣ c) (hk : k ≠ 0) (same : Bool) :
    decrypt same c p y k = .ok (2 ^ k - 1) := by
  obtain ⟨e, he⟩ : ∃ e, p = 2 ^ k * e + 1 := by
    obtain ⟨e, he⟩ := (Nat.modEq_iff_dvd' hp.out.one_lt.le).mp hm.symm
    exact ⟨e, by have := hp.out.one_lt; omega⟩
  have hdiv : divexact ((p : ℤ) - 1) (2 ^ k) = .ok (e : ℤ) := by
    have h1 : (p : ℤ) - 1 = 2 ^ k * e := by rw [he]; push_cast; ring
    rw [divexact, if_pos ⟨by positivity, ⟨_, h1⟩⟩, h1, Int.mul_ediv_cancel_left _ (by positivity)]
  obtain ⟨D, d1, d2, -⟩ := powm_unit hy.symm (-(e : ℤ))
  have he0 : e ≠ 0 := by
    rintro rfl
    have := hp.out.one_lt
    omega
  have hc' : (p : ℤ) ∣ (if same then 0 else c) := by split <;> simp [hc]
  simp only [decrypt, hdiv, d1, Res.ok_bind]
  generalize (if same then 0 else c) = c' at *
  rw [powm_nonneg p_ne (by positivity)]
  have : c' ^ (e : ℤ).toNat % (p : ℤ) = 0 := by
    apply Int.emod_eq_zero_of_dvd
    exact dvd_pow hc' (by simpa using he0)
  rw [this]
  simp only [Res.ok_bind]
  rw [decLoop_zero]
  obtain ⟨k, rfl⟩ := Nat.exists_eq_succ_of_ne_zero hk
  simp

end

section
variable {k p q : ℕ} {y : ℤ}

theorem not_dvd_of_not_square {p : ℕ} {y : ℤ} (h : ¬ IsSquare (y : ZMod p)) : ¬ (p : ℤ) ∣ y := by
  intro hd
  rw [← ZMod.intCast_zmod_eq_zero_iff_dvd] at hd
  exact h (hd ▸ IsSquare.zero)

theorem isCoprime_prime {p : ℕ} (hp : p.Prime) {y : ℤ} : IsCoprime y p ↔ ¬ (p : ℤ) ∣ y := by
  rw [isCoprime_comm]
  exact (Nat.prime_iff_prime_int.mp hp).coprime_iff_not_dvd

theorem _root_.CT.Spec.JL.Key.neZero (h : Key k p q y) : NeZero (p * q) :=
  ⟨Nat.mul_ne_zero h.p_prime.ne_zero h.q_prime.ne_zero⟩

theorem _root_.CT.Spec.JL.Key.unit (h : Key k p q y) : ∃ Y : (ZMod (p * q))ˣ, (Y : ZMod (p * q)) = y := by
  apply unit_of_isCoprime
  push_cast
  exact IsCoprime.mul_right ((isCoprime_prime h.p_prime).mpr (not_dvd_of_not_square h.y_p))
    ((isCoprime_prime h.q_prime).mpr (not_dvd_of_not_square h.y_q))

theorem encrypts_iff {n : ℕ} (hn : n = p * q) [NeZero n] {Y : (ZMod n)ˣ} (hy : (Y : ZMod n) = y) (c m : ℤ) :
    Encrypts k p q y c m ↔ EncU k Y c m := by
  have hn' : (n : ℤ) = (p : ℤ) * q := by rw [hn]; push_cast; rfl
  constructor
  · rintro ⟨i, x, hi, hx, hc⟩
    have hx' : IsCoprime x (n : ℤ) := by rw [hn']; exact hx
    obtain ⟨X, hX⟩ := unit_of_isCoprime hx'
    have e : EncU k Y c i := by
      refine ⟨X, ?_⟩
      have hc' : c ≡ y ^ i * x ^ 2 ^ k [ZMOD (n : ℤ)] := by rw [hn']; exact hc
      have := (ZMod.intCast_eq_intCast_iff _ _ n).mpr hc'
      rw [this]
      push_cast
      rw [hX, ← hy]
      simp
    exact e.congr hi
  · intro h
    have h0 := h
    have hpos : (0 : ℤ) < 2 ^ k := by positivity
    obtain ⟨u, hu⟩ := h.congr (m' := m % 2 ^ k) (Int.mod_modEq m _).symm
    obtain ⟨i, hi⟩ := Int.eq_ofNat_of_zero_le (Int.emod_nonneg m hpos.ne')
    refine ⟨i, (u : ZMod n).val, ?_, ?_, ?_⟩
    · rw [← hi]; exact Int.mod_modEq _ _
    · have : IsCoprime (((u : ZMod n).val : ℕ) : ℤ) (n : ℤ) := by
        apply isCoprime_of_unit (Y := u)
        simp
      rw [← hn']
      exact this
    · have e : ((c : ℤ) : ZMod n) = ((y ^ i * ((u : ZMod n).val : ℤ) ^ 2 ^ k : ℤ) : ZMod n) := by
        rw [hu, hi]
        push_cast
        rw [← hy]
        simp
      have := (ZMod.intCast_eq_intCast_iff _ _ n).mp e
      rw [← hn']
      exact this

theorem decrypt_encrypts (h : Key k p q y) {c m : ℤ} (hc : Encrypts k p q y c m) :
    decrypt false c p y k = .ok (m % 2 ^ k) := by
  have := h.neZero
  have hp : Fact p.Prime := ⟨h.p_prime⟩
  obtain ⟨Y, hY⟩ := h.unit
  have e := ((encrypts_iff rfl hY c m).mp hc).map (Dvd.intro q rfl : p ∣ p * q)
  refine decrypt_eq ?_ h.y_p h.p_mod e
  have := congrArg (ZMod.castHom (Dvd.intro q rfl : p ∣ p * q) (ZMod p)) hY
  rw [map_intCast] at this
  exact this

/-! ## Encryption -/

theorem pickX_spec (g : Env) {N : ℤ} (hN : 0 < N) : ∀ (fuel : ℕ) (s : g.State) {x : ℤ} {s' : g.State},
    pickX g N fuel s = .ok (x, s') → 0 < x ∧ x < N := by
  intro fuel
  induction fuel with
  | zero => intro s x s' h; simp [pickX] at h
  | succ f ih =>
    intro s x s' h
    rw [pickX] at h
    have hr := g.urandomm_range s N hN
    split at h
    · exact ih _ h
    · rename_i hx
      rw [Res.ok_inj] at h
      rw [h] at hr hx
      exact ⟨lt_of_le_of_ne hr.1 (Ne.symm hx), hr.2⟩

theorem encrypt_spec (g : Env) {n : ℕ} [NeZero n] {Y : (ZMod n)ˣ} (hY : (Y : ZMod n) = y) {fuel : ℕ}
    {s s' : g.State} {m c : ℤ} (h : encrypt g fuel s m y n k = .ok (c, s')) :
    ∃ x, pickX g n fuel s = .ok (x, s') ∧
      (c : ZMod n) = ((Y ^ m : (ZMod n)ˣ) : ZMod n) * (x : ZMod n) ^ 2 ^ k ∧ 0 ≤ c ∧ c < n := by
  rw [encrypt] at h
  obtain ⟨⟨x, s1⟩, h1, h2⟩ := Res.bind_eq_ok h
  obtain ⟨v, e1, e2, -⟩ := powm_unit hY.symm m
  simp only [e1, powm_two_pow n_ne, mod_ok n_ne, Res.ok_bind, Res.pure_eq, Res.ok_inj, Prod.mk.injEq] at h2
  obtain ⟨rfl, rfl⟩ := h2
  refine ⟨x, h1, ?_, Int.emod_nonneg _ n_ne, Int.emod_lt_of_pos _ (by have := n_ne (n := n); omega)⟩
  rw [ZMod.intCast_mod, Int.cast_mul, ZMod.intCast_mod, e2, Int.cast_pow]

theorem encrypt_total (g : Env) {n : ℕ} [NeZero n] {Y : (ZMod n)ˣ} (hY : (Y : ZMod n) = y) {fuel : ℕ}
    {s s' : g.State} {x : ℤ} (m : ℤ) (h : pickX g n fuel s = .ok (x, s')) :
    ∃ c, encrypt g fuel s m y n k = .ok (c, s') := by
  obtain ⟨v, e1, e2, -⟩ := powm_unit hY.symm m
  exact ⟨v * (x ^ 2 ^ k % n) % n, by
    simp only [encrypt, h, e1, powm_two_pow n_ne, mod_ok n_ne, Res.ok_bind, Res.pure_eq]⟩

/-- A prime dividing the modulus divides the ciphertext exactly if it divides the coin. -/
theorem dvd_cipher {n r : ℕ} (hr : r.Prime) (hd : r ∣ n) {Y : (ZMod n)ˣ} {m c x : ℤ}
    (h : (c : ZMod n) = ((Y ^ m : (ZMod n)ˣ) : ZMod n) * (x : ZMod n) ^ 2 ^ k) :
    (r : ℤ) ∣ c ↔ (r : ℤ) ∣ x := by
  have hf : Fact r.Prime := ⟨hr⟩
  have := congrArg (ZMod.castHom hd (ZMod r)) h
  rw [map_intCast, map_mul, map_pow, map_intCast] at this
  have hu : ZMod.castHom hd (ZMod r) ((Y ^ m : (ZMod n)ˣ) : ZMod n)
      = ((ZMod.unitsMap hd (Y ^ m) : (ZMod r)ˣ) : ZMod r) := rfl
  rw [← ZMod.intCast_zmod_eq_zero_iff_dvd, ← ZMod.intCast_zmod_eq_zero_iff_dvd, this, hu,
    Units.mul_right_eq_zero, pow_eq_zero_iff (by positivity)]

theorem coprime_coin {n : ℕ} [NeZero n] {Y : (ZMod n)ˣ} {m c x : ℤ}
    (h : (c : ZMod n) = ((Y ^ m : (ZMod n)ˣ) : ZMod n) * (x : ZMod n) ^ 2 ^ k)
    (hc : IsCoprime c (n : ℤ)) : EncU k Y c m := by
  obtain ⟨C, hC⟩ := unit_of_isCoprime hc
  have hx : IsUnit (x : ZMod n) := by
    rw [← isUnit_pow_iff (n := 2 ^ k) (by positivity)]
    have : IsUnit (c : ZMod n) := hC ▸ C.isUnit
    rw [h] at this
    exact (IsUnit.mul_iff.mp this).2
  obtain ⟨X, hX⟩ := hx
  exact ⟨X, by rw [h, ← hX]; simp⟩

/-! ## Key generation -/

theorem findP_spec (g : Env) {d : ℤ} (hd : 0 < d) : ∀ (fuel : ℕ) {p0 p : ℤ}, p0 % d = 1 % d →
    findP g d fuel p0 = .ok p →
    p0 ≤ p ∧ p % d = 1 % d ∧ g.probabPrime p = true ∧ g.probabPrime ((p - 1) / d) = true := by
  intro fuel
  induction fuel with
  | zero => intro p0 p _ h; simp [findP] at h
  | succ f ih =>
    intro p0 p h0 h
    have hdv : d ∣ p0 - 1 := Int.dvd_of_emod_eq_zero (Int.emod_eq_emod_iff_emod_sub_eq_zero.mp h0)
    have hn : (p0 + d) % d = 1 % d := by rw [Int.add_emod_right]; exact h0
    rw [findP] at h
    split at h
    · rename_i hp
      simp only [divexact, hd.ne', hdv, ne_eq, not_false_eq_true, and_self, if_true, Res.ok_bind] at h
      split at h
      · rename_i ht
        rw [Res.pure_eq, Res.ok_inj] at h
        subst h
        exact ⟨le_refl _, h0, hp, ht⟩
      · obtain ⟨a, b⟩ := ih hn h
        exact ⟨by omega, b⟩
    · obtain ⟨a, b⟩ := ih hn h
      exact ⟨by omega, b⟩

theorem findQ_spec (g : Env) : ∀ (fuel : ℕ) {q0 q : ℤ}, findQ g fuel q0 = .ok q →
    q0 ≤ q ∧ g.probabPrime q = true ∧ q % 4 = 3 := by
  intro fuel
  induction fuel with
  | zero => intro p0 p h; simp [findQ] at h
  | succ f ih =>
    intro q0 q h
    rw [findQ] at h
    split at h
    · rename_i hq
      rw [Res.ok_inj] at h
      subst h
      exact ⟨le_refl _, hq⟩
    · obtain ⟨a, b⟩ := ih h
      have := g.nextprime_gt q0
      exact ⟨by omega, b⟩

theorem findY_spec (g : Env) {p q N : ℤ} (hN : 0 < N) : ∀ (fuel : ℕ) {y0 y : ℤ} {s s' : g.State},
    0 ≤ y0 ∧ y0 < N → findY g p q N fuel y0 s = .ok (y, s') →
    (0 ≤ y ∧ y < N) ∧ jacobiSym y p.toNat = -1 ∧ jacobiSym y q.toNat = -1 := by
  intro fuel
  induction fuel with
  | zero => intro y0 y s s' _ h; simp [findY] at h
  | succ f ih =>
    intro y0 y s s' h0 h
    rw [findY] at h
    split at h
    · exact ih (g.urandomm_range s N hN) h
    · rename_i hq
      rw [Res.ok_inj, Prod.mk.injEq] at h
      obtain ⟨rfl, rfl⟩ := h
      rw [not_or, not_not, not_not] at hq
      exact ⟨h0, hq⟩

theorem not_square_of_jacobi {p : ℕ} (hp : p.Prime) {y : ℤ} (h : jacobiSym y p = -1) :
    ¬ IsSquare (y : ZMod p) := by
  have : Fact p.Prime := ⟨hp⟩
  rw [← jacobiSym.legendreSym.to_jacobiSym] at h
  exact (legendreSym.eq_neg_one_iff p).mp h

end

end CT.JL
