import Verif.Props.JoyeLibert
import Mathlib.NumberTheory.LSeries.PrimesInAP

/-!
# Key generation and encryption of Joye-Libert: when the searches end, and with what (C162)

The three searches of `joye_libert_keygen` (joye_libert.cpp:70-98, 106-126, 143-148) and the one of
`joye_libert_encrypt` (joye_libert.cpp:170-176) have no bound.  In the model they take `fuel`, the
number of iterations, so "ends" is "there is a fuel for which the outcome is not `diverges`".
-/

namespace CT.Props.JLTermination
open CT.JL CT.Gmp CT.Spec.JL CT.Props.JoyeLibert

/-! ## Specification -/

/-- The primality test is exact and `mpz_nextprime` gives the next prime. -/
structure Exact (g : Env) : Prop where
  prime : ∀ n : ℤ, g.probabPrime n = true ↔ n.toNat.Prime
  next_prime : ∀ n : ℤ, (g.nextprime n).toNat.Prime
  next_le : ∀ (n : ℤ) (r : ℕ), r.Prime → n < r → g.nextprime n ≤ r

/-- `t` and `2^k t + 1` are both prime. -/
def Good (k t : ℕ) : Prop := t.Prime ∧ (2 ^ k * t + 1).Prime

/-- `p` is `2^k t + 1` for the least suitable `t` from `r / 2^k` on. -/
def IsP (k : ℕ) (r p : ℤ) : Prop :=
  ∃ t : ℕ, p = 2 ^ k * t + 1 ∧ r / 2 ^ k ≤ t ∧ Good k t ∧ ∀ t' : ℕ, r / 2 ^ k ≤ t' → Good k t' → t ≤ t'

/-- `q` is the least prime above `r` that is 3 modulo 4. -/
def IsQ (r q : ℤ) : Prop :=
  ∃ Q : ℕ, q = Q ∧ r < Q ∧ Q.Prime ∧ Q % 4 = 3 ∧ ∀ Q' : ℕ, r < Q' → Q'.Prime → Q' % 4 = 3 → Q ≤ Q'

/-- `y` is a square neither modulo `p` nor modulo `q`. -/
def NonSq (p q y : ℤ) : Prop := ¬ IsSquare (y : ZMod p.toNat) ∧ ¬ IsSquare (y : ZMod q.toNat)

/-- The state of the generator after `i` draws below `N`. -/
def stateAt (g : Env) (N : ℤ) (s : g.State) : ℕ → g.State
  | 0 => s
  | i + 1 => (g.urandomm (stateAt g N s i) N).2

/-- The draw number `i` (from 0) below `N`. -/
def draw (g : Env) (N : ℤ) (s : g.State) (i : ℕ) : ℤ := (g.urandomm (stateAt g N s i) N).1

/-- `y` is the first draw with the property `P`. -/
def FirstDraw (g : Env) (N : ℤ) (s : g.State) (P : ℤ → Prop) (y : ℤ) : Prop :=
  ∃ i, y = draw g N s i ∧ P y ∧ ∀ j < i, ¬ P (draw g N s j)

/-- The generator draws every number below `N` sooner or later. -/
def DrawsAll (g : Env) (N : ℤ) (s : g.State) : Prop := ∀ v, 0 ≤ v → v < N → ∃ i, draw g N s i = v

/-! ## The searches -/

theorem stateAt_succ' (g : Env) (N : ℤ) (s : g.State) (i : ℕ) :
    stateAt g N s (i + 1) = stateAt g N (g.urandomm s N).2 i := by
  induction i with
  | zero => rfl
  | succ i ih => rw [stateAt, ih, stateAt]

theorem draw_succ (g : Env) (N : ℤ) (s : g.State) (i : ℕ) :
    draw g N s (i + 1) = draw g N (g.urandomm s N).2 i := by
  rw [draw, stateAt_succ', draw]

theorem firstDraw_step (g : Env) (N : ℤ) (s : g.State) (P : ℤ → Prop) (y : ℤ) :
    FirstDraw g N s P y ↔ (P (g.urandomm s N).1 ∧ y = (g.urandomm s N).1) ∨
      (¬ P (g.urandomm s N).1 ∧ FirstDraw g N (g.urandomm s N).2 P y) := by
  constructor
  · rintro ⟨i, rfl, h, hj⟩
    cases i with
    | zero => exact .inl ⟨h, rfl⟩
    | succ i =>
      refine .inr ⟨hj 0 (by omega), i, draw_succ .., h, fun j hji => ?_⟩
      rw [← draw_succ]
      exact hj _ (by omega)
  · rintro (⟨h, rfl⟩ | ⟨h, i, rfl, hp, hj⟩)
    · exact ⟨0, rfl, h, fun j hj => absurd hj (by omega)⟩
    · refine ⟨i + 1, (draw_succ ..).symm, hp, fun j hji => ?_⟩
      cases j with
      | zero => exact h
      | succ j => rw [draw_succ]; exact hj _ (by omega)

theorem firstDraw_exists (g : Env) (N : ℤ) (s : g.State) (P : ℤ → Prop) (h : ∃ i, P (draw g N s i)) :
    ∃ y, FirstDraw g N s P y := by
  classical
  exact ⟨_, Nat.find h, rfl, Nat.find_spec h, fun j hj => Nat.find_min h hj⟩

section
variable (g : Env)

theorem findP_mono {d : ℤ} {p : ℤ} : ∀ {f f' : ℕ} {p0 : ℤ}, f ≤ f' → findP g d f p0 = .ok p →
    findP g d f' p0 = .ok p := by
  intro f
  induction f with
  | zero => intro f' p0 _ h; simp [findP] at h
  | succ f ih =>
    intro f' p0 hf h
    obtain ⟨f', rfl⟩ : ∃ e, f' = e + 1 := ⟨f' - 1, by omega⟩
    rw [findP] at h ⊢
    split at h
    · rename_i hp
      rw [if_pos hp]
      obtain ⟨t, ht, h⟩ := Res.bind_eq_ok h
      rw [ht, Res.ok_bind]
      split at h
      · rename_i h1; rw [if_pos h1]; exact h
      · rename_i h1; rw [if_neg h1]; exact ih (by omega) h
    · rename_i hp
      rw [if_neg hp]
      exact ih (by omega) h

theorem findQ_mono {q : ℤ} : ∀ {f f' : ℕ} {q0 : ℤ}, f ≤ f' → findQ g f q0 = .ok q →
    findQ g f' q0 = .ok q := by
  intro f
  induction f with
  | zero => intro f' p0 _ h; simp [findQ] at h
  | succ f ih =>
    intro f' q0 hf h
    obtain ⟨f', rfl⟩ : ∃ e, f' = e + 1 := ⟨f' - 1, by omega⟩
    rw [findQ] at h ⊢
    split at h
    · rename_i hp; rw [if_pos hp]; exact h
    · rename_i hp; rw [if_neg hp]; exact ih (by omega) h

theorem findY_mono {p q N : ℤ} {r : ℤ × g.State} : ∀ {f f' : ℕ} {y : ℤ} {s : g.State}, f ≤ f' →
    findY g p q N f y s = .ok r → findY g p q N f' y s = .ok r := by
  intro f
  induction f with
  | zero => intro f' y s _ h; simp [findY] at h
  | succ f ih =>
    intro f' y s hf h
    obtain ⟨f', rfl⟩ : ∃ e, f' = e + 1 := ⟨f' - 1, by omega⟩
    rw [findY] at h ⊢
    split at h
    · rename_i hp; rw [if_pos hp]; exact ih (by omega) h
    · rename_i hp; rw [if_neg hp]; exact h

theorem pickX_mono {N : ℤ} {r : ℤ × g.State} : ∀ {f f' : ℕ} {s : g.State}, f ≤ f' →
    pickX g N f s = .ok r → pickX g N f' s = .ok r := by
  intro f
  induction f with
  | zero => intro f' s _ h; simp [pickX] at h
  | succ f ih =>
    intro f' s hf h
    obtain ⟨f', rfl⟩ : ∃ e, f' = e + 1 := ⟨f' - 1, by omega⟩
    rw [pickX] at h ⊢
    split at h
    · rename_i hp; rw [if_pos hp]; exact ih (by omega) h
    · rename_i hp; rw [if_neg hp]; exact h

variable {g} (ex : Exact g)
include ex

theorem prime_iff (n : ℕ) : g.probabPrime (n : ℤ) = true ↔ n.Prime := by
  rw [ex.prime, Int.toNat_natCast]

/-- One step of the search for `p`. -/
theorem findP_step (k f t : ℕ) : findP g (2 ^ k) (f + 1) (2 ^ k * (t : ℤ) + 1) =
    if t.Prime ∧ (2 ^ k * t + 1).Prime then .ok (2 ^ k * (t : ℤ) + 1)
    else findP g (2 ^ k) f (2 ^ k * ((t + 1 : ℕ) : ℤ) + 1) := by
  have hd : (0 : ℤ) < 2 ^ k := by positivity
  have e : (2 ^ k * (t : ℤ) + 1) = ((2 ^ k * t + 1 : ℕ) : ℤ) := by push_cast; rfl
  have hdv : divexact (2 ^ k * (t : ℤ) + 1 - 1) (2 ^ k) = .ok (t : ℤ) := by
    simp only [add_sub_cancel_right, divexact, ne_eq, hd.ne', not_false_eq_true, dvd_mul_right,
      and_self, if_true, Int.mul_ediv_cancel_left _ hd.ne']
  have e2 : 2 ^ k * (t : ℤ) + 1 + 2 ^ k = 2 ^ k * ((t + 1 : ℕ) : ℤ) + 1 := by push_cast; ring
  rw [findP, hdv, e2]
  simp only [Res.ok_bind, Res.pure_eq]
  have h1 : g.probabPrime (2 ^ k * (t : ℤ) + 1) = true ↔ (2 ^ k * t + 1).Prime := by
    rw [e]; exact prime_iff ex _
  have h2 := prime_iff ex t
  by_cases a : (2 ^ k * t + 1).Prime <;> by_cases b : t.Prime
  · rw [if_pos (h1.mpr a), if_pos (h2.mpr b), if_pos ⟨b, a⟩]
  · rw [if_pos (h1.mpr a), if_neg (fun h => b (h2.mp h)), if_neg (fun h => b h.1)]
  · rw [if_neg (fun h => a (h1.mp h)), if_neg (fun h => a h.2)]
  · rw [if_neg (fun h => a (h1.mp h)), if_neg (fun h => b h.1)]

theorem findP_sound (k : ℕ) {p : ℤ} : ∀ {f t : ℕ}, findP g (2 ^ k) f (2 ^ k * (t : ℤ) + 1) = .ok p →
    ∃ u : ℕ, p = 2 ^ k * u + 1 ∧ t ≤ u ∧ Good k u ∧ ∀ t' : ℕ, t ≤ t' → Good k t' → u ≤ t' := by
  intro f
  induction f with
  | zero => intro t h; simp [findP] at h
  | succ f ih =>
    intro t h
    rw [findP_step ex] at h
    split at h
    · rename_i hg
      rw [Res.ok_inj] at h
      exact ⟨t, h.symm, le_refl _, hg, fun t' h _ => h⟩
    · rename_i hg
      obtain ⟨u, a, b, c, d⟩ := ih h
      refine ⟨u, a, by omega, c, fun t' h1 h2 => d t' ?_ h2⟩
      rcases h1.lt_or_eq with h1 | rfl
      · exact h1
      · exact absurd h2 hg

theorem findP_complete (k : ℕ) {u : ℕ} (hu : Good k u) : ∀ {n t : ℕ}, t + n = u →
    (∀ t' : ℕ, t ≤ t' → Good k t' → u ≤ t') →
    findP g (2 ^ k) (n + 1) (2 ^ k * (t : ℤ) + 1) = .ok (2 ^ k * (u : ℤ) + 1) := by
  intro n
  induction n with
  | zero =>
    intro t e _
    obtain rfl : t = u := by omega
    rw [findP_step ex]
    exact if_pos hu
  | succ n ih =>
    intro t e h
    rw [findP_step ex]
    have hn : ¬ (t.Prime ∧ (2 ^ k * t + 1).Prime) := fun hg => by
      have := h t (le_refl _) hg
      omega
    rw [if_neg hn]
    exact ih (by omega) (fun t' h1 h2 => h t' (by omega) h2)

theorem findQ_least {q : ℤ} : ∀ {f : ℕ} {q0 : ℤ}, q0.toNat.Prime → findQ g f q0 = .ok q →
    q.toNat.Prime ∧ q % 4 = 3 ∧ q0 ≤ q ∧
      ∀ Q' : ℕ, q0 ≤ Q' → Q'.Prime → Q' % 4 = 3 → q ≤ Q' := by
  intro f
  induction f with
  | zero => intro p0 _ h; simp [findQ] at h
  | succ f ih =>
    intro q0 h0 h
    rw [findQ] at h
    split at h
    · rename_i hq
      rw [Res.ok_inj] at h
      subst h
      exact ⟨h0, hq.2, le_refl _, fun Q' h _ _ => h⟩
    · rename_i hq
      obtain ⟨a, b, c, d⟩ := ih (ex.next_prime _) h
      refine ⟨a, b, (g.nextprime_gt q0).le.trans c, fun Q' h1 h2 h3 => d Q' ?_ h2 h3⟩
      rcases h1.lt_or_eq with h1 | rfl
      · exact ex.next_le _ _ h2 h1
      · exact absurd ⟨(prime_iff ex _).mpr h2, by omega⟩ hq

theorem findQ_ends {Q : ℕ} (hQ : Q.Prime) (h4 : Q % 4 = 3) : ∀ (n : ℕ) {q0 : ℤ}, q0 ≤ Q → Q < q0 + n →
    ∃ q, findQ g n q0 = .ok q := by
  intro n
  induction n with
  | zero => intro q0 h1 h2; omega
  | succ n ih =>
    intro q0 h1 h2
    rw [findQ]
    split
    · exact ⟨_, rfl⟩
    · rename_i hq
      have hlt : q0 < Q := by
        rcases h1.lt_or_eq with h | rfl
        · exact h
        · exact absurd ⟨(prime_iff ex _).mpr hQ, by omega⟩ hq
      have := g.nextprime_gt q0
      exact ih (ex.next_le _ _ hQ hlt) (by push_cast at h2; omega)

omit ex in
/-- There is a prime that is 3 modulo 4 above every number (Dirichlet's theorem). -/
theorem exists_prime_three (n : ℕ) : ∃ Q : ℕ, n < Q ∧ Q.Prime ∧ Q % 4 = 3 := by
  obtain ⟨Q, h1, h2, h3⟩ := Nat.forall_exists_prime_gt_and_zmodEq n (q := 4) (a := 3) (by norm_num)
    (by norm_num [Int.isCoprime_iff_gcd_eq_one])
  refine ⟨Q, h1, h2, ?_⟩
  have : (Q : ℤ) % 4 = 3 % 4 := h3
  omega

omit ex in
theorem nonSq_iff {p q : ℕ} (hp : p.Prime) (hq : q.Prime) (y : ℤ) :
    ¬ (jacobiSym y (p : ℤ).toNat ≠ -1 ∨ jacobiSym y (q : ℤ).toNat ≠ -1) ↔ NonSq p q y := by
  have : Fact p.Prime := ⟨hp⟩
  have : Fact q.Prime := ⟨hq⟩
  rw [not_or, not_not, not_not, NonSq, Int.toNat_natCast, Int.toNat_natCast,
    ZMod.nonsquare_iff_jacobiSym_eq_neg_one, ZMod.nonsquare_iff_jacobiSym_eq_neg_one]

omit ex in
theorem findY_iff {p q : ℕ} (hp : p.Prime) (hq : q.Prime) (N y : ℤ) (y0 : ℤ) (s : g.State) :
    (∃ f s', findY g p q N f y0 s = .ok (y, s')) ↔
      (NonSq p q y0 ∧ y = y0) ∨ (¬ NonSq p q y0 ∧ FirstDraw g N s (NonSq p q) y) := by
  constructor
  · rintro ⟨f, s', h⟩
    induction f generalizing y0 s with
    | zero => simp [findY] at h
    | succ f ih =>
      rw [findY] at h
      split at h
      · rename_i hc
        refine .inr ⟨fun hn => (nonSq_iff hp hq y0).mpr hn hc, ?_⟩
        rw [firstDraw_step]
        exact ih _ _ h
      · rename_i hc
        rw [Res.ok_inj, Prod.mk.injEq] at h
        exact .inl ⟨(nonSq_iff hp hq y0).mp hc, h.1.symm⟩
  · rintro (⟨h, rfl⟩ | ⟨h0, i, rfl, h, hj⟩)
    · refine ⟨1, s, ?_⟩
      rw [findY, if_neg ((nonSq_iff hp hq _).mpr h)]
    · induction i generalizing y0 s with
      | zero =>
        refine ⟨2, (g.urandomm s N).2, ?_⟩
        rw [findY, if_pos (by_contra fun hc => h0 ((nonSq_iff hp hq _).mp hc))]
        have h' : NonSq p q (g.urandomm s N).1 := h
        rw [findY, if_neg ((nonSq_iff hp hq _).mpr h')]
        rfl
      | succ i ih =>
        have h1 : ¬ NonSq p q (g.urandomm s N).1 := hj 0 (by omega)
        rw [draw_succ] at h ⊢
        obtain ⟨f, s', e⟩ := ih (g.urandomm s N).1 (g.urandomm s N).2 h1 h
          (fun j hji => by rw [← draw_succ]; exact hj _ (by omega))
        refine ⟨f + 1, s', ?_⟩
        rw [findY, if_pos (by_contra fun hc => h0 ((nonSq_iff hp hq _).mp hc))]
        exact e

omit ex in
theorem not_nonSq_zero (p q : ℤ) : ¬ NonSq p q 0 := fun h => h.1 ⟨0, by simp⟩

omit ex in
/-- The number the search for `p` starts from. -/
theorem start_eq (k : ℕ) (r : ℤ) (hr : 0 ≤ r) :
    ∃ t : ℕ, r / 2 ^ k = t ∧ r - r % 2 ^ k + 1 = 2 ^ k * (t : ℤ) + 1 := by
  refine ⟨(r / 2 ^ k).toNat, (Int.toNat_of_nonneg (Int.ediv_nonneg hr (by positivity))).symm, ?_⟩
  rw [Int.toNat_of_nonneg (Int.ediv_nonneg hr (by positivity))]
  have := Int.emod_add_mul_ediv r (2 ^ k)
  omega

end

/-! ## C162 -/

/-- C162, exact outcome: with an exact primality test and next-prime function, for every generator
and every two sizes, key generation ends with the key `(N, y, p)` and `q` exactly when `p` is
`2^k t + 1` for the least `t` from the first draw's quotient by `2^k` on such that both are prime,
`q` is the least prime above the second draw that is 3 modulo 4, `N = p q`, and `y` is the first of
the following draws that is a square modulo neither. -/
theorem jl_keygen_exact (g : Env) (ex : Exact g) (k keysize : ℕ) (N y p q : ℤ) :
    let r1 := g.urandomb g.init (keysize / 2)
    let r2 := g.urandomb r1.2 (keysize / 2)
    (∃ fuel, keygen g fuel k keysize = .ok ((N, y, p), q)) ↔
      IsP k r1.1 p ∧ IsQ r2.1 q ∧ N = p * q ∧ FirstDraw g N r2.2 (NonSq p q) y := by
  intro r1 r2
  have hd : (0 : ℤ) < 2 ^ k := by positivity
  obtain ⟨t, ht, hst⟩ := start_eq k r1.1 (g.urandomb_range _ _).1
  have hr2 : 0 ≤ r2.1 := (g.urandomb_range _ _).1
  constructor
  · rintro ⟨fuel, h⟩
    simp only [keygen, mod_ok hd.ne', Res.ok_bind] at h
    obtain ⟨p', hp, h⟩ := Res.bind_eq_ok h
    obtain ⟨q', hq, h⟩ := Res.bind_eq_ok h
    obtain ⟨⟨y', s'⟩, hy, h⟩ := Res.bind_eq_ok h
    simp only [Res.pure_eq, Res.ok_inj, Prod.mk.injEq] at h
    obtain ⟨⟨rfl, rfl, rfl⟩, rfl⟩ := h
    change findP g (2 ^ k) fuel (r1.1 - r1.1 % 2 ^ k + 1) = .ok p' at hp
    rw [hst] at hp
    obtain ⟨u, rfl, u1, u2, u3⟩ := findP_sound ex k hp
    obtain ⟨q1, q2, q3, q4⟩ := findQ_least ex (ex.next_prime _) hq
    have hgt := g.nextprime_gt r2.1
    change g.nextprime r2.1 ≤ q' at q3
    obtain ⟨Q, rfl⟩ : ∃ Q : ℕ, q' = Q := ⟨q'.toNat, by omega⟩
    rw [Int.toNat_natCast] at q1
    refine ⟨⟨u, rfl, by rw [ht]; exact_mod_cast u1, u2, fun t' a b => u3 t' ?_ b⟩,
      ⟨Q, rfl, by omega, q1, by omega, fun Q' a b c => ?_⟩, rfl, ?_⟩
    · rw [ht] at a; exact_mod_cast a
    · exact_mod_cast q4 Q' (ex.next_le _ _ b a) b c
    · have e : (2 ^ k * (u : ℤ) + 1) = ((2 ^ k * u + 1 : ℕ) : ℤ) := by push_cast; rfl
      rw [e] at hy ⊢
      rcases (findY_iff u2.2 q1 _ _ _ _).mp ⟨_, _, hy⟩ with ⟨h, -⟩ | ⟨-, h⟩
      · exact absurd h (not_nonSq_zero _ _)
      · exact h
  · rintro ⟨⟨u, rfl, u1, u2, u3⟩, ⟨Q, rfl, q1, q2, q3, q4⟩, rfl, hy⟩
    rw [ht] at u1 u3
    have hut : t ≤ u := by exact_mod_cast u1
    have hP := findP_complete ex k u2 (n := u - t) (t := t) (by omega)
      (fun t' a b => u3 t' (by exact_mod_cast a) b)
    obtain ⟨q', hQ⟩ := findQ_ends ex q2 q3 (Q + 1) (q0 := g.nextprime r2.1)
      (ex.next_le _ _ q2 q1) (by have := g.nextprime_gt r2.1; push_cast; omega)
    obtain ⟨a1, a2, a3, a4⟩ := findQ_least ex (ex.next_prime _) hQ
    have hgt := g.nextprime_gt r2.1
    obtain rfl : q' = Q := by
      have h1 := a4 Q (ex.next_le _ _ q2 q1) q2 q3
      have h2 := q4 q'.toNat (by omega) a1 (by omega)
      omega
    have e : (2 ^ k * (u : ℤ) + 1) = ((2 ^ k * u + 1 : ℕ) : ℤ) := by push_cast; rfl
    rw [e] at hy hP ⊢
    obtain ⟨f, s', hY⟩ := (findY_iff (g := g) u2.2 q2 _ _ 0 _).mpr (.inr ⟨not_nonSq_zero _ _, hy⟩)
    refine ⟨(u - t + 1) + (Q + 1) + f, ?_⟩
    simp only [keygen, mod_ok hd.ne', Res.ok_bind]
    change (findP g (2 ^ k) _ (r1.1 - r1.1 % 2 ^ k + 1) >>= fun p =>
      findQ g _ (g.nextprime r2.1) >>= fun q => findY g p q (p * q) _ 0 r2.2 >>= _) = _
    rw [hst, findP_mono g (by omega) hP, Res.ok_bind, findQ_mono g (by omega) hQ, Res.ok_bind,
      findY_mono g (by omega) hY, Res.ok_bind]
    rfl

/-- A square neither modulo `p` nor modulo `q` exists below `p q`, for odd primes. -/
theorem exists_nonSq {p q : ℕ} (hp : p.Prime) (hq : q.Prime) (p2 : p ≠ 2) (q2 : q ≠ 2) :
    ∃ v : ℤ, 0 ≤ v ∧ v < (p : ℤ) * q ∧ NonSq p q v := by
  have : Fact p.Prime := ⟨hp⟩
  have : Fact q.Prime := ⟨hq⟩
  obtain ⟨a, ha⟩ := FiniteField.exists_nonsquare (F := ZMod p) (by rw [ZMod.ringChar_zmod_n]; exact p2)
  obtain ⟨b, hb⟩ := FiniteField.exists_nonsquare (F := ZMod q) (by rw [ZMod.ringChar_zmod_n]; exact q2)
  by_cases e : p = q
  · subst e
    have h1 := ZMod.val_lt a
    have h2 := hp.one_lt
    refine ⟨a.val, by positivity, ?_, ?_⟩
    · exact_mod_cast h1.trans_le (Nat.le_mul_of_pos_left _ hp.pos)
    · rw [NonSq, Int.toNat_natCast, Int.cast_natCast, ZMod.natCast_zmod_val]
      exact ⟨ha, ha⟩
  · have co : Nat.Coprime p q := (Nat.coprime_primes hp hq).mpr e
    obtain ⟨c, c1, c2⟩ := Nat.chineseRemainder co a.val b.val
    refine ⟨((c % (p * q) : ℕ) : ℤ), by positivity, ?_, ?_⟩
    · exact_mod_cast Nat.mod_lt _ (Nat.mul_pos hp.pos hq.pos)
    · have d1 : ((c % (p * q) : ℕ) : ZMod p) = a := by
        rw [← ZMod.natCast_zmod_val a, ZMod.natCast_eq_natCast_iff]
        exact ((Nat.mod_modEq c (p * q)).of_dvd (Dvd.intro _ rfl)).trans c1
      have d2 : ((c % (p * q) : ℕ) : ZMod q) = b := by
        rw [← ZMod.natCast_zmod_val b, ZMod.natCast_eq_natCast_iff]
        exact ((Nat.mod_modEq c (p * q)).of_dvd (Dvd.intro_left _ rfl)).trans c2
      rw [NonSq, Int.toNat_natCast, Int.toNat_natCast, Int.cast_natCast, d1, Int.cast_natCast, d2]
      exact ⟨ha, hb⟩

/-- A prime `p` with `(p-1)/2^k` prime is odd. -/
theorem good_odd {k t : ℕ} (h : Good k t) : 2 ^ k * t + 1 ≠ 2 := by
  intro e
  have h1 := h.1.two_le
  have h2 : 0 < 2 ^ k := by positivity
  nlinarith

/-- The search for `q` ends, for every generator and every draw: the prime it looks for exists. -/
theorem jl_keygen_q_ends (g : Env) (ex : Exact g) (r : ℤ) : ∃ q, IsQ r q ∧
    ∃ fuel, findQ g fuel (g.nextprime r) = .ok q := by
  obtain ⟨Q, h1, h2, h3⟩ := exists_prime_three r.toNat
  have hr : r < Q := by omega
  obtain ⟨q, hq⟩ := findQ_ends ex h2 h3 (Q + 1 + (-r).toNat) (q0 := g.nextprime r) (ex.next_le _ _ h2 hr)
    (by have := g.nextprime_gt r; push_cast; omega)
  obtain ⟨a, b, c, d⟩ := findQ_least ex (ex.next_prime _) hq
  have hgt := g.nextprime_gt r
  have hpos : 0 < q.toNat := a.pos
  refine ⟨q, ⟨q.toNat, by omega, by omega, a, by omega, fun Q' x y z => ?_⟩, _, hq⟩
  have := d Q' (ex.next_le _ _ y x) y z
  omega

/-- C162, the part that holds: key generation ends, for every generator that sooner or later draws
every number below the modulus and every two sizes, as soon as from the first draw on there is a `t`
with `t` and `2^k t + 1` both prime.  Missing from the full statement: that there always is one,
which is false for `k = 0` (`jl_keygen_ends_refuted`) and not known for `k > 0`. -/
theorem jl_keygen_ends_partial (g : Env) (ex : Exact g) (k keysize : ℕ)
    (hall : ∀ s N, DrawsAll g N s) (t : ℕ)
    (ht : (g.urandomb g.init (keysize / 2)).1 / 2 ^ k ≤ t) (hg : Good k t) :
    ∃ fuel r, keygen g fuel k keysize = .ok r := by
  classical
  have hex : ∃ t : ℕ, (g.urandomb g.init (keysize / 2)).1 / 2 ^ k ≤ (t : ℤ) ∧ Good k t := ⟨t, ht, hg⟩
  obtain ⟨u1, u2⟩ := Nat.find_spec hex
  have u3 : ∀ t' : ℕ, (g.urandomb g.init (keysize / 2)).1 / 2 ^ k ≤ (t' : ℤ) → Good k t' →
      Nat.find hex ≤ t' := fun t' a b => Nat.find_min' hex ⟨a, b⟩
  generalize Nat.find hex = u at u1 u2 u3
  obtain ⟨q, hQ, -⟩ := jl_keygen_q_ends g ex
    (g.urandomb (g.urandomb g.init (keysize / 2)).2 (keysize / 2)).1
  have hQ' := hQ
  obtain ⟨Q, rfl, q1, q2, q3, q4⟩ := hQ
  obtain ⟨v, v1, v2, v3⟩ := exists_nonSq u2.2 q2 (good_odd u2) (by omega)
  have e : (2 ^ k * (u : ℤ) + 1) = ((2 ^ k * u + 1 : ℕ) : ℤ) := by push_cast; rfl
  obtain ⟨i, hi⟩ := hall (g.urandomb (g.urandomb g.init (keysize / 2)).2 (keysize / 2)).2 _ v v1 v2
  obtain ⟨y, hy⟩ := firstDraw_exists g _ _ (NonSq ((2 ^ k * u + 1 : ℕ) : ℤ) Q) ⟨i, hi ▸ v3⟩
  obtain ⟨fuel, h⟩ := (jl_keygen_exact g ex k keysize _ y _ _).mpr
    ⟨⟨u, rfl, u1, u2, u3⟩, hQ', rfl, by rw [e]; exact hy⟩
  exact ⟨fuel, _, h⟩

/-- For messages of no bits key generation never ends unless the first draw is at most 2: `p` and
`p - 1` would both have to be prime. -/
theorem jl_keygen_never_ends (g : Env) (ex : Exact g) (fuel keysize : ℕ)
    (h3 : 3 ≤ (g.urandomb g.init (keysize / 2)).1) (r : (ℤ × ℤ × ℤ) × ℤ) :
    keygen g fuel 0 keysize ≠ .ok r := by
  intro h
  obtain ⟨⟨N, y, p⟩, q⟩ := r
  obtain ⟨⟨t, -, ht, hg, -⟩, -⟩ := (jl_keygen_exact g ex 0 keysize N y p q).mp ⟨fuel, h⟩
  rw [pow_zero, Int.ediv_one] at ht
  have h1 := hg.1
  have h2 := hg.2
  rw [pow_zero, one_mul] at h2
  rcases h1.eq_two_or_odd with e | e
  · omega
  · rcases h2.eq_two_or_odd with e' | e' <;> omega

/-- A generator whose `mpz_urandomm` counts and whose `mpz_urandomb` always draws `b` (reduced to the
range asked for), with an exact primality test: it draws every number below every modulus. -/
noncomputable def countEnv (b : ℤ) : Env where
  State := ℕ
  init := 0
  urandomb s n := (b % 2 ^ n, s)
  urandomb_range _ n := ⟨Int.emod_nonneg _ (by positivity), Int.emod_lt_of_pos _ (by positivity)⟩
  urandomm s n := (s % n, s + 1)
  urandomm_range _ n hn := ⟨Int.emod_nonneg _ hn.ne', Int.emod_lt_of_pos _ hn⟩
  probabPrime := (constEnv 0 0).probabPrime
  nextprime := (constEnv 0 0).nextprime
  nextprime_gt := (constEnv 0 0).nextprime_gt

theorem constEnv_exact (x b : ℤ) : Exact (constEnv x b) where
  prime n := by simp [constEnv]
  next_prime n := by
    have := (Nat.find_spec (Nat.exists_infinite_primes (n.toNat + 1))).2
    show (((Nat.find _ : ℕ) : ℤ)).toNat.Prime
    rw [Int.toNat_natCast]
    exact this
  next_le n r hr h := by
    show ((Nat.find _ : ℕ) : ℤ) ≤ r
    have h0 := hr.pos
    exact_mod_cast Nat.find_min' (Nat.exists_infinite_primes (n.toNat + 1)) ⟨by omega, hr⟩

theorem countEnv_exact (b : ℤ) : Exact (countEnv b) where
  prime := (constEnv_exact 0 0).prime
  next_prime := (constEnv_exact 0 0).next_prime
  next_le := (constEnv_exact 0 0).next_le

theorem countEnv_state (b : ℤ) (c : ℕ) (N : ℤ) (i : ℕ) :
    stateAt (countEnv b) N c i = (c + i : ℕ) := by
  induction i with
  | zero => rfl
  | succ i ih =>
    show ((countEnv b).urandomm (stateAt (countEnv b) N c i) N).2 = _
    rw [ih]
    rfl

theorem countEnv_draws (b : ℤ) (c : ℕ) (N : ℤ) : DrawsAll (countEnv b) N c := by
  intro v h0 hv
  obtain ⟨M, rfl⟩ : ∃ M : ℕ, N = M := ⟨N.toNat, by omega⟩
  obtain ⟨w, rfl⟩ : ∃ w : ℕ, v = w := ⟨v.toNat, by omega⟩
  refine ⟨w + M * c - c, ?_⟩
  have hM : 1 ≤ M := by omega
  have hc : c ≤ M * c := Nat.le_mul_of_pos_left _ hM
  have e : c + (w + M * c - c) = w + M * c := by omega
  show ((show ℕ from stateAt (countEnv b) M c (w + M * c - c)) : ℤ) % M = w
  rw [countEnv_state, e, Nat.cast_add, Nat.cast_mul, Int.add_mul_emod_self_left]
  exact Int.emod_eq_of_lt h0 hv

example : Exact (countEnv 5) ∧ 3 ≤ ((countEnv 5).urandomb (countEnv 5).init (8 / 2)).1 :=
  ⟨countEnv_exact 5, by show (3 : ℤ) ≤ 5 % 2 ^ (8 / 2); norm_num⟩

/-- The whole key of `keygen_small` meets the description. -/
example : IsP 2 0 13 ∧ IsQ 0 3 ∧ (39 : ℤ) = 13 * 3 ∧ FirstDraw (constEnv 2 0) 39 () (NonSq 13 3) 2 :=
  (jl_keygen_exact (constEnv 2 0) (constEnv_exact 2 0) 2 64 39 2 13 3).mp ⟨4, keygen_small⟩

/-- C162 in full: key generation ends for every two sizes and every generator that sooner or later
draws every number below the modulus, with an exact primality test. -/
def KeygenEnds : Prop := ∀ (g : Env), Exact g → (∀ s N, DrawsAll g N s) → ∀ k keysize : ℕ,
  ∃ fuel r, keygen g fuel k keysize = .ok r

/-- C162 is false: with messages of no bits and an 8-bit modulus, when the first draw is 5, key
generation never ends. -/
theorem jl_keygen_ends_refuted : ¬ KeygenEnds := by
  intro h
  obtain ⟨fuel, r, e⟩ := h (countEnv 5) (countEnv_exact 5) (countEnv_draws 5) 0 8
  exact jl_keygen_never_ends (countEnv 5) (countEnv_exact 5) fuel 8 (by
    show (3 : ℤ) ≤ 5 % 2 ^ (8 / 2)
    norm_num) r e

/-- Encryption ends, for every generator, key and message, exactly when one of the draws is not 0;
its coin is then the first such draw. -/
theorem jl_pickX_exact (g : Env) (N : ℤ) (s : g.State) (x : ℤ) :
    (∃ fuel s', pickX g N fuel s = .ok (x, s')) ↔ FirstDraw g N s (· ≠ 0) x := by
  constructor
  · rintro ⟨f, s', h⟩
    induction f generalizing s with
    | zero => simp [pickX] at h
    | succ f ih =>
      rw [pickX] at h
      rw [firstDraw_step]
      split at h
      · rename_i hc
        exact .inr ⟨not_not.mpr hc, ih _ h⟩
      · rename_i hc
        rw [Res.ok_inj] at h
        exact .inl ⟨hc, by rw [h]⟩
  · rintro ⟨i, rfl, h, hj⟩
    induction i generalizing s with
    | zero =>
      refine ⟨1, (g.urandomm s N).2, ?_⟩
      have h' : (g.urandomm s N).1 ≠ 0 := h
      rw [pickX, if_neg h']
      rfl
    | succ i ih =>
      have h1 : (g.urandomm s N).1 = 0 := not_not.mp (hj 0 (by omega))
      rw [draw_succ] at h ⊢
      obtain ⟨f, s', e⟩ := ih (g.urandomm s N).2 h
        (fun j hji => by rw [← draw_succ]; exact hj _ (by omega))
      refine ⟨f + 1, s', ?_⟩
      rw [pickX, if_pos h1]
      exact e

/-- Encryption ends for every generator that draws every number below the modulus, every modulus of
at least 2, every invertible `y` and every message. -/
theorem jl_encrypt_ends (g : Env) (s : g.State) (N m y : ℤ) (k : ℕ) (hN : 2 ≤ N)
    (hy : IsCoprime y N) (hall : DrawsAll g N s) : ∃ fuel r, encrypt g fuel s m y N k = .ok r := by
  obtain ⟨i, hi⟩ := hall 1 (by omega) (by omega)
  obtain ⟨x, hx⟩ := firstDraw_exists g N s (· ≠ 0) ⟨i, by rw [hi]; norm_num⟩
  obtain ⟨fuel, s', h⟩ := (jl_pickX_exact g N s x).mpr hx
  obtain ⟨n, rfl⟩ : ∃ n : ℕ, N = n := ⟨N.toNat, by omega⟩
  have : NeZero n := ⟨by omega⟩
  obtain ⟨Y, hY⟩ := unit_of_isCoprime hy
  obtain ⟨c, hc⟩ := encrypt_total (k := k) g hY m h
  exact ⟨fuel, _, hc⟩

example : (2 : ℤ) ≤ 39 ∧ IsCoprime (2 : ℤ) 39 ∧ DrawsAll (countEnv 0) 39 (countEnv 0).init :=
  ⟨by norm_num, by norm_num [Int.isCoprime_iff_gcd_eq_one], countEnv_draws 0 0 39⟩

example : Good 2 3 ∧ ∀ s N, DrawsAll (countEnv 0) N s :=
  ⟨⟨by norm_num, by norm_num⟩, fun s N => countEnv_draws 0 s N⟩

/-- Two-bit messages and a first draw of 0: the first prime that will do is 13 (5 is passed over, as
1 is not prime, and so is 9). -/
example : IsP 2 0 13 := by
  refine ⟨3, by norm_num, by norm_num, ⟨by norm_num, by norm_num⟩, fun t' _ h => ?_⟩
  by_contra hc
  have : t' < 3 := by omega
  interval_cases t'
  · exact absurd h.1 (by norm_num)
  · exact absurd h.1 (by norm_num)
  · exact absurd h.2 (by norm_num)

example : ∃ q, IsQ 6 q ∧ ∃ fuel, findQ (constEnv 2 0) fuel ((constEnv 2 0).nextprime 6) = .ok q := jl_keygen_q_ends _ (constEnv_exact 2 0) 6

end CT.Props.JLTermination
