import Verif.Proof.RabbitCounter

/-!
# The counters of Rabbit do not come back soon

A sum of exactly `2^32` at a digit leaves the digit at 0, and 63 more additions are needed before the
same digit can be hit again.  Together with `63 · A ≡ 39 (mod 2^256 - 1)` this bounds what the dropped
carries can do.
-/

namespace CT.Rabbit

/-- The state after `k` rounds. -/
def orb : Nat → State → State
  | 0, s => s
  | k + 1, s => orb k (update s)

theorem orb_succ (k : Nat) (s : State) : orb (k + 1) s = update (orb k s) := by
  induction k generalizing s with
  | zero => rfl
  | succ k ih => rw [orb, ih, orb]

theorem orb_add (m n : Nat) (s : State) : orb (m + n) s = orb n (orb m s) := by
  induction m generalizing s with
  | zero => rw [Nat.zero_add, orb]
  | succ m ih => rw [Nat.add_right_comm, orb, ih, orb]

theorem orb_carry (k : Nat) (s : State) (h : s.carry.toNat ≤ 1) : (orb k s).carry.toNat ≤ 1 := by
  cases k with
  | zero => exact h
  | succ k => rw [orb_succ]; exact update_carry_le _

theorem extract_fst (s : State) : (extract s).1 = update s := by rw [extract]

theorem blkState_orb (k : Nat) (s : State) : blkState extract k s = orb k s := by
  induction k generalizing s with
  | zero => rfl
  | succ k ih => rw [blkState, extract_fst, ih, orb]

/-- How many of the next `k` rounds hit digit `j`. -/
def hits : Nat → State → Nat → Nat
  | 0, _, _ => 0
  | k + 1, s, j => hit s j + hits k (update s) j

theorem hits_succ (k : Nat) (s : State) (j : Nat) : hits (k + 1) s j = hits k s j + hit (orb k s) j := by
  induction k generalizing s with
  | zero => simp [hits, orb]
  | succ k ih => rw [hits, ih, hits, orb]; omega

theorem hits_add (m n : Nat) (s : State) (j : Nat) : hits (m + n) s j = hits m s j + hits n (orb m s) j := by
  induction m generalizing s with
  | zero => simp [hits, orb]
  | succ m ih => rw [Nat.add_right_comm, hits, ih, hits, orb]; omega

/-- How often a carry left the last digit. -/
def outs : Nat → State → Nat
  | 0, _ => 0
  | k + 1, s => (update s).carry.toNat + outs k (update s)

theorem orbit_eq (k : Nat) (s : State) (h : s.carry.toNat ≤ 1) :
    val (orb k s) + (orb k s).carry.toNat + (2 ^ 256 - 1) * outs k s +
      (2 ^ 32 * hits k s 0 + 2 ^ 64 * hits k s 1 + 2 ^ 96 * hits k s 2 + 2 ^ 128 * hits k s 3 +
       2 ^ 160 * hits k s 4 + 2 ^ 192 * hits k s 5 + 2 ^ 224 * hits k s 6 + 2 ^ 256 * hits k s 7) =
    val s + s.carry.toNat + k * aval := by
  induction k generalizing s with
  | zero => simp [orb, outs, hits]
  | succ k ih =>
    have e := ih (update s) (update_carry_le s)
    have r := round_eq s h
    simp only [orb, outs, hits, lost] at e r ⊢
    have a : (k + 1) * aval = k * aval + aval := Nat.succ_mul _ _
    rw [a]
    omega

theorem aa_cases (j : Nat) (hj : j < 8) : aa j = 0x4d34d34d ∨ aa j = 0xd34d34d3 ∨ aa j = 0x34d34d34 := by
  have : ∀ j : Fin 8, aa j.val = 0x4d34d34d ∨ aa j.val = 0xd34d34d3 ∨ aa j.val = 0x34d34d34 := by decide
  exact this ⟨j, hj⟩

theorem multiples (a : Nat) (ha : a = 0x4d34d34d ∨ a = 0xd34d34d3 ∨ a = 0x34d34d34) (t e : Nat)
    (h1 : 1 ≤ t) (h2 : t ≤ 62) (he : e ≤ t) : (t * a + e) % 2 ^ 32 ≠ 0 := by
  have D : ∀ t : Fin 63, 1 ≤ t.val → (0 < t.val * 0x4d34d34d % 2 ^ 32 ∧ t.val * 0x4d34d34d % 2 ^ 32 + t.val < 2 ^ 32) ∧
      (0 < t.val * 0xd34d34d3 % 2 ^ 32 ∧ t.val * 0xd34d34d3 % 2 ^ 32 + t.val < 2 ^ 32) ∧
      (0 < t.val * 0x34d34d34 % 2 ^ 32 ∧ t.val * 0x34d34d34 % 2 ^ 32 + t.val < 2 ^ 32) := by decide
  obtain ⟨d1, d2, d3⟩ := D ⟨t, by omega⟩ h1
  dsimp only at d1 d2 d3
  have G : ∀ x : Nat, 0 < x % 2 ^ 32 → x % 2 ^ 32 + t < 2 ^ 32 → (x + e) % 2 ^ 32 ≠ 0 := by
    intro x; omega
  rcases ha with rfl | rfl | rfl
  · exact G _ d1.1 d1.2
  · exact G _ d2.1 d2.2
  · exact G _ d3.1 d3.2

theorem after_hit {s : State} {j : Nat} (hj : j < 8) (h : hit s j = 1) (r : Nat) :
    ∃ e ≤ r, dg (orb r (update s)) j = (r * aa j + e) % 2 ^ 32 := by
  induction r with
  | zero =>
    refine ⟨0, Nat.le_refl _, ?_⟩
    rw [orb, update_dg s j hj]
    rw [hit] at h
    split at h
    · rename_i t; rw [t]; simp
    · omega
  | succ r ih =>
    obtain ⟨e, he, hd⟩ := ih
    have c := cin_le (orb r (update s)) (orb_carry r _ (update_carry_le s)) j
    refine ⟨e + cin (orb r (update s)) j, by omega, ?_⟩
    rw [orb_succ, update_dg _ j hj, hd, Nat.succ_mul]
    omega

theorem no_hit_after {s : State} {j : Nat} (hj : j < 8) (h : hit s j = 1) (r : Nat)
    (hr : r ≤ 61) : hit (orb r (update s)) j = 0 := by
  obtain ⟨e, he, hd⟩ := after_hit hj h r
  have c := cin_le (orb r (update s)) (orb_carry r _ (update_carry_le s)) j
  have m := multiples (aa j) (aa_cases j hj) (r + 1) (e + cin (orb r (update s)) j) (by omega) (by omega) (by omega)
  rw [hit, if_neg]
  intro t
  apply m
  rw [hd] at t
  rw [Nat.succ_mul]
  omega

theorem hits_zero_after {s : State} {j : Nat} (hj : j < 8) (h : hit s j = 1) (r : Nat)
    (hr : r ≤ 62) : hits r (update s) j = 0 := by
  induction r with
  | zero => rfl
  | succ r ih => rw [hits_succ, ih (by omega), no_hit_after hj h r (by omega)]

theorem hits_window {j : Nat} (hj : j < 8) (k : Nat) (hk : k ≤ 63) (s : State) (hs : s.carry.toNat ≤ 1) :
    hits k s j ≤ 1 := by
  induction k generalizing s with
  | zero => rw [hits]; omega
  | succ k ih =>
    rw [hits]
    by_cases h : hit s j = 1
    · rw [hits_zero_after hj h k (by omega)]; omega
    · have : hit s j = 0 := by
        rw [hit] at h ⊢; split at h
        · exact absurd rfl h
        · rename_i n; rw [if_neg n]
      have := ih (by omega) (update s) (update_carry_le s)
      omega

theorem hits_le {j : Nat} (hj : j < 8) (q r : Nat) (hr : r < 63) (s : State) (hs : s.carry.toNat ≤ 1) :
    hits (63 * q + r) s j ≤ q + (if r = 0 then 0 else 1) := by
  induction q generalizing s with
  | zero =>
    rw [Nat.mul_zero, Nat.zero_add]
    split
    · rename_i e; subst e; simp [hits]
    · have := hits_window hj r (by omega) s hs; omega
  | succ q ih =>
    have e : 63 * (q + 1) + r = 63 + (63 * q + r) := by omega
    have a := hits_window hj 63 (by omega) s hs
    have b := ih (orb 63 s) (orb_carry 63 s hs)
    rw [e, hits_add]
    omega

theorem no_solution0 (q b h0 h1 h2 h3 h4 h5 h6 h7 : Nat) (hq : q < 2 ^ 26)
    (H0 : h0 ≤ q) (H1 : h1 ≤ q) (H2 : h2 ≤ q) (H3 : h3 ≤ q) (H4 : h4 ≤ q) (H5 : h5 ≤ q) (H6 : h6 ≤ q) (H7 : h7 ≤ q)
    (e : (2 ^ 256 - 1) * b + (2 ^ 32 * h0 + 2 ^ 64 * h1 + 2 ^ 96 * h2 + 2 ^ 128 * h3 +
      2 ^ 160 * h4 + 2 ^ 192 * h5 + 2 ^ 224 * h6 + 2 ^ 256 * h7) = 63 * q * aval) : q = 0 := by
  rw [aval] at e
  have g : ∃ t, t = h0 + 2 ^ 32 * h1 + 2 ^ 64 * h2 + 2 ^ 96 * h3 + 2 ^ 128 * h4 + 2 ^ 160 * h5 + 2 ^ 192 * h6 :=
    ⟨_, rfl⟩
  obtain ⟨t, ht⟩ := g
  have tl : t < 2 ^ 222 := by
    replace H0 := Nat.lt_of_le_of_lt H0 hq
    replace H1 := Nat.lt_of_le_of_lt H1 hq
    replace H2 := Nat.lt_of_le_of_lt H2 hq
    replace H3 := Nat.lt_of_le_of_lt H3 hq
    replace H4 := Nat.lt_of_le_of_lt H4 hq
    replace H5 := Nat.lt_of_le_of_lt H5 hq
    replace H6 := Nat.lt_of_le_of_lt H6 hq
    clear e H7 hq
    omega
  have e' : (2 ^ 256 - 1) * b + (2 ^ 32 * t + 2 ^ 256 * h7) =
    63 * q * 0xd34d34d34d34d34d34d34d34d34d34d34d34d34d34d34d34d34d34d34d34d34d := by rw [← e, ht]; omega
  clear e ht H0 H1 H2 H3 H4 H5 H6
  have z : b + h7 = 52 * q := by omega
  have m : h7 + 2 ^ 32 * t = 39 * q := by omega
  omega

/-- Facts about the multiples of the constant. -/
theorem mul_facts : ∀ r : Fin 63, 1 ≤ r.val → r.val * aval % (2 ^ 256 - 1) < 2 ^ 256 - 1 - 2 ^ 250 ∧
    2 ^ 122 + 2 ^ 100 < r.val * aval % (2 ^ 256 - 1) % 2 ^ 128 ∧
    r.val * aval % (2 ^ 256 - 1) % 2 ^ 128 < 2 ^ 128 - 2 ^ 120 := by decide

theorem no_solution1 (q r b h0 h1 h2 h3 h4 h5 h6 h7 : Nat) (hr1 : 1 ≤ r) (hr : r < 63) (hq : q < 2 ^ 26)
    (H0 : h0 ≤ q + 1) (H1 : h1 ≤ q + 1) (H2 : h2 ≤ q + 1) (H3 : h3 ≤ q + 1) (H4 : h4 ≤ q + 1) (H5 : h5 ≤ q + 1)
    (H6 : h6 ≤ q + 1) (H7 : h7 ≤ q + 1)
    (e : (2 ^ 256 - 1) * b + (2 ^ 32 * h0 + 2 ^ 64 * h1 + 2 ^ 96 * h2 + 2 ^ 128 * h3 +
      2 ^ 160 * h4 + 2 ^ 192 * h5 + 2 ^ 224 * h6 + 2 ^ 256 * h7) = (63 * q + r) * aval) : False := by
  obtain ⟨f1, f2, f3⟩ := mul_facts ⟨r, hr⟩ hr1
  dsimp only at f1 f2 f3
  have g : ∃ t, t = h0 + 2 ^ 32 * h1 + 2 ^ 64 * h2 := ⟨_, rfl⟩
  have g' : ∃ u, u = h3 + 2 ^ 32 * h4 + 2 ^ 64 * h5 + 2 ^ 96 * h6 := ⟨_, rfl⟩
  obtain ⟨t, ht⟩ := g
  obtain ⟨u, hu⟩ := g'
  have tl : t ≤ 2 ^ 90 + 2 ^ 67 := by omega
  have ul : u < 2 ^ 123 := by omega
  have d := Nat.div_add_mod (r * aval) (2 ^ 256 - 1)
  generalize r * aval % (2 ^ 256 - 1) = x at *
  generalize r * aval / (2 ^ 256 - 1) = y at *
  have e' : (2 ^ 256 - 1) * b + (2 ^ 32 * t + 2 ^ 128 * u + 2 ^ 256 * h7) =
      63 * q * 0xd34d34d34d34d34d34d34d34d34d34d34d34d34d34d34d34d34d34d34d34d34d + ((2 ^ 256 - 1) * y + x) := by
    rw [d, Nat.add_mul] at *
    rw [← aval]
    omega
  clear e ht hu H0 H1 H2 H3 H4 H5 H6 d
  have z : b + h7 = 52 * q + y := by omega
  have m : h7 + 2 ^ 32 * t + 2 ^ 128 * u = 39 * q + x := by omega
  clear e' z
  have u1 : u < x / 2 ^ 128 + 1 := by omega
  have u2 : x / 2 ^ 128 < u + 1 := by omega
  have u3 : u = x / 2 ^ 128 := by omega
  omega

/-- Within `63 · 2^26` rounds the counters and the carry never come back. -/
theorem orb_ne (k : Nat) (s : State) (hs : s.carry.toNat ≤ 1) (h0 : 0 < k) (hk : k < 63 * 2 ^ 26) :
    val (orb k s) + (orb k s).carry.toNat ≠ val s + s.carry.toNat := by
  intro e
  have o := orbit_eq k s hs
  have o' : (2 ^ 256 - 1) * outs k s +
      (2 ^ 32 * hits k s 0 + 2 ^ 64 * hits k s 1 + 2 ^ 96 * hits k s 2 + 2 ^ 128 * hits k s 3 +
       2 ^ 160 * hits k s 4 + 2 ^ 192 * hits k s 5 + 2 ^ 224 * hits k s 6 + 2 ^ 256 * hits k s 7) =
     k * aval := by omega
  clear o
  have hk' : k = 63 * (k / 63) + k % 63 := by omega
  generalize k / 63 = q at hk'
  have hr : k % 63 < 63 := by omega
  generalize k % 63 = r at hk' hr
  have b : ∀ j < 8, hits k s j ≤ q + (if r = 0 then 0 else 1) := by
    intro j hj; rw [hk']; exact hits_le hj q r hr s hs
  by_cases r0 : r = 0
  · simp only [r0, if_true, Nat.add_zero] at b hk'
    have : q = 0 := no_solution0 q (outs k s) _ _ _ _ _ _ _ _ (by omega) (b 0 (by omega)) (b 1 (by omega)) (b 2 (by omega))
      (b 3 (by omega)) (b 4 (by omega)) (b 5 (by omega)) (b 6 (by omega)) (b 7 (by omega)) (by rw [o', hk'])
    omega
  · simp only [r0, if_false] at b
    exact no_solution1 q r (outs k s) _ _ _ _ _ _ _ _ (by omega) hr (by omega) (b 0 (by omega)) (b 1 (by omega))
      (b 2 (by omega)) (b 3 (by omega)) (b 4 (by omega)) (b 5 (by omega)) (b 6 (by omega)) (b 7 (by omega))
      (by rw [o', hk'])

end CT.Rabbit
