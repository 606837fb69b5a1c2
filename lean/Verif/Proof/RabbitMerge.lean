import Verif.Proof.RabbitPeriod

/-!
# When two runs of Rabbit's counter system meet

`tl s j` is the number that the counters `j .. 7` write.  Two states whose numbers (with the carry bit
added) differ keep different numbers, except when the counters are a `Clash`.
-/

namespace CT.Rabbit

/-- The number written by `n` counters from counter `j` on. -/
def dsum (s : State) : Nat → Nat → Nat
  | 0, _ => 0
  | n + 1, j => dg s j + 2 ^ 32 * dsum s n (j + 1)

/-- All eight counters and the carry bit as one number. -/
def num (s : State) : Nat := dsum s 8 0 + s.carry.toNat

/-- The one pattern in which different counters can meet: every counter from the second on is 0 in one state and
all ones in the other, or reaches exactly `2^32` in one state and `2^32 - 1` in the other. -/
def Clash (s t : State) : Prop := ∀ j, 1 ≤ j → j < 8 →
  (dg s j = 0 ∧ dg t j = 2 ^ 32 - 1) ∨ (dg s j + aa j = 2 ^ 32 ∧ dg t j + aa j = 2 ^ 32 - 1)

theorem aa_bounds (j : Nat) (hj : j < 8) : 0 < aa j ∧ aa j < 2 ^ 32 - 1 := by
  rcases aa_cases j hj with h | h | h <;> rw [h] <;> decide

theorem dsum_inj (s t : State) (n j : Nat) (h : dsum s n j = dsum t n j) :
    ∀ i, j ≤ i → i < j + n → dg s i = dg t i := by
  induction n generalizing j with
  | zero => intro i h1 h2; omega
  | succ n ih =>
    rw [dsum, dsum] at h
    have l1 := dg_lt s j
    have l2 := dg_lt t j
    intro i h1 h2
    by_cases e : i = j
    · subst e; omega
    · exact ih (j + 1) (by omega) i (by omega) (by omega)

theorem dsum_congr (s t : State) (n j : Nat) (h : ∀ i, j ≤ i → i < j + n → dg s i = dg t i) :
    dsum s n j = dsum t n j := by
  induction n generalizing j with
  | zero => rfl
  | succ n ih =>
    rw [dsum, dsum, h j (by omega) (by omega), ih (j + 1) (fun i h1 h2 => h i (by omega) (by omega))]

/-- Equal results from equal carries out come from equal numbers. -/
theorem back_eq (s t : State) (hs : s.carry.toNat ≤ 1) (ht : t.carry.toNat ≤ 1) (n j : Nat) (e : j + n = 8)
    (hc : cin s 8 = cin t 8) (h : ∀ i, j ≤ i → i < 8 → dg (update s) i = dg (update t) i) :
    dsum s n j + cin s j = dsum t n j + cin t j := by
  induction n generalizing j with
  | zero => have : j = 8 := e; subst this; rw [dsum, dsum, hc]
  | succ n ih =>
    have hj : j < 8 := by omega
    have r := ih (j + 1) (by omega) (fun i h1 h2 => h i (by omega) h2)
    have d := h j (Nat.le_refl j) hj
    have l1 := dg_lt s j
    have l2 := dg_lt t j
    have c1 := cin_le s hs j
    have c2 := cin_le t ht j
    have a := aa_bounds j hj
    rw [update_dg s j hj, update_dg t j hj] at d
    rw [cin, cin] at r
    rw [dsum, dsum]
    split at r <;> split at r <;> omega

/-- Equal results from different carries out come from zeros and ones. -/
theorem back_split (s t : State) (hs : s.carry.toNat ≤ 1) (ht : t.carry.toNat ≤ 1) (n j : Nat) (e : j + n = 8)
    (c0 : cin s 8 = 0) (c1 : cin t 8 = 1) (h : ∀ i, j ≤ i → i < 8 → dg (update s) i = dg (update t) i) :
    cin s j = 0 ∧ cin t j = 1 ∧ ∀ i, j ≤ i → i < 8 → dg s i = 0 ∧ dg t i = 2 ^ 32 - 1 := by
  induction n generalizing j with
  | zero => have : j = 8 := e; subst this; exact ⟨c0, c1, fun i h1 h2 => by omega⟩
  | succ n ih =>
    have hj : j < 8 := by omega
    obtain ⟨r0, r1, r⟩ := ih (j + 1) (by omega) (fun i h1 h2 => h i (by omega) h2)
    have d := h j (Nat.le_refl j) hj
    have l1 := dg_lt s j
    have l2 := dg_lt t j
    have k1 := cin_le s hs j
    have k2 := cin_le t ht j
    have a := aa_bounds j hj
    rw [update_dg s j hj, update_dg t j hj] at d
    rw [cin] at r0 r1
    have r0' : ¬ 2 ^ 32 < dg s j + aa j + cin s j := by intro x; rw [if_pos x] at r0; omega
    have r1' : 2 ^ 32 < dg t j + aa j + cin t j := by
      apply Classical.byContradiction; intro x; rw [if_neg x] at r1; omega
    refine ⟨by omega, by omega, fun i h1 h2 => ?_⟩
    by_cases e : i = j
    · subst e; omega
    · exact r i (by omega) h2

/-- Results that differ by one, carries out that make up for it. -/
theorem back_succ (s t : State) (hs : s.carry.toNat ≤ 1) (ht : t.carry.toNat ≤ 1) (n j : Nat) (e : j + n = 8)
    (c0 : cin s 8 = 0) (c1 : cin t 8 = 1) (h : dsum (update s) n j = dsum (update t) n j + 1) :
    (∀ i, j + 1 ≤ i → i < 8 →
      (dg s i = 0 ∧ dg t i = 2 ^ 32 - 1) ∨ (dg s i + aa i = 2 ^ 32 ∧ dg t i + aa i = 2 ^ 32 - 1)) ∧
    (cin s j = 0 → cin t j = 0 → j < 8 →
      (dg s j = 0 ∧ dg t j = 2 ^ 32 - 1) ∨ (dg s j + aa j = 2 ^ 32 ∧ dg t j + aa j = 2 ^ 32 - 1)) := by
  induction n generalizing j with
  | zero => rw [dsum, dsum] at h; omega
  | succ n ih =>
    have hj : j < 8 := by omega
    rw [dsum, dsum] at h
    have l1 := dg_lt s j
    have l2 := dg_lt t j
    have m1 := dg_lt (update s) j
    have m2 := dg_lt (update t) j
    have k1 := cin_le s hs j
    have k2 := cin_le t ht j
    have a := aa_bounds j hj
    by_cases z : dg (update s) j = 0
    · have z' : dg (update t) j = 2 ^ 32 - 1 := by omega
      have r := ih (j + 1) (by omega) (by omega)
      rw [update_dg _ _ hj] at z z'
      have y : dg s j + aa j + cin s j = 2 ^ 32 := by omega
      have y' : dg t j + aa j + cin t j = 2 ^ 32 - 1 := by omega
      have x : cin s (j + 1) = 0 := by rw [cin, if_neg (by omega)]
      have x' : cin t (j + 1) = 0 := by rw [cin, if_neg (by omega)]
      refine ⟨fun i h1 h2 => ?_, fun _ _ _ => by omega⟩
      by_cases e : i = j + 1
      · subst e; exact r.2 x x' h2
      · exact r.1 i (by omega) h2
    · have z' : dg (update s) j = dg (update t) j + 1 := by omega
      have w : dsum (update s) n (j + 1) = dsum (update t) n (j + 1) := by omega
      have v := dsum_inj _ _ n (j + 1) w
      obtain ⟨r0, r1, r⟩ := back_split s t hs ht n (j + 1) (by omega) c0 c1 (fun i h1 h2 => v i h1 (by omega))
      refine ⟨fun i h1 h2 => .inl (r i h1 h2), fun b0 b1 _ => .inl ?_⟩
      rw [update_dg _ _ hj, update_dg _ _ hj, b0, b1] at z'
      rw [cin, b0] at r0
      rw [cin, b1] at r1
      have r0' : ¬ 2 ^ 32 < dg s j + aa j + 0 := by intro x; rw [if_pos x] at r0; omega
      have r1' : 2 ^ 32 < dg t j + aa j + 0 := by
        apply Classical.byContradiction; intro x; rw [if_neg x] at r1; omega
      omega

theorem num_update (s : State) : num (update s) = dsum (update s) 8 0 + cin s 8 := by rw [num, update_carry]

/-- Numbers that become equal were equal, or the counters clash. -/
theorem num_back (s t : State) (hs : s.carry.toNat ≤ 1) (ht : t.carry.toNat ≤ 1)
    (h : num (update s) = num (update t)) : num s = num t ∨ Clash s t ∨ Clash t s := by
  rw [num_update, num_update] at h
  have k1 := cin_le s hs 8
  have k2 := cin_le t ht 8
  by_cases e : cin s 8 = cin t 8
  · have d := dsum_inj _ _ 8 0 (by omega : dsum (update s) 8 0 = dsum (update t) 8 0)
    exact .inl (back_eq s t hs ht 8 0 rfl e (fun i h1 h2 => d i h1 h2))
  · by_cases c : cin s 8 = 0
    · exact .inr (.inl (back_succ s t hs ht 8 0 rfl c (by omega) (by omega)).1)
    · exact .inr (.inr (back_succ t s ht hs 8 0 rfl (by omega) (by omega) (by omega)).1)

theorem orb_back (n : Nat) (s t : State) (hs : s.carry.toNat ≤ 1) (ht : t.carry.toNat ≤ 1)
    (h : num (orb n s) = num (orb n t)) :
    num s = num t ∨ ∃ i < n, Clash (orb i s) (orb i t) ∨ Clash (orb i t) (orb i s) := by
  induction n with
  | zero => exact .inl h
  | succ n ih =>
    rw [orb_succ, orb_succ] at h
    rcases num_back _ _ (orb_carry n s hs) (orb_carry n t ht) h with h | h
    · rcases ih h with h | ⟨i, hi, h⟩
      · exact .inl h
      · exact .inr ⟨i, by omega, h⟩
    · exact .inr ⟨n, by omega, h⟩

theorem C_eq_of_dg {s t : State} (h : ∀ i < 8, dg s i = dg t i) : s.C = t.C := by
  apply Vector.ext
  intro i hi
  have := h i hi
  have d1 := dg_fin s ⟨i, hi⟩
  have d2 := dg_fin t ⟨i, hi⟩
  dsimp only [Fin.getElem_fin] at d1 d2
  apply BitVec.eq_of_toNat_eq
  rw [← d1, ← d2, this]

/-- The numbers agree when counters and carry agree. -/
theorem num_congr {s t : State} (h1 : s.C = t.C) (h2 : s.carry = t.carry) : num s = num t := by
  rw [num, num, h2, dsum_congr s t 8 0 (fun i _ _ => by rw [dg, dg, h1])]

theorem val_num (s : State) : num s = val s + s.carry.toNat := by
  simp only [num, val, dsum, Nat.reduceAdd]; omega

/-! ### Runs without an exact sum -/

theorem hit_R_aux (cs : State) (js : List (Fin 8)) (k : Nat) (hjs : js.map Fin.val = List.range' k js.length)
    (hk : k + js.length = 8) {s : Spec.Rabbit.St} (h : R (steps cs k) s) (hh : Spec.Rabbit.hit js s = false) :
    ∀ i, k ≤ i → i < 8 → hit cs i = 0 := by
  induction js generalizing k s with
  | nil => intro i h1 h2; simp only [List.length_nil] at hk; omega
  | cons j js ih =>
    simp only [List.length_cons] at hk
    simp only [List.map_cons, List.length_cons, List.range'_succ, List.cons.injEq] at hjs
    obtain ⟨hj, hjs⟩ := hjs
    simp only [Spec.Rabbit.hit, Bool.or_eq_false_iff, beq_eq_false_iff_ne] at hh
    have hk8 : (⟨k % 8, Nat.mod_lt _ (by decide)⟩ : Fin 8) = j := Fin.ext (by rw [← hj]; dsimp only; omega)
    have r := counterStep_R h j hh.1
    have r' : R (steps cs (k + 1)) (Spec.Rabbit.counterStep s j) := by rw [steps, hk8]; exact r
    intro i h1 h2
    by_cases e : i = k
    · subst e
      have hA : Spec.Rabbit.A = CT.Rabbit.A := rfl
      have sp := steps_spec cs i (by omega)
      have t : Spec.Rabbit.temp s j = dg cs i + aa i + cin cs i := by
        have d := sp.2 i h2
        rw [if_neg (Nat.lt_irrefl i)] at d
        rw [Spec.Rabbit.temp, ← h.C, ← h.b, sp.1, hA, ← dg_fin, ← aa_fin, hj, d]
      rw [t] at hh
      rw [hit, if_neg hh.1]
    · exact ih (k + 1) hjs (by omega) r' hh.2 i (by omega) h2

theorem hit_R {cs : State} {s : Spec.Rabbit.St} (h : R cs s)
    (hh : Spec.Rabbit.hit [0, 1, 2, 3, 4, 5, 6, 7] s = false) (j : Nat) (hj : j < 8) : hit cs j = 0 :=
  hit_R_aux cs [0, 1, 2, 3, 4, 5, 6, 7] 0 rfl rfl h hh j (Nat.zero_le j) hj

theorem hits_clean (k : Nat) {cs : State} {s : Spec.Rabbit.St} (h : R cs s) (hh : Spec.Rabbit.clean k s = true)
    (j : Nat) (hj : j < 8) : hits k cs j = 0 := by
  induction k generalizing cs s with
  | zero => rfl
  | succ k ih =>
    obtain ⟨a, b⟩ := clean_succ hh
    rw [hits, hit_R h a j hj, ih (update_R h a) b]

/-- The constant is invertible modulo `2^256 - 1`. -/
theorem aval_inv : 41566391008267352203333174105682838716558456033819689655189901951558559357927 * aval =
    1 + (2 ^ 256 - 1) * 34308767181427020866243254817389009734302217678708315270950395261603890263686 := by decide

theorem dvd_of_mul (k o : Nat) (h : k * aval = (2 ^ 256 - 1) * o) : (2 ^ 256 - 1) ∣ k := by
  have i := aval_inv
  generalize 2 ^ 256 - 1 = M at *
  generalize 41566391008267352203333174105682838716558456033819689655189901951558559357927 = v at *
  generalize 34308767181427020866243254817389009734302217678708315270950395261603890263686 = w at *
  generalize aval = a at *
  have e : k + M * (w * k) = M * (o * v) := by
    have e1 : k * a * v = M * o * v := by rw [h]
    have e2 : k * a * v = k * (v * a) := by rw [Nat.mul_assoc, Nat.mul_comm a v]
    rw [e2, i, Nat.mul_add, Nat.mul_one] at e1
    rw [Nat.mul_assoc M o v] at e1
    rw [← e1, Nat.mul_comm w k, Nat.mul_left_comm]
  have d1 : M ∣ k + M * (w * k) := by rw [e]; exact Nat.dvd_mul_right _ _
  exact (Nat.dvd_add_left (Nat.dvd_mul_right M (w * k))).mp d1

/-- Without an exact sum the counters come back only after a multiple of `2^256 - 1` rounds. -/
theorem orb_period (k : Nat) {cs : State} {s : Spec.Rabbit.St} (h : R cs s) (hh : Spec.Rabbit.clean k s = true)
    (e : num (orb k cs) = num cs) : (2 ^ 256 - 1) ∣ k := by
  have o := orbit_eq k cs (by rw [h.b]; exact h.b1)
  rw [val_num, val_num] at e
  have z := fun j hj => hits_clean k h hh j hj
  rw [z 0 (by omega), z 1 (by omega), z 2 (by omega), z 3 (by omega), z 4 (by omega), z 5 (by omega),
    z 6 (by omega), z 7 (by omega)] at o
  exact dvd_of_mul k (outs k cs) (by omega)

end CT.Rabbit
