import Verif.Proof.Rabbit

/-!
# The counter system of Rabbit as arithmetic

`dg cs j` is counter `j` as a number, `cin cs j` the carry bit that enters digit `j` during the next
call of `rabbit_counter`, `hit cs j` is 1 when the sum formed at digit `j` is exactly `2^32` (the
case in which the code drops the carry).
-/

namespace CT.Rabbit

/-- Counter `j` as a number. -/
def dg (cs : State) (j : Nat) : Nat := (cs.C.toList.getD j 0).toNat

/-- The constants as numbers. -/
def aa (j : Nat) : Nat := (A.toList.getD j 0).toNat

/-- The carry entering digit `j`. -/
def cin (cs : State) : Nat → Nat
  | 0 => cs.carry.toNat
  | j + 1 => if 2 ^ 32 < dg cs j + aa j + cin cs j then 1 else 0

/-- The sum at digit `j` is exactly `2^32`. -/
def hit (cs : State) (j : Nat) : Nat := if dg cs j + aa j + cin cs j = 2 ^ 32 then 1 else 0

theorem dg_lt (cs : State) (j : Nat) : dg cs j < 2 ^ 32 := (cs.C.toList.getD j 0).isLt

theorem dg_fin (cs : State) (j : Fin 8) : dg cs j.val = cs.C[j].toNat := by
  rw [dg, List.getD_eq_getElem?_getD, List.getElem?_eq_getElem (by simp)]
  simp

theorem aa_fin (j : Fin 8) : aa j.val = A[j].toNat := by
  rw [aa, List.getD_eq_getElem?_getD, List.getElem?_eq_getElem (by simp)]
  simp

theorem cin_le (cs : State) (h : cs.carry.toNat ≤ 1) (j : Nat) : cin cs j ≤ 1 := by
  cases j with
  | zero => exact h
  | succ j => rw [cin]; split <;> omega

theorem counterStep_temp (cs : State) (j : Fin 8) :
    (cs.C[j].setWidth 64 + A[j].setWidth 64 + cs.carry.setWidth 64 : U64).toNat =
      dg cs j.val + aa j.val + cs.carry.toNat := by
  have h1 := cs.C[j].isLt
  have h2 := A[j].isLt
  have h3 := cs.carry.isLt
  rw [dg_fin, aa_fin]
  simp only [BitVec.toNat_add, BitVec.toNat_setWidth]
  omega

theorem counterStep_carry (cs : State) (j : Fin 8) : (counterStep cs j).carry.toNat =
    if 2 ^ 32 < dg cs j.val + aa j.val + cs.carry.toNat then 1 else 0 := by
  have h := counterStep_temp cs j
  simp only [counterStep, BitVec.lt_def]
  rw [h]
  have e : (0x100000000#64).toNat = 2 ^ 32 := rfl
  rw [e]
  split <;> rfl

theorem counterStep_dg (cs : State) (j : Fin 8) (i : Nat) (hi : i < 8) : dg (counterStep cs j) i =
    if i = j.val then (dg cs i + aa i + cs.carry.toNat) % 2 ^ 32 else dg cs i := by
  have h := counterStep_temp cs j
  have d1 := dg_fin (counterStep cs j) ⟨i, hi⟩
  have d2 := dg_fin cs ⟨i, hi⟩
  dsimp only at d1 d2
  rw [d1]
  by_cases e : i = j.val
  · rw [if_pos e]
    have : (⟨i, hi⟩ : Fin 8) = j := Fin.ext e
    rw [this, e]
    simp only [counterStep, Fin.getElem_fin, Vector.getElem_set_self, BitVec.toNat_setWidth, BitVec.toNat_umod]
    simp only [Fin.getElem_fin] at h
    rw [h]
    have e : (0x100000000#64).toNat = 2 ^ 32 := rfl
    rw [e]; omega
  · rw [if_neg e, d2]
    simp only [counterStep, Fin.getElem_fin]
    rw [Vector.getElem_set_ne]
    omega

/-- The first `k` rounds of the loop of `rabbit_counter`. -/
def steps (cs : State) : Nat → State
  | 0 => cs
  | k + 1 => counterStep (steps cs k) ⟨k % 8, Nat.mod_lt _ (by decide)⟩

theorem counter_steps (cs : State) : counter cs = steps cs 8 := rfl

theorem steps_spec (cs : State) (k : Nat) (hk : k ≤ 8) : (steps cs k).carry.toNat = cin cs k ∧
    ∀ i < 8, dg (steps cs k) i = if i < k then (dg cs i + aa i + cin cs i) % 2 ^ 32 else dg cs i := by
  induction k with
  | zero => exact ⟨rfl, fun i _ => by simp [steps]⟩
  | succ k ih =>
    obtain ⟨h1, h2⟩ := ih (by omega)
    have hk8 : (⟨k % 8, Nat.mod_lt _ (by decide)⟩ : Fin 8) = ⟨k, by omega⟩ :=
      Fin.ext (Nat.mod_eq_of_lt (by omega))
    refine ⟨?_, fun i hi => ?_⟩
    · rw [steps, hk8, counterStep_carry, cin, h1]
      dsimp only
      rw [h2 k (by omega), if_neg (Nat.lt_irrefl k)]
    · rw [steps, hk8, counterStep_dg _ _ _ hi, h1, h2 i hi]
      dsimp only
      by_cases e : i = k
      · subst e
        rw [if_pos rfl, if_neg (by omega), if_pos (by omega)]
      · rw [if_neg e]
        by_cases e2 : i < k
        · rw [if_pos e2, if_pos (by omega)]
        · rw [if_neg e2, if_neg (by omega)]

theorem counter_dg (cs : State) (j : Nat) (hj : j < 8) :
    dg (counter cs) j = (dg cs j + aa j + cin cs j) % 2 ^ 32 := by
  rw [counter_steps, (steps_spec cs 8 (by omega)).2 j hj, if_pos hj]

theorem counter_carry (cs : State) : (counter cs).carry.toNat = cin cs 8 := by
  rw [counter_steps, (steps_spec cs 8 (by omega)).1]

theorem nextState_C (cs : State) : (nextState cs).C = cs.C := rfl
theorem nextState_carry (cs : State) : (nextState cs).carry = cs.carry := rfl

theorem update_dg (cs : State) (j : Nat) (hj : j < 8) :
    dg (update cs) j = (dg cs j + aa j + cin cs j) % 2 ^ 32 := by
  rw [dg, update, nextState_C, ← dg, counter_dg cs j hj]

theorem update_carry (cs : State) : (update cs).carry.toNat = cin cs 8 := by
  rw [update, nextState_carry, counter_carry cs]

theorem update_carry_le (cs : State) : (update cs).carry.toNat ≤ 1 := by
  rw [update_carry, cin]; split <;> omega

/-- What one round does at digit `j`. -/
theorem digit_eq (cs : State) (h : cs.carry.toNat ≤ 1) (j : Nat) (hj : j < 8) :
    dg (update cs) j + 2 ^ 32 * (cin cs (j + 1) + hit cs j) = dg cs j + aa j + cin cs j := by
  have h1 := dg_lt cs j
  have h2 : aa j < 2 ^ 32 := (A.toList.getD j 0).isLt
  have h3 := cin_le cs h j
  rw [update_dg cs j hj, cin, hit]
  split <;> split <;> omega

/-- The eight counters as one number. -/
def val (cs : State) : Nat := dg cs 0 + 2 ^ 32 * dg cs 1 + 2 ^ 64 * dg cs 2 + 2 ^ 96 * dg cs 3 +
  2 ^ 128 * dg cs 4 + 2 ^ 160 * dg cs 5 + 2 ^ 192 * dg cs 6 + 2 ^ 224 * dg cs 7

/-- What the dropped carries of one round are worth. -/
def lost (cs : State) : Nat := 2 ^ 32 * hit cs 0 + 2 ^ 64 * hit cs 1 + 2 ^ 96 * hit cs 2 + 2 ^ 128 * hit cs 3 +
  2 ^ 160 * hit cs 4 + 2 ^ 192 * hit cs 5 + 2 ^ 224 * hit cs 6 + 2 ^ 256 * hit cs 7

/-- The constants as one number. -/
def aval : Nat := 0xd34d34d34d34d34d34d34d34d34d34d34d34d34d34d34d34d34d34d34d34d34d

theorem aval_eq : aval = aa 0 + 2 ^ 32 * aa 1 + 2 ^ 64 * aa 2 + 2 ^ 96 * aa 3 +
    2 ^ 128 * aa 4 + 2 ^ 160 * aa 5 + 2 ^ 192 * aa 6 + 2 ^ 224 * aa 7 := by decide

/-- One round, all digits together. -/
theorem round_eq (cs : State) (h : cs.carry.toNat ≤ 1) :
    val (update cs) + 2 ^ 256 * (update cs).carry.toNat + lost cs = val cs + cs.carry.toNat + aval := by
  have h0 := digit_eq cs h 0 (by omega)
  have h1 := digit_eq cs h 1 (by omega)
  have h2 := digit_eq cs h 2 (by omega)
  have h3 := digit_eq cs h 3 (by omega)
  have h4 := digit_eq cs h 4 (by omega)
  have h5 := digit_eq cs h 5 (by omega)
  have h6 := digit_eq cs h 6 (by omega)
  have h7 := digit_eq cs h 7 (by omega)
  rw [aval_eq, update_carry]
  have hc : cin cs 0 = cs.carry.toNat := rfl
  rw [hc] at h0
  simp only [Nat.zero_add, Nat.reduceAdd] at h0 h1 h2 h3 h4 h5 h6 h7
  simp only [val, lost]
  omega

end CT.Rabbit
