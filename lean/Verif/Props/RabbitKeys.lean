import Verif.Props.RabbitPeriod

/-!
# Rabbit: no two keys lead into the same state (C155)

The counters after the four updates of `rabbit_load_key` can be computed from the object (`counters`).  Run
backwards they give the key, up to one pair of keys.
-/

namespace CT.Props.RabbitKeys
open CT.Rabbit CT.Props.Rabbit CT.Props.RabbitPeriod

/-- A counter after `i` updates: `i` times its constant, and at most `i` carries, later. -/
theorem orb_dg (s : State) (hs : s.carry.toNat ≤ 1) (j : Nat) (hj : j < 8) : ∀ i, ∃ e ≤ i, dg (orb i s) j = (dg s j + i * aa j + e) % 2 ^ 32
  | 0 => ⟨0, Nat.le_refl 0, by rw [orb]; have := dg_lt s j; omega⟩
  | i + 1 => by
    obtain ⟨e, he, h⟩ := orb_dg s hs j hj i
    have c := cin_le (orb i s) (orb_carry i s hs) j
    refine ⟨e + cin (orb i s) j, by omega, ?_⟩
    rw [orb_succ, update_dg _ j hj, h, Nat.add_mul]
    omega

/-- Half words of the key. -/
def hw (key : List U8) (i : Nat) : Nat := (u16 key i).toNat

theorem hw_lt (key : List U8) (i : Nat) : hw key i < 2 ^ 16 := by
  rw [hw, u16_toNat]; exact bits_lt _ _ _

theorem hw_eq (key : List U8) (i : Nat) : hw key i = (key.getD (2 * i) 0).toNat + 256 * (key.getD (2 * i + 1) 0).toNat := by
  rw [hw, u16]
  generalize key.getD (2 * i) 0 = a
  generalize key.getD (2 * i + 1) 0 = b
  have ha := a.isLt
  have hb := b.isLt
  rw [BitVec.toNat_or, BitVec.toNat_shiftLeft, BitVec.toNat_setWidth, BitVec.toNat_setWidth, Nat.shiftLeft_eq,
    Nat.mod_eq_of_lt (show a.toNat < 2 ^ 32 by omega), Nat.mod_eq_of_lt (show b.toNat < 2 ^ 32 by omega),
    Nat.mod_eq_of_lt (show b.toNat * 2 ^ 8 < 2 ^ 32 by omega), Nat.or_comm, Nat.mul_comm b.toNat, ← Nat.two_pow_add_eq_or_of_lt (by omega)]
  omega

theorem cat_toNat (key : List U8) (i j : Nat) : (u16 key i <<< 16 ||| u16 key j).toNat = 65536 * hw key i + hw key j := by
  have h1 := hw_lt key i
  have h2 := hw_lt key j
  rw [hw] at h1 h2
  rw [BitVec.toNat_or, BitVec.toNat_shiftLeft, Nat.shiftLeft_eq, hw, hw, Nat.mod_eq_of_lt (by omega), Nat.mul_comm _ (2 ^ 16),
    ← Nat.two_pow_add_eq_or_of_lt (by omega)]

/-- The eight counters before the updates. -/
theorem expand_dg (key : List U8) :
    dg (loadKeyExpand key) 0 = 65536 * hw key 4 + hw key 5 ∧ dg (loadKeyExpand key) 1 = 65536 * hw key 1 + hw key 2 ∧
    dg (loadKeyExpand key) 2 = 65536 * hw key 6 + hw key 7 ∧ dg (loadKeyExpand key) 3 = 65536 * hw key 3 + hw key 4 ∧
    dg (loadKeyExpand key) 4 = 65536 * hw key 0 + hw key 1 ∧ dg (loadKeyExpand key) 5 = 65536 * hw key 5 + hw key 6 ∧
    dg (loadKeyExpand key) 6 = 65536 * hw key 2 + hw key 3 ∧ dg (loadKeyExpand key) 7 = 65536 * hw key 7 + hw key 0 := by
  refine ⟨?_, ?_, ?_, ?_, ?_, ?_, ?_, ?_⟩ <;> rw [← cat_toNat] <;> rfl

theorem expand_carry (key : List U8) : (loadKeyExpand key).carry.toNat ≤ 1 := by
  show (0 : U8).toNat ≤ 1
  decide

theorem aa_vals : aa 1 = 0xd34d34d3 ∧ aa 2 = 0x34d34d34 ∧ aa 3 = 0x4d34d34d ∧ aa 4 = 0xd34d34d3 ∧ aa 5 = 0x34d34d34 ∧
    aa 6 = 0x4d34d34d ∧ aa 7 = 0xd34d34d3 := by decide

/-- A clash within the four updates: only before the first one, and for one pair of keys. -/
theorem clash_keys (k k' : List U8) (i : Nat) (hi : i < 4) (h : Clash (orb i (loadKeyExpand k)) (orb i (loadKeyExpand k'))) :
    i = 0 ∧ ∀ m < 8, hw k m = 0 ∧ hw k' m = 65535 := by
  obtain ⟨a1, a2, a3, a4, a5, a6, a7⟩ := aa_vals
  obtain ⟨-, d1, d2, d3, d4, d5, d6, d7⟩ := expand_dg k
  obtain ⟨-, e1, e2, e3, e4, e5, e6, e7⟩ := expand_dg k'
  have l := hw_lt k
  have l' := hw_lt k'
  have i0 : i = 0 := by
    obtain ⟨x5, y5, z5⟩ := orb_dg _ (expand_carry k) 5 (by omega) i
    obtain ⟨x2, y2, z2⟩ := orb_dg _ (expand_carry k) 2 (by omega) i
    have c5 := h 5 (by omega) (by omega)
    have c2 := h 2 (by omega) (by omega)
    have b5 := dg_lt (orb i (loadKeyExpand k)) 5
    have b2 := dg_lt (orb i (loadKeyExpand k)) 2
    rw [d5, a5] at z5
    rw [d2, a2] at z2
    rw [a5] at c5
    rw [a2] at c2
    have p5 := l 5; have p6 := l 6; have p7 := l 7
    have q5 : dg (orb i (loadKeyExpand k)) 5 = 0 ∨ dg (orb i (loadKeyExpand k)) 5 = 2 ^ 32 - 0x34d34d34 := by omega
    have q2 : dg (orb i (loadKeyExpand k)) 2 = 0 ∨ dg (orb i (loadKeyExpand k)) 2 = 2 ^ 32 - 0x34d34d34 := by omega
    clear c5 c2 h
    rcases (by omega : i = 0 ∨ i = 1 ∨ i = 2 ∨ i = 3) with r | r | r | r
    · exact r
    all_goals
      exfalso
      subst r
      rcases q5 with q5 | q5 <;> rcases q2 with q2 | q2 <;> rw [q5] at z5 <;> rw [q2] at z2 <;> omega
  refine ⟨i0, ?_⟩
  subst i0
  rw [orb, orb] at h
  have c1 := h 1 (by omega) (by omega)
  have c2 := h 2 (by omega) (by omega)
  have c3 := h 3 (by omega) (by omega)
  have c4 := h 4 (by omega) (by omega)
  have c5 := h 5 (by omega) (by omega)
  have c6 := h 6 (by omega) (by omega)
  have c7 := h 7 (by omega) (by omega)
  rw [d1, e1, a1] at c1
  rw [d2, e2, a2] at c2
  rw [d3, e3, a3] at c3
  rw [d4, e4, a4] at c4
  rw [d5, e5, a5] at c5
  rw [d6, e6, a6] at c6
  rw [d7, e7, a7] at c7
  have p0 := l 0; have p1 := l 1; have p2 := l 2; have p3 := l 3; have p4 := l 4; have p5 := l 5; have p6 := l 6; have p7 := l 7
  have r0 := l' 0; have r1 := l' 1; have r2 := l' 2; have r3 := l' 3; have r4 := l' 4; have r5 := l' 5; have r6 := l' 6; have r7 := l' 7
  clear d1 d2 d3 d4 d5 d6 d7 e1 e2 e3 e4 e5 e6 e7 l l'
  have s5 : hw k 5 = 0 ∧ hw k 6 = 0 ∧ hw k' 5 = 65535 ∧ hw k' 6 = 65535 := by clear c1 c3 c4 c6 c7; omega
  have s2 : hw k 7 = 0 ∧ hw k' 7 = 65535 := by clear c1 c3 c4 c6 c7; omega
  have s7 : hw k 0 = 0 ∧ hw k' 0 = 65535 := by clear c1 c3 c4 c6 c5; omega
  have s4 : hw k 1 = 0 ∧ hw k' 1 = 65535 := by clear c1 c3 c2 c6 c5; omega
  have s1 : hw k 2 = 0 ∧ hw k' 2 = 65535 := by clear c4 c3 c2 c6 c5; omega
  have s6 : hw k 3 = 0 ∧ hw k' 3 = 65535 := by clear c4 c3 c2 c1 c5; omega
  have s3 : hw k 4 = 0 ∧ hw k' 4 = 65535 := by clear c4 c6 c2 c1 c5; omega
  intro m hm
  rcases (by omega : m = 0 ∨ m = 1 ∨ m = 2 ∨ m = 3 ∨ m = 4 ∨ m = 5 ∨ m = 6 ∨ m = 7) with r | r | r | r | r | r | r | r <;> subst r
  · exact s7
  · exact s4
  · exact s1
  · exact s6
  · exact s3
  · exact ⟨s5.1, s5.2.2.1⟩
  · exact ⟨s5.2.1, s5.2.2.2⟩
  · exact s2

theorem getD_get (k : List U8) {n : Nat} (h : n < k.length) : k.getD n 0 = k[n] := by
  rw [List.getD_eq_getElem?_getD, List.getElem?_eq_getElem h]; rfl

theorem hw_key (k : List U8) (hk : k.length = 16) (v : U8) (h : ∀ m < 8, hw k m = 257 * v.toNat) : k = List.replicate 16 v := by
  apply List.ext_getElem (by rw [hk, List.length_replicate])
  intro n h1 h2
  rw [List.getElem_replicate]
  have e := h (n / 2) (by omega)
  rw [hw_eq] at e
  have l1 := (k.getD (2 * (n / 2)) 0).isLt
  have l2 := (k.getD (2 * (n / 2) + 1) 0).isLt
  have l3 := v.isLt
  apply BitVec.eq_of_toNat_eq
  rw [← getD_get _ h1]
  rcases Nat.mod_two_eq_zero_or_one n with p | p
  · rw [show 2 * (n / 2) = n by omega] at *; omega
  · rw [show 2 * (n / 2) + 1 = n by omega] at *; omega

theorem hw_inj (k k' : List U8) (hk : k.length = 16) (hk' : k'.length = 16) (h : ∀ m < 8, hw k m = hw k' m) : k = k' := by
  apply List.ext_getElem (by rw [hk, hk'])
  intro n h1 h2
  have e := h (n / 2) (by omega)
  rw [hw_eq, hw_eq] at e
  have l1 := (k.getD (2 * (n / 2)) 0).isLt
  have l2 := (k.getD (2 * (n / 2) + 1) 0).isLt
  have l3 := (k'.getD (2 * (n / 2)) 0).isLt
  have l4 := (k'.getD (2 * (n / 2) + 1) 0).isLt
  apply BitVec.eq_of_toNat_eq
  rw [← getD_get _ h1, ← getD_get _ h2]
  rcases Nat.mod_two_eq_zero_or_one n with p | p
  · rw [show 2 * (n / 2) = n by omega] at *; omega
  · rw [show 2 * (n / 2) + 1 = n by omega] at *; omega

/-- The counters as they were before the last loop of `rabbit_load_key`, computed from what the object keeps. -/
def counters (cs : State) : Vector U32 8 := Vector.ofFn fun j : Fin 8 => cs.MC[j] ^^^ cs.MX[(j.val + 4) % 8]'(by omega)

theorem counters_loadKey (key : List U8) : counters (loadKey key) = (update4 (loadKeyExpand key)).C := by
  unfold counters loadKey
  generalize update4 (loadKeyExpand key) = s
  apply Vector.ext
  intro i hi
  simp [BitVec.xor_assoc]

theorem loadKey_carry_eq (key : List U8) : (loadKey key).carry = (update4 (loadKeyExpand key)).carry := by
  unfold loadKey
  generalize update4 (loadKeyExpand key) = s
  rfl

theorem num_dg (s t : State) (h : s.carry = t.carry) (n : num s = num t) : ∀ i, 0 ≤ i → i < 0 + 8 → dg s i = dg t i := by
  rw [num, num, h] at n
  exact dsum_inj _ _ 8 0 (by omega)

theorem num_key (k k' : List U8) (hk : k.length = 16) (hk' : k'.length = 16) (n : num (loadKeyExpand k) = num (loadKeyExpand k')) : k = k' := by
  have d := num_dg (loadKeyExpand k) (loadKeyExpand k') (by unfold loadKeyExpand; rfl) n
  obtain ⟨a0, a1, a2, a3, a4, a5, a6, a7⟩ := expand_dg k
  obtain ⟨b0, b1, b2, b3, b4, b5, b6, b7⟩ := expand_dg k'
  have l := hw_lt k
  have l' := hw_lt k'
  have c : ∀ x y x' y', y < 2 ^ 16 → y' < 2 ^ 16 → 65536 * x + y = 65536 * x' + y' → x = x' ∧ y = y' := by
    intro x y x' y' h1 h2 h3; omega
  have d0 := c _ _ _ _ (l 5) (l' 5) (a0.symm.trans ((d 0 (by decide) (by decide)).trans b0))
  have d1 := c _ _ _ _ (l 2) (l' 2) (a1.symm.trans ((d 1 (by decide) (by decide)).trans b1))
  have d2 := c _ _ _ _ (l 7) (l' 7) (a2.symm.trans ((d 2 (by decide) (by decide)).trans b2))
  have d4 := c _ _ _ _ (l 1) (l' 1) (a4.symm.trans ((d 4 (by decide) (by decide)).trans b4))
  have d6 := c _ _ _ _ (l 3) (l' 3) (a6.symm.trans ((d 6 (by decide) (by decide)).trans b6))
  apply hw_inj k k' hk hk'
  intro m hm
  match m, hm with
  | 0, _ => exact d4.1
  | 1, _ => exact d4.2
  | 2, _ => exact d1.2
  | 3, _ => exact d6.2
  | 4, _ => exact d0.1
  | 5, _ => exact d0.2
  | 6, _ => exact d2.1
  | 7, _ => exact d2.2

theorem pair_meet : counters (loadKey (List.replicate 16 0)) = counters (loadKey (List.replicate 16 255)) ∧
    (loadKey (List.replicate 16 0)).carry = (loadKey (List.replicate 16 255)).carry := by decide +kernel

theorem pair_apart : (loadKey (List.replicate 16 0)).X ≠ (loadKey (List.replicate 16 255)).X := by decide +kernel

/-- The pair of keys whose counters meet. -/
def Pair (k k' : List U8) : Prop := k = List.replicate 16 0 ∧ k' = List.replicate 16 255

/-- **C155**: counters and carry bit after the key is loaded determine the key, with one exception, the keys all
of whose bits are 0 or 1. -/
theorem rabbit_key_counters (k k' : List U8) (hk : k.length = 16) (hk' : k'.length = 16) :
    counters (loadKey k) = counters (loadKey k') ∧ (loadKey k).carry = (loadKey k').carry ↔ k = k' ∨ Pair k k' ∨ Pair k' k := by
  constructor
  · rintro ⟨h1, h2⟩
    rw [counters_loadKey, counters_loadKey, update4_orb, update4_orb] at h1
    rw [loadKey_carry_eq, loadKey_carry_eq, update4_orb, update4_orb] at h2
    have pr : ∀ k k' : List U8, k.length = 16 → k'.length = 16 → ∀ i < 4,
        Clash (orb i (loadKeyExpand k)) (orb i (loadKeyExpand k')) → Pair k k' := by
      intro k k' hk hk' i hi h
      obtain ⟨-, h⟩ := clash_keys k k' i hi h
      exact ⟨hw_key k hk 0 fun m hm => (h m hm).1, hw_key k' hk' 255 fun m hm => (h m hm).2⟩
    rcases orb_back 4 _ _ (expand_carry k) (expand_carry k') (num_congr h1 h2) with n | ⟨i, hi, n | n⟩
    · left
      exact num_key k k' hk hk' n
    · exact .inr (.inl (pr k k' hk hk' i hi n))
    · exact .inr (.inr (pr k' k hk' hk i hi n))
  · have e := pair_meet
    rintro (rfl | ⟨rfl, rfl⟩ | ⟨rfl, rfl⟩)
    · exact ⟨rfl, rfl⟩
    · exact e
    · exact ⟨e.1.symm, e.2.symm⟩

example : counters (loadKey (List.replicate 16 0)) = counters (loadKey (List.replicate 16 255)) :=
  ((rabbit_key_counters _ _ (by decide) (by decide)).mpr (.inr (.inl ⟨rfl, rfl⟩))).1

/-- **C155**: different keys leave different objects. -/
theorem rabbit_keys_apart (k k' : List U8) (hk : k.length = 16) (hk' : k'.length = 16) (hne : k ≠ k') :
    ((loadKey k).X, (loadKey k).C, (loadKey k).carry) ≠ ((loadKey k').X, (loadKey k').C, (loadKey k').carry) := by
  intro e
  rw [Prod.mk.injEq, Prod.mk.injEq] at e
  have m : ∀ k, (loadKey k).MX = (loadKey k).X ∧ (loadKey k).MC = (loadKey k).C := fun k => by
    unfold loadKey; exact ⟨rfl, rfl⟩
  have c : counters (loadKey k) = counters (loadKey k') := by
    unfold counters
    simp only [(m k).1, (m k).2, (m k').1, (m k').2, e.1, e.2.1]
  have z := pair_apart
  rcases (rabbit_key_counters k k' hk hk').1 ⟨c, e.2.2⟩ with h | ⟨rfl, rfl⟩ | ⟨rfl, rfl⟩
  · exact hne h
  · exact z e.1
  · exact z e.1.symm

/-- Non-trivial instance: keys that differ in one bit, and the exceptional pair. -/
example : ([1, 0, 0, 0, 0, 0, 0, 0, 0, 0, 0, 0, 0, 0, 0, 0] : List U8).length = 16 ∧ (List.replicate 16 (0 : U8)).length = 16 ∧
    ([1, 0, 0, 0, 0, 0, 0, 0, 0, 0, 0, 0, 0, 0, 0, 0] : List U8) ≠ List.replicate 16 0 := by decide

example : Pair (List.replicate 16 0) (List.replicate 16 255) := ⟨rfl, rfl⟩

end CT.Props.RabbitKeys
