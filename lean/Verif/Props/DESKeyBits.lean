import Verif.Props.DES

/-!
# Which bits of a DES key matter (C117)
-/

namespace CT.Props.DES
open CT.DES CT.Spec.DES

/-- The numbers of the key bits that make up the first round key of FIPS 46-3 (permuted choice 1, one left shift,
permuted choice 2). -/
def firstRoundBits : List Nat :=
  [10, 51, 34, 60, 49, 17, 33, 57, 2, 9, 19, 42, 3, 35, 26, 25, 44, 58, 59, 1, 36, 27, 18, 41,
   22, 28, 39, 54, 37, 4, 47, 30, 5, 53, 23, 29, 61, 21, 38, 63, 15, 20, 45, 14, 13, 62, 55, 31]

/-- Two bit strings agree on the bits with the given numbers. -/
def AgreeOn (t : List Nat) (a b : Bits) : Prop := ∀ i ∈ t, a.getD (i - 1) false = b.getD (i - 1) false

theorem first_round_key (key : Bits) : (keySchedule key).getD 0 [] = perm firstRoundBits key := rfl

theorem perm_eq_iff (t : List Nat) (a b : Bits) : perm t a = perm t b ↔ AgreeOn t a b := by
  rw [perm, perm, List.map_inj_left]
  rfl

/-- Two keys give all packets the same encryption, in both modes. -/
def SameCipher (rk rk' : List U32) : Prop :=
  (∀ (a : Arrs) (size : Nat), processPacketEcb rk a size = processPacketEcb rk' a size) ∧
  ∀ (a : Arrs) (nonce : List U32) (size : Nat), processPacketCtr rk a nonce size = processPacketCtr rk' a nonce size

theorem sameCipher_of_block {rk rk' : List U32} (h : ecbBlock rk = ecbBlock rk') : SameCipher rk rk' := by
  have e : ∀ fuel size o a, ecbLoop rk fuel size o a = ecbLoop rk' fuel size o a := by
    intro fuel
    induction fuel with
    | zero => intros; rfl
    | succ n ih => intro size o a; simp only [ecbLoop, h, ih]
  have c : ∀ n0 n1 fuel iv size o a, ctrLoop rk n0 n1 fuel iv size o a = ctrLoop rk' n0 n1 fuel iv size o a := by
    intro n0 n1 fuel
    induction fuel with
    | zero => intros; rfl
    | succ n ih => intro iv size o a; simp only [ctrLoop, h, ih]
  refine ⟨fun a size => e _ _ _ _, fun a nonce size => ?_⟩
  unfold processPacketCtr
  split
  · exact c _ _ _ _ _ _ _
  · rfl

/-- C117 is false in general: two keys that agree on the 48 bits of the first round key (with the bytes of each word
reversed, as in C49) give every packet the same encryption.  Of the other sixteen bits eight are no parity bits. -/
theorem des_unused_key_bits (k0 k1 k2 k3 k4 k5 k6 k7 k0' k1' k2' k3' k4' k5' k6' k7' : U8)
    (h : AgreeOn firstRoundBits (ofBytes (rev4 [k0, k1, k2, k3, k4, k5, k6, k7]))
      (ofBytes (rev4 [k0', k1', k2', k3', k4', k5', k6', k7']))) :
    ∃ rk rk', keyScheduleEncrypt [k0, k1, k2, k3, k4, k5, k6, k7] = .ok rk ∧
      keyScheduleEncrypt [k0', k1', k2', k3', k4', k5', k6', k7'] = .ok rk' ∧ SameCipher rk rk' := by
  obtain ⟨rk, h1, _, h3⟩ := scheduleE k0 k1 k2 k3 k4 k5 k6 k7
  obtain ⟨rk', h1', _, h3'⟩ := scheduleE k0' k1' k2' k3' k4' k5' k6' k7'
  refine ⟨rk, rk', h1, h1', sameCipher_of_block (funext fun p => bits_inj ?_)⟩
  have e := h3 0 (by decide)
  have e' := h3' 0 (by decide)
  rw [Nat.mul_zero, Nat.zero_add] at e e'
  rw [ecbBlock_spec, ecbBlock_spec, e, e', first_round_key, first_round_key]
  congr 2
  exact (perm_eq_iff _ _ _).mpr h

/-- The key of zeros and one with the parity bit of each byte set. -/
example := des_unused_key_bits 0 0 0 0 0 0 0 0 1 1 1 1 1 1 1 1 (by unfold AgreeOn; decide +kernel)

/-- The first round key is the same exactly if the keys agree on the listed bits. -/
theorem des_first_round_key_iff (k k' : Bits) :
    (keySchedule k).getD 0 [] = (keySchedule k').getD 0 [] ↔ AgreeOn firstRoundBits k k' := by
  rw [first_round_key, first_round_key, perm_eq_iff]

/-- A key byte without its parity bit (the lowest one). -/
def noParity (b : U8) : U8 := b >>> 1

/-- C117, what holds: the parity bits (the lowest bit of each byte) do not matter.  Missing from the full statement:
that the others do (`des_key_bits_refuted`). -/
theorem des_parity_ignored_partial (k0 k1 k2 k3 k4 k5 k6 k7 k0' k1' k2' k3' k4' k5' k6' k7' : U8)
    (h : [k0, k1, k2, k3, k4, k5, k6, k7].map noParity = [k0', k1', k2', k3', k4', k5', k6', k7'].map noParity) :
    ∃ rk rk', keyScheduleEncrypt [k0, k1, k2, k3, k4, k5, k6, k7] = .ok rk ∧
      keyScheduleEncrypt [k0', k1', k2', k3', k4', k5', k6', k7'] = .ok rk' ∧ SameCipher rk rk' := by
  apply des_unused_key_bits
  have hb : ∀ a b : U8, noParity a = noParity b → a.getLsbD 1 = b.getLsbD 1 ∧ a.getLsbD 2 = b.getLsbD 2 ∧
      a.getLsbD 3 = b.getLsbD 3 ∧ a.getLsbD 4 = b.getLsbD 4 ∧ a.getLsbD 5 = b.getLsbD 5 ∧ a.getLsbD 6 = b.getLsbD 6 ∧
      a.getLsbD 7 = b.getLsbD 7 := by
    intro a b e
    have h : ∀ t, a.getLsbD (1 + t) = b.getLsbD (1 + t) := fun t => by
      have := congrArg (fun w : U8 => w.getLsbD t) e
      simpa only [noParity, BitVec.getLsbD_ushiftRight] using this
    exact ⟨h 0, h 1, h 2, h 3, h 4, h 5, h 6⟩
  simp only [List.map_cons, List.map_nil, List.cons.injEq, and_true] at h
  obtain ⟨h0, h1, h2, h3, h4, h5, h6, h7⟩ := h
  simp only [AgreeOn, firstRoundBits, List.forall_mem_cons, List.not_mem_nil, false_implies, implies_true, and_true]
  simp only [ofBytes, rev4, List.flatMap_cons, List.flatMap_nil, List.append_nil, List.cons_append, List.nil_append,
    List.getD_cons_succ, List.getD_cons_zero, Nat.reduceSub, hb _ _ h0, hb _ _ h1, hb _ _ h2, hb _ _ h3, hb _ _ h4,
    hb _ _ h5, hb _ _ h6, hb _ _ h7, and_self]

/-- Non-trivial instance. -/
example : [(1 : U8), 2, 3, 4, 5, 6, 7, 8].map noParity = [0, 3, 2, 5, 4, 7, 6, 9].map noParity := by decide

/-- The key with one bit, number `i` in the order of C49. -/
def oneBit (i : Nat) : List U8 :=
  rev4 ((List.range 8).map fun j => if j = (i - 1) / 8 then 1#8 <<< (7 - (i - 1) % 8) else 0)

set_option maxRecDepth 10000 in
/-- All 48 bits do matter: changing one of them in the all-zero key changes the encryption of the all-zero block. -/
theorem des_used_key_bits : ∀ i ∈ firstRoundBits, ∀ rk rk', keyScheduleEncrypt (List.replicate 8 0) = .ok rk →
    keyScheduleEncrypt (oneBit i) = .ok rk' → ¬ SameCipher rk rk' := by
  have key : ∀ i ∈ firstRoundBits,
      (do let rk ← keyScheduleEncrypt (List.replicate 8 0)
          let a ← processPacketEcb rk ⟨[0, 0], [0, 0], false⟩ 8
          return a) ≠
      (do let rk ← keyScheduleEncrypt (oneBit i)
          let a ← processPacketEcb rk ⟨[0, 0], [0, 0], false⟩ 8
          return a) := by decide +kernel
  intro i hi rk rk' h h' hs
  apply key i hi
  rw [h, h', Res.ok_bind, Res.ok_bind, hs.1]

example : ∃ rk rk', 0 < firstRoundBits.length ∧ keyScheduleEncrypt (List.replicate 8 0) = .ok rk ∧
    keyScheduleEncrypt (oneBit (firstRoundBits.getD 0 0)) = .ok rk' := ⟨_, _, by decide, rfl, rfl⟩

set_option maxRecDepth 10000 in
/-- C117 is false: the all-zero key and the key with the single bit 6, which is no parity bit, give every packet the
same encryption; likewise for the bits 7, 11, 12, 43, 46, 50 and 52. -/
theorem des_key_bits_refuted : ∀ i ∈ [6, 7, 11, 12, 43, 46, 50, 52],
    (oneBit i).length = 8 ∧ (oneBit i).map noParity ≠ (List.replicate 8 (0 : U8)).map noParity ∧
    ∃ rk rk', keyScheduleEncrypt (List.replicate 8 0) = .ok rk ∧ keyScheduleEncrypt (oneBit i) = .ok rk' ∧
      SameCipher rk rk' := by
  have key : ∀ i ∈ [6, 7, 11, 12, 43, 46, 50, 52], ∃ a b c d e f g h : U8, oneBit i = [a, b, c, d, e, f, g, h] ∧
      (oneBit i).map noParity ≠ (List.replicate 8 (0 : U8)).map noParity ∧
      ∀ j ∈ firstRoundBits, (ofBytes (rev4 [0, 0, 0, 0, 0, 0, 0, 0])).getD (j - 1) false =
        (ofBytes (rev4 (oneBit i))).getD (j - 1) false := by
    intro i hi
    simp only [List.mem_cons, List.not_mem_nil, or_false] at hi
    rcases hi with rfl | rfl | rfl | rfl | rfl | rfl | rfl | rfl <;>
      exact ⟨_, _, _, _, _, _, _, _, rfl, by decide, by decide +kernel⟩
  intro i hi
  obtain ⟨a, b, c, d, e, f, g, h, h1, h2, h3⟩ := key i hi
  refine ⟨by rw [h1]; rfl, h2, ?_⟩
  rw [h1] at h3 ⊢
  exact des_unused_key_bits 0 0 0 0 0 0 0 0 a b c d e f g h h3

end CT.Props.DES
