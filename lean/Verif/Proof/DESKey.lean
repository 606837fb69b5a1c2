import Verif.Proof.DESSpec

/-!
# DES: the key schedule against the bit-level specification
-/

namespace CT.DES

open CT.Spec.DES (ofWord perm PC1 PC2 rotl)

/-- The 28 bits of half a key. -/
def cOf (X : U32) : List Bool := (List.range 28).map fun i => X.getLsbD (27 - i)

theorem cOf_length (X : U32) : (cOf X).length = 28 := by simp [cOf]

/-! ### Permuted choice 2 -/

theorem rk1_29 (X Y : U32) : (rkWord1 X Y).getLsbD 29 = X.getLsbD 14 := by
  simp [rkWord1]
theorem rk1_28 (X Y : U32) : (rkWord1 X Y).getLsbD 28 = X.getLsbD 11 := by
  simp [rkWord1]
theorem rk1_27 (X Y : U32) : (rkWord1 X Y).getLsbD 27 = X.getLsbD 17 := by
  simp [rkWord1]
theorem rk1_26 (X Y : U32) : (rkWord1 X Y).getLsbD 26 = X.getLsbD 4 := by
  simp [rkWord1]
theorem rk1_25 (X Y : U32) : (rkWord1 X Y).getLsbD 25 = X.getLsbD 27 := by
  simp [rkWord1]
theorem rk1_24 (X Y : U32) : (rkWord1 X Y).getLsbD 24 = X.getLsbD 23 := by
  simp [rkWord1]
theorem rk0_29 (X Y : U32) : (rkWord0 X Y).getLsbD 29 = X.getLsbD 25 := by
  simp [rkWord0]
theorem rk0_28 (X Y : U32) : (rkWord0 X Y).getLsbD 28 = X.getLsbD 0 := by
  simp [rkWord0]
theorem rk0_27 (X Y : U32) : (rkWord0 X Y).getLsbD 27 = X.getLsbD 13 := by
  simp [rkWord0]
theorem rk0_26 (X Y : U32) : (rkWord0 X Y).getLsbD 26 = X.getLsbD 22 := by
  simp [rkWord0]
theorem rk0_25 (X Y : U32) : (rkWord0 X Y).getLsbD 25 = X.getLsbD 7 := by
  simp [rkWord0]
theorem rk0_24 (X Y : U32) : (rkWord0 X Y).getLsbD 24 = X.getLsbD 18 := by
  simp [rkWord0]
theorem rk1_21 (X Y : U32) : (rkWord1 X Y).getLsbD 21 = X.getLsbD 5 := by
  simp [rkWord1]
theorem rk1_20 (X Y : U32) : (rkWord1 X Y).getLsbD 20 = X.getLsbD 9 := by
  simp [rkWord1]
theorem rk1_19 (X Y : U32) : (rkWord1 X Y).getLsbD 19 = X.getLsbD 16 := by
  simp [rkWord1]
theorem rk1_18 (X Y : U32) : (rkWord1 X Y).getLsbD 18 = X.getLsbD 24 := by
  simp [rkWord1]
theorem rk1_17 (X Y : U32) : (rkWord1 X Y).getLsbD 17 = X.getLsbD 2 := by
  simp [rkWord1]
theorem rk1_16 (X Y : U32) : (rkWord1 X Y).getLsbD 16 = X.getLsbD 20 := by
  simp [rkWord1]
theorem rk0_21 (X Y : U32) : (rkWord0 X Y).getLsbD 21 = X.getLsbD 12 := by
  simp [rkWord0]
theorem rk0_20 (X Y : U32) : (rkWord0 X Y).getLsbD 20 = X.getLsbD 21 := by
  simp [rkWord0]
theorem rk0_19 (X Y : U32) : (rkWord0 X Y).getLsbD 19 = X.getLsbD 1 := by
  simp [rkWord0]
theorem rk0_18 (X Y : U32) : (rkWord0 X Y).getLsbD 18 = X.getLsbD 8 := by
  simp [rkWord0]
theorem rk0_17 (X Y : U32) : (rkWord0 X Y).getLsbD 17 = X.getLsbD 15 := by
  simp [rkWord0]
theorem rk0_16 (X Y : U32) : (rkWord0 X Y).getLsbD 16 = X.getLsbD 26 := by
  simp [rkWord0]
theorem rk1_13 (X Y : U32) : (rkWord1 X Y).getLsbD 13 = Y.getLsbD 15 := by
  simp [rkWord1]
theorem rk1_12 (X Y : U32) : (rkWord1 X Y).getLsbD 12 = Y.getLsbD 4 := by
  simp [rkWord1]
theorem rk1_11 (X Y : U32) : (rkWord1 X Y).getLsbD 11 = Y.getLsbD 25 := by
  simp [rkWord1]
theorem rk1_10 (X Y : U32) : (rkWord1 X Y).getLsbD 10 = Y.getLsbD 19 := by
  simp [rkWord1]
theorem rk1_9 (X Y : U32) : (rkWord1 X Y).getLsbD 9 = Y.getLsbD 9 := by
  simp [rkWord1]
theorem rk1_8 (X Y : U32) : (rkWord1 X Y).getLsbD 8 = Y.getLsbD 1 := by
  simp [rkWord1]
theorem rk0_13 (X Y : U32) : (rkWord0 X Y).getLsbD 13 = Y.getLsbD 26 := by
  simp [rkWord0]
theorem rk0_12 (X Y : U32) : (rkWord0 X Y).getLsbD 12 = Y.getLsbD 16 := by
  simp [rkWord0]
theorem rk0_11 (X Y : U32) : (rkWord0 X Y).getLsbD 11 = Y.getLsbD 5 := by
  simp [rkWord0]
theorem rk0_10 (X Y : U32) : (rkWord0 X Y).getLsbD 10 = Y.getLsbD 11 := by
  simp [rkWord0]
theorem rk0_9 (X Y : U32) : (rkWord0 X Y).getLsbD 9 = Y.getLsbD 23 := by
  simp [rkWord0]
theorem rk0_8 (X Y : U32) : (rkWord0 X Y).getLsbD 8 = Y.getLsbD 8 := by
  simp [rkWord0]
theorem rk1_5 (X Y : U32) : (rkWord1 X Y).getLsbD 5 = Y.getLsbD 12 := by
  simp [rkWord1]
theorem rk1_4 (X Y : U32) : (rkWord1 X Y).getLsbD 4 = Y.getLsbD 7 := by
  simp [rkWord1]
theorem rk1_3 (X Y : U32) : (rkWord1 X Y).getLsbD 3 = Y.getLsbD 17 := by
  simp [rkWord1]
theorem rk1_2 (X Y : U32) : (rkWord1 X Y).getLsbD 2 = Y.getLsbD 0 := by
  simp [rkWord1]
theorem rk1_1 (X Y : U32) : (rkWord1 X Y).getLsbD 1 = Y.getLsbD 22 := by
  simp [rkWord1]
theorem rk1_0 (X Y : U32) : (rkWord1 X Y).getLsbD 0 = Y.getLsbD 3 := by
  simp [rkWord1]
theorem rk0_5 (X Y : U32) : (rkWord0 X Y).getLsbD 5 = Y.getLsbD 10 := by
  simp [rkWord0]
theorem rk0_4 (X Y : U32) : (rkWord0 X Y).getLsbD 4 = Y.getLsbD 14 := by
  simp [rkWord0]
theorem rk0_3 (X Y : U32) : (rkWord0 X Y).getLsbD 3 = Y.getLsbD 6 := by
  simp [rkWord0]
theorem rk0_2 (X Y : U32) : (rkWord0 X Y).getLsbD 2 = Y.getLsbD 20 := by
  simp [rkWord0]
theorem rk0_1 (X Y : U32) : (rkWord0 X Y).getLsbD 1 = Y.getLsbD 27 := by
  simp [rkWord0]
theorem rk0_0 (X Y : U32) : (rkWord0 X Y).getLsbD 0 = Y.getLsbD 24 := by
  simp [rkWord0]

theorem rk_spec (X Y : U32) : kOf (rkWord0 X Y) (rkWord1 X Y) = perm PC2 (cOf X ++ cOf Y) := by
  unfold kOf
  rw [rk1_29, rk1_28, rk1_27, rk1_26, rk1_25, rk1_24, rk0_29, rk0_28, rk0_27, rk0_26, rk0_25, rk0_24, rk1_21, rk1_20, rk1_19, rk1_18, rk1_17, rk1_16, rk0_21, rk0_20, rk0_19, rk0_18, rk0_17, rk0_16, rk1_13, rk1_12, rk1_11, rk1_10, rk1_9, rk1_8, rk0_13, rk0_12, rk0_11, rk0_10, rk0_9, rk0_8, rk1_5, rk1_4, rk1_3, rk1_2, rk1_1, rk1_0, rk0_5, rk0_4, rk0_3, rk0_2, rk0_1, rk0_0]
  rfl

/-! ### The rotations -/

/-- No bits above the 28 used ones. -/
def Fits28 (X : U32) : Prop := ∀ i, 28 ≤ i → X.getLsbD i = false

theorem fits_mask (X : U32) : Fits28 (X &&& 0x0fffffff) := by
  intro i hi
  by_cases h : i < 32
  · have : ∀ i, i < 32 → 28 ≤ i → (0x0fffffff : U32).getLsbD i = false := by decide
    rw [BitVec.getLsbD_and, this i h hi, Bool.and_false]
  · exact BitVec.getLsbD_of_ge _ _ (by omega)

theorem mask_bit (X : U32) (i : Nat) (hi : i < 28) : (X &&& 0x0fffffff).getLsbD i = X.getLsbD i := by
  have : ∀ i, i < 28 → (0x0fffffff : U32).getLsbD i = true := by decide
  rw [BitVec.getLsbD_and, this i hi, Bool.and_true]

theorem rot_bit (X : U32) (hX : Fits28 X) (n i : Nat) (hn : 0 < n) (hn' : n < 28) (hi : i < 28) :
    (((X <<< n) ||| (X >>> (28 - n))) &&& 0x0fffffff).getLsbD i = X.getLsbD ((i + (28 - n)) % 28) := by
  rw [mask_bit _ _ hi, BitVec.getLsbD_or, BitVec.getLsbD_shiftLeft, BitVec.getLsbD_ushiftRight]
  by_cases h : i < n
  · simp only [h, decide_true, Bool.not_true, Bool.and_false, Bool.false_and, Bool.false_or]
    congr 1
    omega
  · have h32 : i < 32 := by omega
    simp only [h, h32, decide_true, decide_false, Bool.not_false, Bool.true_and]
    rw [hX (28 - n + i) (by omega), Bool.or_false]
    congr 1
    omega

theorem cOf_rot (X : U32) (hX : Fits28 X) (n : Nat) (hn : 0 < n) (hn' : n < 28) :
    cOf (((X <<< n) ||| (X >>> (28 - n))) &&& 0x0fffffff) = rotl n (cOf X) := by
  apply List.ext_getElem?
  intro i
  have hl := cOf_length X
  rw [rotl]
  by_cases hi : i < 28
  · have e1 : (cOf (((X <<< n) ||| (X >>> (28 - n))) &&& 0x0fffffff))[i]? =
        some (X.getLsbD ((27 - i + (28 - n)) % 28)) := by
      rw [cOf, List.getElem?_map, List.getElem?_range hi, Option.map_some, rot_bit X hX n _ hn hn' (by omega)]
    rw [e1]
    by_cases h : i < 28 - n
    · rw [List.getElem?_append_left (by rw [List.length_drop, hl]; exact h), List.getElem?_drop, cOf, List.getElem?_map,
        List.getElem?_range (by omega), Option.map_some]
      congr 2
      omega
    · rw [List.getElem?_append_right (by rw [List.length_drop, hl]; omega), List.length_drop, hl,
        List.getElem?_take_of_lt (by omega), cOf, List.getElem?_map, List.getElem?_range (by omega), Option.map_some]
      congr 2
      omega
  · rw [List.getElem?_eq_none (by rw [cOf_length]; omega), List.getElem?_eq_none (by
      rw [List.length_append, List.length_drop, List.length_take, hl]; omega)]

theorem rotKey_spec (i : Nat) (hi : i < 16) (X : U32) (hX : Fits28 X) :
    cOf (rotKey i X) = rotl (Spec.DES.shifts.getD i 0) (cOf X) ∧ Fits28 (rotKey i X) := by
  have hd : ∀ i, i < 16 → Spec.DES.shifts.getD i 0 = if i < 2 ∨ i = 8 ∨ i = 15 then 1 else 2 := by decide
  rw [hd i hi]
  unfold rotKey
  split
  · exact ⟨cOf_rot X hX 1 (by decide) (by decide), fits_mask _⟩
  · exact ⟨cOf_rot X hX 2 (by decide) (by decide), fits_mask _⟩

/-- The loop stores the round keys of the specification. -/
theorem ksLoop_spec (n i : Nat) (hi : i + n = 16) (X Y : U32) (hX : Fits28 X) (hY : Fits28 Y) :
    ∀ j, j < n → kOf ((ksLoop n i X Y).getD (2 * j) 0) ((ksLoop n i X Y).getD (2 * j + 1) 0) =
      (Spec.DES.subkeys (cOf X) (cOf Y) (Spec.DES.shifts.drop i)).getD j [] := by
  induction n generalizing i X Y with
  | zero => intro j hj; omega
  | succ n ih =>
    intro j hj
    have hlen : Spec.DES.shifts.length = 16 := rfl
    have hdrop : Spec.DES.shifts.drop i = Spec.DES.shifts.getD i 0 :: Spec.DES.shifts.drop (i + 1) := by
      rw [List.drop_eq_getElem_cons (by omega), List.getD_eq_getElem?_getD, List.getElem?_eq_getElem (by omega)]
      rfl
    obtain ⟨x1, x2⟩ := rotKey_spec i (by omega) X hX
    obtain ⟨y1, y2⟩ := rotKey_spec i (by omega) Y hY
    rw [hdrop]
    simp only [Spec.DES.subkeys, ← x1, ← y1, ksLoop]
    cases j with
    | zero => exact rk_spec _ _
    | succ j =>
      have := ih (i + 1) (by omega) (rotKey i X) (rotKey i Y) x2 y2 j (by omega)
      rw [show 2 * (j + 1) = 2 * j + 1 + 1 by omega]
      simpa [List.getD_cons_succ] using this

theorem subkeys_length (C D : Spec.DES.Bits) (ns : List Nat) : (Spec.DES.subkeys C D ns).length = ns.length := by
  induction ns generalizing C D with
  | nil => rfl
  | cons n ns ih => simp [Spec.DES.subkeys, ih]

/-! ### Permuted choice 1 -/

def pc1Swap (p : U32 × U32) : U32 × U32 := swapMove' 0 0x10101010 (swapMove' 4 0x0f0f0f0f p)

theorem nib_toNat (w : U32) : (w &&& 0xf).toNat =
    8 * (w.getLsbD 3).toNat + 4 * (w.getLsbD 2).toNat + 2 * (w.getLsbD 1).toNat + (w.getLsbD 0).toNat := by
  have h4 : ∀ v : BitVec 4, v.toNat =
      8 * (v.getLsbD 3).toNat + 4 * (v.getLsbD 2).toNat + 2 * (v.getLsbD 1).toNat + (v.getLsbD 0).toNat := by decide
  have h := h4 (w.setWidth 4)
  have e : (w &&& 0xf).toNat = (w.setWidth 4).toNat := by
    rw [BitVec.toNat_and, BitVec.toNat_setWidth]
    exact Nat.and_two_pow_sub_one_eq_mod w.toNat 4
  rw [e, h]
  simp

def sel4 (b3 b2 b1 b0 : Bool) (j : Nat) : Bool :=
  match j with | 0 => b0 | 1 => b1 | 2 => b2 | _ => b3

theorem lHs_bit : ∀ b3 b2 b1 b0 : Bool, ∀ t, t < 32 →
    (lHs.getD (8 * b3.toNat + 4 * b2.toNat + 2 * b1.toNat + b0.toNat) 0).getLsbD t =
      (Nat.beq (t % 8) 0 && sel4 b3 b2 b1 b0 (t / 8)) := by decide +kernel

theorem rHs_bit : ∀ b3 b2 b1 b0 : Bool, ∀ t, t < 32 →
    (rHs.getD (8 * b3.toNat + 4 * b2.toNat + 2 * b1.toNat + b0.toNat) 0).getLsbD t =
      (Nat.beq (t % 8) 0 && sel4 b3 b2 b1 b0 (3 - t / 8)) := by decide +kernel

theorem sel4_eq (w : U32) (j : Nat) (hj : j < 4) :
    sel4 (w.getLsbD 3) (w.getLsbD 2) (w.getLsbD 1) (w.getLsbD 0) j = w.getLsbD j := by
  match j, hj with
  | 0, _ => rfl
  | 1, _ => rfl
  | 2, _ => rfl
  | 3, _ => rfl

theorem lTab_bit (X : U32) (s t : Nat) (ht : t < 32) :
    (tab lHs ((X >>> s) &&& 0xf)).getLsbD t = (Nat.beq (t % 8) 0 && X.getLsbD (s + t / 8)) := by
  rw [tab, nib_toNat, lHs_bit _ _ _ _ t ht, sel4_eq _ _ (by omega), BitVec.getLsbD_ushiftRight]

theorem rTab_bit (X : U32) (s t : Nat) (ht : t < 32) :
    (tab rHs ((X >>> s) &&& 0xf)).getLsbD t = (Nat.beq (t % 8) 0 && X.getLsbD (s + (3 - t / 8))) := by
  rw [tab, nib_toNat, rHs_bit _ _ _ _ t ht, sel4_eq _ _ (by omega), BitVec.getLsbD_ushiftRight]

/-- One term of the permuted choice. -/
def orBit (g : Nat → Nat → Bool) (s k t : Nat) : Bool := !decide (t < k) && g s (t - k)

theorem lTerm_bit (X : U32) (s k t : Nat) (ht : t < 32) :
    (tab lHs ((X >>> s) &&& 0xf) <<< k).getLsbD t =
      orBit (fun s t => Nat.beq (t % 8) 0 && X.getLsbD (s + t / 8)) s k t := by
  rw [BitVec.getLsbD_shiftLeft, orBit, lTab_bit _ _ _ (by omega)]
  simp [ht]

theorem rTerm_bit (X : U32) (s k t : Nat) (ht : t < 32) :
    (tab rHs ((X >>> s) &&& 0xf) <<< k).getLsbD t =
      orBit (fun s t => Nat.beq (t % 8) 0 && X.getLsbD (s + (3 - t / 8))) s k t := by
  rw [BitVec.getLsbD_shiftLeft, orBit, rTab_bit _ _ _ (by omega)]
  simp [ht]

def lShift : Nat → Nat
  | 0 => 24 | 1 => 16 | 2 => 8 | 3 => 0 | 4 => 29 | 5 => 21 | 6 => 13 | _ => 5

def rShift : Nat → Nat
  | 0 => 25 | 1 => 17 | 2 => 9 | 3 => 1 | 4 => 28 | 5 => 20 | 6 => 12 | _ => 4

theorem or8 (h : Nat → Nat → Bool) (s : Nat → Nat) (t : Nat) (ht : t < 32) :
    (orBit (fun a u => Nat.beq (u % 8) 0 && h a (u / 8)) (s 3) 3 t ||
      orBit (fun a u => Nat.beq (u % 8) 0 && h a (u / 8)) (s 2) 2 t ||
      orBit (fun a u => Nat.beq (u % 8) 0 && h a (u / 8)) (s 1) 1 t ||
      orBit (fun a u => Nat.beq (u % 8) 0 && h a (u / 8)) (s 0) 0 t ||
      orBit (fun a u => Nat.beq (u % 8) 0 && h a (u / 8)) (s 7) 7 t ||
      orBit (fun a u => Nat.beq (u % 8) 0 && h a (u / 8)) (s 6) 6 t ||
      orBit (fun a u => Nat.beq (u % 8) 0 && h a (u / 8)) (s 5) 5 t ||
      orBit (fun a u => Nat.beq (u % 8) 0 && h a (u / 8)) (s 4) 4 t) = h (s (t % 8)) (t / 8) := by
  have key : ∀ k, k < 8 → orBit (fun a u => Nat.beq (u % 8) 0 && h a (u / 8)) (s k) k t =
      (Nat.beq (t % 8) k && h (s (t % 8)) (t / 8)) := by
    intro k hk
    unfold orBit
    by_cases hkt : t % 8 = k
    · have h1 : ¬ t < k := by omega
      have h2 : (t - k) % 8 = 0 := by omega
      have h3 : (t - k) / 8 = t / 8 := by omega
      have h4 : Nat.beq (t % 8) k = true := by rw [hkt]; exact Nat.beq_refl k
      show (!decide (t < k) && (Nat.beq ((t - k) % 8) 0 && h (s k) ((t - k) / 8))) = _
      rw [h2, h3, h4, hkt, decide_eq_false h1]
      rfl
    · have h4 : Nat.beq (t % 8) k = false := by
        cases hb : Nat.beq (t % 8) k
        · rfl
        · exact absurd (Nat.eq_of_beq_eq_true hb) hkt
      rw [h4, Bool.false_and]
      by_cases h1 : t < k
      · simp [h1]
      · have h5 : Nat.beq ((t - k) % 8) 0 = false := by
          cases hb : Nat.beq ((t - k) % 8) 0
          · rfl
          · have := Nat.eq_of_beq_eq_true hb
            omega
        simp [h5]
  rw [key 0 (by decide), key 1 (by decide), key 2 (by decide), key 3 (by decide), key 4 (by decide), key 5 (by decide),
    key 6 (by decide), key 7 (by decide)]
  generalize h (s (t % 8)) (t / 8) = b
  have : ∀ k, k < 8 → ∀ b, ((Nat.beq k 3 && b) || (Nat.beq k 2 && b) || (Nat.beq k 1 && b) || (Nat.beq k 0 && b) ||
    (Nat.beq k 7 && b) || (Nat.beq k 6 && b) || (Nat.beq k 5 && b) || (Nat.beq k 4 && b)) = b := by decide
  exact this (t % 8) (by omega) b

theorem pc1_bit1 (X Y : U32) (t : Nat) (ht : t < 28) :
    (pc1 X Y).1.getLsbD t = (pc1Swap (X, Y)).1.getLsbD (lShift (t % 8) + t / 8) := by
  have hX : (pc1 X Y).1 = ((tab lHs (((pc1Swap (X, Y)).1 >>> 0) &&& 0xf) <<< 3) ||| (tab lHs (((pc1Swap (X, Y)).1 >>> 8) &&& 0xf) <<< 2)
    ||| (tab lHs (((pc1Swap (X, Y)).1 >>> 16) &&& 0xf) <<< 1) ||| tab lHs (((pc1Swap (X, Y)).1 >>> 24) &&& 0xf) <<< 0
    ||| (tab lHs (((pc1Swap (X, Y)).1 >>> 5) &&& 0xf) <<< 7) ||| (tab lHs (((pc1Swap (X, Y)).1 >>> 13) &&& 0xf) <<< 6)
    ||| (tab lHs (((pc1Swap (X, Y)).1 >>> 21) &&& 0xf) <<< 5) ||| (tab lHs (((pc1Swap (X, Y)).1 >>> 29) &&& 0xf) <<< 4)) &&& 0x0fffffff := by
    simp only [pc1, pc1Swap, swapMove', swapMove, BitVec.ushiftRight_zero, BitVec.shiftLeft_zero]
  rw [hX, mask_bit _ _ ht]
  simp only [BitVec.getLsbD_or]
  have h32 : t < 32 := by omega
  simp only [lTerm_bit _ _ _ t h32]
  exact or8 (fun a u => (pc1Swap (X, Y)).1.getLsbD (a + u)) lShift t h32

theorem pc1_bit2 (X Y : U32) (t : Nat) (ht : t < 28) :
    (pc1 X Y).2.getLsbD t = (pc1Swap (X, Y)).2.getLsbD (rShift (t % 8) + (3 - t / 8)) := by
  have hX : (pc1 X Y).2 = ((tab rHs (((pc1Swap (X, Y)).2 >>> 1) &&& 0xf) <<< 3) ||| (tab rHs (((pc1Swap (X, Y)).2 >>> 9) &&& 0xf) <<< 2)
    ||| (tab rHs (((pc1Swap (X, Y)).2 >>> 17) &&& 0xf) <<< 1) ||| tab rHs (((pc1Swap (X, Y)).2 >>> 25) &&& 0xf) <<< 0
    ||| (tab rHs (((pc1Swap (X, Y)).2 >>> 4) &&& 0xf) <<< 7) ||| (tab rHs (((pc1Swap (X, Y)).2 >>> 12) &&& 0xf) <<< 6)
    ||| (tab rHs (((pc1Swap (X, Y)).2 >>> 20) &&& 0xf) <<< 5) ||| (tab rHs (((pc1Swap (X, Y)).2 >>> 28) &&& 0xf) <<< 4)) &&& 0x0fffffff := by
    simp only [pc1, pc1Swap, swapMove', swapMove, BitVec.ushiftRight_zero, BitVec.shiftLeft_zero]
  rw [hX, mask_bit _ _ ht]
  simp only [BitVec.getLsbD_or]
  have h32 : t < 32 := by omega
  simp only [rTerm_bit _ _ _ t h32]
  exact or8 (fun a u => (pc1Swap (X, Y)).2.getLsbD (a + (3 - u))) rShift t h32

def piPc1Swap (i : Nat) : Nat := piSw (piSwap 4 0x0f0f0f0f (piSw (piSw (piSwap 0 0x10101010 (piSw i)))))

theorem pbit_pc1Swap (p : U32 × U32) (i : Nat) (hi : i < 64) : pbit (pc1Swap p) i = pbit p (piPc1Swap i) := by
  have b : ∀ i, i < 64 → piSw (piSwap 0 0x10101010 (piSw i)) < 64 := by decide +kernel
  rw [pc1Swap, pbit_swapMove' _ _ (by decide) _ _ hi, pbit_swapMove' _ _ (by decide) _ _ (b i hi)]
  rfl

theorem map_pt (n : Nat) (g h : Nat → Bool) (pi : Nat → Nat) (hpt : ∀ i, i < n → g i = h (pi i)) :
    (List.range n).map g = ((List.range n).map pi).map h := by
  rw [List.map_map]
  apply List.map_congr_left
  intro i hi
  exact hpt i (List.mem_range.mp hi)

theorem pc1_spec (X Y : U32) :
    cOf (pc1 X Y).1 ++ cOf (pc1 X Y).2 = perm PC1 (bits (X, Y)) := by
  rw [perm_bits _ (by decide)]
  have h1 : cOf (pc1 X Y).1 = ((List.range 28).map fun i => piPc1Swap (lShift ((27 - i) % 8) + (27 - i) / 8)).map (pbit (X, Y)) := by
    rw [cOf]
    apply map_pt
    intro i hi
    have hb : ∀ i, i < 28 → lShift ((27 - i) % 8) + (27 - i) / 8 < 32 := by decide
    have hb := hb i hi
    rw [pc1_bit1 _ _ _ (by omega)]
    have := pbit_pc1Swap (X, Y) (lShift ((27 - i) % 8) + (27 - i) / 8) (by omega)
    rw [pbit, if_pos hb] at this
    exact this
  have h2 : cOf (pc1 X Y).2 = ((List.range 28).map fun i => piPc1Swap (32 + (rShift ((27 - i) % 8) + (3 - (27 - i) / 8)))).map (pbit (X, Y)) := by
    rw [cOf]
    apply map_pt
    intro i hi
    have hb : ∀ i, i < 28 → rShift ((27 - i) % 8) + (3 - (27 - i) / 8) < 32 := by decide
    have hb := hb i hi
    rw [pc1_bit2 _ _ _ (by omega)]
    have := pbit_pc1Swap (X, Y) (32 + (rShift ((27 - i) % 8) + (3 - (27 - i) / 8))) (by omega)
    rw [pbit, if_neg (by omega), Nat.add_sub_cancel_left] at this
    exact this
  rw [h1, h2, ← List.map_append]
  have hd : (((List.range 28).map fun i => piPc1Swap (lShift ((27 - i) % 8) + (27 - i) / 8)) ++
    ((List.range 28).map fun i => piPc1Swap (32 + (rShift ((27 - i) % 8) + (3 - (27 - i) / 8))))) = PC1.map fun i => sig (i - 1) := by
    decide +kernel
  rw [hd]

/-! ### The schedule -/

theorem ksLoop_length (n i : Nat) (X Y : U32) : (ksLoop n i X Y).length = 2 * n := by
  induction n generalizing i X Y with
  | zero => rfl
  | succ n ih => simp only [ksLoop, List.length_cons, ih]; omega

/-- The sixteen round keys stored for the key words `X`, `Y` are those of FIPS 46-3. -/
theorem schedule_spec (X Y : U32) (j : Nat) (hj : j < 16) :
    kOf ((ksLoop 16 0 (pc1 X Y).1 (pc1 X Y).2).getD (2 * j) 0) ((ksLoop 16 0 (pc1 X Y).1 (pc1 X Y).2).getD (2 * j + 1) 0) =
      (Spec.DES.keySchedule (bits (X, Y))).getD j [] := by
  have hp := pc1_spec X Y
  have h1 : (perm PC1 (bits (X, Y))).take 28 = cOf (pc1 X Y).1 := by
    rw [← hp]; exact List.take_left' (cOf_length _)
  have h2 : (perm PC1 (bits (X, Y))).drop 28 = cOf (pc1 X Y).2 := by
    rw [← hp]; exact List.drop_left' (cOf_length _)
  unfold Spec.DES.keySchedule
  simp only [h1, h2]
  exact ksLoop_spec 16 0 rfl _ _ (fits_mask _) (fits_mask _) j hj

end CT.DES
