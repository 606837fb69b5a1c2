import Verif.Proof.DES
import Verif.Spec.DES

/-!
# DES: the block function and the key schedule against the bit-level specification
-/

namespace CT.DES

open CT.Spec.DES (ofWord perm IP FP E P PC1 PC2)

/-! ### The permutations as maps of bit positions -/

/-- Bit `i` of a pair of words, counted from the least significant bit of the first word. -/
def pbit (p : U32 × U32) (i : Nat) : Bool := if i < 32 then p.1.getLsbD i else p.2.getLsbD (i - 32)

def piSwap (k : Nat) (m : U32) (i : Nat) : Nat :=
  if i < 32 then (if k ≤ i ∧ m.getLsbD (i - k) = true then 32 + (i - k) else i)
  else (if m.getLsbD (i - 32) = true then i - 32 + k else i)

def piSw (i : Nat) : Nat := if i < 32 then i + 32 else i - 32

theorem pbit_sw (X Y : U32) (i : Nat) (hi : i < 64) : pbit (Y, X) i = pbit (X, Y) (piSw i) := by
  unfold pbit piSw
  by_cases h : i < 32
  · simp [h]
  · simp only [h, if_false]
    rw [if_pos (by omega)]

theorem pbit_swapMove (k : Nat) (m : U32) (hm : (m <<< k) >>> k = m) (p : U32 × U32) (i : Nat) (hi : i < 64) :
    pbit (swapMove k m p) i = pbit p (piSwap k m i) := by
  have hb : ∀ j, m.getLsbD j = true → k + j < 32 := by
    intro j hj
    rw [← hm] at hj
    simp only [BitVec.getLsbD_ushiftRight, BitVec.getLsbD_shiftLeft, Bool.and_eq_true, decide_eq_true_eq] at hj
    exact hj.1.1
  unfold pbit piSwap swapMove
  by_cases h : i < 32
  · simp only [h, if_true]
    by_cases hk : k ≤ i
    · have e : k + (i - k) = i := by omega
      have nk : ¬ i < k := by omega
      simp only [BitVec.getLsbD_xor, BitVec.getLsbD_shiftLeft, BitVec.getLsbD_and, BitVec.getLsbD_ushiftRight, h, e,
        nk, decide_true, decide_false, Bool.true_and, Bool.not_false]
      cases hmb : m.getLsbD (i - k)
      · simp [h]
      · have n3 : ¬ 32 + (i - k) < 32 := by omega
        simp only [hk, and_self, if_true, n3, if_false, Bool.and_true]
        rw [show 32 + (i - k) - 32 = i - k by omega]
        cases p.1.getLsbD i <;> cases p.2.getLsbD (i - k) <;> rfl
    · simp [h, hk, show i < k by omega]
  · simp only [h, if_false]
    cases hmb : m.getLsbD (i - 32)
    · simp [h, hmb]
    · have := hb _ hmb
      simp only [if_true]
      rw [if_pos (by omega)]
      simp only [BitVec.getLsbD_xor, BitVec.getLsbD_and, BitVec.getLsbD_ushiftRight, hmb, Bool.and_true]
      rw [show i - 32 + k = k + (i - 32) by omega]
      cases p.1.getLsbD (k + (i - 32)) <;> cases p.2.getLsbD (i - 32) <;> rfl

theorem rol1_bit (x : U32) (i : Nat) (h : i < 32) : (rol1 x).getLsbD i = x.getLsbD ((i + 31) % 32) := by
  rw [rol1_eq, BitVec.getLsbD_rotateLeft]
  rcases Nat.eq_zero_or_pos i with h0 | h0
  · subst h0; rfl
  · have h1 : ¬ i < 1 % 32 := by omega
    rw [decide_eq_false h1, cond_false]
    simp only [h, decide_true, Bool.true_and]
    congr 1
    omega

theorem ror1_bit (x : U32) (i : Nat) (h : i < 32) : (ror1 x).getLsbD i = x.getLsbD ((i + 1) % 32) := by
  rw [← rol1_ror1 x, ror1_rol1, rol1_bit _ _ (Nat.mod_lt _ (by decide))]
  congr 1
  omega

def piRol1 (i : Nat) : Nat := if i < 32 then (i + 31) % 32 else i
def piRol2 (i : Nat) : Nat := if i < 32 then i else 32 + (i - 32 + 31) % 32
def piRor1 (i : Nat) : Nat := if i < 32 then (i + 1) % 32 else i
def piRor2 (i : Nat) : Nat := if i < 32 then i else 32 + (i - 32 + 1) % 32

theorem pbit_rol1 (p : U32 × U32) (i : Nat) (hi : i < 64) : pbit (rol1 p.1, p.2) i = pbit p (piRol1 i) := by
  unfold pbit piRol1
  by_cases h : i < 32
  · simp only [h, if_true]
    rw [rol1_bit _ _ h, if_pos (by omega)]
  · simp only [h, if_false]

theorem pbit_rol2 (p : U32 × U32) (i : Nat) (hi : i < 64) : pbit (p.1, rol1 p.2) i = pbit p (piRol2 i) := by
  unfold pbit piRol2
  by_cases h : i < 32
  · simp only [h, if_true]
  · simp only [h, if_false]
    rw [rol1_bit _ _ (by omega), if_neg (by omega)]
    congr 1
    omega

theorem pbit_ror1 (p : U32 × U32) (i : Nat) (hi : i < 64) : pbit (ror1 p.1, p.2) i = pbit p (piRor1 i) := by
  unfold pbit piRor1
  by_cases h : i < 32
  · simp only [h, if_true]
    rw [ror1_bit _ _ h, if_pos (by omega)]
  · simp only [h, if_false]

theorem pbit_ror2 (p : U32 × U32) (i : Nat) (hi : i < 64) : pbit (p.1, ror1 p.2) i = pbit p (piRor2 i) := by
  unfold pbit piRor2
  by_cases h : i < 32
  · simp only [h, if_true]
  · simp only [h, if_false]
    rw [ror1_bit _ _ (by omega), if_neg (by omega)]
    congr 1
    omega

theorem pbit_swapMove' (k : Nat) (m : U32) (hm : (m <<< k) >>> k = m) (p : U32 × U32) (i : Nat) (hi : i < 64) :
    pbit (swapMove' k m p) i = pbit p (piSw (piSwap k m (piSw i))) := by
  have hs : ∀ j < 64, piSw j < 64 := by intro j hj; unfold piSw; split <;> omega
  have e : pbit (swapMove' k m p) i = pbit (swapMove k m (p.2, p.1)) (piSw i) := by
    unfold swapMove'
    exact pbit_sw _ _ i hi
  have hb : ∀ j, j < 64 → piSwap k m j < 64 := by
    intro j hj
    unfold piSwap
    split
    · split <;> omega
    · split
      · next h =>
        rw [← hm] at h
        simp only [BitVec.getLsbD_ushiftRight, BitVec.getLsbD_shiftLeft, Bool.and_eq_true, decide_eq_true_eq] at h
        omega
      · omega
  rw [e, pbit_swapMove k m hm _ _ (hs i hi)]
  exact pbit_sw p.1 p.2 _ (hb _ (hs i hi))

def piIP (i : Nat) : Nat :=
  piSwap 4 0x0f0f0f0f (piSwap 16 0x0000ffff (piSw (piSwap 2 0x33333333 (piSw
    (piSw (piSwap 8 0x00ff00ff (piSw (piRol2 (piSwap 0 0xaaaaaaaa (piRol1 i))))))))))

def piFP (i : Nat) : Nat :=
  piRor1 (piSwap 0 0xaaaaaaaa (piRor2 (piSw (piSwap 8 0x00ff00ff (piSw (piSw (piSwap 2 0x33333333 (piSw
    (piSwap 16 0x0000ffff (piSwap 4 0x0f0f0f0f i))))))))))

theorem pbit_ip (p : U32 × U32) (i : Nat) (hi : i < 64) : pbit (ip p) i = pbit p (piIP i) := by
  have b1 : ∀ i, i < 64 → piRol1 i < 64 := by decide +kernel
  have b2 : ∀ i, i < 64 → piSwap 0 0xaaaaaaaa i < 64 := by decide +kernel
  have b3 : ∀ i, i < 64 → piRol2 i < 64 := by decide +kernel
  have b4 : ∀ i, i < 64 → piSw (piSwap 8 0x00ff00ff (piSw i)) < 64 := by decide +kernel
  have b5 : ∀ i, i < 64 → piSw (piSwap 2 0x33333333 (piSw i)) < 64 := by decide +kernel
  have b6 : ∀ i, i < 64 → piSwap 16 0x0000ffff i < 64 := by decide +kernel
  unfold ip piIP
  rw [pbit_rol1 _ _ hi, pbit_swapMove _ _ (by decide) _ _ (b1 _ hi), pbit_rol2 _ _ (b2 _ (b1 _ hi)),
    pbit_swapMove' _ _ (by decide) _ _ (b3 _ (b2 _ (b1 _ hi))),
    pbit_swapMove' _ _ (by decide) _ _ (b4 _ (b3 _ (b2 _ (b1 _ hi)))),
    pbit_swapMove _ _ (by decide) _ _ (b5 _ (b4 _ (b3 _ (b2 _ (b1 _ hi))))),
    pbit_swapMove _ _ (by decide) _ _ (b6 _ (b5 _ (b4 _ (b3 _ (b2 _ (b1 _ hi))))))]

theorem pbit_fp (p : U32 × U32) (i : Nat) (hi : i < 64) : pbit (fp p) i = pbit p (piFP i) := by
  have c1 : ∀ i, i < 64 → piSwap 4 0x0f0f0f0f i < 64 := by decide +kernel
  have b2 : ∀ i, i < 64 → piSwap 0 0xaaaaaaaa i < 64 := by decide +kernel
  have b3 : ∀ i, i < 64 → piRor2 i < 64 := by decide +kernel
  have b4 : ∀ i, i < 64 → piSw (piSwap 8 0x00ff00ff (piSw i)) < 64 := by decide +kernel
  have b5 : ∀ i, i < 64 → piSw (piSwap 2 0x33333333 (piSw i)) < 64 := by decide +kernel
  have b6 : ∀ i, i < 64 → piSwap 16 0x0000ffff i < 64 := by decide +kernel
  unfold fp piFP
  rw [pbit_swapMove _ _ (by decide) _ _ hi, pbit_swapMove _ _ (by decide) _ _ (c1 _ hi),
    pbit_swapMove' _ _ (by decide) _ _ (b6 _ (c1 _ hi)),
    pbit_swapMove' _ _ (by decide) _ _ (b5 _ (b6 _ (c1 _ hi))),
    pbit_ror2 _ _ (b4 _ (b5 _ (b6 _ (c1 _ hi)))),
    pbit_swapMove _ _ (by decide) _ _ (b3 _ (b4 _ (b5 _ (b6 _ (c1 _ hi))))),
    pbit_ror1 _ _ (b2 _ (b3 _ (b4 _ (b5 _ (b6 _ (c1 _ hi))))))]

/-! ### Bit strings of words -/

/-- The 64 bits of a pair of words. -/
def bits (p : U32 × U32) : List Bool := ofWord p.1 ++ ofWord p.2

/-- Position in the pair of the bit at index `n` of `bits`. -/
def sig (n : Nat) : Nat := if n < 32 then 31 - n else 95 - n

theorem ofWord_getD (w : U32) (n : Nat) (h : n < 32) : (ofWord w).getD n false = w.getLsbD (31 - n) := by
  rw [ofWord, List.getD_eq_getElem?_getD, List.getElem?_map, List.getElem?_range h]
  rfl

theorem ofWord_length (w : U32) : (ofWord w).length = 32 := by simp [ofWord]

theorem bits_getD (p : U32 × U32) (n : Nat) (h : n < 64) : (bits p).getD n false = pbit p (sig n) := by
  unfold bits sig pbit
  by_cases h32 : n < 32
  · rw [List.getD_eq_getElem?_getD, List.getElem?_append_left (by rw [ofWord_length]; exact h32), ← List.getD_eq_getElem?_getD, ofWord_getD _ _ h32]
    simp only [h32, if_true]
    rw [if_pos (by omega)]
  · rw [List.getD_eq_getElem?_getD, List.getElem?_append_right (by rw [ofWord_length]; omega), ← List.getD_eq_getElem?_getD,
      ofWord_length, ofWord_getD _ _ (by omega)]
    simp only [h32, if_false]
    rw [if_neg (by omega)]
    congr 1
    omega

theorem perm_bits (t : List Nat) (ht : t.all (fun i => decide (i - 1 < 64)) = true) (p : U32 × U32) :
    perm t (bits p) = (t.map fun i => sig (i - 1)).map (pbit p) := by
  rw [perm, List.map_map]
  apply List.map_congr_left
  intro i hi
  have := List.all_eq_true.mp ht i hi
  exact bits_getD p (i - 1) (by simpa using this)

theorem bits_eq (p : U32 × U32) : bits p = ((List.range 64).map sig).map (pbit p) := by
  have e : (List.range 64).map sig = (List.range 32).map (fun n => 31 - n) ++ (List.range 32).map (fun n => 63 - n) := by
    decide
  rw [e, List.map_append, List.map_map, List.map_map]
  unfold bits ofWord
  congr 1

/-- Composition of position maps over all 64 bits. -/
theorem map_sig (g h : Nat → Bool) (pi : Nat → Nat) (t : List Nat) (hpt : ∀ i, i < 64 → g i = h (pi i))
    (ht : ((List.range 64).map sig).map pi = t) : ((List.range 64).map sig).map g = t.map h := by
  rw [← ht, List.map_map (g := h)]
  apply List.map_congr_left
  intro i hi
  have : ((List.range 64).map sig).all (fun i => decide (i < 64)) = true := by decide
  exact hpt i (by simpa using List.all_eq_true.mp this i hi)

/-- The initial permutation: the code keeps both halves rotated left by one. -/
theorem ip_spec (p : U32 × U32) : bits (ror1 (ip p).1, ror1 (ip p).2) = perm IP (bits p) := by
  rw [perm_bits _ (by decide), bits_eq]
  have b1 : ∀ i, i < 64 → piRor1 i < 64 := by decide +kernel
  have b2 : ∀ i, i < 64 → piRor2 i < 64 := by decide +kernel
  have hpt : ∀ i, i < 64 → pbit (ror1 (ip p).1, ror1 (ip p).2) i = pbit p (piIP (piRor2 (piRor1 i))) := by
    intro i hi
    rw [pbit_ror1 ((ip p).1, ror1 (ip p).2) i hi, pbit_ror2 (ip p) _ (b1 _ hi), pbit_ip _ _ (b2 _ (b1 _ hi))]
  exact map_sig _ _ (fun i => piIP (piRor2 (piRor1 i))) _ hpt (by decide +kernel)

/-- The final permutation of halves that are rotated left by one. -/
theorem fp_spec (p : U32 × U32) : bits (fp (rol1 p.1, rol1 p.2)) = perm FP (bits p) := by
  rw [perm_bits _ (by decide), bits_eq]
  have b1 : ∀ i, i < 64 → piFP i < 64 := by decide +kernel
  have b2 : ∀ i, i < 64 → piRol1 i < 64 := by decide +kernel
  have hpt : ∀ i, i < 64 → pbit (fp (rol1 p.1, rol1 p.2)) i = pbit p (piRol2 (piRol1 (piFP i))) := by
    intro i hi
    rw [pbit_fp _ i hi, pbit_rol1 (p.1, rol1 p.2) _ (b1 _ hi), pbit_rol2 p _ (b2 _ (b1 _ hi))]
  exact map_sig _ _ (fun i => piRol2 (piRol1 (piFP i))) _ hpt (by decide +kernel)

/-! ### The round function -/

/-- The 48 round key bits held by two words of the schedule: six bits in each byte, the first word
holding the groups for S-boxes 2, 4, 6, 8 and the second those for 1, 3, 5, 7. -/
def kOf (r0 r1 : U32) : List Bool :=
  [r1.getLsbD 29, r1.getLsbD 28, r1.getLsbD 27, r1.getLsbD 26, r1.getLsbD 25, r1.getLsbD 24,
   r0.getLsbD 29, r0.getLsbD 28, r0.getLsbD 27, r0.getLsbD 26, r0.getLsbD 25, r0.getLsbD 24,
   r1.getLsbD 21, r1.getLsbD 20, r1.getLsbD 19, r1.getLsbD 18, r1.getLsbD 17, r1.getLsbD 16,
   r0.getLsbD 21, r0.getLsbD 20, r0.getLsbD 19, r0.getLsbD 18, r0.getLsbD 17, r0.getLsbD 16,
   r1.getLsbD 13, r1.getLsbD 12, r1.getLsbD 11, r1.getLsbD 10, r1.getLsbD 9, r1.getLsbD 8,
   r0.getLsbD 13, r0.getLsbD 12, r0.getLsbD 11, r0.getLsbD 10, r0.getLsbD 9, r0.getLsbD 8,
   r1.getLsbD 5, r1.getLsbD 4, r1.getLsbD 3, r1.getLsbD 2, r1.getLsbD 1, r1.getLsbD 0,
   r0.getLsbD 5, r0.getLsbD 4, r0.getLsbD 3, r0.getLsbD 2, r0.getLsbD 1, r0.getLsbD 0]

/-- The table for S-box `q` (from 0). -/
def boxTab : Nat → List U32
  | 0 => sbox1 | 1 => sbox2 | 2 => sbox3 | 3 => sbox4 | 4 => sbox5 | 5 => sbox6 | 6 => sbox7 | _ => sbox8

def ix (b0 b1 b2 b3 b4 b5 : Bool) : Nat :=
  32 * b0.toNat + 16 * b1.toNat + 8 * b2.toNat + 4 * b3.toNat + 2 * b4.toNat + b5.toNat

theorem ix_eq (w : U32) : (w &&& 0x3f).toNat =
    ix (w.getLsbD 5) (w.getLsbD 4) (w.getLsbD 3) (w.getLsbD 2) (w.getLsbD 1) (w.getLsbD 0) := by
  have h6 : ∀ v : BitVec 6, v.toNat =
      ix (v.getLsbD 5) (v.getLsbD 4) (v.getLsbD 3) (v.getLsbD 2) (v.getLsbD 1) (v.getLsbD 0) := by decide +kernel
  have h := h6 (w.setWidth 6)
  have e : (w &&& 0x3f).toNat = (w.setWidth 6).toNat := by
    rw [BitVec.toNat_and, BitVec.toNat_setWidth]
    exact Nat.and_two_pow_sub_one_eq_mod w.toNat 6
  rw [e, h]
  simp

/-- Index into the S-box outputs of the bit that `P` moves to bit `31 - j` of `f`; the code's tables
are rotated left by one. -/
def srcOf (t : Nat) : Nat := P.getD (31 - (t + 31) % 32) 0 - 1

/-- Each table entry is the S-box output, moved by `P` and rotated. -/
theorem boxTab_bit : ∀ q, q < 8 → ∀ b0 b1 b2 b3 b4 b5 : Bool, ∀ t, t < 32 →
    ((boxTab q).getD (ix b0 b1 b2 b3 b4 b5) 0).getLsbD t =
      (Nat.beq (srcOf t / 4) q && (Spec.DES.sbox q b0 b1 b2 b3 b4 b5).getD (srcOf t % 4) false) := by
  decide +kernel

def cat8 (A : Nat → List Bool) : List Bool :=
  A 0 ++ (A 1 ++ (A 2 ++ (A 3 ++ (A 4 ++ (A 5 ++ (A 6 ++ (A 7 ++ [])))))))

def xor8 (g : Nat → Bool) : Bool :=
  Bool.xor (Bool.xor (Bool.xor (Bool.xor (g 7) (g 5)) (g 3)) (g 1)) (Bool.xor (Bool.xor (Bool.xor (g 6) (g 4)) (g 2)) (g 0))

theorem four (l : List Bool) (h : l.length = 4) : l = [l.getD 0 false, l.getD 1 false, l.getD 2 false, l.getD 3 false] := by
  match l, h with
  | [a, b, c, d], _ => rfl

theorem cat8_getD (A : Nat → List Bool) (hA : ∀ q, (A q).length = 4) (n : Nat) (hn : n < 32) :
    (cat8 A).getD n false = xor8 fun q => Nat.beq (n / 4) q && (A q).getD (n % 4) false := by
  have hc : cat8 A = (List.range 32).map fun n => (A (n / 4)).getD (n % 4) false := by
    unfold cat8
    rw [four _ (hA 0), four _ (hA 1), four _ (hA 2), four _ (hA 3), four _ (hA 4), four _ (hA 5), four _ (hA 6), four _ (hA 7)]
    rfl
  rw [hc, List.getD_eq_getElem?_getD, List.getElem?_map, List.getElem?_range hn]
  have h8 : ∀ m, m < 8 → ∀ B : Nat → Bool, B m = xor8 fun q => Nat.beq m q && B q := by
    intro m hm B
    match m, hm with
    | 0, _ => simp [xor8, Nat.beq]
    | 1, _ => simp [xor8, Nat.beq]
    | 2, _ => simp [xor8, Nat.beq]
    | 3, _ => simp [xor8, Nat.beq]
    | 4, _ => simp [xor8, Nat.beq]
    | 5, _ => simp [xor8, Nat.beq]
    | 6, _ => simp [xor8, Nat.beq]
    | 7, _ => simp [xor8, Nat.beq]
  exact h8 (n / 4) (by omega) (fun q => (A q).getD (n % 4) false)

theorem kOf_xor (a b c d : U32) : Spec.DES.xor (kOf a b) (kOf c d) = kOf (a ^^^ c) (b ^^^ d) := by
  simp only [Spec.DES.xor, kOf, List.zipWith, BitVec.getLsbD_xor]

/-- `(X << 28) | (X >> 4)` -/
def ror4 (X : U32) : U32 := (X <<< 28) ||| (X >>> 4)

theorem ror4_bit (X : U32) (i : Nat) (h : i < 32) : (ror4 X).getLsbD i = X.getLsbD ((i + 4) % 32) := by
  simp only [ror4, BitVec.getLsbD_or, BitVec.getLsbD_shiftLeft, BitVec.getLsbD_ushiftRight, h, decide_true, Bool.true_and]
  by_cases h28 : i < 28
  · simp only [h28, decide_true, Bool.not_true, Bool.false_and, Bool.false_or]
    congr 1; omega
  · simp only [h28, decide_false, Bool.not_false, Bool.true_and]
    rw [BitVec.getLsbD_of_ge X (4 + i) (by omega), Bool.or_false]
    congr 1; omega

theorem expand (r : U32) : perm E (ofWord r) = kOf (rol1 r) (ror4 (rol1 r)) := by
  have h : ∀ i, i < 32 → (rol1 r).getLsbD i = r.getLsbD ((i + 31) % 32) := rol1_bit r
  have h4 : ∀ i, i < 32 → (ror4 (rol1 r)).getLsbD i = r.getLsbD ((i + 3) % 32) := by
    intro i hi
    rw [ror4_bit _ _ hi, rol1_bit _ _ (by omega)]
    congr 1; omega
  have e : kOf (rol1 r) (ror4 (rol1 r)) =
      [(29 + 3) % 32, (28 + 3) % 32, (27 + 3) % 32, (26 + 3) % 32, (25 + 3) % 32, (24 + 3) % 32,
       (29 + 31) % 32, (28 + 31) % 32, (27 + 31) % 32, (26 + 31) % 32, (25 + 31) % 32, (24 + 31) % 32,
       (21 + 3) % 32, (20 + 3) % 32, (19 + 3) % 32, (18 + 3) % 32, (17 + 3) % 32, (16 + 3) % 32,
       (21 + 31) % 32, (20 + 31) % 32, (19 + 31) % 32, (18 + 31) % 32, (17 + 31) % 32, (16 + 31) % 32,
       (13 + 3) % 32, (12 + 3) % 32, (11 + 3) % 32, (10 + 3) % 32, (9 + 3) % 32, (8 + 3) % 32,
       (13 + 31) % 32, (12 + 31) % 32, (11 + 31) % 32, (10 + 31) % 32, (9 + 31) % 32, (8 + 31) % 32,
       (5 + 3) % 32, (4 + 3) % 32, (3 + 3) % 32, (2 + 3) % 32, (1 + 3) % 32, (0 + 3) % 32,
       (5 + 31) % 32, (4 + 31) % 32, (3 + 31) % 32, (2 + 31) % 32, (1 + 31) % 32, (0 + 31) % 32].map r.getLsbD := by
    unfold kOf
    rw [h4 29 (by decide), h4 28 (by decide), h4 27 (by decide), h4 26 (by decide), h4 25 (by decide), h4 24 (by decide),
      h4 21 (by decide), h4 20 (by decide), h4 19 (by decide), h4 18 (by decide), h4 17 (by decide), h4 16 (by decide),
      h4 13 (by decide), h4 12 (by decide), h4 11 (by decide), h4 10 (by decide), h4 9 (by decide), h4 8 (by decide),
      h4 5 (by decide), h4 4 (by decide), h4 3 (by decide), h4 2 (by decide), h4 1 (by decide), h4 0 (by decide),
      h 29 (by decide), h 28 (by decide), h 27 (by decide), h 26 (by decide), h 25 (by decide), h 24 (by decide),
      h 21 (by decide), h 20 (by decide), h 19 (by decide), h 18 (by decide), h 17 (by decide), h 16 (by decide),
      h 13 (by decide), h 12 (by decide), h 11 (by decide), h 10 (by decide), h 9 (by decide), h 8 (by decide),
      h 5 (by decide), h 4 (by decide), h 3 (by decide), h 2 (by decide), h 1 (by decide), h 0 (by decide)]
    rfl
  have e2 : perm E (ofWord r) = (E.map fun i => 31 - (i - 1)).map r.getLsbD := by
    rw [perm, List.map_map]
    apply List.map_congr_left
    intro i hi
    have : E.all (fun i => decide (i - 1 < 32)) = true := by decide
    exact ofWord_getD r (i - 1) (by simpa using List.all_eq_true.mp this i hi)
  rw [e, e2]
  congr 1

/-- The S-box outputs for the sums `T0`, `T1` of round key and expanded half. -/
def boxes (T0 T1 : U32) (q : Nat) : List Bool :=
  let T := if q % 2 = 0 then T1 else T0
  let s := 24 - 8 * (q / 2)
  Spec.DES.sbox q (T.getLsbD (s + 5)) (T.getLsbD (s + 4)) (T.getLsbD (s + 3)) (T.getLsbD (s + 2)) (T.getLsbD (s + 1))
    (T.getLsbD s)

theorem sboxes_kOf (T0 T1 : U32) : Spec.DES.sboxes 0 (kOf T0 T1) = cat8 (boxes T0 T1) := rfl

theorem boxes_length (T0 T1 : U32) (q : Nat) : (boxes T0 T1 q).length = 4 := rfl

theorem tab_bit (q : Nat) (hq : q < 8) (T : U32) (s t : Nat) (ht : t < 32) :
    (tab (boxTab q) ((T >>> s) &&& 0x3f)).getLsbD t = (Nat.beq (srcOf t / 4) q &&
      (Spec.DES.sbox q (T.getLsbD (s + 5)) (T.getLsbD (s + 4)) (T.getLsbD (s + 3)) (T.getLsbD (s + 2)) (T.getLsbD (s + 1))
    (T.getLsbD s)).getD (srcOf t % 4) false) := by
  rw [tab, ix_eq, boxTab_bit q hq _ _ _ _ _ _ t ht]
  simp only [BitVec.getLsbD_ushiftRight, Nat.add_zero]

theorem roundF_bit (rk : List U32) (X : U32) (t : Nat) (ht : t < 32) :
    (roundF rk X).getLsbD t =
      (cat8 (boxes (rk.getD 0 0 ^^^ X) (rk.getD 1 0 ^^^ ror4 X))).getD (srcOf t) false := by
  have hs : srcOf t < 32 := by
    have : ∀ t, t < 32 → srcOf t < 32 := by decide
    exact this t ht
  rw [cat8_getD _ (boxes_length _ _) _ hs]
  have e : roundF rk X =
      (tab (boxTab 7) (((rk.getD 0 0 ^^^ X) >>> 0) &&& 0x3f) ^^^ tab (boxTab 5) (((rk.getD 0 0 ^^^ X) >>> 8) &&& 0x3f) ^^^
        tab (boxTab 3) (((rk.getD 0 0 ^^^ X) >>> 16) &&& 0x3f) ^^^ tab (boxTab 1) (((rk.getD 0 0 ^^^ X) >>> 24) &&& 0x3f)) ^^^
      (tab (boxTab 6) (((rk.getD 1 0 ^^^ ror4 X) >>> 0) &&& 0x3f) ^^^ tab (boxTab 4) (((rk.getD 1 0 ^^^ ror4 X) >>> 8) &&& 0x3f) ^^^
        tab (boxTab 2) (((rk.getD 1 0 ^^^ ror4 X) >>> 16) &&& 0x3f) ^^^ tab (boxTab 0) (((rk.getD 1 0 ^^^ ror4 X) >>> 24) &&& 0x3f)) := by
    simp only [BitVec.ushiftRight_zero]
    rfl
  rw [e]
  simp only [BitVec.getLsbD_xor]
  rw [tab_bit 7 (by decide) _ _ t ht, tab_bit 5 (by decide) _ _ t ht, tab_bit 3 (by decide) _ _ t ht,
    tab_bit 1 (by decide) _ _ t ht, tab_bit 6 (by decide) _ _ t ht, tab_bit 4 (by decide) _ _ t ht,
    tab_bit 2 (by decide) _ _ t ht, tab_bit 0 (by decide) _ _ t ht]
  generalize rk.getD 0 0 ^^^ X = T0
  generalize rk.getD 1 0 ^^^ ror4 X = T1
  rfl

/-- The round function of the code is the cipher function `f` on halves rotated left by one. -/
theorem roundF_spec (rk : List U32) (r : U32) :
    ofWord (ror1 (roundF rk (rol1 r))) = Spec.DES.f (ofWord r) (kOf (rk.getD 0 0) (rk.getD 1 0)) := by
  rw [Spec.DES.f, expand, kOf_xor, sboxes_kOf]
  have hP : P = (List.range 32).map fun j => P.getD j 0 := by decide
  rw [perm]
  conv => rhs; rw [hP, List.map_map]
  rw [ofWord]
  apply List.map_congr_left
  intro j hj
  have hj := List.mem_range.mp hj
  rw [ror1_bit _ _ (by omega), roundF_bit _ _ _ (Nat.mod_lt _ (by decide)), BitVec.xor_comm (rol1 r),
    BitVec.xor_comm (ror4 (rol1 r))]
  have hs : ∀ j, j < 32 → srcOf ((31 - j + 1) % 32) = P.getD j 0 - 1 := by decide
  rw [hs j hj]
  rfl

/-! ### The rounds and the block -/

theorem ofWord_xor (a b : U32) : ofWord (a ^^^ b) = Spec.DES.xor (ofWord a) (ofWord b) := by
  simp only [ofWord, Spec.DES.xor, List.zipWith_map, List.zipWith_self, BitVec.getLsbD_xor]

theorem rol1_xor (a b : U32) : rol1 (a ^^^ b) = rol1 a ^^^ rol1 b := by
  apply BitVec.eq_of_getLsbD_eq
  intro i hi
  simp only [rol1_bit _ _ hi, BitVec.getLsbD_xor]

theorem rounds_append (ks : List Spec.DES.Bits) (k k' : Spec.DES.Bits) (p : Spec.DES.Bits × Spec.DES.Bits) :
    Spec.DES.rounds (k :: k' :: ks) p = Spec.DES.rounds ks (Spec.DES.xor p.1 (Spec.DES.f p.2 k),
      Spec.DES.xor p.2 (Spec.DES.f (Spec.DES.xor p.1 (Spec.DES.f p.2 k)) k')) := rfl

theorem rounds_spec (rk : List U32) (n : Nat) (l r : U32) :
    ∃ l' r', rounds rk n (rol1 l, rol1 r) = (rol1 l', rol1 r') ∧
      Spec.DES.rounds (List.replicate (2 * n) (kOf (rk.getD 0 0) (rk.getD 1 0))) (ofWord l, ofWord r) = (ofWord l', ofWord r') := by
  induction n generalizing l r with
  | zero => exact ⟨l, r, rfl, rfl⟩
  | succ n ih =>
    have hF : ∀ r, roundF rk (rol1 r) = rol1 (ror1 (roundF rk (rol1 r))) := fun r => (rol1_ror1 _).symm
    obtain ⟨l', r', h1, h2⟩ := ih (l ^^^ ror1 (roundF rk (rol1 r)))
      (r ^^^ ror1 (roundF rk (rol1 (l ^^^ ror1 (roundF rk (rol1 r))))))
    refine ⟨l', r', ?_, ?_⟩
    · rw [← h1, rounds_succ, dbl]
      simp only [rol1_xor, rol1_ror1]
    · rw [show 2 * (n + 1) = 2 * n + 1 + 1 by omega, List.replicate_succ, List.replicate_succ, rounds_append, ← h2]
      simp only [ofWord_xor, roundF_spec]

theorem ofWord_append_inj {a b c d : U32} (h : bits (a, b) = bits (c, d)) : ofWord a = ofWord c ∧ ofWord b = ofWord d :=
  List.append_inj h (by rw [ofWord_length, ofWord_length])

/-- The block function is the cipher of FIPS 46-3 with the first round key in all sixteen rounds. -/
theorem ecbBlock_spec (rk : List U32) (p : U32 × U32) :
    bits (ecbBlock rk p) =
      Spec.DES.cipher (List.replicate 16 (kOf (rk.getD 0 0) (rk.getD 1 0))) (bits p) := by
  have hip := ip_spec p
  obtain ⟨l', r', h1, h2⟩ := rounds_spec rk 8 (ror1 (ip p).1) (ror1 (ip p).2)
  simp only [rol1_ror1] at h1
  have ht : (perm IP (bits p)).take 32 = ofWord (ror1 (ip p).1) := by
    rw [← hip]
    exact List.take_left' (ofWord_length _)
  have hd : (perm IP (bits p)).drop 32 = ofWord (ror1 (ip p).2) := by
    rw [← hip]
    exact List.drop_left' (ofWord_length _)
  unfold Spec.DES.cipher
  simp only [ht, hd]
  rw [show List.replicate 16 (kOf (rk.getD 0 0) (rk.getD 1 0)) =
    List.replicate (2 * 8) (kOf (rk.getD 0 0) (rk.getD 1 0)) from rfl, h2]
  have hf := fp_spec (r', l')
  unfold ecbBlock
  rw [show rounds rk 8 (ip p) = (rol1 l', rol1 r') from h1]
  exact hf

end CT.DES
