import Verif.Model.AES

/-!
# The AES block functions against FIPS 197
-/

namespace CT.AES

open Spec.AES (subBytes shiftRows mixColumns addRoundKey gmul sbox)

/-! ### Tables -/

theorem sboxTab_eq : ∀ b : U8, sboxTab.getD b.toNat 0 = sbox b := by decide +kernel

theorem sboxW_eq (b : U8) : sboxW b = (sbox b).setWidth 32 := by rw [sboxW, sboxTab_eq]

theorem t0_tab : ∀ b : U8, tab t0 b =
    (let s := sboxTab.getD b.toNat 0; le32 (gmul s 2) s s (gmul s 3)) := by decide +kernel
theorem t1_tab : ∀ b : U8, tab t1 b =
    (let s := sboxTab.getD b.toNat 0; le32 (gmul s 3) (gmul s 2) s s) := by decide +kernel
theorem t2_tab : ∀ b : U8, tab t2 b =
    (let s := sboxTab.getD b.toNat 0; le32 s (gmul s 3) (gmul s 2) s) := by decide +kernel
theorem t3_tab : ∀ b : U8, tab t3 b =
    (let s := sboxTab.getD b.toNat 0; le32 s s (gmul s 3) (gmul s 2)) := by decide +kernel

theorem t0_eq (b : U8) : tab t0 b = le32 (gmul (sbox b) 2) (sbox b) (sbox b) (gmul (sbox b) 3) := by
  rw [t0_tab, sboxTab_eq]
theorem t1_eq (b : U8) : tab t1 b = le32 (gmul (sbox b) 3) (gmul (sbox b) 2) (sbox b) (sbox b) := by
  rw [t1_tab, sboxTab_eq]
theorem t2_eq (b : U8) : tab t2 b = le32 (sbox b) (gmul (sbox b) 3) (gmul (sbox b) 2) (sbox b) := by
  rw [t2_tab, sboxTab_eq]
theorem t3_eq (b : U8) : tab t3 b = le32 (sbox b) (sbox b) (gmul (sbox b) 3) (gmul (sbox b) 2) := by
  rw [t3_tab, sboxTab_eq]

/-! ### Bytes of words -/

theorem cut_byteN (w : U32) (n : Nat) : cut w (8 * n) = byteN w n := by
  apply BitVec.eq_of_getLsbD_eq
  intro i hi
  simp [cut, byteN, hi]

theorem cut0 (w : U32) : cut w 0 = byteN w 0 := cut_byteN w 0
theorem cut8 (w : U32) : cut w 8 = byteN w 1 := cut_byteN w 1
theorem cut16 (w : U32) : cut w 16 = byteN w 2 := cut_byteN w 2
theorem cut24 (w : U32) : cut w 24 = byteN w 3 := cut_byteN w 3

theorem le32_getLsbD (a b c d : U8) (i : Nat) : (le32 a b c d).getLsbD i =
    if i < 8 then a.getLsbD i else if i < 16 then b.getLsbD (i - 8) else
    if i < 24 then c.getLsbD (i - 16) else d.getLsbD (i - 24) := by
  rw [le32, BitVec.getLsbD_append, BitVec.getLsbD_append, BitVec.getLsbD_append]
  repeat' split
  all_goals first | rfl | omega | skip

theorem byte_hi (a : U8) {i : Nat} (h : 8 ≤ i) : a.getLsbD i = false := BitVec.getLsbD_of_ge _ _ h

theorem xor4_le32 (a b c d : U8) :
    a.setWidth 32 ^^^ (b.setWidth 32 <<< 8) ^^^ (c.setWidth 32 <<< 16) ^^^ (d.setWidth 32 <<< 24) = le32 a b c d := by
  apply BitVec.eq_of_getLsbD_eq
  intro i hi
  rw [le32_getLsbD]
  simp only [BitVec.getLsbD_xor, BitVec.getLsbD_setWidth, BitVec.getLsbD_shiftLeft, hi, decide_true, Bool.true_and]
  repeat' split
  · simp [show i < 16 by omega, show i < 24 by omega, *]
  · simp [*, byte_hi a (i := i) (by omega), show i < 24 by omega, show i - 8 < 32 by omega]
  · simp [*, byte_hi a (i := i) (by omega), byte_hi b (i := i - 8) (by omega)]
    intro _; omega
  · simp [*, byte_hi a (i := i) (by omega), byte_hi b (i := i - 8) (by omega), byte_hi c (i := i - 16) (by omega)]
    intro _; omega

theorem or4_le32 (a b c d : U8) :
    a.setWidth 32 ||| (b.setWidth 32 <<< 8) ||| (c.setWidth 32 <<< 16) ||| (d.setWidth 32 <<< 24) = le32 a b c d := by
  apply BitVec.eq_of_getLsbD_eq
  intro i hi
  rw [le32_getLsbD]
  simp only [BitVec.getLsbD_or, BitVec.getLsbD_setWidth, BitVec.getLsbD_shiftLeft, hi, decide_true, Bool.true_and]
  repeat' split
  · simp [show i < 16 by omega, show i < 24 by omega, *]
  · simp [*, byte_hi a (i := i) (by omega), show i < 24 by omega, show i - 8 < 32 by omega]
  · simp [*, byte_hi a (i := i) (by omega), byte_hi b (i := i - 8) (by omega)]
    intro _; omega
  · simp [*, byte_hi a (i := i) (by omega), byte_hi b (i := i - 8) (by omega), byte_hi c (i := i - 16) (by omega)]
    intro _; omega

theorem subByte_eq (w : U32) : subByte w =
    le32 (sbox (byteN w 0)) (sbox (byteN w 1)) (sbox (byteN w 2)) (sbox (byteN w 3)) := by
  rw [← xor4_le32]
  simp only [subByte, sboxW_eq, cut0, cut8, cut16, cut24]

theorem finalWord_eq (a b c d k : U32) : finalWord a b c d k =
    le32 (sbox (byteN a 0)) (sbox (byteN b 1)) (sbox (byteN c 2)) (sbox (byteN d 3)) ^^^ k := by
  rw [← xor4_le32]
  simp only [finalWord, sboxW_eq, cut0, cut8, cut16, cut24]

theorem byteN0_le32 (a b c d : U8) : byteN (le32 a b c d) 0 = a := (byteN_le32 a b c d).1
theorem byteN1_le32 (a b c d : U8) : byteN (le32 a b c d) 1 = b := (byteN_le32 a b c d).2.1
theorem byteN2_le32 (a b c d : U8) : byteN (le32 a b c d) 2 = c := (byteN_le32 a b c d).2.2.1
theorem byteN3_le32 (a b c d : U8) : byteN (le32 a b c d) 3 = d := (byteN_le32 a b c d).2.2.2

theorem roundWord_bytes (a b c d k : U32) :
    byteN (roundWord a b c d k) 0 = gmul (sbox (byteN a 0)) 2 ^^^ gmul (sbox (byteN b 1)) 3 ^^^ sbox (byteN c 2) ^^^ sbox (byteN d 3) ^^^ byteN k 0 ∧
    byteN (roundWord a b c d k) 1 = gmul (sbox (byteN b 1)) 2 ^^^ gmul (sbox (byteN c 2)) 3 ^^^ sbox (byteN d 3) ^^^ sbox (byteN a 0) ^^^ byteN k 1 ∧
    byteN (roundWord a b c d k) 2 = gmul (sbox (byteN c 2)) 2 ^^^ gmul (sbox (byteN d 3)) 3 ^^^ sbox (byteN a 0) ^^^ sbox (byteN b 1) ^^^ byteN k 2 ∧
    byteN (roundWord a b c d k) 3 = gmul (sbox (byteN d 3)) 2 ^^^ gmul (sbox (byteN a 0)) 3 ^^^ sbox (byteN b 1) ^^^ sbox (byteN c 2) ^^^ byteN k 3 := by
  simp only [roundWord, byteN_xor, t0_eq, t1_eq, t2_eq, t3_eq, cut0, cut8, cut16, cut24,
    byteN0_le32, byteN1_le32, byteN2_le32, byteN3_le32]
  refine ⟨trivial, ?_, ?_, ?_⟩ <;> congr 1 <;> ac_rfl

/-! ### Rounds -/

theorem toState_ofState (s : Spec.AES.State) : toState (ofState s) = s := by
  funext r c
  match c with
  | 0 => match r with
    | 0 => exact byteN0_le32 ..
    | 1 => exact byteN1_le32 ..
    | 2 => exact byteN2_le32 ..
    | 3 => exact byteN3_le32 ..
  | 1 => match r with
    | 0 => exact byteN0_le32 ..
    | 1 => exact byteN1_le32 ..
    | 2 => exact byteN2_le32 ..
    | 3 => exact byteN3_le32 ..
  | 2 => match r with
    | 0 => exact byteN0_le32 ..
    | 1 => exact byteN1_le32 ..
    | 2 => exact byteN2_le32 ..
    | 3 => exact byteN3_le32 ..
  | 3 => match r with
    | 0 => exact byteN0_le32 ..
    | 1 => exact byteN1_le32 ..
    | 2 => exact byteN2_le32 ..
    | 3 => exact byteN3_le32 ..

theorem ofState_toState (q : Quad) : ofState (toState q) = q := by
  obtain ⟨a, b, c, d⟩ := q
  simp only [ofState, Quad.mk.injEq]
  exact ⟨le32_byteN a, le32_byteN b, le32_byteN c, le32_byteN d⟩

theorem toState_inj {p q : Quad} (h : toState p = toState q) : p = q := by
  rw [← ofState_toState p, h, ofState_toState]

theorem initialRound_state (s k : Quad) : toState (initialRound s k) = addRoundKey (toState s) (toState k) := by
  funext r c
  match c with
  | 0 => exact byteN_xor ..
  | 1 => exact byteN_xor ..
  | 2 => exact byteN_xor ..
  | 3 => exact byteN_xor ..

theorem round_state (s k : Quad) : toState (round s k) =
    addRoundKey (mixColumns (shiftRows (subBytes (toState s)))) (toState k) := by
  funext r c
  match c with
  | 0 =>
    obtain ⟨h0, h1, h2, h3⟩ := roundWord_bytes s.w0 s.w1 s.w2 s.w3 k.w0
    match r with
    | 0 => exact h0
    | 1 => exact h1
    | 2 => exact h2
    | 3 => exact h3
  | 1 =>
    obtain ⟨h0, h1, h2, h3⟩ := roundWord_bytes s.w1 s.w2 s.w3 s.w0 k.w1
    match r with
    | 0 => exact h0
    | 1 => exact h1
    | 2 => exact h2
    | 3 => exact h3
  | 2 =>
    obtain ⟨h0, h1, h2, h3⟩ := roundWord_bytes s.w2 s.w3 s.w0 s.w1 k.w2
    match r with
    | 0 => exact h0
    | 1 => exact h1
    | 2 => exact h2
    | 3 => exact h3
  | 3 =>
    obtain ⟨h0, h1, h2, h3⟩ := roundWord_bytes s.w3 s.w0 s.w1 s.w2 k.w3
    match r with
    | 0 => exact h0
    | 1 => exact h1
    | 2 => exact h2
    | 3 => exact h3

theorem finalWord_bytes (a b c d k : U32) :
    byteN (finalWord a b c d k) 0 = sbox (byteN a 0) ^^^ byteN k 0 ∧
    byteN (finalWord a b c d k) 1 = sbox (byteN b 1) ^^^ byteN k 1 ∧
    byteN (finalWord a b c d k) 2 = sbox (byteN c 2) ^^^ byteN k 2 ∧
    byteN (finalWord a b c d k) 3 = sbox (byteN d 3) ^^^ byteN k 3 := by
  simp only [finalWord_eq, byteN_xor, byteN0_le32, byteN1_le32, byteN2_le32, byteN3_le32, and_self]

theorem finalRound_state (s k : Quad) : toState (finalRound s k) =
    addRoundKey (shiftRows (subBytes (toState s))) (toState k) := by
  funext r c
  match c with
  | 0 =>
    obtain ⟨h0, h1, h2, h3⟩ := finalWord_bytes s.w0 s.w1 s.w2 s.w3 k.w0
    match r with
    | 0 => exact h0
    | 1 => exact h1
    | 2 => exact h2
    | 3 => exact h3
  | 1 =>
    obtain ⟨h0, h1, h2, h3⟩ := finalWord_bytes s.w1 s.w2 s.w3 s.w0 k.w1
    match r with
    | 0 => exact h0
    | 1 => exact h1
    | 2 => exact h2
    | 3 => exact h3
  | 2 =>
    obtain ⟨h0, h1, h2, h3⟩ := finalWord_bytes s.w2 s.w3 s.w0 s.w1 k.w2
    match r with
    | 0 => exact h0
    | 1 => exact h1
    | 2 => exact h2
    | 3 => exact h3
  | 3 =>
    obtain ⟨h0, h1, h2, h3⟩ := finalWord_bytes s.w3 s.w0 s.w1 s.w2 k.w3
    match r with
    | 0 => exact h0
    | 1 => exact h1
    | 2 => exact h2
    | 3 => exact h3

/-! ### The variants -/

theorem subBytes_shiftRows (s : Spec.AES.State) : subBytes (shiftRows s) = shiftRows (subBytes s) := rfl

theorem xor128_eq (s k : Quad) : xor128 s k = initialRound s k :=
  toState_inj (by rw [xor128, toState_ofState, initialRound_state])

theorem aesenc_eq (s k : Quad) : aesenc s k = round s k :=
  toState_inj (by rw [aesenc, toState_ofState, round_state, subBytes_shiftRows])

theorem aesenclast_eq (s k : Quad) : aesenclast s k = finalRound s k :=
  toState_inj (by rw [aesenclast, toState_ofState, finalRound_state, subBytes_shiftRows])

/-- An ARM round together with the key addition of the next one. -/
theorem arm_round (s k k' : Quad) :
    initialRound (aesmc (aese s k)) k' = round (initialRound s k) k' :=
  toState_inj (by
    rw [initialRound_state, aesmc, toState_ofState, aese, toState_ofState, round_state, initialRound_state,
      subBytes_shiftRows])

theorem arm_final (s k k' : Quad) : xor128 (aese s k) k' = finalRound (initialRound s k) k' :=
  toState_inj (by
    rw [xor128, toState_ofState, aese, toState_ofState, finalRound_state, initialRound_state, subBytes_shiftRows])

theorem encryptX86_eq (rk : List U32) (s : Quad) : encryptX86 rk s = encrypt false rk s := by
  simp only [encryptX86, encrypt, xor128_eq, aesenc_eq, aesenclast_eq, Bool.false_eq_true, if_false]

theorem encryptArm_eq (rk : List U32) (s : Quad) : encryptArm rk s = encrypt false rk s := by
  simp only [encryptArm, encrypt, arm_final, arm_round, Bool.false_eq_true, if_false]

/-! ### Key expansion -/

theorem keyWord_eq (key : List U8) (i : Nat) : keyWord key i =
    le32 (key.getD (4 * i) 0) (key.getD (4 * i + 1) 0) (key.getD (4 * i + 2) 0) (key.getD (4 * i + 3) 0) := by
  rw [keyWord, or4_le32]

theorem byteN_getLsbD (w : U32) (n j : Nat) (h : j < 8) : (byteN w n).getLsbD j = w.getLsbD (8 * n + j) := by
  simp [byteN, h]

theorem rotByte_eq (w : U32) : rotByte w = le32 (byteN w 1) (byteN w 2) (byteN w 3) (byteN w 0) := by
  apply BitVec.eq_of_getLsbD_eq
  intro i hi
  rw [le32_getLsbD]
  simp only [rotByte, BitVec.getLsbD_or, BitVec.getLsbD_shiftLeft, BitVec.getLsbD_ushiftRight, hi, decide_true, Bool.true_and]
  repeat' split
  · rw [byteN_getLsbD _ _ _ (by omega)]; simp [show i < 24 by omega]
  · rw [byteN_getLsbD _ _ _ (by omega)]; simp [show i < 24 by omega]; congr 1; omega
  · rw [byteN_getLsbD _ _ _ (by omega)]; simp [show i < 24 by omega]; congr 1; omega
  · rw [byteN_getLsbD _ _ _ (by omega)]
    rw [BitVec.getLsbD_of_ge w (8 + i) (by omega)]
    simp [show ¬ i < 24 by omega]

/-- One group of four words of the code's key schedule. -/
def nextQuad (i : Nat) (q : Quad) : Quad :=
  let w0 := q.w0 ^^^ (subByte (rotByte q.w3) ^^^ (rconTab.getD i 0).setWidth 32)
  let w1 := q.w1 ^^^ w0
  let w2 := q.w2 ^^^ w1
  let w3 := q.w3 ^^^ w2
  ⟨w0, w1, w2, w3⟩

theorem getD_append_right {α : Type} (a b : List α) (i j : Nat) (d : α) (h : i = a.length + j) :
    (a ++ b).getD i d = b.getD j d := by
  subst h
  rw [List.getD_eq_getElem?_getD, List.getElem?_append_right (by omega), List.getD_eq_getElem?_getD]
  congr 2; omega

/-- Four iterations of the loop. -/
theorem expandLoop_four (n i : Nat) (pre : List U32) (q : Quad) (hp : pre.length = 4 * i) :
    expandLoop (n + 4) (4 * i + 4) (pre ++ q.toList) =
      expandLoop n (4 * i + 8) ((pre ++ q.toList) ++ (nextQuad (i + 1) q).toList) := by
  have e0 : (4 * i + 4) % 4 = 0 := by omega
  have e1 : ¬ (4 * i + 4 + 1) % 4 = 0 := by omega
  have e2 : ¬ (4 * i + 4 + 1 + 1) % 4 = 0 := by omega
  have e3 : ¬ (4 * i + 4 + 1 + 1 + 1) % 4 = 0 := by omega
  have ed : (4 * i + 4) / 4 = i + 1 := by omega
  rw [expandLoop, expandLoop, expandLoop, expandLoop]
  simp only [e0, e1, e2, e3, if_true, if_false, ed, List.append_assoc]
  rw [getD_append_right pre _ (4 * i + 4 - 1) 3 _ (by omega), getD_append_right pre _ (4 * i + 4 - 4) 0 _ (by omega)]
  rw [getD_append_right pre _ (4 * i + 4 + 1 - 1) 4 _ (by omega), getD_append_right pre _ (4 * i + 4 + 1 - 4) 1 _ (by omega)]
  rw [getD_append_right pre _ (4 * i + 4 + 1 + 1 - 1) 5 _ (by omega), getD_append_right pre _ (4 * i + 4 + 1 + 1 - 4) 2 _ (by omega)]
  rw [getD_append_right pre _ (4 * i + 4 + 1 + 1 + 1 - 1) 6 _ (by omega), getD_append_right pre _ (4 * i + 4 + 1 + 1 + 1 - 4) 3 _ (by omega)]
  rfl

/-- The code's round keys. -/
def rkq (key : List U8) : Nat → Quad
  | 0 => ⟨keyWord key 0, keyWord key 1, keyWord key 2, keyWord key 3⟩
  | i + 1 => nextQuad (i + 1) (rkq key i)

/-- The first `n` round keys in a row. -/
def rkqs (key : List U8) : Nat → List U32
  | 0 => []
  | n + 1 => rkqs key n ++ (rkq key n).toList

theorem rkqs_length (key : List U8) (n : Nat) : (rkqs key n).length = 4 * n := by
  induction n with
  | zero => rfl
  | succ n ih => simp [rkqs, ih]; omega

theorem expandLoop_rkqs (key : List U8) (m i : Nat) :
    expandLoop (4 * m) (4 * i + 4) (rkqs key (i + 1)) = rkqs key (i + 1 + m) := by
  induction m generalizing i with
  | zero => rfl
  | succ m ih =>
    rw [Nat.mul_succ, rkqs, expandLoop_four _ _ _ _ (rkqs_length key i)]
    have := ih (i + 1)
    rw [rkqs, rkqs, rkq, show 4 * (i + 1) + 4 = 4 * i + 8 by omega] at this
    rw [this]
    congr 1; omega

theorem keyExpansion_eq (key : List U8) : keyExpansion key = rkqs key 11 := expandLoop_rkqs key 10 0

theorem rkqs_getD (key : List U8) (i j m : Nat) (hj : j < 4) (d : U32) :
    (rkqs key (i + 1 + m)).getD (4 * i + j) d = (rkq key i).toList.getD j d := by
  induction m with
  | zero => rw [rkqs, getD_append_right _ _ _ j _ (by rw [rkqs_length])]
  | succ m ih =>
    rw [← ih, ← Nat.add_assoc, rkqs, List.getD_eq_getElem?_getD, List.getElem?_append_left (by rw [rkqs_length]; omega),
      ← List.getD_eq_getElem?_getD]

theorem rkAt_keyExpansion (key : List U8) (i : Nat) (hi : i ≤ 10) : rkAt (keyExpansion key) (4 * i) = rkq key i := by
  have e : 11 = i + 1 + (10 - i) := by omega
  have h := fun j hj => rkqs_getD key i j (10 - i) hj 0
  rw [keyExpansion_eq, rkAt, e]
  have h0 := h 0 (by omega)
  have h0' : (rkqs key (i + 1 + (10 - i))).getD (4 * i) 0 = (rkq key i).toList.getD 0 0 := h0
  rw [h0', h 1 (by omega), h 2 (by omega), h 3 (by omega)]
  rfl

theorem rcon_eq : ∀ i : Fin 11, rconTab.getD i.val 0 = Spec.AES.rcon i.val := by decide +kernel

theorem nextQuad_state (i : Nat) (hi : i ≤ 10) (q : Quad) : toState (nextQuad i q) = Spec.AES.nextKey i (toState q) := by
  have hrc := rcon_eq ⟨i, by omega⟩
  simp only [] at hrc
  have hcore : ∀ r : Fin 4, byteN (subByte (rotByte q.w3) ^^^ (rconTab.getD i 0).setWidth 32) r =
      Spec.AES.keyCore i (toState q) r := by
    intro r
    have hz : ∀ (b : U8), b.setWidth 32 = le32 b 0 0 0 := by
      intro b
      have := xor4_le32 b 0 0 0
      simpa using this
    rw [byteN_xor, subByte_eq, rotByte_eq, hz, hrc]
    simp only [byteN0_le32, byteN1_le32, byteN2_le32, byteN3_le32, Spec.AES.keyCore]
    match r with
    | 0 => exact congr (congrArg _ (byteN0_le32 ..)) (byteN0_le32 ..)
    | 1 => exact congr (congrArg _ (byteN1_le32 ..)) (byteN1_le32 ..)
    | 2 => exact congr (congrArg _ (byteN2_le32 ..)) (byteN2_le32 ..)
    | 3 => exact congr (congrArg _ (byteN3_le32 ..)) (byteN3_le32 ..)
  funext r c
  have h := hcore r
  match c with
  | 0 => simp only [toState, nextQuad, Spec.AES.nextKey, byteN_xor] at h ⊢; rw [h]
  | 1 => simp only [toState, nextQuad, Spec.AES.nextKey, byteN_xor] at h ⊢; rw [h]
  | 2 => simp only [toState, nextQuad, Spec.AES.nextKey, byteN_xor] at h ⊢; rw [h]
  | 3 => simp only [toState, nextQuad, Spec.AES.nextKey, byteN_xor] at h ⊢; rw [h]

theorem quadOf_state (bs : List U8) : toState (quadOf bs) = Spec.AES.ofBytes bs := by
  funext r c
  match c with
  | 0 => match r with
    | 0 => exact byteN0_le32 ..
    | 1 => exact byteN1_le32 ..
    | 2 => exact byteN2_le32 ..
    | 3 => exact byteN3_le32 ..
  | 1 => match r with
    | 0 => exact byteN0_le32 ..
    | 1 => exact byteN1_le32 ..
    | 2 => exact byteN2_le32 ..
    | 3 => exact byteN3_le32 ..
  | 2 => match r with
    | 0 => exact byteN0_le32 ..
    | 1 => exact byteN1_le32 ..
    | 2 => exact byteN2_le32 ..
    | 3 => exact byteN3_le32 ..
  | 3 => match r with
    | 0 => exact byteN0_le32 ..
    | 1 => exact byteN1_le32 ..
    | 2 => exact byteN2_le32 ..
    | 3 => exact byteN3_le32 ..

theorem rkq_zero (key : List U8) : rkq key 0 = quadOf key := by
  simp only [rkq, quadOf, keyWord_eq]

theorem rkq_state (key : List U8) : ∀ (i : Nat), i ≤ 10 → toState (rkq key i) = Spec.AES.roundKey key i
  | 0, _ => by rw [rkq_zero, quadOf_state]; rfl
  | i + 1, h => by rw [rkq, nextQuad_state _ h, rkq_state key i (by omega)]; rfl

theorem rk_state (key : List U8) (i : Nat) (hi : i ≤ 10) :
    toState (rkAt (keyExpansion key) (4 * i)) = Spec.AES.roundKey key i := by
  rw [rkAt_keyExpansion key i hi, rkq_state key i hi]

theorem bytes_toState (q : Quad) : q.bytes = Spec.AES.toBytes (toState q) := rfl

/-- The portable block function is FIPS 197. -/
theorem encrypt_eq (key : List U8) (s : Quad) :
    (encrypt false (keyExpansion key) s).bytes = Spec.AES.cipher key s.bytes := by
  have k : ∀ i, i ≤ 10 → ∀ j, j = 4 * i → toState (rkAt (keyExpansion key) j) = Spec.AES.roundKey key i := by
    intro i hi j hj; subst hj; exact rk_state key i hi
  have hs : Spec.AES.ofBytes s.bytes = toState s := by
    funext r c
    match c with
    | 0 => match r with | 0 => rfl | 1 => rfl | 2 => rfl | 3 => rfl
    | 1 => match r with | 0 => rfl | 1 => rfl | 2 => rfl | 3 => rfl
    | 2 => match r with | 0 => rfl | 1 => rfl | 2 => rfl | 3 => rfl
    | 3 => match r with | 0 => rfl | 1 => rfl | 2 => rfl | 3 => rfl
  rw [bytes_toState, Spec.AES.cipher, hs]
  simp only [encrypt, Bool.false_eq_true, if_false, finalRound_state, round_state, initialRound_state,
    k 0 (by omega) 0 rfl, k 1 (by omega) 4 rfl, k 2 (by omega) 8 rfl, k 3 (by omega) 12 rfl, k 4 (by omega) 16 rfl,
    k 5 (by omega) 20 rfl, k 6 (by omega) 24 rfl, k 7 (by omega) 28 rfl, k 8 (by omega) 32 rfl,
    k 9 (by omega) 36 rfl, k 10 (by omega) 40 rfl, Spec.AES.rounds, Nat.reduceAdd]

theorem quadOf_bytes {bs : List U8} (h : bs.length = 16) : (quadOf bs).bytes = bs := by
  match bs, h with
  | [_, _, _, _, _, _, _, _, _, _, _, _, _, _, _, _], _ =>
    simp [quadOf, Quad.bytes, Quad.toList, bytesLE32_le32]

theorem bytes_inj {p q : Quad} (h : p.bytes = q.bytes) : p = q := by
  have := congrArg bytesToWordsLE h
  rw [Quad.bytes, Quad.bytes, bytesToWordsLE_wordsToBytesLE, bytesToWordsLE_wordsToBytesLE] at this
  simp only [Quad.toList, List.cons.injEq, and_true] at this
  obtain ⟨a, b, c, d⟩ := p
  obtain ⟨a', b', c', d'⟩ := q
  simp_all

theorem quadOf_of_bytes (q : Quad) : quadOf q.bytes = q := bytes_inj (quadOf_bytes q.bytes_length)

end CT.AES
