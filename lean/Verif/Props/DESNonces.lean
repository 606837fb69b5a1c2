import Verif.Props.DESStructure

/-!
# DES: equal blocks and different nonces (C142)
-/

namespace CT.Props.DES
open CT.DES

theorem ecbBlock_inj (rk : List U32) {x y : U32 × U32} (h : ecbBlock rk x = ecbBlock rk y) : x = y := by
  rw [← ecbBlock_involution rk x, h, ecbBlock_involution]

/-- Block `i` of an array of words. -/
def blockAt (l : List U32) (i : Nat) : U32 × U32 := (l.getD (2 * i) 0, l.getD (2 * i + 1) 0)

theorem blockAt_mapPairs (f : U32 × U32 → U32 × U32) (l : List U32) : ∀ i, 2 * i + 1 < l.length →
    blockAt (mapPairs f l) i = f (blockAt l i) := by
  induction l using mapPairs.induct with
  | case1 x y l ih =>
    intro i h
    cases i with
    | zero => rfl
    | succ i =>
      have e (a b : U32) (l : List U32) : blockAt (a :: b :: l) (i + 1) = blockAt l i := rfl
      rw [mapPairs, e, e]
      exact ih i (by simp only [List.length_cons] at h; omega)
  | case2 l hl =>
    intro i h
    match l with
    | [] => simp at h
    | [_] => simp at h
    | x :: y :: l => exact absurd rfl (hl x y l)

/-- C142, electronic codebook: blocks of the ciphertext, of one or of two packets, are equal exactly if the blocks of the
plaintext are. -/
theorem des_ecb_equal_blocks (rk : List U32) (m m' buf buf' : List U32) (n n' : Nat) (hn : 8 * n < 2 ^ 64) (hn' : 8 * n' < 2 ^ 64)
    (hm : m.length = 2 * n) (hm' : m'.length = 2 * n') (hb : buf.length = 2 * n) (hb' : buf'.length = 2 * n') :
    ∃ c c', processPacketEcb rk ⟨m, buf, false⟩ (8 * n) = .ok ⟨m, c, false⟩ ∧ processPacketEcb rk ⟨m', buf', false⟩ (8 * n') = .ok ⟨m', c', false⟩ ∧
      ∀ i j, i < n → j < n' → (blockAt c i = blockAt c' j ↔ blockAt m i = blockAt m' j) := by
  refine ⟨_, _, (ecb_packet_both rk m buf n hn hm hb).1, (ecb_packet_both rk m' buf' n' hn' hm' hb').1, fun i j hi hj => ?_⟩
  rw [blockAt_mapPairs _ _ _ (by omega), blockAt_mapPairs _ _ _ (by omega)]
  exact ⟨fun h => ecbBlock_inj rk h, fun h => by rw [h]⟩

example := des_ecb_equal_blocks [1, 2] [1, 2, 3, 4] [3, 4] [0, 0, 0, 0] [0, 0] 2 1 (by decide) (by decide) rfl rfl rfl rfl

/-- Sum of two blocks. -/
def xorBlock (x y : U32 × U32) : U32 × U32 := (x.1 ^^^ y.1, x.2 ^^^ y.2)

theorem xor_cancel (a b c : U32) : (a ^^^ c) ^^^ (b ^^^ c) = a ^^^ b := by
  rw [BitVec.xor_comm b c, BitVec.xor_assoc, ← BitVec.xor_assoc c c b, BitVec.xor_self, BitVec.zero_xor]

theorem ctr_both (rk nonce m buf : List U32) (n : Nat) (hno : 3 ≤ nonce.length) (hn : 8 * n < 2 ^ 64) (hm : m.length = 2 * n)
    (hb : buf.length = 2 * n) : processPacketCtr rk ⟨m, buf, false⟩ nonce (8 * n) =
      .ok ⟨m, mapPairs (fun p => xorBlock p (ecbBlock rk (blockAt nonce 0))) m, false⟩ := by
  match nonce, hno with
  | n0 :: n1 :: n2 :: ns, _ =>
    rw [ctr_packet rk _ n0 n1 n2 ns n hn (by simp only; omega) (by simp only [Arrs.srcLen]; simp; omega)]
    simp only [Bool.false_eq_true, if_false]
    rw [List.take_of_length_le (by omega), List.drop_of_length_le (by omega), List.append_nil]
    rfl

/-- C142, counter mode, what holds: if the nonces differ in the first two words, no block of the one keystream is a block of
the other.  Missing from the full statement: nonces that differ in the third word only, see below. -/
theorem des_ctr_nonces_partial (rk nonce nonce' m m' buf buf' : List U32) (n n' : Nat) (hno : nonce.length = 3) (hno' : nonce'.length = 3)
    (hn : 8 * n < 2 ^ 64) (hn' : 8 * n' < 2 ^ 64) (hm : m.length = 2 * n) (hm' : m'.length = 2 * n') (hb : buf.length = 2 * n)
    (hb' : buf'.length = 2 * n') (hne : blockAt nonce 0 ≠ blockAt nonce' 0) :
    ∃ c c', processPacketCtr rk ⟨m, buf, false⟩ nonce (8 * n) = .ok ⟨m, c, false⟩ ∧
      processPacketCtr rk ⟨m', buf', false⟩ nonce' (8 * n') = .ok ⟨m', c', false⟩ ∧
      ∀ i j, i < n → j < n' → xorBlock (blockAt c i) (blockAt m i) ≠ xorBlock (blockAt c' j) (blockAt m' j) := by
  refine ⟨_, _, ctr_both rk nonce m buf n (by omega) hn hm hb, ctr_both rk nonce' m' buf' n' (by omega) hn' hm' hb', fun i j hi hj h => hne ?_⟩
  rw [blockAt_mapPairs _ _ _ (by omega), blockAt_mapPairs _ _ _ (by omega)] at h
  have e (x k : U32 × U32) : xorBlock (xorBlock x k) x = k := by
    simp only [xorBlock, BitVec.xor_comm x.1 k.1, BitVec.xor_comm x.2 k.2, BitVec.xor_assoc, BitVec.xor_self, BitVec.xor_zero]
  rw [e, e] at h
  exact ecbBlock_inj rk h

example := des_ctr_nonces_partial [1, 2] [3, 4, 5] [3, 6, 5] [1, 2, 3, 4] [3, 4] [0, 0, 0, 0] [0, 0] 2 1 rfl rfl (by decide) (by decide) rfl rfl rfl rfl
  (by decide)

/-- C142, counter mode, exactly: the sum of two blocks of ciphertext, of one packet or of two packets whose nonces agree in
the first two words, is the sum of the blocks of plaintext. -/
theorem des_ctr_pad_reused (rk nonce nonce' m m' buf buf' : List U32) (n n' : Nat) (hno : nonce.length = 3) (hno' : nonce'.length = 3)
    (hn : 8 * n < 2 ^ 64) (hn' : 8 * n' < 2 ^ 64) (hm : m.length = 2 * n) (hm' : m'.length = 2 * n') (hb : buf.length = 2 * n)
    (hb' : buf'.length = 2 * n') (he : blockAt nonce 0 = blockAt nonce' 0) :
    ∃ c c', processPacketCtr rk ⟨m, buf, false⟩ nonce (8 * n) = .ok ⟨m, c, false⟩ ∧
      processPacketCtr rk ⟨m', buf', false⟩ nonce' (8 * n') = .ok ⟨m', c', false⟩ ∧
      ∀ i j, i < n → j < n' → xorBlock (blockAt c i) (blockAt c' j) = xorBlock (blockAt m i) (blockAt m' j) := by
  refine ⟨_, _, ctr_both rk nonce m buf n (by omega) hn hm hb, ctr_both rk nonce' m' buf' n' (by omega) hn' hm' hb', fun i j hi hj => ?_⟩
  rw [blockAt_mapPairs _ _ _ (by omega), blockAt_mapPairs _ _ _ (by omega), he]
  simp only [xorBlock, xor_cancel]

example := des_ctr_pad_reused [1, 2] [3, 4, 5] [3, 4, 6] [1, 2, 3, 4] [3, 4] [0, 0, 0, 0] [0, 0] 2 1 rfl rfl (by decide) (by decide) rfl rfl rfl rfl
  (by decide)

/-- C142 fails for nonces that differ in the third word: under every key some two nonces have one keystream. -/
theorem des_ctr_nonces_refuted (rk : List U32) : ¬ ∀ nonce nonce' m : List U32, nonce.length = 3 → nonce'.length = 3 → nonce ≠ nonce' →
    m.length = 2 → ∀ a b, processPacketCtr rk ⟨m, m, false⟩ nonce 8 = .ok a → processPacketCtr rk ⟨m, m, false⟩ nonce' 8 = .ok b → a.out ≠ b.out := by
  intro h
  have e := ctr_both rk [0, 0, 0] [0, 0] [0, 0] 1 (by decide) (by decide) rfl rfl
  have e' := ctr_both rk [0, 0, 1] [0, 0] [0, 0] 1 (by decide) (by decide) rfl rfl
  exact h [0, 0, 0] [0, 0, 1] [0, 0] rfl rfl (by decide) rfl _ _ e e' rfl

/-- Instances: two blocks each, nonces that differ in the second word and nonces that do not. -/
example : (8 * 2 < 2 ^ 64) ∧ ([1, 2, 3, 4] : List U32).length = 2 * 2 ∧ blockAt [7, 8, 9] 0 ≠ blockAt [7, 9, 9] 0 ∧
    blockAt [7, 8, 9] 0 = blockAt [7, 8, 1] 0 := by decide

end CT.Props.DES
