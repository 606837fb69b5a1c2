import Verif.Spec.Serpent
import Verif.Model.Serpent

/-! # Proofs about Serpent24 -/

set_option linter.unusedSimpArgs false

namespace CT.Serpent

open CT.Spec.Serpent

theorem getLsbD_ofBits (f : Nat → Bool) (n i : Nat) (h : i < n) : (ofBits f n).getLsbD i = f i := by
  induction n with
  | zero => omega
  | succ n ih =>
    rw [ofBits, BitVec.getLsbD_cons]
    split
    · next e => rw [e]
    · exact ih (by omega)

/-! ### S-boxes -/

theorem S0_layer (a b c d : U32) :
    (⟨(S0 a b c d).r1, (S0 a b c d).r4, (S0 a b c d).r2, (S0 a b c d).r0⟩ : Quad) = sboxLayer 0 ⟨a, b, c, d⟩ := by
  simp only [sboxLayer, Quad.mk.injEq]
  refine ⟨?_, ?_, ?_, ?_⟩
  all_goals
    apply BitVec.eq_of_getLsbD_eq
    intro i hi
    rw [getLsbD_ofBits _ _ _ hi]
    simp only [S0, column, BitVec.getLsbD_xor, BitVec.getLsbD_and, BitVec.getLsbD_or, BitVec.getLsbD_not, hi,
      decide_true, Bool.true_and]
    generalize a.getLsbD i = p
    generalize b.getLsbD i = q
    generalize c.getLsbD i = r
    generalize d.getLsbD i = s
    revert p q r s
    decide

theorem S1_layer (a b c d : U32) :
    (⟨(S1 a b c d).r2, (S1 a b c d).r0, (S1 a b c d).r3, (S1 a b c d).r1⟩ : Quad) = sboxLayer 1 ⟨a, b, c, d⟩ := by
  simp only [sboxLayer, Quad.mk.injEq]
  refine ⟨?_, ?_, ?_, ?_⟩
  all_goals
    apply BitVec.eq_of_getLsbD_eq
    intro i hi
    rw [getLsbD_ofBits _ _ _ hi]
    simp only [S1, column, BitVec.getLsbD_xor, BitVec.getLsbD_and, BitVec.getLsbD_or, BitVec.getLsbD_not, hi,
      decide_true, Bool.true_and]
    generalize a.getLsbD i = p
    generalize b.getLsbD i = q
    generalize c.getLsbD i = r
    generalize d.getLsbD i = s
    revert p q r s
    decide

theorem S2_layer (a b c d : U32) :
    (⟨(S2 a b c d).r2, (S2 a b c d).r3, (S2 a b c d).r1, (S2 a b c d).r4⟩ : Quad) = sboxLayer 2 ⟨a, b, c, d⟩ := by
  simp only [sboxLayer, Quad.mk.injEq]
  refine ⟨?_, ?_, ?_, ?_⟩
  all_goals
    apply BitVec.eq_of_getLsbD_eq
    intro i hi
    rw [getLsbD_ofBits _ _ _ hi]
    simp only [S2, column, BitVec.getLsbD_xor, BitVec.getLsbD_and, BitVec.getLsbD_or, BitVec.getLsbD_not, hi,
      decide_true, Bool.true_and]
    generalize a.getLsbD i = p
    generalize b.getLsbD i = q
    generalize c.getLsbD i = r
    generalize d.getLsbD i = s
    revert p q r s
    decide

theorem S3_layer (a b c d : U32) :
    (⟨(S3 a b c d).r1, (S3 a b c d).r2, (S3 a b c d).r3, (S3 a b c d).r4⟩ : Quad) = sboxLayer 3 ⟨a, b, c, d⟩ := by
  simp only [sboxLayer, Quad.mk.injEq]
  refine ⟨?_, ?_, ?_, ?_⟩
  all_goals
    apply BitVec.eq_of_getLsbD_eq
    intro i hi
    rw [getLsbD_ofBits _ _ _ hi]
    simp only [S3, column, BitVec.getLsbD_xor, BitVec.getLsbD_and, BitVec.getLsbD_or, BitVec.getLsbD_not, hi,
      decide_true, Bool.true_and]
    generalize a.getLsbD i = p
    generalize b.getLsbD i = q
    generalize c.getLsbD i = r
    generalize d.getLsbD i = s
    revert p q r s
    decide

theorem S4_layer (a b c d : U32) :
    (⟨(S4 a b c d).r1, (S4 a b c d).r4, (S4 a b c d).r0, (S4 a b c d).r3⟩ : Quad) = sboxLayer 4 ⟨a, b, c, d⟩ := by
  simp only [sboxLayer, Quad.mk.injEq]
  refine ⟨?_, ?_, ?_, ?_⟩
  all_goals
    apply BitVec.eq_of_getLsbD_eq
    intro i hi
    rw [getLsbD_ofBits _ _ _ hi]
    simp only [S4, column, BitVec.getLsbD_xor, BitVec.getLsbD_and, BitVec.getLsbD_or, BitVec.getLsbD_not, hi,
      decide_true, Bool.true_and]
    generalize a.getLsbD i = p
    generalize b.getLsbD i = q
    generalize c.getLsbD i = r
    generalize d.getLsbD i = s
    revert p q r s
    decide

theorem S5_layer (a b c d : U32) :
    (⟨(S5 a b c d).r1, (S5 a b c d).r3, (S5 a b c d).r0, (S5 a b c d).r2⟩ : Quad) = sboxLayer 5 ⟨a, b, c, d⟩ := by
  simp only [sboxLayer, Quad.mk.injEq]
  refine ⟨?_, ?_, ?_, ?_⟩
  all_goals
    apply BitVec.eq_of_getLsbD_eq
    intro i hi
    rw [getLsbD_ofBits _ _ _ hi]
    simp only [S5, column, BitVec.getLsbD_xor, BitVec.getLsbD_and, BitVec.getLsbD_or, BitVec.getLsbD_not, hi,
      decide_true, Bool.true_and]
    generalize a.getLsbD i = p
    generalize b.getLsbD i = q
    generalize c.getLsbD i = r
    generalize d.getLsbD i = s
    revert p q r s
    decide

theorem S6_layer (a b c d : U32) :
    (⟨(S6 a b c d).r0, (S6 a b c d).r1, (S6 a b c d).r4, (S6 a b c d).r2⟩ : Quad) = sboxLayer 6 ⟨a, b, c, d⟩ := by
  simp only [sboxLayer, Quad.mk.injEq]
  refine ⟨?_, ?_, ?_, ?_⟩
  all_goals
    apply BitVec.eq_of_getLsbD_eq
    intro i hi
    rw [getLsbD_ofBits _ _ _ hi]
    simp only [S6, column, BitVec.getLsbD_xor, BitVec.getLsbD_and, BitVec.getLsbD_or, BitVec.getLsbD_not, hi,
      decide_true, Bool.true_and]
    generalize a.getLsbD i = p
    generalize b.getLsbD i = q
    generalize c.getLsbD i = r
    generalize d.getLsbD i = s
    revert p q r s
    decide

theorem S7_layer (a b c d : U32) :
    (⟨(S7 a b c d).r4, (S7 a b c d).r3, (S7 a b c d).r1, (S7 a b c d).r0⟩ : Quad) = sboxLayer 7 ⟨a, b, c, d⟩ := by
  simp only [sboxLayer, Quad.mk.injEq]
  refine ⟨?_, ?_, ?_, ?_⟩
  all_goals
    apply BitVec.eq_of_getLsbD_eq
    intro i hi
    rw [getLsbD_ofBits _ _ _ hi]
    simp only [S7, column, BitVec.getLsbD_xor, BitVec.getLsbD_and, BitVec.getLsbD_or, BitVec.getLsbD_not, hi,
      decide_true, Bool.true_and]
    generalize a.getLsbD i = p
    generalize b.getLsbD i = q
    generalize c.getLsbD i = r
    generalize d.getLsbD i = s
    revert p q r s
    decide

theorem sboxLayer_mod (n : Nat) (x : Quad) : sboxLayer n x = sboxLayer (n % 8) x := by
  simp only [sboxLayer, sbox, Nat.mod_mod]

theorem sbox_bits_inj : ∀ n < 8, ∀ a b c d a' b' c' d' : Bool,
    (∀ k < 4, (sbox n (col a b c d)).testBit k = (sbox n (col a' b' c' d')).testBit k) →
      a = a' ∧ b = b' ∧ c = c' ∧ d = d' := by
  decide +kernel

theorem sboxLayer_inj (n : Nat) (x y : Quad) (h : sboxLayer n x = sboxLayer n y) : x = y := by
  rw [sboxLayer_mod n x, sboxLayer_mod n y] at h
  have hn : n % 8 < 8 := Nat.mod_lt _ (by decide)
  generalize n % 8 = m at h hn
  simp only [sboxLayer, Quad.mk.injEq] at h
  obtain ⟨h0, h1, h2, h3⟩ := h
  have key : ∀ i < 32, x.w0.getLsbD i = y.w0.getLsbD i ∧ x.w1.getLsbD i = y.w1.getLsbD i ∧
      x.w2.getLsbD i = y.w2.getLsbD i ∧ x.w3.getLsbD i = y.w3.getLsbD i := by
    intro i hi
    apply sbox_bits_inj m hn
    intro k hk
    have e : ∀ k, ofBits (fun i => (sbox m (column x i)).testBit k) 32 = ofBits (fun i => (sbox m (column y i)).testBit k) 32 →
        (sbox m (column x i)).testBit k = (sbox m (column y i)).testBit k := by
      intro k h
      have := congrArg (fun w => w.getLsbD i) h
      simpa only [getLsbD_ofBits _ _ _ hi] using this
    obtain rfl | rfl | rfl | rfl : k = 0 ∨ k = 1 ∨ k = 2 ∨ k = 3 := by omega
    · exact e 0 h0
    · exact e 1 h1
    · exact e 2 h2
    · exact e 3 h3
  cases x
  cases y
  simp only [Quad.mk.injEq] at *
  refine ⟨?_, ?_, ?_, ?_⟩ <;> apply BitVec.eq_of_getLsbD_eq <;> intro i hi
  · exact (key i hi).1
  · exact (key i hi).2.1
  · exact (key i hi).2.2.1
  · exact (key i hi).2.2.2

/-! ### Rounds -/

theorem LT_eq (a b c d : U32) : LT a b c d = lt ⟨a, b, c, d⟩ := by
  simp only [LT, lt, rotl32_eq _ (show 0 < 13 by decide) (show 13 < 32 by decide),
    rotl32_eq _ (show 0 < 3 by decide) (show 3 < 32 by decide), rotl32_eq _ (show 0 < 1 by decide) (show 1 < 32 by decide),
    rotl32_eq _ (show 0 < 7 by decide) (show 7 < 32 by decide), rotl32_eq _ (show 0 < 5 by decide) (show 5 < 32 by decide),
    rotl32_eq _ (show 0 < 22 by decide) (show 22 < 32 by decide)]

/-- Round key `n` in the array of the code. -/
def rkAt (rk : List U32) (n : Nat) : Quad :=
  ⟨rk.getD (4 * n) 0, rk.getD (4 * n + 1) 0, rk.getD (4 * n + 2) 0, rk.getD (4 * n + 3) 0⟩

theorem round0_eq (rk : List U32) (x : Regs) :
    (⟨(round0 rk x).r1, (round0 rk x).r4, (round0 rk x).r2, (round0 rk x).r0⟩ : Quad) =
      lt (sboxLayer 0 (mix ⟨x.r0, x.r1, x.r2, x.r3⟩ (rkAt rk 0))) := by
  obtain ⟨r0, r1, r2, r3, r4⟩ := x
  rw [sboxLayer_mod, mix, rkAt]
  simp only [Nat.reduceMod]
  rw [← S0_layer, ← LT_eq]
  rfl

theorem round1_eq (rk : List U32) (x : Regs) :
    (⟨(round1 rk x).r2, (round1 rk x).r1, (round1 rk x).r0, (round1 rk x).r4⟩ : Quad) =
      lt (sboxLayer 1 (mix ⟨x.r1, x.r4, x.r2, x.r0⟩ (rkAt rk 1))) := by
  obtain ⟨r0, r1, r2, r3, r4⟩ := x
  rw [sboxLayer_mod, mix, rkAt]
  simp only [Nat.reduceMod]
  rw [← S1_layer, ← LT_eq]
  rfl

theorem round2_eq (rk : List U32) (x : Regs) :
    (⟨(round2 rk x).r0, (round2 rk x).r4, (round2 rk x).r1, (round2 rk x).r3⟩ : Quad) =
      lt (sboxLayer 2 (mix ⟨x.r2, x.r1, x.r0, x.r4⟩ (rkAt rk 2))) := by
  obtain ⟨r0, r1, r2, r3, r4⟩ := x
  rw [sboxLayer_mod, mix, rkAt]
  simp only [Nat.reduceMod]
  rw [← S2_layer, ← LT_eq]
  rfl

theorem round3_eq (rk : List U32) (x : Regs) :
    (⟨(round3 rk x).r4, (round3 rk x).r1, (round3 rk x).r3, (round3 rk x).r2⟩ : Quad) =
      lt (sboxLayer 3 (mix ⟨x.r0, x.r4, x.r1, x.r3⟩ (rkAt rk 3))) := by
  obtain ⟨r0, r1, r2, r3, r4⟩ := x
  rw [sboxLayer_mod, mix, rkAt]
  simp only [Nat.reduceMod]
  rw [← S3_layer, ← LT_eq]
  rfl

theorem round4_eq (rk : List U32) (x : Regs) :
    (⟨(round4 rk x).r1, (round4 rk x).r0, (round4 rk x).r4, (round4 rk x).r2⟩ : Quad) =
      lt (sboxLayer 4 (mix ⟨x.r4, x.r1, x.r3, x.r2⟩ (rkAt rk 4))) := by
  obtain ⟨r0, r1, r2, r3, r4⟩ := x
  rw [sboxLayer_mod, mix, rkAt]
  simp only [Nat.reduceMod]
  rw [← S4_layer, ← LT_eq]
  rfl

theorem round5_eq (rk : List U32) (x : Regs) :
    (⟨(round5 rk x).r0, (round5 rk x).r2, (round5 rk x).r1, (round5 rk x).r4⟩ : Quad) =
      lt (sboxLayer 5 (mix ⟨x.r1, x.r0, x.r4, x.r2⟩ (rkAt rk 5))) := by
  obtain ⟨r0, r1, r2, r3, r4⟩ := x
  rw [sboxLayer_mod, mix, rkAt]
  simp only [Nat.reduceMod]
  rw [← S5_layer, ← LT_eq]
  rfl

theorem round6_eq (rk : List U32) (x : Regs) :
    (⟨(round6 rk x).r0, (round6 rk x).r2, (round6 rk x).r3, (round6 rk x).r1⟩ : Quad) =
      lt (sboxLayer 6 (mix ⟨x.r0, x.r2, x.r1, x.r4⟩ (rkAt rk 6))) := by
  obtain ⟨r0, r1, r2, r3, r4⟩ := x
  rw [sboxLayer_mod, mix, rkAt]
  simp only [Nat.reduceMod]
  rw [← S6_layer, ← LT_eq]
  rfl

theorem round7_eq (rk : List U32) (x : Regs) :
    (⟨(round7 rk x).r4, (round7 rk x).r1, (round7 rk x).r2, (round7 rk x).r0⟩ : Quad) =
      lt (sboxLayer 7 (mix ⟨x.r0, x.r2, x.r3, x.r1⟩ (rkAt rk 7))) := by
  obtain ⟨r0, r1, r2, r3, r4⟩ := x
  rw [sboxLayer_mod, mix, rkAt]
  simp only [Nat.reduceMod]
  rw [← S7_layer, ← LT_eq]
  rfl

theorem round8_eq (rk : List U32) (x : Regs) :
    (⟨(round8 rk x).r1, (round8 rk x).r3, (round8 rk x).r2, (round8 rk x).r4⟩ : Quad) =
      lt (sboxLayer 8 (mix ⟨x.r4, x.r1, x.r2, x.r0⟩ (rkAt rk 8))) := by
  obtain ⟨r0, r1, r2, r3, r4⟩ := x
  rw [sboxLayer_mod, mix, rkAt]
  simp only [Nat.reduceMod]
  rw [← S0_layer, ← LT_eq]
  rfl

theorem round9_eq (rk : List U32) (x : Regs) :
    (⟨(round9 rk x).r2, (round9 rk x).r1, (round9 rk x).r4, (round9 rk x).r3⟩ : Quad) =
      lt (sboxLayer 9 (mix ⟨x.r1, x.r3, x.r2, x.r4⟩ (rkAt rk 9))) := by
  obtain ⟨r0, r1, r2, r3, r4⟩ := x
  rw [sboxLayer_mod, mix, rkAt]
  simp only [Nat.reduceMod]
  rw [← S1_layer, ← LT_eq]
  rfl

theorem round10_eq (rk : List U32) (x : Regs) :
    (⟨(round10 rk x).r4, (round10 rk x).r3, (round10 rk x).r1, (round10 rk x).r0⟩ : Quad) =
      lt (sboxLayer 10 (mix ⟨x.r2, x.r1, x.r4, x.r3⟩ (rkAt rk 10))) := by
  obtain ⟨r0, r1, r2, r3, r4⟩ := x
  rw [sboxLayer_mod, mix, rkAt]
  simp only [Nat.reduceMod]
  rw [← S2_layer, ← LT_eq]
  rfl

theorem round11_eq (rk : List U32) (x : Regs) :
    (⟨(round11 rk x).r3, (round11 rk x).r1, (round11 rk x).r0, (round11 rk x).r2⟩ : Quad) =
      lt (sboxLayer 11 (mix ⟨x.r4, x.r3, x.r1, x.r0⟩ (rkAt rk 11))) := by
  obtain ⟨r0, r1, r2, r3, r4⟩ := x
  rw [sboxLayer_mod, mix, rkAt]
  simp only [Nat.reduceMod]
  rw [← S3_layer, ← LT_eq]
  rfl

theorem round12_eq (rk : List U32) (x : Regs) :
    (⟨(round12 rk x).r1, (round12 rk x).r4, (round12 rk x).r3, (round12 rk x).r2⟩ : Quad) =
      lt (sboxLayer 12 (mix ⟨x.r3, x.r1, x.r0, x.r2⟩ (rkAt rk 12))) := by
  obtain ⟨r0, r1, r2, r3, r4⟩ := x
  rw [sboxLayer_mod, mix, rkAt]
  simp only [Nat.reduceMod]
  rw [← S4_layer, ← LT_eq]
  rfl

theorem round13_eq (rk : List U32) (x : Regs) :
    (⟨(round13 rk x).r4, (round13 rk x).r2, (round13 rk x).r1, (round13 rk x).r3⟩ : Quad) =
      lt (sboxLayer 13 (mix ⟨x.r1, x.r4, x.r3, x.r2⟩ (rkAt rk 13))) := by
  obtain ⟨r0, r1, r2, r3, r4⟩ := x
  rw [sboxLayer_mod, mix, rkAt]
  simp only [Nat.reduceMod]
  rw [← S5_layer, ← LT_eq]
  rfl

theorem round14_eq (rk : List U32) (x : Regs) :
    (⟨(round14 rk x).r4, (round14 rk x).r2, (round14 rk x).r0, (round14 rk x).r1⟩ : Quad) =
      lt (sboxLayer 14 (mix ⟨x.r4, x.r2, x.r1, x.r3⟩ (rkAt rk 14))) := by
  obtain ⟨r0, r1, r2, r3, r4⟩ := x
  rw [sboxLayer_mod, mix, rkAt]
  simp only [Nat.reduceMod]
  rw [← S6_layer, ← LT_eq]
  rfl

theorem round15_eq (rk : List U32) (x : Regs) :
    (⟨(round15 rk x).r3, (round15 rk x).r1, (round15 rk x).r2, (round15 rk x).r4⟩ : Quad) =
      lt (sboxLayer 15 (mix ⟨x.r4, x.r2, x.r0, x.r1⟩ (rkAt rk 15))) := by
  obtain ⟨r0, r1, r2, r3, r4⟩ := x
  rw [sboxLayer_mod, mix, rkAt]
  simp only [Nat.reduceMod]
  rw [← S7_layer, ← LT_eq]
  rfl

theorem round16_eq (rk : List U32) (x : Regs) :
    (⟨(round16 rk x).r1, (round16 rk x).r0, (round16 rk x).r2, (round16 rk x).r3⟩ : Quad) =
      lt (sboxLayer 16 (mix ⟨x.r3, x.r1, x.r2, x.r4⟩ (rkAt rk 16))) := by
  obtain ⟨r0, r1, r2, r3, r4⟩ := x
  rw [sboxLayer_mod, mix, rkAt]
  simp only [Nat.reduceMod]
  rw [← S0_layer, ← LT_eq]
  rfl

theorem round17_eq (rk : List U32) (x : Regs) :
    (⟨(round17 rk x).r2, (round17 rk x).r1, (round17 rk x).r3, (round17 rk x).r0⟩ : Quad) =
      lt (sboxLayer 17 (mix ⟨x.r1, x.r0, x.r2, x.r3⟩ (rkAt rk 17))) := by
  obtain ⟨r0, r1, r2, r3, r4⟩ := x
  rw [sboxLayer_mod, mix, rkAt]
  simp only [Nat.reduceMod]
  rw [← S1_layer, ← LT_eq]
  rfl

theorem round18_eq (rk : List U32) (x : Regs) :
    (⟨(round18 rk x).r3, (round18 rk x).r0, (round18 rk x).r1, (round18 rk x).r4⟩ : Quad) =
      lt (sboxLayer 18 (mix ⟨x.r2, x.r1, x.r3, x.r0⟩ (rkAt rk 18))) := by
  obtain ⟨r0, r1, r2, r3, r4⟩ := x
  rw [sboxLayer_mod, mix, rkAt]
  simp only [Nat.reduceMod]
  rw [← S2_layer, ← LT_eq]
  rfl

theorem round19_eq (rk : List U32) (x : Regs) :
    (⟨(round19 rk x).r0, (round19 rk x).r1, (round19 rk x).r4, (round19 rk x).r2⟩ : Quad) =
      lt (sboxLayer 19 (mix ⟨x.r3, x.r0, x.r1, x.r4⟩ (rkAt rk 19))) := by
  obtain ⟨r0, r1, r2, r3, r4⟩ := x
  rw [sboxLayer_mod, mix, rkAt]
  simp only [Nat.reduceMod]
  rw [← S3_layer, ← LT_eq]
  rfl

theorem round20_eq (rk : List U32) (x : Regs) :
    (⟨(round20 rk x).r1, (round20 rk x).r3, (round20 rk x).r0, (round20 rk x).r2⟩ : Quad) =
      lt (sboxLayer 20 (mix ⟨x.r0, x.r1, x.r4, x.r2⟩ (rkAt rk 20))) := by
  obtain ⟨r0, r1, r2, r3, r4⟩ := x
  rw [sboxLayer_mod, mix, rkAt]
  simp only [Nat.reduceMod]
  rw [← S4_layer, ← LT_eq]
  rfl

theorem round21_eq (rk : List U32) (x : Regs) :
    (⟨(round21 rk x).r3, (round21 rk x).r2, (round21 rk x).r1, (round21 rk x).r0⟩ : Quad) =
      lt (sboxLayer 21 (mix ⟨x.r1, x.r3, x.r0, x.r2⟩ (rkAt rk 21))) := by
  obtain ⟨r0, r1, r2, r3, r4⟩ := x
  rw [sboxLayer_mod, mix, rkAt]
  simp only [Nat.reduceMod]
  rw [← S5_layer, ← LT_eq]
  rfl

theorem round22_eq (rk : List U32) (x : Regs) :
    (⟨(round22 rk x).r3, (round22 rk x).r2, (round22 rk x).r4, (round22 rk x).r1⟩ : Quad) =
      lt (sboxLayer 22 (mix ⟨x.r3, x.r2, x.r1, x.r0⟩ (rkAt rk 22))) := by
  obtain ⟨r0, r1, r2, r3, r4⟩ := x
  rw [sboxLayer_mod, mix, rkAt]
  simp only [Nat.reduceMod]
  rw [← S6_layer, ← LT_eq]
  rfl

theorem round23_eq (rk : List U32) (x : Regs) :
    (⟨(round23 rk x).r0, (round23 rk x).r1, (round23 rk x).r2, (round23 rk x).r3⟩ : Quad) =
      lt (sboxLayer 23 (mix ⟨x.r3, x.r2, x.r4, x.r1⟩ (rkAt rk 23))) := by
  obtain ⟨r0, r1, r2, r3, r4⟩ := x
  rw [sboxLayer_mod, mix, rkAt]
  simp only [Nat.reduceMod]
  rw [← S7_layer, ← LT_eq]
  rfl

theorem rounds_eq (rk : List U32) (t0 t1 t2 t3 : U32) :
    rounds rk t0 t1 t2 t3 =
      let x := after (rkAt rk) ⟨t0, t1, t2, t3⟩
      let last := mix (x 24) (rkAt rk 24)
      [(x 12).w0, (x 12).w1, (x 12).w2, (x 12).w3, (x 18).w0, (x 18).w1, (x 18).w2, (x 18).w3,
        last.w0, last.w1, last.w2, last.w3] := by
  simp only [rounds]
  have h0 : (⟨t0, t1, t2, t3⟩ : Quad) = after (rkAt rk) ⟨t0, t1, t2, t3⟩ 0 := rfl
  generalize e : (⟨t0, t1, t2, t3, 0⟩ : Regs) = x0
  replace h0 : (⟨x0.r0, x0.r1, x0.r2, x0.r3⟩ : Quad) = after (rkAt rk) ⟨t0, t1, t2, t3⟩ 0 := by rw [← e]; rfl
  generalize e0 : round0 rk x0 = x1
  generalize e1 : round1 rk x1 = x2
  generalize e2 : round2 rk x2 = x3
  generalize e3 : round3 rk x3 = x4
  generalize e4 : round4 rk x4 = x5
  generalize e5 : round5 rk x5 = x6
  generalize e6 : round6 rk x6 = x7
  generalize e7 : round7 rk x7 = x8
  generalize e8 : round8 rk x8 = x9
  generalize e9 : round9 rk x9 = x10
  generalize e10 : round10 rk x10 = x11
  generalize e11 : round11 rk x11 = x12
  generalize e12 : round12 rk x12 = x13
  generalize e13 : round13 rk x13 = x14
  generalize e14 : round14 rk x14 = x15
  generalize e15 : round15 rk x15 = x16
  generalize e16 : round16 rk x16 = x17
  generalize e17 : round17 rk x17 = x18
  generalize e18 : round18 rk x18 = x19
  generalize e19 : round19 rk x19 = x20
  generalize e20 : round20 rk x20 = x21
  generalize e21 : round21 rk x21 = x22
  generalize e22 : round22 rk x22 = x23
  generalize e23 : round23 rk x23 = x24
  have h1 : (⟨x1.r1, x1.r4, x1.r2, x1.r0⟩ : Quad) = after (rkAt rk) ⟨t0, t1, t2, t3⟩ 1 := by
    rw [after, ← h0, ← round0_eq, e0]
  have h2 : (⟨x2.r2, x2.r1, x2.r0, x2.r4⟩ : Quad) = after (rkAt rk) ⟨t0, t1, t2, t3⟩ 2 := by
    rw [after, ← h1, ← round1_eq, e1]
  have h3 : (⟨x3.r0, x3.r4, x3.r1, x3.r3⟩ : Quad) = after (rkAt rk) ⟨t0, t1, t2, t3⟩ 3 := by
    rw [after, ← h2, ← round2_eq, e2]
  have h4 : (⟨x4.r4, x4.r1, x4.r3, x4.r2⟩ : Quad) = after (rkAt rk) ⟨t0, t1, t2, t3⟩ 4 := by
    rw [after, ← h3, ← round3_eq, e3]
  have h5 : (⟨x5.r1, x5.r0, x5.r4, x5.r2⟩ : Quad) = after (rkAt rk) ⟨t0, t1, t2, t3⟩ 5 := by
    rw [after, ← h4, ← round4_eq, e4]
  have h6 : (⟨x6.r0, x6.r2, x6.r1, x6.r4⟩ : Quad) = after (rkAt rk) ⟨t0, t1, t2, t3⟩ 6 := by
    rw [after, ← h5, ← round5_eq, e5]
  have h7 : (⟨x7.r0, x7.r2, x7.r3, x7.r1⟩ : Quad) = after (rkAt rk) ⟨t0, t1, t2, t3⟩ 7 := by
    rw [after, ← h6, ← round6_eq, e6]
  have h8 : (⟨x8.r4, x8.r1, x8.r2, x8.r0⟩ : Quad) = after (rkAt rk) ⟨t0, t1, t2, t3⟩ 8 := by
    rw [after, ← h7, ← round7_eq, e7]
  have h9 : (⟨x9.r1, x9.r3, x9.r2, x9.r4⟩ : Quad) = after (rkAt rk) ⟨t0, t1, t2, t3⟩ 9 := by
    rw [after, ← h8, ← round8_eq, e8]
  have h10 : (⟨x10.r2, x10.r1, x10.r4, x10.r3⟩ : Quad) = after (rkAt rk) ⟨t0, t1, t2, t3⟩ 10 := by
    rw [after, ← h9, ← round9_eq, e9]
  have h11 : (⟨x11.r4, x11.r3, x11.r1, x11.r0⟩ : Quad) = after (rkAt rk) ⟨t0, t1, t2, t3⟩ 11 := by
    rw [after, ← h10, ← round10_eq, e10]
  have h12 : (⟨x12.r3, x12.r1, x12.r0, x12.r2⟩ : Quad) = after (rkAt rk) ⟨t0, t1, t2, t3⟩ 12 := by
    rw [after, ← h11, ← round11_eq, e11]
  have h13 : (⟨x13.r1, x13.r4, x13.r3, x13.r2⟩ : Quad) = after (rkAt rk) ⟨t0, t1, t2, t3⟩ 13 := by
    rw [after, ← h12, ← round12_eq, e12]
  have h14 : (⟨x14.r4, x14.r2, x14.r1, x14.r3⟩ : Quad) = after (rkAt rk) ⟨t0, t1, t2, t3⟩ 14 := by
    rw [after, ← h13, ← round13_eq, e13]
  have h15 : (⟨x15.r4, x15.r2, x15.r0, x15.r1⟩ : Quad) = after (rkAt rk) ⟨t0, t1, t2, t3⟩ 15 := by
    rw [after, ← h14, ← round14_eq, e14]
  have h16 : (⟨x16.r3, x16.r1, x16.r2, x16.r4⟩ : Quad) = after (rkAt rk) ⟨t0, t1, t2, t3⟩ 16 := by
    rw [after, ← h15, ← round15_eq, e15]
  have h17 : (⟨x17.r1, x17.r0, x17.r2, x17.r3⟩ : Quad) = after (rkAt rk) ⟨t0, t1, t2, t3⟩ 17 := by
    rw [after, ← h16, ← round16_eq, e16]
  have h18 : (⟨x18.r2, x18.r1, x18.r3, x18.r0⟩ : Quad) = after (rkAt rk) ⟨t0, t1, t2, t3⟩ 18 := by
    rw [after, ← h17, ← round17_eq, e17]
  have h19 : (⟨x19.r3, x19.r0, x19.r1, x19.r4⟩ : Quad) = after (rkAt rk) ⟨t0, t1, t2, t3⟩ 19 := by
    rw [after, ← h18, ← round18_eq, e18]
  have h20 : (⟨x20.r0, x20.r1, x20.r4, x20.r2⟩ : Quad) = after (rkAt rk) ⟨t0, t1, t2, t3⟩ 20 := by
    rw [after, ← h19, ← round19_eq, e19]
  have h21 : (⟨x21.r1, x21.r3, x21.r0, x21.r2⟩ : Quad) = after (rkAt rk) ⟨t0, t1, t2, t3⟩ 21 := by
    rw [after, ← h20, ← round20_eq, e20]
  have h22 : (⟨x22.r3, x22.r2, x22.r1, x22.r0⟩ : Quad) = after (rkAt rk) ⟨t0, t1, t2, t3⟩ 22 := by
    rw [after, ← h21, ← round21_eq, e21]
  have h23 : (⟨x23.r3, x23.r2, x23.r4, x23.r1⟩ : Quad) = after (rkAt rk) ⟨t0, t1, t2, t3⟩ 23 := by
    rw [after, ← h22, ← round22_eq, e22]
  have h24 : (⟨x24.r0, x24.r1, x24.r2, x24.r3⟩ : Quad) = after (rkAt rk) ⟨t0, t1, t2, t3⟩ 24 := by
    rw [after, ← h23, ← round23_eq, e23]
  rw [← h12, ← h18, ← h24]
  simp only [lastKey, ARK, mix, rkAt, List.cons_append, List.nil_append]

/-! ### Key schedule -/

theorem keyBlock_eq (b : Nat) (w0 w1 w2 w3 : U32) :
    keyBlock b w0 w1 w2 w3 =
      let x := sboxLayer (7 * b + 3) ⟨w0, w1, w2, w3⟩
      [x.w0, x.w1, x.w2, x.w3] := by
  rw [sboxLayer_mod]
  have hb : b % 8 < 8 := Nat.mod_lt _ (by decide)
  have hm : (7 * b + 3) % 8 = (7 * (b % 8) + 3) % 8 := by omega
  unfold keyBlock
  rw [hm]
  generalize b % 8 = m at hb
  obtain rfl | rfl | rfl | rfl | rfl | rfl | rfl | rfl :
    m = 0 ∨ m = 1 ∨ m = 2 ∨ m = 3 ∨ m = 4 ∨ m = 5 ∨ m = 6 ∨ m = 7 := by omega
  all_goals simp only [Nat.reduceMul, Nat.reduceAdd, Nat.reduceMod, Nat.mul_zero, Nat.zero_add, Nat.mul_one]
  · rw [← S3_layer]
  · rw [← S2_layer]
  · rw [← S1_layer]
  · rw [← S0_layer]
  · rw [← S7_layer]
  · rw [← S6_layer]
  · rw [← S5_layer]
  · rw [← S4_layer]

theorem keyBlock_length (b : Nat) (w0 w1 w2 w3 : U32) : (keyBlock b w0 w1 w2 w3).length = 4 := by
  rw [keyBlock_eq]
  rfl

theorem getD_drop (w : List U32) (m k : Nat) : (w.drop m).getD k 0 = w.getD (m + k) 0 := by
  simp [List.getD_eq_getElem?_getD]

theorem rkLoop_rkAt (n b : Nat) (w : List U32) (i : Nat) (h : i < n) :
    rkAt (rkLoop n b w) i = sboxLayer (7 * (b + i) + 3)
      ⟨w.getD (4 * i) 0, w.getD (4 * i + 1) 0, w.getD (4 * i + 2) 0, w.getD (4 * i + 3) 0⟩ := by
  induction n generalizing b w i with
  | zero => omega
  | succ n ih =>
    cases i with
    | zero =>
      simp only [rkLoop, keyBlock_eq, rkAt, Nat.mul_zero, Nat.zero_add, List.cons_append, List.getD_cons_zero,
        List.getD_cons_succ, Nat.add_zero]
    | succ i =>
      have e : rkAt (rkLoop (n + 1) b w) (i + 1) = rkAt (rkLoop n (b + 1) (w.drop 4)) i := by
        have a : ∀ k, (rkLoop (n + 1) b w).getD (4 * (i + 1) + k) 0 = (rkLoop n (b + 1) (w.drop 4)).getD (4 * i + k) 0 := by
          intro k
          rw [rkLoop, List.getD_eq_getElem?_getD, List.getElem?_append_right (by rw [keyBlock_length]; omega),
            keyBlock_length, show 4 * (i + 1) + k - 4 = 4 * i + k by omega, ← List.getD_eq_getElem?_getD]
        simp only [rkAt, a 1, a 2, a 3]
        have := a 0
        simp only [Nat.add_zero] at this
        rw [this]
      rw [e, ih _ _ _ (by omega)]
      simp only [getD_drop]
      rw [show b + 1 + i = b + (i + 1) by omega, show 4 + 4 * i = 4 * (i + 1) by omega,
        show 4 + (4 * i + 1) = 4 * (i + 1) + 1 by omega, show 4 + (4 * i + 2) = 4 * (i + 1) + 2 by omega,
        show 4 + (4 * i + 3) = 4 * (i + 1) + 3 by omega]

theorem prekeys_length (l : List U32) (n : Nat) : (prekeys l n).length = l.length + n := by
  induction n with
  | zero => rfl
  | succ n ih => simp only [prekeys, List.length_append, ih, List.length_cons, List.length_nil]; omega

theorem wLoop_prekeys (l : List U32) (hl : l.length = 8) (n i : Nat) (w : List U32) (hi : 8 ≤ i)
    (h : l ++ w = prekeys l i) : l ++ wLoop n i w = prekeys l (i + n) := by
  induction n generalizing i w with
  | zero => simpa [wLoop] using h
  | succ n ih =>
    rw [wLoop, show i + (n + 1) = i + 1 + n by omega]
    apply ih _ _ (by omega)
    rw [wStep, prekeys, ← List.append_assoc, h]
    have g : ∀ j, 8 ≤ j → w.getD (j - 8) 0 = (prekeys l i).getD j 0 := by
      intro j hj
      rw [← h, List.getD_eq_getElem?_getD, List.getD_eq_getElem?_getD, List.getElem?_append_right (by omega), hl]
    rw [g i hi, show i - 5 = i + 3 - 8 by omega, g _ (by omega), show i - 3 = i + 5 - 8 by omega, g _ (by omega),
      show i - 1 = i + 7 - 8 by omega, g _ (by omega), rotl32_eq _ (by decide) (by decide)]
    rfl

theorem firstWords_prekeys (k0 k1 k2 k3 k4 k5 k6 k7 : U32) :
    [k0, k1, k2, k3, k4, k5, k6, k7] ++ firstWords k0 k1 k2 k3 k4 k5 k6 k7 =
      prekeys [k0, k1, k2, k3, k4, k5, k6, k7] 8 := by
  simp only [firstWords, prekeys, List.cons_append, List.nil_append, Nat.zero_add, Nat.reduceAdd,
    List.getD_cons_zero, List.getD_cons_succ, rotl32_eq _ (show 0 < 11 by decide) (show 11 < 32 by decide), phi]
  rfl

theorem list_of_length_8 (l : List U32) (h : l.length = 8) :
    ∃ k0 k1 k2 k3 k4 k5 k6 k7, l = [k0, k1, k2, k3, k4, k5, k6, k7] := by
  match l, h with
  | [k0, k1, k2, k3, k4, k5, k6, k7], _ => exact ⟨k0, k1, k2, k3, k4, k5, k6, k7, rfl⟩

theorem list_of_length_4 (l : List U32) (h : l.length = 4) : ∃ k0 k1 k2 k3, l = [k0, k1, k2, k3] := by
  match l, h with
  | [k0, k1, k2, k3], _ => exact ⟨k0, k1, k2, k3, rfl⟩

theorem bytesToWordsLE_length (n : Nat) (k : List U8) (h : k.length = 4 * n) : (bytesToWordsLE k).length = n := by
  have := congrArg List.length (wordsToBytesLE_bytesToWordsLE n k h)
  rw [wordsToBytesLE_length] at this
  omega

theorem padKey_length (key : List U8) (h : key.length ≤ 32) : (padKey key).length = 32 := by
  unfold padKey
  split
  · simp only [List.length_append, List.length_cons, List.length_replicate]; omega
  · omega

theorem words_eq (key : List U8) (h : key.length ≤ 32) :
    bytesToWordsLE (padKey key) ++ words key = prekeys (bytesToWordsLE (padKey key)) 100 := by
  obtain ⟨k0, k1, k2, k3, k4, k5, k6, k7, e⟩ :=
    list_of_length_8 _ (bytesToWordsLE_length 8 (padKey key) (padKey_length key h))
  unfold words
  rw [e]
  simp only []
  exact wLoop_prekeys _ rfl 92 8 _ (by omega) (firstWords_prekeys k0 k1 k2 k3 k4 k5 k6 k7)

theorem words_drop (key : List U8) (h : key.length ≤ 32) :
    words key = (prekeys (bytesToWordsLE (padKey key)) 100).drop 8 := by
  rw [← words_eq key h, List.drop_append_of_le_length (by rw [bytesToWordsLE_length 8 _ (padKey_length key h)]; omega),
    List.drop_of_length_le (by rw [bytesToWordsLE_length 8 _ (padKey_length key h)]; omega), List.nil_append]

theorem schedule_rkAt (key : List U8) (h : key.length ≤ 32) (i : Nat) (hi : i < 25) :
    rkAt (schedule key) i = roundKey 25 (padKey key) i := by
  rw [schedule, rkLoop_rkAt _ _ _ _ hi, roundKey, words_drop key h, Nat.zero_add]

theorem after_congr (k k' : Nat → Quad) (x : Quad) (n m : Nat) (h : ∀ i < n, k i = k' i) (hm : m ≤ n) :
    after k x m = after k' x m := by
  induction m with
  | zero => rfl
  | succ m ih => rw [after, after, ih (by omega), h m (by omega)]

theorem keySchedule_eq (key : List U8) (h : key.length ≤ 32) :
    keySchedule key key.length = .ok (some (schedule key)) := by
  unfold keySchedule
  rw [if_neg (by omega), if_neg (by omega)]
  simp

theorem processPacket_eq (rk : List U32) (block : List U8) (h : block.length = 16) :
    processPacket rk block 16 = .ok (outWords
      (after (rkAt rk) (ofBytes block) 12, after (rkAt rk) (ofBytes block) 18,
        mix (after (rkAt rk) (ofBytes block) 24) (rkAt rk 24))) := by
  obtain ⟨t0, t1, t2, t3, e⟩ := list_of_length_4 _ (bytesToWordsLE_length 4 block h)
  unfold processPacket
  rw [if_neg (by omega), if_neg (by omega), if_neg (by omega), if_neg (by omega),
    List.take_of_length_le (by omega), e]
  simp only []
  rw [rounds_eq]
  simp only [ofBytes, e, List.getD_cons_zero, List.getD_cons_succ, outWords]

theorem serpent24_eq (key block : List U8) (h : key.length ≤ 32) (hb : block.length = 16) :
    processPacket (schedule key) block 16 = .ok (outWords (serpent24 (padKey key) block)) := by
  rw [processPacket_eq _ _ hb, serpent24]
  have hk := fun i (hi : i < 25) => schedule_rkAt key h i hi
  rw [after_congr _ _ _ 25 12 hk (by omega), after_congr _ _ _ 25 18 hk (by omega),
    after_congr _ _ _ 25 24 hk (by omega), hk 24 (by omega)]

/-! ### Distinct keys -/

theorem rotateLeft_inj {a b : U32} {n : Nat} (hn : n < 32) (h : a.rotateLeft n = b.rotateLeft n) : a = b := by
  apply BitVec.eq_of_getLsbD_eq
  intro i hi
  rw [BitVec.getLsbD_eq_getElem hi, BitVec.getLsbD_eq_getElem hi]
  by_cases hs : i < 32 - n
  · have := congrArg (fun x => x.getLsbD (i + n)) h
    simpa [BitVec.getLsbD_rotateLeft, Nat.mod_eq_of_lt hn, show ¬ i + n < n by omega, show i + n < 32 by omega,
      hi, BitVec.getLsbD_eq_getElem hi] using this
  · have := congrArg (fun x => x.getLsbD (i - (32 - n))) h
    simpa [BitVec.getLsbD_rotateLeft, Nat.mod_eq_of_lt hn, show i - (32 - n) < n by omega,
      show 32 - n + (i - (32 - n)) = i by omega, hi, BitVec.getLsbD_eq_getElem hi] using this

theorem rotl32_11_inj {a b : U32} (h : rotl32 a 11 = rotl32 b 11) : a = b := by
  rw [rotl32_eq _ (by decide) (by decide), rotl32_eq _ (by decide) (by decide)] at h
  exact rotateLeft_inj (by decide) h

theorem lt_inj {x y : Quad} (h : lt x = lt y) : x = y := by
  obtain ⟨a0, a1, a2, a3⟩ := x
  obtain ⟨b0, b1, b2, b3⟩ := y
  simp only [lt, Quad.mk.injEq] at h
  obtain ⟨h0, h1, h2, h3⟩ := h
  have e0 := rotateLeft_inj (by decide) h0
  have e2 := rotateLeft_inj (by decide) h2
  rw [h1, h3] at e0 e2
  simp only [BitVec.xor_left_inj] at e0 e2
  have f1 := rotateLeft_inj (by decide) h1
  have f3 := rotateLeft_inj (by decide) h3
  rw [e0, e2] at f1 f3
  simp only [BitVec.xor_left_inj] at f1 f3
  rw [rotateLeft_inj (by decide) e0, rotateLeft_inj (by decide) e2, f1, f3]

theorem mix_inj {x y k : Quad} (h : mix x k = mix y k) : x = y := by
  cases x
  cases y
  simpa only [mix, Quad.mk.injEq, BitVec.xor_left_inj] using h

theorem after_inj (k : Nat → Quad) {x y : Quad} (n : Nat) (h : after k x n = after k y n) : x = y := by
  induction n with
  | zero => exact h
  | succ n ih => exact ih (mix_inj (sboxLayer_inj _ _ _ (lt_inj h)))

theorem ofBytes_inj {a b : List U8} (ha : a.length = 16) (hb : b.length = 16) (h : ofBytes a = ofBytes b) : a = b := by
  obtain ⟨t0, t1, t2, t3, e⟩ := list_of_length_4 _ (bytesToWordsLE_length 4 a ha)
  obtain ⟨s0, s1, s2, s3, f⟩ := list_of_length_4 _ (bytesToWordsLE_length 4 b hb)
  have : bytesToWordsLE a = bytesToWordsLE b := by
    rw [e, f]
    simpa only [ofBytes, e, f, Quad.mk.injEq, List.getD_cons_zero, List.getD_cons_succ, List.cons.injEq, and_true] using h
  rw [← wordsToBytesLE_bytesToWordsLE 4 a ha, this, wordsToBytesLE_bytesToWordsLE 4 b hb]

/-! ### Columns -/

theorem sbox_lt : ∀ n < 8, ∀ a b c d : Bool, sbox n (col a b c d) < 16 := by decide +kernel

theorem col_testBit : ∀ v < 16, col (v.testBit 0) (v.testBit 1) (v.testBit 2) (v.testBit 3) = v := by decide +kernel

theorem column_sboxLayer (n : Nat) (x : Quad) (i : Nat) (hi : i < 32) :
    column (sboxLayer n x) i = sbox n (column x i) := by
  simp only [column, sboxLayer]
  rw [getLsbD_ofBits _ _ _ hi, getLsbD_ofBits _ _ _ hi, getLsbD_ofBits _ _ _ hi, getLsbD_ofBits _ _ _ hi]
  have : sbox n (col (x.w0.getLsbD i) (x.w1.getLsbD i) (x.w2.getLsbD i) (x.w3.getLsbD i)) < 16 := by
    have := sbox_lt (n % 8) (Nat.mod_lt _ (by decide)) (x.w0.getLsbD i) (x.w1.getLsbD i) (x.w2.getLsbD i) (x.w3.getLsbD i)
    simpa only [sbox, Nat.mod_mod] using this
  exact col_testBit _ this

theorem serpent1_eq (a b c d : U32) : serpent1 a b c d = sboxLayer 2 ⟨a, b, c, d⟩ := by
  rw [← S2_layer]
  rfl

theorem firstWords_inj {k0 k1 k2 k3 k4 k5 k6 k7 l0 l1 l2 l3 l4 l5 l6 l7 : U32}
    (h : firstWords k0 k1 k2 k3 k4 k5 k6 k7 = firstWords l0 l1 l2 l3 l4 l5 l6 l7) :
    [k0, k1, k2, k3, k4, k5, k6, k7] = [l0, l1, l2, l3, l4, l5, l6, l7] := by
  generalize hw : firstWords l0 l1 l2 l3 l4 l5 l6 l7 = w at h
  obtain ⟨w0, w1, w2, w3, w4, w5, w6, w7, rfl⟩ := list_of_length_8 w (by rw [← hw]; rfl)
  simp only [firstWords, List.cons.injEq, and_true] at h hw
  obtain ⟨h0, h1, h2, h3, h4, h5, h6, h7⟩ := h
  obtain ⟨g0, g1, g2, g3, g4, g5, g6, g7⟩ := hw
  rw [h0] at h1; rw [g0] at g1
  rw [h0] at h2; rw [g0] at g2
  rw [h0] at h3; rw [g0] at g3
  rw [h0] at h4; rw [g0] at g4
  rw [h0] at h5; rw [g0] at g5
  rw [h0] at h6; rw [g0] at g6
  rw [h0] at h7; rw [g0] at g7
  rw [h1] at h2; rw [g1] at g2
  rw [h1] at h3; rw [g1] at g3
  rw [h1] at h4; rw [g1] at g4
  rw [h1] at h5; rw [g1] at g5
  rw [h1] at h6; rw [g1] at g6
  rw [h1] at h7; rw [g1] at g7
  rw [h2] at h3; rw [g2] at g3
  rw [h2] at h4; rw [g2] at g4
  rw [h2] at h5; rw [g2] at g5
  rw [h2] at h6; rw [g2] at g6
  rw [h2] at h7; rw [g2] at g7
  rw [h3] at h4; rw [g3] at g4
  rw [h3] at h5; rw [g3] at g5
  rw [h3] at h6; rw [g3] at g6
  rw [h3] at h7; rw [g3] at g7
  rw [h4] at h5; rw [g4] at g5
  rw [h4] at h6; rw [g4] at g6
  rw [h4] at h7; rw [g4] at g7
  rw [h5] at h6; rw [g5] at g6
  rw [h5] at h7; rw [g5] at g7
  rw [h6] at h7; rw [g6] at g7
  have e7 := rotl32_11_inj (h7.trans g7.symm)
  have e6 := rotl32_11_inj (h6.trans g6.symm)
  have e5 := rotl32_11_inj (h5.trans g5.symm)
  have e4 := rotl32_11_inj (h4.trans g4.symm)
  have e3 := rotl32_11_inj (h3.trans g3.symm)
  have e2 := rotl32_11_inj (h2.trans g2.symm)
  have e1 := rotl32_11_inj (h1.trans g1.symm)
  have e0 := rotl32_11_inj (h0.trans g0.symm)
  simp only [BitVec.xor_left_inj] at e0 e1 e2 e3 e4 e5 e6 e7
  subst e7 e6 e5
  simp only [BitVec.xor_left_inj] at e0 e1 e2 e3 e4
  subst e4 e3 e2
  simp only [BitVec.xor_left_inj] at e0 e1
  subst e0 e1
  rfl

theorem wLoop_take (n i : Nat) (w : List U32) : (wLoop n i w).take w.length = w := by
  induction n generalizing i w with
  | zero => simp [wLoop]
  | succ n ih =>
    rw [wLoop]
    have := congrArg (List.take w.length) (ih (i + 1) (wStep w i))
    rw [List.take_take, wStep, List.length_append, Nat.min_eq_left (by omega), List.take_left] at this
    exact this

theorem take_8 (w : List U32) (h : 8 ≤ w.length) :
    w.take 8 = [w.getD 0 0, w.getD 1 0, w.getD 2 0, w.getD 3 0, w.getD 4 0, w.getD 5 0, w.getD 6 0, w.getD 7 0] := by
  match w, h with
  | _ :: _ :: _ :: _ :: _ :: _ :: _ :: _ :: _, _ => rfl

theorem words_length (key : List U8) (h : key.length ≤ 32) : (words key).length = 100 := by
  rw [words_drop key h, List.length_drop, prekeys_length, bytesToWordsLE_length 8 _ (padKey_length key h)]

theorem schedule_inj (a b : List U8) (ha : a.length ≤ 32) (hb : b.length ≤ 32) :
    schedule a = schedule b ↔ padKey a = padKey b := by
  constructor
  · intro h
    have r0 : rkAt (schedule a) 0 = rkAt (schedule b) 0 := by rw [h]
    have r1 : rkAt (schedule a) 1 = rkAt (schedule b) 1 := by rw [h]
    rw [schedule, schedule, rkLoop_rkAt _ _ _ _ (by omega), rkLoop_rkAt _ _ _ _ (by omega)] at r0 r1
    have q0 := sboxLayer_inj _ _ _ r0
    have q1 := sboxLayer_inj _ _ _ r1
    simp only [Quad.mk.injEq, Nat.mul_zero, Nat.mul_one, Nat.zero_add, Nat.reduceAdd] at q0 q1
    have t : (words a).take 8 = (words b).take 8 := by
      rw [take_8 _ (by rw [words_length a ha]; omega), take_8 _ (by rw [words_length b hb]; omega), q0.1, q0.2.1,
        q0.2.2.1, q0.2.2.2, q1.1, q1.2.1, q1.2.2.1, q1.2.2.2]
    obtain ⟨k0, k1, k2, k3, k4, k5, k6, k7, ea⟩ :=
      list_of_length_8 _ (bytesToWordsLE_length 8 (padKey a) (padKey_length a ha))
    obtain ⟨l0, l1, l2, l3, l4, l5, l6, l7, eb⟩ :=
      list_of_length_8 _ (bytesToWordsLE_length 8 (padKey b) (padKey_length b hb))
    have wa : words a = wLoop 92 8 (firstWords k0 k1 k2 k3 k4 k5 k6 k7) := by rw [words, ea]
    have wb : words b = wLoop 92 8 (firstWords l0 l1 l2 l3 l4 l5 l6 l7) := by rw [words, eb]
    have ta := wLoop_take 92 8 (firstWords k0 k1 k2 k3 k4 k5 k6 k7)
    have tb := wLoop_take 92 8 (firstWords l0 l1 l2 l3 l4 l5 l6 l7)
    rw [← wa, show (firstWords k0 k1 k2 k3 k4 k5 k6 k7).length = 8 from rfl] at ta
    rw [← wb, show (firstWords l0 l1 l2 l3 l4 l5 l6 l7).length = 8 from rfl] at tb
    rw [ta, tb] at t
    have := firstWords_inj t
    rw [← ea, ← eb] at this
    rw [← wordsToBytesLE_bytesToWordsLE 8 (padKey a) (padKey_length a ha), this,
      wordsToBytesLE_bytesToWordsLE 8 (padKey b) (padKey_length b hb)]
  · intro h
    simp only [schedule, words, h]

theorem append_mark_inj (a b : List U8) (m n : Nat)
    (h : a ++ 0x80 :: List.replicate m 0 = b ++ 0x80 :: List.replicate n 0) : a = b := by
  have e := congrArg List.reverse h
  simp only [List.reverse_append, List.reverse_cons, List.reverse_replicate, List.append_assoc, List.singleton_append] at e
  have key : ∀ (m n : Nat) (x y : List U8), List.replicate m 0 ++ 0x80 :: x = List.replicate n 0 ++ 0x80 :: y → x = y := by
    intro m
    induction m with
    | zero =>
      intro n x y h
      cases n with
      | zero => simpa using h
      | succ n => simp [List.replicate_succ] at h
    | succ m ih =>
      intro n x y h
      cases n with
      | zero => simp [List.replicate_succ] at h
      | succ n =>
        simp only [List.replicate_succ, List.cons_append, List.cons.injEq, true_and] at h
        exact ih n x y h
  exact List.reverse_inj.mp (key m n _ _ e)

theorem padKey_eq_iff (a b : List U8) (ha : a.length ≤ 32) (hb : b.length ≤ 32) :
    padKey a = padKey b ↔
      a = b ∨ (a.length < 32 ∧ b = a ++ 0x80 :: List.replicate (31 - a.length) 0) ∨
        (b.length < 32 ∧ a = b ++ 0x80 :: List.replicate (31 - b.length) 0) := by
  unfold padKey
  constructor
  · intro h
    split at h <;> split at h
    · exact Or.inl (append_mark_inj _ _ _ _ h)
    · exact Or.inr (Or.inl ⟨by assumption, h.symm⟩)
    · exact Or.inr (Or.inr ⟨by assumption, h⟩)
    · exact Or.inl h
  · rintro (rfl | ⟨h, rfl⟩ | ⟨h, rfl⟩)
    · rfl
    · rw [if_pos h, if_neg (by simp only [List.length_append, List.length_cons, List.length_replicate]; omega)]
    · rw [if_pos h, if_neg (by simp only [List.length_append, List.length_cons, List.length_replicate]; omega)]

theorem padKey_ne_pad (key : List U8) (h : key.length < 32) : padKey key ≠ pad key := by
  unfold padKey pad
  rw [if_pos h, if_pos h]
  intro e
  simp at e

end CT.Serpent
