import Verif.Proof.Serpent
import Verif.Model.Serpent32

/-! # Proofs about Serpent with 32 rounds -/

namespace CT.Serpent32

open CT.Serpent CT.Spec.Serpent

theorem round24_eq (rk : List U32) (x : Regs) :
    (⟨(round24 rk x).r1, (round24 rk x).r4, (round24 rk x).r2, (round24 rk x).r0⟩ : Quad) =
      lt (sboxLayer 24 (mix ⟨x.r0, x.r1, x.r2, x.r3⟩ (rkAt rk 24))) := by
  obtain ⟨r0, r1, r2, r3, r4⟩ := x
  rw [sboxLayer_mod, mix, rkAt]
  simp only [Nat.reduceMod]
  rw [← S0_layer, ← LT_eq]
  rfl

theorem round25_eq (rk : List U32) (x : Regs) :
    (⟨(round25 rk x).r2, (round25 rk x).r1, (round25 rk x).r0, (round25 rk x).r4⟩ : Quad) =
      lt (sboxLayer 25 (mix ⟨x.r1, x.r4, x.r2, x.r0⟩ (rkAt rk 25))) := by
  obtain ⟨r0, r1, r2, r3, r4⟩ := x
  rw [sboxLayer_mod, mix, rkAt]
  simp only [Nat.reduceMod]
  rw [← S1_layer, ← LT_eq]
  rfl

theorem round26_eq (rk : List U32) (x : Regs) :
    (⟨(round26 rk x).r0, (round26 rk x).r4, (round26 rk x).r1, (round26 rk x).r3⟩ : Quad) =
      lt (sboxLayer 26 (mix ⟨x.r2, x.r1, x.r0, x.r4⟩ (rkAt rk 26))) := by
  obtain ⟨r0, r1, r2, r3, r4⟩ := x
  rw [sboxLayer_mod, mix, rkAt]
  simp only [Nat.reduceMod]
  rw [← S2_layer, ← LT_eq]
  rfl

theorem round27_eq (rk : List U32) (x : Regs) :
    (⟨(round27 rk x).r4, (round27 rk x).r1, (round27 rk x).r3, (round27 rk x).r2⟩ : Quad) =
      lt (sboxLayer 27 (mix ⟨x.r0, x.r4, x.r1, x.r3⟩ (rkAt rk 27))) := by
  obtain ⟨r0, r1, r2, r3, r4⟩ := x
  rw [sboxLayer_mod, mix, rkAt]
  simp only [Nat.reduceMod]
  rw [← S3_layer, ← LT_eq]
  rfl

theorem round28_eq (rk : List U32) (x : Regs) :
    (⟨(round28 rk x).r1, (round28 rk x).r0, (round28 rk x).r4, (round28 rk x).r2⟩ : Quad) =
      lt (sboxLayer 28 (mix ⟨x.r4, x.r1, x.r3, x.r2⟩ (rkAt rk 28))) := by
  obtain ⟨r0, r1, r2, r3, r4⟩ := x
  rw [sboxLayer_mod, mix, rkAt]
  simp only [Nat.reduceMod]
  rw [← S4_layer, ← LT_eq]
  rfl

theorem round29_eq (rk : List U32) (x : Regs) :
    (⟨(round29 rk x).r0, (round29 rk x).r2, (round29 rk x).r1, (round29 rk x).r4⟩ : Quad) =
      lt (sboxLayer 29 (mix ⟨x.r1, x.r0, x.r4, x.r2⟩ (rkAt rk 29))) := by
  obtain ⟨r0, r1, r2, r3, r4⟩ := x
  rw [sboxLayer_mod, mix, rkAt]
  simp only [Nat.reduceMod]
  rw [← S5_layer, ← LT_eq]
  rfl

theorem round30_eq (rk : List U32) (x : Regs) :
    (⟨(round30 rk x).r0, (round30 rk x).r2, (round30 rk x).r3, (round30 rk x).r1⟩ : Quad) =
      lt (sboxLayer 30 (mix ⟨x.r0, x.r2, x.r1, x.r4⟩ (rkAt rk 30))) := by
  obtain ⟨r0, r1, r2, r3, r4⟩ := x
  rw [sboxLayer_mod, mix, rkAt]
  simp only [Nat.reduceMod]
  rw [← S6_layer, ← LT_eq]
  rfl

theorem round31_eq (rk : List U32) (x : Regs) :
    (⟨(round31 rk x).r4, (round31 rk x).r1, (round31 rk x).r2, (round31 rk x).r0⟩ : Quad) =
      mix (sboxLayer 31 (mix ⟨x.r0, x.r2, x.r3, x.r1⟩ (rkAt rk 31))) (rkAt rk 32) := by
  obtain ⟨r0, r1, r2, r3, r4⟩ := x
  rw [sboxLayer_mod, mix.eq_1 ⟨_, _, _, _⟩ (rkAt rk 31), rkAt]
  simp only [Nat.reduceMod]
  rw [← S7_layer]
  rfl

theorem rounds_eq (rk : List U32) (t0 t1 t2 t3 : U32) :
    rounds rk t0 t1 t2 t3 =
      let x := mix (sboxLayer 31 (mix (after (rkAt rk) ⟨t0, t1, t2, t3⟩ 31) (rkAt rk 31))) (rkAt rk 32)
      [x.w0, x.w1, x.w2, x.w3] := by
  simp only [rounds]
  generalize e : (⟨t0, t1, t2, t3, 0⟩ : Regs) = x0
  have h0 : (⟨x0.r0, x0.r1, x0.r2, x0.r3⟩ : Quad) = after (rkAt rk) ⟨t0, t1, t2, t3⟩ 0 := by rw [← e]; rfl
  generalize e0 : round0 rk x0 = x1
  generalize e1 : round1 rk x1 = x2
  generalize e2 : round2 rk x2 = x3
  generalize e3 : round3 rk x3 = x4
  generalize e4 : round4 rk x4 = x5
  generalize e5 : round5 rk x5 = x6
  generalize e6 : round6 rk x6 = x7
  generalize e7 : round7 rk x7 = x8
  generalize e8 : round8 rk x8 = x9
  generalize e9 : round9 rk x9 = x10
  generalize e10 : round10 rk x10 = x11
  generalize e11 : round11 rk x11 = x12
  generalize e12 : round12 rk x12 = x13
  generalize e13 : round13 rk x13 = x14
  generalize e14 : round14 rk x14 = x15
  generalize e15 : round15 rk x15 = x16
  generalize e16 : round16 rk x16 = x17
  generalize e17 : round17 rk x17 = x18
  generalize e18 : round18 rk x18 = x19
  generalize e19 : round19 rk x19 = x20
  generalize e20 : round20 rk x20 = x21
  generalize e21 : round21 rk x21 = x22
  generalize e22 : round22 rk x22 = x23
  generalize e23 : round23 rk x23 = x24
  generalize e24 : round24 rk x24 = x25
  generalize e25 : round25 rk x25 = x26
  generalize e26 : round26 rk x26 = x27
  generalize e27 : round27 rk x27 = x28
  generalize e28 : round28 rk x28 = x29
  generalize e29 : round29 rk x29 = x30
  generalize e30 : round30 rk x30 = x31
  generalize e31 : round31 rk x31 = x32
  have h1 : (⟨x1.r1, x1.r4, x1.r2, x1.r0⟩ : Quad) = after (rkAt rk) ⟨t0, t1, t2, t3⟩ 1 := by
    rw [after, ← h0, ← round0_eq, e0]
  have h2 : (⟨x2.r2, x2.r1, x2.r0, x2.r4⟩ : Quad) = after (rkAt rk) ⟨t0, t1, t2, t3⟩ 2 := by
    rw [after, ← h1, ← round1_eq, e1]
  have h3 : (⟨x3.r0, x3.r4, x3.r1, x3.r3⟩ : Quad) = after (rkAt rk) ⟨t0, t1, t2, t3⟩ 3 := by
    rw [after, ← h2, ← round2_eq, e2]
  have h4 : (⟨x4.r4, x4.r1, x4.r3, x4.r2⟩ : Quad) = after (rkAt rk) ⟨t0, t1, t2, t3⟩ 4 := by
    rw [after, ← h3, ← round3_eq, e3]
  have h5 : (⟨x5.r1, x5.r0, x5.r4, x5.r2⟩ : Quad) = after (rkAt rk) ⟨t0, t1, t2, t3⟩ 5 := by
    rw [after, ← h4, ← round4_eq, e4]
  have h6 : (⟨x6.r0, x6.r2, x6.r1, x6.r4⟩ : Quad) = after (rkAt rk) ⟨t0, t1, t2, t3⟩ 6 := by
    rw [after, ← h5, ← round5_eq, e5]
  have h7 : (⟨x7.r0, x7.r2, x7.r3, x7.r1⟩ : Quad) = after (rkAt rk) ⟨t0, t1, t2, t3⟩ 7 := by
    rw [after, ← h6, ← round6_eq, e6]
  have h8 : (⟨x8.r4, x8.r1, x8.r2, x8.r0⟩ : Quad) = after (rkAt rk) ⟨t0, t1, t2, t3⟩ 8 := by
    rw [after, ← h7, ← round7_eq, e7]
  have h9 : (⟨x9.r1, x9.r3, x9.r2, x9.r4⟩ : Quad) = after (rkAt rk) ⟨t0, t1, t2, t3⟩ 9 := by
    rw [after, ← h8, ← round8_eq, e8]
  have h10 : (⟨x10.r2, x10.r1, x10.r4, x10.r3⟩ : Quad) = after (rkAt rk) ⟨t0, t1, t2, t3⟩ 10 := by
    rw [after, ← h9, ← round9_eq, e9]
  have h11 : (⟨x11.r4, x11.r3, x11.r1, x11.r0⟩ : Quad) = after (rkAt rk) ⟨t0, t1, t2, t3⟩ 11 := by
    rw [after, ← h10, ← round10_eq, e10]
  have h12 : (⟨x12.r3, x12.r1, x12.r0, x12.r2⟩ : Quad) = after (rkAt rk) ⟨t0, t1, t2, t3⟩ 12 := by
    rw [after, ← h11, ← round11_eq, e11]
  have h13 : (⟨x13.r1, x13.r4, x13.r3, x13.r2⟩ : Quad) = after (rkAt rk) ⟨t0, t1, t2, t3⟩ 13 := by
    rw [after, ← h12, ← round12_eq, e12]
  have h14 : (⟨x14.r4, x14.r2, x14.r1, x14.r3⟩ : Quad) = after (rkAt rk) ⟨t0, t1, t2, t3⟩ 14 := by
    rw [after, ← h13, ← round13_eq, e13]
  have h15 : (⟨x15.r4, x15.r2, x15.r0, x15.r1⟩ : Quad) = after (rkAt rk) ⟨t0, t1, t2, t3⟩ 15 := by
    rw [after, ← h14, ← round14_eq, e14]
  have h16 : (⟨x16.r3, x16.r1, x16.r2, x16.r4⟩ : Quad) = after (rkAt rk) ⟨t0, t1, t2, t3⟩ 16 := by
    rw [after, ← h15, ← round15_eq, e15]
  have h17 : (⟨x17.r1, x17.r0, x17.r2, x17.r3⟩ : Quad) = after (rkAt rk) ⟨t0, t1, t2, t3⟩ 17 := by
    rw [after, ← h16, ← round16_eq, e16]
  have h18 : (⟨x18.r2, x18.r1, x18.r3, x18.r0⟩ : Quad) = after (rkAt rk) ⟨t0, t1, t2, t3⟩ 18 := by
    rw [after, ← h17, ← round17_eq, e17]
  have h19 : (⟨x19.r3, x19.r0, x19.r1, x19.r4⟩ : Quad) = after (rkAt rk) ⟨t0, t1, t2, t3⟩ 19 := by
    rw [after, ← h18, ← round18_eq, e18]
  have h20 : (⟨x20.r0, x20.r1, x20.r4, x20.r2⟩ : Quad) = after (rkAt rk) ⟨t0, t1, t2, t3⟩ 20 := by
    rw [after, ← h19, ← round19_eq, e19]
  have h21 : (⟨x21.r1, x21.r3, x21.r0, x21.r2⟩ : Quad) = after (rkAt rk) ⟨t0, t1, t2, t3⟩ 21 := by
    rw [after, ← h20, ← round20_eq, e20]
  have h22 : (⟨x22.r3, x22.r2, x22.r1, x22.r0⟩ : Quad) = after (rkAt rk) ⟨t0, t1, t2, t3⟩ 22 := by
    rw [after, ← h21, ← round21_eq, e21]
  have h23 : (⟨x23.r3, x23.r2, x23.r4, x23.r1⟩ : Quad) = after (rkAt rk) ⟨t0, t1, t2, t3⟩ 23 := by
    rw [after, ← h22, ← round22_eq, e22]
  have h24 : (⟨x24.r0, x24.r1, x24.r2, x24.r3⟩ : Quad) = after (rkAt rk) ⟨t0, t1, t2, t3⟩ 24 := by
    rw [after, ← h23, ← round23_eq, e23]
  have h25 : (⟨x25.r1, x25.r4, x25.r2, x25.r0⟩ : Quad) = after (rkAt rk) ⟨t0, t1, t2, t3⟩ 25 := by
    rw [after, ← h24, ← round24_eq, e24]
  have h26 : (⟨x26.r2, x26.r1, x26.r0, x26.r4⟩ : Quad) = after (rkAt rk) ⟨t0, t1, t2, t3⟩ 26 := by
    rw [after, ← h25, ← round25_eq, e25]
  have h27 : (⟨x27.r0, x27.r4, x27.r1, x27.r3⟩ : Quad) = after (rkAt rk) ⟨t0, t1, t2, t3⟩ 27 := by
    rw [after, ← h26, ← round26_eq, e26]
  have h28 : (⟨x28.r4, x28.r1, x28.r3, x28.r2⟩ : Quad) = after (rkAt rk) ⟨t0, t1, t2, t3⟩ 28 := by
    rw [after, ← h27, ← round27_eq, e27]
  have h29 : (⟨x29.r1, x29.r0, x29.r4, x29.r2⟩ : Quad) = after (rkAt rk) ⟨t0, t1, t2, t3⟩ 29 := by
    rw [after, ← h28, ← round28_eq, e28]
  have h30 : (⟨x30.r0, x30.r2, x30.r1, x30.r4⟩ : Quad) = after (rkAt rk) ⟨t0, t1, t2, t3⟩ 30 := by
    rw [after, ← h29, ← round29_eq, e29]
  have h31 : (⟨x31.r0, x31.r2, x31.r3, x31.r1⟩ : Quad) = after (rkAt rk) ⟨t0, t1, t2, t3⟩ 31 := by
    rw [after, ← h30, ← round30_eq, e30]
  rw [← h31, ← round31_eq, e31]

theorem words_eq (key : List U8) (h : key.length ≤ 32) :
    bytesToWordsLE (padKey key) ++ words key = prekeys (bytesToWordsLE (padKey key)) 132 := by
  obtain ⟨k0, k1, k2, k3, k4, k5, k6, k7, e⟩ :=
    list_of_length_8 _ (bytesToWordsLE_length 8 (padKey key) (padKey_length key h))
  unfold words
  rw [e]
  simp only []
  exact wLoop_prekeys _ rfl 124 8 _ (by omega) (firstWords_prekeys k0 k1 k2 k3 k4 k5 k6 k7)

theorem words_drop (key : List U8) (h : key.length ≤ 32) :
    words key = (prekeys (bytesToWordsLE (padKey key)) 132).drop 8 := by
  rw [← words_eq key h, List.drop_append_of_le_length (by rw [bytesToWordsLE_length 8 _ (padKey_length key h)]; omega),
    List.drop_of_length_le (by rw [bytesToWordsLE_length 8 _ (padKey_length key h)]; omega), List.nil_append]

theorem schedule_rkAt (key : List U8) (h : key.length ≤ 32) (i : Nat) (hi : i < 33) :
    rkAt (schedule key) i = roundKey 33 (padKey key) i := by
  rw [schedule, rkLoop_rkAt _ _ _ _ hi, roundKey, words_drop key h, Nat.zero_add]

theorem keySchedule_eq (key : List U8) (h : key.length ≤ 32) :
    keySchedule key key.length = .ok (some (schedule key)) := by
  unfold keySchedule
  rw [if_neg (by omega), if_neg (by omega)]
  simp

theorem processPacket_eq (rk : List U32) (block : List U8) (h : block.length = 16) :
    processPacket rk block 16 = .ok (toBytes
      (mix (sboxLayer 31 (mix (after (rkAt rk) (ofBytes block) 31) (rkAt rk 31))) (rkAt rk 32))) := by
  obtain ⟨t0, t1, t2, t3, e⟩ := list_of_length_4 _ (bytesToWordsLE_length 4 block h)
  unfold processPacket
  rw [if_neg (by omega), if_neg (by omega), if_neg (by omega), if_neg (by omega),
    List.take_of_length_le (by omega), e]
  simp only []
  rw [rounds_eq, List.take_of_length_le (by rw [wordsToBytesLE_length]; simp)]
  simp only [ofBytes, e, List.getD_cons_zero, List.getD_cons_succ, toBytes]

theorem serpent_eq (key block : List U8) (h : key.length ≤ 32) (hb : block.length = 16) :
    processPacket (schedule key) block 16 = .ok (serpent (padKey key) block) := by
  rw [processPacket_eq _ _ hb, serpent]
  have hk := fun i (hi : i < 33) => schedule_rkAt key h i hi
  rw [after_congr _ _ _ 33 31 hk (by omega), hk 31 (by omega), hk 32 (by omega)]

theorem toBytes_inj {x y : Quad} (h : toBytes x = toBytes y) : x = y := by
  have := congrArg bytesToWordsLE h
  simp only [toBytes, bytesToWordsLE_wordsToBytesLE] at this
  cases x
  cases y
  simpa using this

end CT.Serpent32
