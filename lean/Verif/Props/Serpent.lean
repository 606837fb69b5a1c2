import Verif.Proof.Serpent

/-!
# Serpent24 (C25 - C27, C66, C67)

`schedule key` is the array `RK` after `serpent_key_schedule`; `keySchedule` adds the checks of the length.
-/

namespace CT.Props.Serpent
open CT.Serpent
open CT.Spec.Serpent (sbox column serpent24 outWords pad)

/-! ### C25 -/

/-- C25: at every bit position the four-bit column over the output registers (in the order in which the
rounds and the key schedule read them) is the S-box applied to the column over the input registers. -/
theorem serpent_sboxes (a b c d : U32) (i : Nat) (hi : i < 32) :
    (let x := S0 a b c d; column ⟨x.r1, x.r4, x.r2, x.r0⟩ i = sbox 0 (column ⟨a, b, c, d⟩ i)) ∧
    (let x := S1 a b c d; column ⟨x.r2, x.r0, x.r3, x.r1⟩ i = sbox 1 (column ⟨a, b, c, d⟩ i)) ∧
    (let x := S2 a b c d; column ⟨x.r2, x.r3, x.r1, x.r4⟩ i = sbox 2 (column ⟨a, b, c, d⟩ i)) ∧
    (let x := S3 a b c d; column ⟨x.r1, x.r2, x.r3, x.r4⟩ i = sbox 3 (column ⟨a, b, c, d⟩ i)) ∧
    (let x := S4 a b c d; column ⟨x.r1, x.r4, x.r0, x.r3⟩ i = sbox 4 (column ⟨a, b, c, d⟩ i)) ∧
    (let x := S5 a b c d; column ⟨x.r1, x.r3, x.r0, x.r2⟩ i = sbox 5 (column ⟨a, b, c, d⟩ i)) ∧
    (let x := S6 a b c d; column ⟨x.r0, x.r1, x.r4, x.r2⟩ i = sbox 6 (column ⟨a, b, c, d⟩ i)) ∧
    (let x := S7 a b c d; column ⟨x.r4, x.r3, x.r1, x.r0⟩ i = sbox 7 (column ⟨a, b, c, d⟩ i)) := by
  refine ⟨?_, ?_, ?_, ?_, ?_, ?_, ?_, ?_⟩
  · rw [← column_sboxLayer 0 _ i hi, ← S0_layer]
  · rw [← column_sboxLayer 1 _ i hi, ← S1_layer]
  · rw [← column_sboxLayer 2 _ i hi, ← S2_layer]
  · rw [← column_sboxLayer 3 _ i hi, ← S3_layer]
  · rw [← column_sboxLayer 4 _ i hi, ← S4_layer]
  · rw [← column_sboxLayer 5 _ i hi, ← S5_layer]
  · rw [← column_sboxLayer 6 _ i hi, ← S6_layer]
  · rw [← column_sboxLayer 7 _ i hi, ← S7_layer]

example := serpent_sboxes 0x01234567 0x89abcdef 0xdeadbeef 0x0f0f0f0f 17 (by decide)

/-- C25: `serpent1` is S-box 2 with the outputs back in order. -/
theorem serpent_serpent1 (a b c d : U32) (i : Nat) (hi : i < 32) :
    column (serpent1 a b c d) i = sbox 2 (column ⟨a, b, c, d⟩ i) := by
  rw [serpent1_eq, column_sboxLayer 2 _ i hi]

/-- Column 0 of the words 1, 0, 1, 0 is 5; `S2[5] = 12`. -/
example : column ⟨1, 0, 1, 0⟩ 0 = 5 ∧ column (serpent1 1 0 1 0) 0 = 12 := by decide +kernel

/-! ### C26 -/

/-- C26: for a key of 32 bytes, key schedule and the processing of one block give the three output blocks
of Serpent24. -/
theorem serpent24_conforms (key block : List U8) (hk : key.length = 32) (hb : block.length = 16) :
    ∃ rk, keySchedule key 32 = .ok (some rk) ∧ processPacket rk block 16 = .ok (outWords (serpent24 key block)) := by
  have h := keySchedule_eq key (by omega)
  rw [hk] at h
  refine ⟨schedule key, h, ?_⟩
  rw [serpent24_eq key block (by omega) hb, padKey, if_neg (by omega)]

def key32 : List U8 := (List.range 32).map (BitVec.ofNat 8)
def block16 : List U8 := (List.range 16).map fun i => BitVec.ofNat 8 (17 * i)

example : key32.length = 32 ∧ block16.length = 16 := by decide

/-! ### C27 -/

/-- C27, what the code does: two keys of at most 32 bytes have the same schedule exactly if they are equal or
one has 32 bytes and is the other one followed by the padding `80 00 ... 00`. -/
theorem serpent_collisions_exact (a b : List U8) (ha : a.length ≤ 32) (hb : b.length ≤ 32) :
    keySchedule a a.length = keySchedule b b.length ↔
      a = b ∨ (a.length < 32 ∧ b = a ++ 0x80 :: List.replicate (31 - a.length) 0) ∨
        (b.length < 32 ∧ a = b ++ 0x80 :: List.replicate (31 - b.length) 0) := by
  rw [keySchedule_eq a ha, keySchedule_eq b hb, ← padKey_eq_iff a b ha hb, ← schedule_inj a b ha hb]
  simp

/-- C27, the part that holds: distinct keys shorter than 32 bytes (of whatever lengths), and distinct keys of
32 bytes, have distinct schedules. -/
theorem serpent_schedules_differ_partial (a b : List U8) (h : (a.length < 32 ∧ b.length < 32) ∨ (a.length = 32 ∧ b.length = 32))
    (hab : a ≠ b) : keySchedule a a.length ≠ keySchedule b b.length := by
  intro e
  rcases (serpent_collisions_exact a b (by omega) (by omega)).mp e with h1 | ⟨h1, h2⟩ | ⟨h1, h2⟩
  · exact hab h1
  · have := congrArg List.length h2
    simp only [List.length_append, List.length_cons, List.length_replicate] at this
    omega
  · have := congrArg List.length h2
    simp only [List.length_append, List.length_cons, List.length_replicate] at this
    omega

example : ([1] : List U8).length < 32 ∧ ([1, 0] : List U8).length < 32 ∧ ([1] : List U8) ≠ [1, 0] := by decide

/-- C27 fails: a key of 31 bytes and one of 32 bytes have the same schedule. -/
theorem serpent_schedules_differ_refuted :
    ∃ a b : List U8, a.length = 31 ∧ b.length = 32 ∧ keySchedule a a.length = keySchedule b b.length :=
  ⟨List.replicate 31 7, List.replicate 31 7 ++ [0x80], rfl, rfl,
    (serpent_collisions_exact _ _ (by decide) (by decide)).mpr (Or.inr (Or.inl ⟨by decide, rfl⟩))⟩

/-- C27 fails: for no key shorter than 32 bytes is the schedule that of the key padded as the specification
prescribes. -/
theorem serpent_padding_refuted (key : List U8) (h : key.length < 32) :
    (pad key).length = 32 ∧ keySchedule key key.length ≠ keySchedule (pad key) 32 := by
  have hl : (pad key).length = 32 := by
    rw [pad, if_pos h]
    simp only [List.length_append, List.length_cons, List.length_replicate]
    omega
  refine ⟨hl, ?_⟩
  have e := keySchedule_eq (pad key) (by omega)
  rw [hl] at e
  rw [keySchedule_eq key (by omega)]
  have : ((32 : Nat) : Int) = 32 := rfl
  rw [← this, e]
  intro h1
  have h2 : schedule key = schedule (pad key) := by simpa using h1
  have h3 := (schedule_inj key (pad key) (by omega) (by omega)).mp h2
  rw [show padKey (pad key) = pad key by rw [padKey, if_neg (by omega)]] at h3
  exact padKey_ne_pad key h h3

example : ([0xA7, 0xC0, 0x83, 0xFE, 0xB7] : List U8).length < 32 := by decide

/-- C27: which lengths are handled at all: above 32 the process exits, otherwise the schedule is computed;
a negative length or one larger than the key is out of bounds. -/
theorem serpent_key_length (key : List U8) (size : Int) :
    (32 < size → keySchedule key size = .ok none) ∧
    (0 ≤ size → size ≤ 32 → size.toNat ≤ key.length → ∃ rk, keySchedule key size = .ok (some rk)) ∧
    (size < 0 → keySchedule key size = .ub .outOfBounds) := by
  refine ⟨fun h => ?_, fun h0 h1 h2 => ?_, fun h => ?_⟩
  · rw [keySchedule, if_pos h]
  · exact ⟨schedule (key.take size.toNat), by rw [keySchedule, if_neg (by omega), if_neg (by omega)]⟩
  · rw [keySchedule, if_neg (by omega), if_pos (Or.inl h)]

/-! ### C66 -/

/-- C66, what the code does: `serpent_process_packet` is defined for an empty packet and for one of 16 bytes
only. -/
theorem serpent_packet_ub_iff (rk : List U32) (input : List U8) (size : Nat) (h : size ≤ input.length) :
    (processPacket rk input size).isUB ↔ size ≠ 0 ∧ size ≠ 16 := by
  unfold processPacket
  rw [if_neg (by omega)]
  by_cases h1 : 16 < size
  · rw [if_pos h1]; simp only [Res.isUB]; constructor
    · intro _; omega
    · intro _; trivial
  rw [if_neg h1]
  by_cases h2 : size = 0
  · rw [if_pos h2]; simp [Res.isUB, h2]
  rw [if_neg h2]
  by_cases h3 : size < 16
  · rw [if_pos h3]; simp only [Res.isUB]; constructor
    · intro _; omega
    · intro _; trivial
  rw [if_neg h3]
  obtain rfl : size = 16 := by omega
  obtain ⟨t0, t1, t2, t3, e⟩ := list_of_length_4 _
    (bytesToWordsLE_length 4 (input.take 16) (by rw [List.length_take]; omega))
  rw [e]
  simp [Res.isUB]

example : 5 ≤ block16.length ∧ 5 ≠ 0 ∧ 5 ≠ 16 := by decide

/-- C66 fails: for a block of 16 bytes, 48 bytes are written. -/
theorem serpent_packet_output_size_refuted (rk : List U32) (block : List U8) (hb : block.length = 16) :
    ∃ o, processPacket rk block 16 = .ok o ∧ 4 * o.length = 48 :=
  ⟨_, processPacket_eq rk block hb, rfl⟩

/-- C66 fails: two blocks in one packet overflow the local buffer. -/
theorem serpent_packet_two_blocks_refuted (rk : List U32) (input : List U8) (h : input.length = 32) :
    (processPacket rk input 32).isUB := (serpent_packet_ub_iff rk input 32 (by omega)).mpr (by decide)

example : (block16 ++ block16).length = 32 := by decide

/-! ### C67 -/

/-- C67: under every key each of the three output blocks determines the input block. -/
theorem serpent_permutation (rk : List U32) (a b : List U8) (ha : a.length = 16) (hb : b.length = 16)
    (oa ob : List U32) (ea : processPacket rk a 16 = .ok oa) (eb : processPacket rk b 16 = .ok ob)
    (h : oa.take 4 = ob.take 4 ∨ (oa.drop 4).take 4 = (ob.drop 4).take 4 ∨ oa.drop 8 = ob.drop 8) : a = b := by
  rw [processPacket_eq rk a ha] at ea
  rw [processPacket_eq rk b hb] at eb
  rw [← (Res.ok_inj).mp ea, ← (Res.ok_inj).mp eb] at h
  have q : ∀ x y : Quad, [x.w0, x.w1, x.w2, x.w3] = [y.w0, y.w1, y.w2, y.w3] → x = y := by
    intro x y h
    cases x
    cases y
    simpa using h
  apply ofBytes_inj ha hb
  rcases h with h | h | h
  · exact after_inj _ 12 (q _ _ h)
  · exact after_inj _ 18 (q _ _ h)
  · exact after_inj _ 24 (mix_inj (q _ _ h))

/-- Two different blocks and their first output words. -/
example : ∃ oa ob, processPacket (schedule key32) block16 16 = .ok oa ∧
    processPacket (schedule key32) (block16.set 3 9) 16 = .ok ob ∧ oa.take 4 ≠ ob.take 4 := by
  have e := processPacket_eq (schedule key32) block16 rfl
  have f := processPacket_eq (schedule key32) (block16.set 3 9) rfl
  refine ⟨_, _, e, f, fun h => ?_⟩
  exact absurd (serpent_permutation _ _ _ rfl rfl _ _ e f (Or.inl h)) (by decide)

end CT.Props.Serpent
