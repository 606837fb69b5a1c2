import Verif.Proof.Serpent32

/-!
# Serpent with 32 rounds (C75, C76)

The code of serpent.cpp that is compiled when the `#define SOSEMANUK_H` lines are removed.
-/

namespace CT.Props.Serpent32
open CT.Serpent32
open CT.Serpent (padKey mix_inj sboxLayer_inj after_inj ofBytes_inj list_of_length_4 bytesToWordsLE_length)
open CT.Spec.Serpent (serpent)

/-! ### C75 -/

/-- C75: for a key of 32 bytes, key schedule and the processing of one block give the Serpent ciphertext. -/
theorem serpent32_conforms (key block : List U8) (hk : key.length = 32) (hb : block.length = 16) :
    ∃ rk, keySchedule key 32 = .ok (some rk) ∧ processPacket rk block 16 = .ok (serpent key block) := by
  have h := keySchedule_eq key (by omega)
  rw [hk] at h
  refine ⟨schedule key, h, ?_⟩
  rw [serpent_eq key block (by omega) hb, padKey, if_neg (by omega)]

def key32 : List U8 := (List.range 32).map (BitVec.ofNat 8)
def block16 : List U8 := (List.range 16).map fun i => BitVec.ofNat 8 (17 * i)

example : key32.length = 32 ∧ block16.length = 16 := by decide

/-! ### C76 -/

/-- C76: whatever the schedule, a block of 16 bytes gives 16 bytes, and different blocks give different
ciphertexts. -/
theorem serpent32_permutation (rk : List U32) (a b : List U8) (ha : a.length = 16) (hb : b.length = 16) :
    ∃ oa ob, processPacket rk a 16 = .ok oa ∧ processPacket rk b 16 = .ok ob ∧ oa.length = 16 ∧ ob.length = 16 ∧
      (oa = ob → a = b) := by
  refine ⟨_, _, processPacket_eq rk a ha, processPacket_eq rk b hb, ?_, ?_, fun h => ?_⟩
  · rw [CT.Spec.Serpent.toBytes, wordsToBytesLE_length]; rfl
  · rw [CT.Spec.Serpent.toBytes, wordsToBytesLE_length]; rfl
  · exact ofBytes_inj ha hb (after_inj _ 31 (mix_inj (sboxLayer_inj _ _ _ (mix_inj (toBytes_inj h)))))

example : block16.length = 16 ∧ (block16.set 3 9).length = 16 ∧ block16 ≠ block16.set 3 9 := by decide

/-- C76, sizes: a packet is defined exactly if it is empty or one block. -/
theorem serpent32_packet_ub_iff (rk : List U32) (input : List U8) (size : Nat) (h : size ≤ input.length) :
    (processPacket rk input size).isUB ↔ size ≠ 0 ∧ size ≠ 16 := by
  unfold processPacket
  rw [if_neg (by omega)]
  by_cases h1 : 16 < size
  · rw [if_pos h1]; simp only [Res.isUB]; constructor
    · intro _; omega
    · intro _; trivial
  rw [if_neg h1]
  by_cases h2 : size = 0
  · rw [if_pos h2]; simp [Res.isUB, h2]
  rw [if_neg h2]
  by_cases h3 : size < 16
  · rw [if_pos h3]; simp only [Res.isUB]; constructor
    · intro _; omega
    · intro _; trivial
  rw [if_neg h3]
  obtain rfl : size = 16 := by omega
  obtain ⟨t0, t1, t2, t3, e⟩ := list_of_length_4 _
    (bytesToWordsLE_length 4 (input.take 16) (by rw [List.length_take]; omega))
  rw [e]
  simp [Res.isUB]

example : 5 ≤ block16.length ∧ 5 ≠ 0 ∧ 5 ≠ 16 := by decide

end CT.Props.Serpent32
