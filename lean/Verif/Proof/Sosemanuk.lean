import Verif.Spec.Sosemanuk
import Verif.Model.Sosemanuk
import Verif.Proof.Serpent
import Verif.Basic.Lockstep

/-! # Proofs about Sosemanuk -/

namespace CT.Sosemanuk

open CT.Spec.Sosemanuk (divAlpha mulAlpha scaled)

/-! ### Tables and field -/

set_option maxRecDepth 10000 in
theorem alpha_table : ∀ b < 256, alpha.getD b 0 = scaled 23 245 48 239 (BitVec.ofNat 8 b) := by decide +kernel

set_option maxRecDepth 10000 in
theorem invAlpha_table : ∀ b < 256, invAlpha.getD b 0 = scaled 16 39 6 64 (BitVec.ofNat 8 b) := by decide +kernel

theorem alpha_eq (b : U8) : alpha.getD b.toNat 0 = scaled 23 245 48 239 b := by
  rw [alpha_table _ b.isLt, BitVec.ofNat_toNat, BitVec.setWidth_eq]

theorem invAlpha_eq (b : U8) : invAlpha.getD b.toNat 0 = scaled 16 39 6 64 b := by
  rw [invAlpha_table _ b.isLt, BitVec.ofNat_toNat, BitVec.setWidth_eq]

theorem mulAlpha_code (w : U32) : (w <<< 8) ^^^ alpha.getD (byteN (w >>> 24) 0).toNat 0 = mulAlpha w := by
  have : byteN (w >>> 24) 0 = w.extractLsb' 24 8 := by
    apply BitVec.eq_of_getLsbD_eq
    intro i hi
    simp [byteN, hi]
  rw [alpha_eq, mulAlpha, this]

theorem divAlpha_code (w : U32) : (w >>> 8) ^^^ invAlpha.getD (byteN w 0).toNat 0 = divAlpha w := by
  rw [invAlpha_eq, divAlpha]
  rfl

set_option maxRecDepth 10000 in
theorem scaled_inverse : ∀ b < 256,
    let v := scaled 16 39 6 64 (BitVec.ofNat 8 b)
    (v <<< 8) ^^^ scaled 23 245 48 239 (v.extractLsb' 24 8) = BitVec.ofNat 32 b := by decide +kernel

/-- `divAlpha` divides by `alpha`. -/
theorem mulAlpha_divAlpha (w : U32) : mulAlpha (divAlpha w) = w := by
  have h := scaled_inverse (w.extractLsb' 0 8).toNat (BitVec.isLt _)
  simp only [BitVec.ofNat_toNat, BitVec.setWidth_eq] at h
  rw [mulAlpha, divAlpha]
  generalize scaled 16 39 6 64 (w.extractLsb' 0 8) = v at h
  have e : (w >>> 8 ^^^ v).extractLsb' 24 8 = v.extractLsb' 24 8 := by
    apply BitVec.eq_of_getLsbD_eq
    intro i hi
    simp [hi, BitVec.getLsbD_of_ge w (8 + (24 + i)) (by omega)]
  rw [e, BitVec.shiftLeft_xor_distrib, BitVec.xor_assoc, h]
  apply BitVec.eq_of_getLsbD_eq
  intro i hi
  by_cases h8 : i < 8
  · simp [h8, hi]
  · simp [h8, hi, show 8 + (i - 8) = i by omega]

/-! ### One block -/

/-- The state of the code in the terms of the specification. -/
def State.toSpec (cs : State) : Spec.Sosemanuk.State :=
  ⟨[cs.s0, cs.s1, cs.s2, cs.s3, cs.s4, cs.s5, cs.s6, cs.s7, cs.s8, cs.s9], cs.R1, cs.R2⟩

/-- What the code does instead of `Spec.Sosemanuk.fsm`. -/
def codeFsm (x : Spec.Sosemanuk.State) : U32 × U32 :=
  let r1 := x.r2 + (if x.r1.getLsbD 0 then x.at 8 ^^^ x.at 9 else x.at 1)
  (r1, Spec.Sosemanuk.trans r1)

theorem Trans_eq (x : U32) : Trans x = Spec.Sosemanuk.trans x := by
  rw [Trans, Spec.Sosemanuk.trans, rotl32_eq _ (by decide) (by decide)]

theorem mux_eq (x a b : U32) : mux x a b = if x.getLsbD 0 then b else a := by
  have : x &&& 0x1 = 0 ↔ x.getLsbD 0 = false := by
    constructor
    · intro h0
      have := congrArg (fun y => y.getLsbD 0) h0
      simpa using this
    · intro h
      apply BitVec.eq_of_getLsbD_eq
      intro i hi
      cases i with
      | zero => simpa using h
      | succ i => simp
  unfold mux
  split <;> split <;> simp_all

theorem step_eq (cs : State) :
    Spec.Sosemanuk.step codeFsm cs.toSpec =
      ((lfsrUpdate (fsmUpdate cs).1).1.toSpec, (fsmUpdate cs).2, (lfsrUpdate (fsmUpdate cs).1).2) := by
  simp only [Spec.Sosemanuk.step, codeFsm, State.toSpec, Spec.Sosemanuk.State.at, Spec.Sosemanuk.feedback, lfsrUpdate,
    fsmUpdate, mux_eq, Trans_eq, mulAlpha_code, divAlpha_code, List.getD_cons_zero, List.getD_cons_succ,
    List.drop_succ_cons, List.drop_zero, List.cons_append, List.nil_append]
  rw [BitVec.xor_comm (_ ^^^ _) cs.s9, BitVec.xor_assoc]

theorem block_eq (cs : State) : Spec.Sosemanuk.block codeFsm cs.toSpec = ((block cs).1.toSpec, (block cs).2) := by
  simp only [Spec.Sosemanuk.block, step_eq, block, Spec.Serpent.mix, Serpent.serpent1_eq]
  simp only [BitVec.xor_comm]

theorem block_rk (cs : State) : (block cs).1.rk = cs.rk := rfl

theorem keystream_eq (n : Nat) (cs : State) :
    Spec.Sosemanuk.keystream codeFsm n cs.toSpec = blkBytes block n cs := by
  induction n generalizing cs with
  | zero => rfl
  | succ n ih => rw [Spec.Sosemanuk.keystream, blkBytes, block_eq, ih]; rfl

theorem stateAfter_eq (n : Nat) (cs : State) :
    Spec.Sosemanuk.stateAfter codeFsm n cs.toSpec = (blkState block n cs).toSpec := by
  induction n generalizing cs with
  | zero => rfl
  | succ n ih => rw [Spec.Sosemanuk.stateAfter, blkState, block_eq, ih]

theorem blkState_rk (n : Nat) (cs : State) : (blkState block n cs).rk = cs.rk := by
  induction n generalizing cs with
  | zero => rfl
  | succ n ih => rw [blkState, ih, block_rk]

/-! ### Packets -/

theorem processPacket_eq (cs : State) (io : Io) (n : Nat) (hf : io.Fits n) :
    processPacket cs io n =
      .ok (blkState block (n / 16 + 1) cs, io.xored ((blkBytes block (n / 16 + 1) cs).take n)) := by
  have hb := Io.blockLoop_xored block (io := io) (n + 1) n 0 cs [] rfl (by omega) (hf.mono (by omega))
  rw [Io.xored_nil] at hb
  simp only [processPacket, hb, Res.ok_bind, List.nil_append, Nat.zero_add]
  have hl := Io.loops_xored (block (blkState block (n / 16) cs)).2.toList (io := io) (n % 16 + 1) (n % 16) 0 (16 * (n / 16))
    (blkBytes block (n / 16) cs) (blkBytes_length ..) (by omega) (by simp; omega) (hf.mono (by omega))
  obtain ⟨⟨rest, i, off, io'⟩, h1, h2⟩ := Res.bind_eq_ok hl
  simp only [] at h2
  rw [h1]
  simp only [Res.ok_bind]
  rw [h2]
  simp only [Res.ok_bind, Res.pure_eq, Res.ok_inj, Prod.mk.injEq]
  refine ⟨(blkState_succ _ _ _).symm, ?_⟩
  congr 1
  rw [blkBytes_add, List.take_append, blkBytes_length,
    List.take_of_length_le (l := blkBytes block (n / 16) cs) (by rw [blkBytes_length]; omega),
    show n - 16 * (n / 16) = n % 16 by omega]
  simp [blkBytes, Quad.bytes]

/-! ### Initialisation -/

theorem loadKey_eq (cs : State) (key : List U8) (h : key.length ≤ 32) :
    loadKey cs key key.length = .ok (some { cs with rk := Serpent.schedule key }) := by
  rw [loadKey, Serpent.keySchedule_eq key h]
  rfl

theorem loadIv_eq (cs : State) (key iv : List U8) (h : key.length ≤ 32) (hiv : iv.length = 16)
    (hrk : cs.rk = Serpent.schedule key) :
    ∃ cs', loadIv cs iv = .ok cs' ∧ cs'.rk = cs.rk ∧ cs'.toSpec = Spec.Sosemanuk.init (Serpent.padKey key) iv := by
  rw [loadIv, hrk, Serpent.serpent24_eq key iv h hiv]
  exact ⟨_, rfl, rfl, rfl⟩

/-! ### The state machine -/

theorem trans_inj {a b : U32} (h : Spec.Sosemanuk.trans a = Spec.Sosemanuk.trans b) : a = b := by
  have h := Serpent.rotateLeft_inj (by decide) h
  have h := congrArg (fun x => 0x1359aab7 * x) h
  simp only [← BitVec.mul_assoc] at h
  have e : (0x1359aab7 : U32) * 0x54655307 = 1#32 := by decide
  rw [e, BitVec.one_mul, BitVec.one_mul] at h
  exact h

/-- The LFSR does not depend on the state machine. -/
theorem step_s (f g : Spec.Sosemanuk.State → U32 × U32) {x y : Spec.Sosemanuk.State} (h : x.s = y.s) :
    (Spec.Sosemanuk.step f x).1.s = (Spec.Sosemanuk.step g y).1.s := by
  simp only [Spec.Sosemanuk.step, Spec.Sosemanuk.feedback, Spec.Sosemanuk.State.at, h]

theorem block_s (f g : Spec.Sosemanuk.State → U32 × U32) {x y : Spec.Sosemanuk.State} (h : x.s = y.s) :
    (Spec.Sosemanuk.block f x).1.s = (Spec.Sosemanuk.block g y).1.s :=
  step_s f g (step_s f g (step_s f g (step_s f g h)))

theorem stateAfter_s (f g : Spec.Sosemanuk.State → U32 × U32) (n : Nat) {x y : Spec.Sosemanuk.State} (h : x.s = y.s) :
    (Spec.Sosemanuk.stateAfter f n x).s = (Spec.Sosemanuk.stateAfter g n y).s := by
  induction n generalizing x y with
  | zero => exact h
  | succ n ih => exact ih (block_s f g h)

theorem codeFsm_eq_iff (x : Spec.Sosemanuk.State) :
    codeFsm x = Spec.Sosemanuk.fsm x ↔
      (x.r1.getLsbD 0 = true → x.at 9 = x.at 1) ∧ (Spec.Sosemanuk.fsm x).1 = x.r1 := by
  have e : (codeFsm x).1 = (Spec.Sosemanuk.fsm x).1 ↔ (x.r1.getLsbD 0 = true → x.at 9 = x.at 1) := by
    simp only [codeFsm, Spec.Sosemanuk.fsm, BitVec.add_right_inj]
    split
    · next h =>
      rw [BitVec.xor_comm (x.at 1), BitVec.xor_right_inj]
      simp [h]
    · next h => simp only [h, false_implies, Bool.false_eq_true]
  rw [← e]
  constructor
  · intro h
    refine ⟨by rw [h], ?_⟩
    have h2 : (codeFsm x).2 = (Spec.Sosemanuk.fsm x).2 := by rw [h]
    have h1 : (codeFsm x).1 = (Spec.Sosemanuk.fsm x).1 := by rw [h]
    rw [← h1]
    exact trans_inj h2
  · rintro ⟨h1, h2⟩
    apply Prod.ext h1
    show Spec.Sosemanuk.trans (codeFsm x).1 = Spec.Sosemanuk.trans x.r1
    rw [h1, h2]

end CT.Sosemanuk
