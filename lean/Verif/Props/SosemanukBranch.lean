import Verif.Model.SosemanukBranch
import Verif.Props.SosemanukTrace

/-!
# The condition in Sosemanuk (C151)
-/

namespace CT.Props.SosemanukBranch
open CT.Sosemanuk
open CT.Props.SosemanukTrace (step steps steps_succ block_state seq seq_s1 seq_s8 seq_s9 blank)

/-- The lowest bit of the register `R1` at the beginning of each of `t` steps. -/
def lows : Nat → State → List Bool
  | 0, _ => []
  | t + 1, cs => cs.R1.getLsbD 0 :: lows t (step cs)

theorem lows_length (t : Nat) : ∀ cs, (lows t cs).length = t := by
  induction t with
  | zero => intro cs; rfl
  | succ t ih => intro cs; rw [lows, List.length_cons, ih]

theorem lows_get (t : Nat) : ∀ (cs : State) (i : Nat), i < t → (lows t cs)[i]? = some ((steps i cs).R1.getLsbD 0) := by
  induction t with
  | zero => intro cs i h; omega
  | succ t ih =>
    intro cs i h
    cases i with
    | zero => rfl
    | succ i => rw [lows, List.getElem?_cons_succ, ih _ _ (by omega)]; rfl

theorem lows_add (a b : Nat) : ∀ cs, lows (a + b) cs = lows a cs ++ lows b (steps a cs) := by
  induction a with
  | zero => intro cs; rw [Nat.zero_add]; rfl
  | succ a ih => intro cs; rw [Nat.add_right_comm, lows, ih, lows, List.cons_append]; rfl

theorem low_bit (x : U32) : (x &&& 0x1 ≠ 0) ↔ x.getLsbD 0 = true := by
  constructor
  · intro h
    cases e : x.getLsbD 0 with
    | true => rfl
    | false =>
      refine absurd ?_ h
      apply BitVec.eq_of_getLsbD_eq
      intro i hi
      rw [BitVec.getLsbD_and]
      rcases Nat.eq_zero_or_pos i with rfl | hp
      · rw [e]; rfl
      · rw [show (0x1 : U32).getLsbD i = false by
          rw [show (0x1 : U32) = BitVec.ofNat 32 1 from rfl, BitVec.getLsbD_ofNat]
          cases e' : Nat.testBit 1 i with
          | true => exact absurd (Nat.testBit_one_eq_true_iff_self_eq_zero.mp e') (by omega)
          | false => simp]
        simp
  · intro h e
    have := congrArg (fun y : U32 => y.getLsbD 0) e
    simp only [BitVec.getLsbD_and, h] at this
    exact absurd this (by decide)

theorem muxB_eq (r a b : U32) : muxB r a b = (mux r a b, r.getLsbD 0) := by
  unfold muxB mux
  by_cases h : r &&& 0x1 ≠ 0
  · rw [if_pos h, if_pos h, (low_bit r).mp h]
  · rw [if_neg h, if_neg h]
    cases e : r.getLsbD 0 with
    | true => exact absurd ((low_bit r).mpr e) h
    | false => rfl

theorem fsmUpdateB_eq (cs : State) (log : List Bool) :
    fsmUpdateB (cs, log) = (((fsmUpdate cs).1, log ++ [cs.R1.getLsbD 0]), (fsmUpdate cs).2) := by
  unfold fsmUpdateB
  simp only [muxB_eq]
  rfl

theorem stepB (cs : State) (log : List Bool) :
    (lfsrUpdateB (fsmUpdateB (cs, log)).1).1 = (step cs, log ++ [cs.R1.getLsbD 0]) := by
  rw [fsmUpdateB_eq]; rfl

theorem blockB_eq (cs : State) (log : List Bool) : blockB (cs, log) = ((steps 4 cs, log ++ lows 4 cs), (block cs).2) := by
  unfold blockB
  simp only [fsmUpdateB_eq, lfsrUpdateB, List.append_assoc]
  rfl

theorem blkStateB (m : Nat) : ∀ (cs : State) (log : List Bool),
    blkState blockB m (cs, log) = (blkState block m cs, log ++ lows (4 * m) cs) := by
  induction m with
  | zero => intro cs log; rw [Nat.mul_zero, lows, List.append_nil]; rfl
  | succ m ih =>
    intro cs log
    rw [blkState, blockB_eq, ih, blkState, block_state, Nat.mul_succ, Nat.add_comm (4 * m) 4, lows_add, List.append_assoc]

theorem blkBytesB (m : Nat) : ∀ (cs : State) (log : List Bool), blkBytes blockB m (cs, log) = blkBytes block m cs := by
  induction m with
  | zero => intro cs log; rfl
  | succ m ih => intro cs log; rw [blkBytes, blockB_eq, ih, blkBytes, block_state]

/-- The packet function with the record. -/
theorem processPacketB_eq (cs : State) (log : List Bool) (io : Io) (n : Nat) (hf : io.Fits n) :
    processPacketB (cs, log) io n = .ok ((blkState block (n / 16 + 1) cs, log ++ lows (4 * (n / 16 + 1)) cs),
      io.xored ((blkBytes block (n / 16 + 1) cs).take n)) := by
  have hb := Io.blockLoop_xored blockB (io := io) (n + 1) n 0 (cs, log) [] rfl (by omega) (hf.mono (by omega))
  rw [Io.xored_nil] at hb
  simp only [processPacketB, hb, Res.ok_bind, List.nil_append, Nat.zero_add]
  have hl := Io.loops_xored (blockB (blkState blockB (n / 16) (cs, log))).2.toList (io := io) (n % 16 + 1) (n % 16) 0 (16 * (n / 16))
    (blkBytes blockB (n / 16) (cs, log)) (blkBytes_length ..) (by omega) (by simp; omega) (hf.mono (by omega))
  obtain ⟨⟨rest, i, off, io'⟩, h1, h2⟩ := Res.bind_eq_ok hl
  simp only [] at h2
  rw [h1]
  simp only [Res.ok_bind]
  rw [h2]
  simp only [Res.ok_bind, Res.pure_eq, Res.ok_inj, Prod.mk.injEq]
  rw [← blkStateB]
  refine ⟨(blkState_succ _ _ _).symm, ?_⟩
  congr 1
  rw [← blkBytesB _ cs log, blkBytes_add, List.take_append, blkBytes_length,
    List.take_of_length_le (l := blkBytes blockB (n / 16) (cs, log)) (by rw [blkBytes_length]; omega),
    show n - 16 * (n / 16) = n % 16 by omega]
  simp [blkBytes, Quad.bytes]

/-- The function with the record computes what the function without computes. -/
theorem sosemanuk_branch_erase (cs : State) (io : Io) (n : Nat) (hf : io.Fits n) : ∃ cs' log io',
    processPacketB (cs, []) io n = .ok ((cs', log), io') ∧ processPacket cs io n = .ok (cs', io') :=
  ⟨_, _, _, processPacketB_eq cs [] io n hf, processPacket_eq cs io n hf⟩

example (cs : State) := sosemanuk_branch_erase cs ⟨List.replicate 20 5, List.replicate 20 0, false⟩ 20 (by decide)

/-- The registers of the finite state machine after one step. -/
theorem step_R (cs : State) : (step cs).R1 = cs.R2 + mux cs.R1 cs.s1 (cs.s8 ^^^ cs.s9) ∧ (step cs).R2 = Sosemanuk.Trans (step cs).R1 :=
  ⟨rfl, rfl⟩

theorem add_low (x y : U32) : (x + y).getLsbD 0 = (x.getLsbD 0 != y.getLsbD 0) := by
  rw [BitVec.getLsbD_add (by omega)]; simp [BitVec.carry, Nat.mod_one]

theorem Trans_low (x : U32) : (Sosemanuk.Trans x).getLsbD 0 = (0x54655307 * x).getLsbD 25 := by
  unfold Sosemanuk.Trans rotl32 rotr32
  simp

/-- **C151.**  The outcomes are the lowest bits of `R1`: of each of the states that the generator goes through, one bit is seen. -/
theorem sosemanuk_branch_log (cs cs' : State) (log : List Bool) (io io' : Io) (n : Nat) (hf : io.Fits n)
    (h : processPacketB (cs, []) io n = .ok ((cs', log), io')) :
    log.length = 4 * (n / 16 + 1) ∧ ∀ t < 4 * (n / 16 + 1), log[t]? = some ((steps t cs).R1.getLsbD 0) := by
  rw [processPacketB_eq cs [] io n hf, Res.ok_inj, Prod.mk.injEq, Prod.mk.injEq, List.nil_append] at h
  rw [← h.1.2]
  exact ⟨lows_length _ _, fun t ht => lows_get _ _ _ ht⟩

example (cs : State) : ∃ cs' log io', processPacketB (cs, []) ⟨List.replicate 20 5, List.replicate 20 0, false⟩ 20 = .ok ((cs', log), io') ∧ log.length = 8 := by
  obtain ⟨cs', log, io', h, -⟩ := sosemanuk_branch_erase cs ⟨List.replicate 20 5, List.replicate 20 0, false⟩ 20 (by decide)
  exact ⟨cs', log, io', h, (sosemanuk_branch_log cs cs' log _ io' 20 (by decide) h).1⟩

/-- **C151.**  Together with the contents of the linear register, which the table reads tell (C127), two consecutive outcomes tell a
second bit of each state: bit 25 of the product that is computed from `R1` next. -/
theorem sosemanuk_branch_second (cs cs' : State) (log : List Bool) (io io' : Io) (n : Nat) (hf : io.Fits n)
    (h : processPacketB (cs, []) io n = .ok ((cs', log), io')) (t : Nat) (ht : t + 2 < 4 * (n / 16 + 1)) (a b : Bool)
    (ha : log[t + 1]? = some a) (hb : log[t + 2]? = some b) :
    (0x54655307 * (steps (t + 1) cs).R1).getLsbD 25 =
      (b != (if a then seq cs (t + 9) ^^^ seq cs (t + 10) else seq cs (t + 2)).getLsbD 0) := by
  obtain ⟨_, hl⟩ := sosemanuk_branch_log cs cs' log io io' n hf h
  have ea : (steps (t + 1) cs).R1.getLsbD 0 = a := Option.some_inj.mp ((hl (t + 1) (by omega)).symm.trans ha)
  have eb : (steps (t + 2) cs).R1.getLsbD 0 = b := Option.some_inj.mp ((hl (t + 2) ht).symm.trans hb)
  have e2 : (steps (t + 1) cs).R2 = Sosemanuk.Trans (steps (t + 1) cs).R1 := by rw [steps_succ]; rfl
  have e1 : (steps (t + 2) cs).R1 = Sosemanuk.Trans (steps (t + 1) cs).R1 +
      (if a then seq cs (t + 9) ^^^ seq cs (t + 10) else seq cs (t + 2)) := by
    rw [steps_succ (t + 1), (step_R _).1, e2, seq_s1, seq_s8, seq_s9, ← ea, mux]
    cases e : (steps (t + 1) cs).R1.getLsbD 0 with
    | true => rw [if_pos ((low_bit _).mpr e)]; rfl
    | false => rw [if_neg (fun q => absurd ((low_bit _).mp q) (by rw [e]; decide))]; rfl
  rw [← eb, e1, add_low, Trans_low]
  cases (0x54655307 * (steps (t + 1) cs).R1).getLsbD 25 <;>
    cases (if a = true then seq cs (t + 9) ^^^ seq cs (t + 10) else seq cs (t + 2)).getLsbD 0 <;> rfl

example (cs : State) : ∃ cs' log io', ∃ a b : Bool, processPacketB (cs, []) ⟨List.replicate 20 5, List.replicate 20 0, false⟩ 20 = .ok ((cs', log), io') ∧
    (0x54655307 * (steps 3 cs).R1).getLsbD 25 = (b != (if a then seq cs 11 ^^^ seq cs 12 else seq cs 4).getLsbD 0) := by
  obtain ⟨cs', log, io', h, -⟩ := sosemanuk_branch_erase cs ⟨List.replicate 20 5, List.replicate 20 0, false⟩ 20 (by decide)
  have hl := (sosemanuk_branch_log cs cs' log _ io' 20 (by decide) h).2
  exact ⟨cs', log, io', _, _, h, sosemanuk_branch_second cs cs' log _ io' 20 (by decide) h 2 (by decide) _ _ (hl 3 (by decide)) (hl 4 (by decide))⟩

/-- **C151.**  What does hold: the number of outcomes depends on the size of the packet alone. -/
theorem sosemanuk_branch_partial (c d c' d' : State) (lc ld : List Bool) (io jo io' jo' : Io) (n : Nat) (hf : io.Fits n)
    (hg : jo.Fits n) (h1 : processPacketB (c, []) io n = .ok ((c', lc), io')) (h2 : processPacketB (d, []) jo n = .ok ((d', ld), jo')) :
    lc.length = ld.length := by
  rw [(sosemanuk_branch_log c c' lc io io' n hf h1).1, (sosemanuk_branch_log d d' ld jo jo' n hg h2).1]

example (c d : State) : ∃ c' d' lc ld io' jo', processPacketB (c, []) ⟨List.replicate 20 5, List.replicate 20 0, false⟩ 20 = .ok ((c', lc), io') ∧
    processPacketB (d, []) ⟨List.replicate 20 5, List.replicate 20 0, false⟩ 20 = .ok ((d', ld), jo') ∧ lc.length = ld.length := by
  obtain ⟨c', lc, io', h1, -⟩ := sosemanuk_branch_erase c ⟨List.replicate 20 5, List.replicate 20 0, false⟩ 20 (by decide)
  obtain ⟨d', ld, jo', h2, -⟩ := sosemanuk_branch_erase d ⟨List.replicate 20 5, List.replicate 20 0, false⟩ 20 (by decide)
  exact ⟨_, _, _, _, _, _, h1, h2, sosemanuk_branch_partial c d c' d' lc ld _ _ io' jo' 20 (by decide) (by decide) h1 h2⟩

/-- Key and IV loaded, then a packet, with the record of the packet. -/
def session (key iv : List U8) (io : Io) (n : Nat) : Res (Option (List Bool)) := do
  match ← loadKey blank key key.length with
  | none => .ok none
  | some cs => do
    let cs ← loadIv cs iv
    let r ← processPacketB (cs, []) io n
    return some r.1.2

/-- The record of a session that ends well. -/
def logOf : Res (Option (List Bool)) → List Bool
  | .ok (some l) => l
  | _ => []

/-- **C151 is false:** the outcomes depend on the key (here with the IV and the plaintext fixed). -/
theorem sosemanuk_branch_refuted : ¬ ∀ (key key' iv : List U8) (io : Io) (n : Nat) (log log' : List Bool), key.length = 16 →
    key'.length = 16 → iv.length = 16 → io.Fits n → session key iv io n = .ok (some log) → session key' iv io n = .ok (some log') →
    log = log' := by
  intro h
  have e : logOf (session (List.replicate 16 0) (List.replicate 16 0) ⟨[], [], false⟩ 0) ≠
      logOf (session (List.replicate 16 1) (List.replicate 16 0) ⟨[], [], false⟩ 0) := by decide +kernel
  have d0 : session (List.replicate 16 0) (List.replicate 16 0) ⟨[], [], false⟩ 0 = .ok (some (logOf (session (List.replicate 16 0)
      (List.replicate 16 0) ⟨[], [], false⟩ 0))) := by decide +kernel
  have d1 : session (List.replicate 16 1) (List.replicate 16 0) ⟨[], [], false⟩ 0 = .ok (some (logOf (session (List.replicate 16 1)
      (List.replicate 16 0) ⟨[], [], false⟩ 0))) := by decide +kernel
  exact e (h _ _ _ _ 0 _ _ (by simp) (by simp) (by simp) (by decide) d0 d1)

/-- Non-trivial instance: a keyed session with a packet of twenty bytes has eight outcomes, and not all are the same. -/
example : (logOf (session [1, 2, 3] (List.replicate 16 7) ⟨List.replicate 20 5, List.replicate 20 0, false⟩ 20)).length = 8 ∧
    true ∈ logOf (session [1, 2, 3] (List.replicate 16 7) ⟨List.replicate 20 5, List.replicate 20 0, false⟩ 20) ∧
    false ∈ logOf (session [1, 2, 3] (List.replicate 16 7) ⟨List.replicate 20 5, List.replicate 20 0, false⟩ 20) ∧
    (⟨List.replicate 20 5, List.replicate 20 0, false⟩ : Io).Fits 20 := by decide +kernel

end CT.Props.SosemanukBranch
