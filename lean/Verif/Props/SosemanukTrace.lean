import Verif.Model.SosemanukTrace
import Verif.Proof.Sosemanuk

/-!
# Table reads of Sosemanuk (C127)
-/

namespace CT.Props.SosemanukTrace
open CT.Sosemanuk

/-- One step of the generator: both registers. -/
def step (cs : State) : State := (lfsrUpdate (fsmUpdate cs).1).1

/-- `t` steps. -/
def steps : Nat → State → State
  | 0, cs => cs
  | t + 1, cs => steps t (step cs)

theorem steps_succ (t : Nat) : ∀ cs, steps (t + 1) cs = step (steps t cs) := by
  induction t with
  | zero => intro cs; rfl
  | succ t ih => intro cs; exact ih (step cs)

/-- The entries that one step reads. -/
def stepReads (cs : State) : Reads := [(.invAlpha, byteN cs.s3 0), (.alpha, byteN (cs.s0 >>> 24) 0)]

/-- The entries that `t` steps read. -/
def allReads : Nat → State → Reads
  | 0, _ => []
  | t + 1, cs => stepReads cs ++ allReads t (step cs)

theorem allReads_add (a b : Nat) : ∀ cs, allReads (a + b) cs = allReads a cs ++ allReads b (steps a cs) := by
  induction a with
  | zero => intro cs; rw [Nat.zero_add]; rfl
  | succ a ih => intro cs; rw [Nat.add_right_comm, allReads, ih, allReads, List.append_assoc]; rfl

theorem stepT (cs : State) (log : Reads) : (lfsrUpdateT (fsmUpdateT (cs, log)).1).1 = (step cs, log ++ stepReads cs) := rfl

theorem blockT_state (cs : State) (log : Reads) : (blockT (cs, log)).1 = (steps 4 cs, log ++ allReads 4 cs) := by
  have e : (blockT (cs, log)).1 = (steps 4 cs, (((log ++ stepReads cs) ++ stepReads (step cs)) ++ stepReads (step (step cs))) ++
      stepReads (step (step (step cs)))) := rfl
  rw [e]
  simp only [allReads, List.append_assoc, List.append_nil]

theorem block_state (cs : State) : (block cs).1 = steps 4 cs := rfl

theorem blockT_quad (cs : State) (log : Reads) : (blockT (cs, log)).2 = (block cs).2 := rfl

theorem blkStateT (m : Nat) : ∀ (cs : State) (log : Reads),
    blkState blockT m (cs, log) = (blkState block m cs, log ++ allReads (4 * m) cs) := by
  induction m with
  | zero => intro cs log; rw [Nat.mul_zero, allReads, List.append_nil]; rfl
  | succ m ih =>
    intro cs log
    rw [blkState, blockT_state, ih, blkState, block_state, Nat.mul_succ, Nat.add_comm (4 * m) 4, allReads_add, List.append_assoc]

theorem blkBytesT (m : Nat) : ∀ (cs : State) (log : Reads), blkBytes blockT m (cs, log) = blkBytes block m cs := by
  induction m with
  | zero => intro cs log; rfl
  | succ m ih => intro cs log; rw [blkBytes, blockT_state, ih, blkBytes, block_state, blockT_quad]

/-- The packet function with a record. -/
theorem processPacketT_eq (cs : State) (log : Reads) (io : Io) (n : Nat) (hf : io.Fits n) :
    processPacketT (cs, log) io n = .ok ((blkState block (n / 16 + 1) cs, log ++ allReads (4 * (n / 16 + 1)) cs),
      io.xored ((blkBytes block (n / 16 + 1) cs).take n)) := by
  have hb := Io.blockLoop_xored blockT (io := io) (n + 1) n 0 (cs, log) [] rfl (by omega) (hf.mono (by omega))
  rw [Io.xored_nil] at hb
  simp only [processPacketT, hb, Res.ok_bind, List.nil_append, Nat.zero_add]
  have hl := Io.loops_xored (blockT (blkState blockT (n / 16) (cs, log))).2.toList (io := io) (n % 16 + 1) (n % 16) 0 (16 * (n / 16))
    (blkBytes blockT (n / 16) (cs, log)) (blkBytes_length ..) (by omega) (by simp; omega) (hf.mono (by omega))
  obtain ⟨⟨rest, i, off, io'⟩, h1, h2⟩ := Res.bind_eq_ok hl
  simp only [] at h2
  rw [h1]
  simp only [Res.ok_bind]
  rw [h2]
  simp only [Res.ok_bind, Res.pure_eq, Res.ok_inj, Prod.mk.injEq]
  rw [← blkStateT]
  refine ⟨(blkState_succ _ _ _).symm, ?_⟩
  congr 1
  rw [← blkBytesT _ cs log, blkBytes_add, List.take_append, blkBytes_length,
    List.take_of_length_le (l := blkBytes blockT (n / 16) (cs, log)) (by rw [blkBytes_length]; omega),
    show n - 16 * (n / 16) = n % 16 by omega]
  simp [blkBytes, Quad.bytes]

/-- The function with a record computes what the function without computes. -/
theorem sosemanuk_reads_erase (cs : State) (io : Io) (n : Nat) (hf : io.Fits n) : ∃ cs' log io',
    processPacketT (cs, []) io n = .ok ((cs', log), io') ∧ processPacket cs io n = .ok (cs', io') :=
  ⟨_, _, _, processPacketT_eq cs [] io n hf, processPacket_eq cs io n hf⟩

example (cs : State) := sosemanuk_reads_erase cs ⟨List.replicate 80 5, List.replicate 80 0, false⟩ 80 (by decide)

/-! ### The reads determine the linear register -/

/-- The sequence of the words of the linear register. -/
def seq (cs : State) (t : Nat) : U32 := (steps t cs).s0

theorem step_s (cs : State) : (step cs).s0 = cs.s1 ∧ (step cs).s1 = cs.s2 ∧ (step cs).s2 = cs.s3 ∧ (step cs).s3 = cs.s4 ∧
    (step cs).s4 = cs.s5 ∧ (step cs).s5 = cs.s6 ∧ (step cs).s6 = cs.s7 ∧ (step cs).s7 = cs.s8 ∧ (step cs).s8 = cs.s9 :=
  ⟨rfl, rfl, rfl, rfl, rfl, rfl, rfl, rfl, rfl⟩

theorem seq_s1 (cs : State) (t : Nat) : (steps t cs).s1 = seq cs (t + 1) := by rw [seq, steps_succ]; exact (step_s _).1.symm
theorem seq_s2 (cs : State) (t : Nat) : (steps t cs).s2 = seq cs (t + 2) := by
  rw [← seq_s1, steps_succ, (step_s _).2.1]
theorem seq_s3 (cs : State) (t : Nat) : (steps t cs).s3 = seq cs (t + 3) := by
  rw [← seq_s2, steps_succ, (step_s _).2.2.1]
theorem seq_s4 (cs : State) (t : Nat) : (steps t cs).s4 = seq cs (t + 4) := by
  rw [← seq_s3, steps_succ, (step_s _).2.2.2.1]
theorem seq_s5 (cs : State) (t : Nat) : (steps t cs).s5 = seq cs (t + 5) := by
  rw [← seq_s4, steps_succ, (step_s _).2.2.2.2.1]
theorem seq_s6 (cs : State) (t : Nat) : (steps t cs).s6 = seq cs (t + 6) := by
  rw [← seq_s5, steps_succ, (step_s _).2.2.2.2.2.1]
theorem seq_s7 (cs : State) (t : Nat) : (steps t cs).s7 = seq cs (t + 7) := by
  rw [← seq_s6, steps_succ, (step_s _).2.2.2.2.2.2.1]
theorem seq_s8 (cs : State) (t : Nat) : (steps t cs).s8 = seq cs (t + 8) := by
  rw [← seq_s7, steps_succ, (step_s _).2.2.2.2.2.2.2.1]
theorem seq_s9 (cs : State) (t : Nat) : (steps t cs).s9 = seq cs (t + 9) := by
  rw [← seq_s8, steps_succ, (step_s _).2.2.2.2.2.2.2.2]

theorem seq_rec (cs : State) (t : Nat) : seq cs (t + 10) =
    (((seq cs (t + 3) >>> 8) ^^^ invAlpha.getD (byteN (seq cs (t + 3)) 0).toNat 0)
      ^^^ ((seq cs t <<< 8) ^^^ alpha.getD (byteN (seq cs t >>> 24) 0).toNat 0)) ^^^ seq cs (t + 9) := by
  rw [← seq_s9 cs t, ← seq_s3 cs t, show t + 10 = (t + 1) + 9 by omega, ← seq_s9 cs (t + 1), steps_succ]
  rfl


theorem byte_shr (x : U32) (n : Nat) (_ : n < 3) : byteN (x >>> 8) n = byteN x (n + 1) := by
  apply BitVec.eq_of_getLsbD_eq
  intro i hi
  simp only [byteN, BitVec.getLsbD_ushiftRight, BitVec.getLsbD_extractLsb', hi, decide_true, Bool.true_and]
  congr 1
  omega

theorem byte_shr_top (x : U32) : byteN (x >>> 8) 3 = 0 := by
  apply BitVec.eq_of_getLsbD_eq
  intro i hi
  simp only [byteN, BitVec.getLsbD_ushiftRight, BitVec.getLsbD_extractLsb', hi, decide_true, Bool.true_and]
  rw [BitVec.getLsbD_of_ge x _ (by omega)]
  simp

theorem byte_shl (x : U32) (n : Nat) (h : n < 3) : byteN (x <<< 8) (n + 1) = byteN x n := by
  apply BitVec.eq_of_getLsbD_eq
  intro i hi
  simp only [byteN, BitVec.getLsbD_shiftLeft, BitVec.getLsbD_extractLsb', hi, decide_true, Bool.true_and]
  rw [decide_eq_true (by omega : 8 * (n + 1) + i < 32), decide_eq_false (by omega : ¬ 8 * (n + 1) + i < 8)]
  simp only [Bool.not_false, Bool.true_and]
  congr 1
  omega

theorem byte_shl_low (x : U32) : byteN (x <<< 8) 0 = 0 := by
  apply BitVec.eq_of_getLsbD_eq
  intro i hi
  simp only [byteN, BitVec.getLsbD_shiftLeft, BitVec.getLsbD_extractLsb', hi, decide_true, Bool.true_and]
  rw [decide_eq_true (by omega : 8 * 0 + i < 8)]
  simp

theorem byte_top (x : U32) : byteN (x >>> 24) 0 = byteN x 3 := by
  apply BitVec.eq_of_getLsbD_eq
  intro i hi
  simp only [byteN, BitVec.getLsbD_ushiftRight, BitVec.getLsbD_extractLsb', hi, decide_true, Bool.true_and]
  congr 1
  omega

theorem word_ext {x y : U32} (h0 : byteN x 0 = byteN y 0) (h1 : byteN x 1 = byteN y 1) (h2 : byteN x 2 = byteN y 2)
    (h3 : byteN x 3 = byteN y 3) : x = y := by
  apply BitVec.eq_of_getLsbD_eq
  intro i hi
  have g : ∀ n, byteN x n = byteN y n → i / 8 = n → x.getLsbD i = y.getLsbD i := by
    intro n h e
    have := congrArg (fun b => b.getLsbD (i % 8)) h
    simp only [byteN, BitVec.getLsbD_extractLsb', show i % 8 < 8 by omega, decide_true, Bool.true_and] at this
    rwa [show 8 * n + i % 8 = i by omega] at this
  rcases (by omega : i / 8 = 0 ∨ i / 8 = 1 ∨ i / 8 = 2 ∨ i / 8 = 3) with e | e | e | e
  · exact g 0 h0 e
  · exact g 1 h1 e
  · exact g 2 h2 e
  · exact g 3 h3 e

theorem cancel_q {p i q a r p' q' r' x x' : U8} (h : x = ((p ^^^ i) ^^^ (q ^^^ a)) ^^^ r) (h' : x' = ((p' ^^^ i) ^^^ (q' ^^^ a)) ^^^ r')
    (hx : x = x') (hp : p = p') (hr : r = r') : q = q' := by
  subst hx hp hr
  rw [h] at h'
  rw [BitVec.xor_left_inj, BitVec.xor_right_inj, BitVec.xor_left_inj] at h'
  exact h'

theorem cancel_p {p i q a r p' q' r' x x' : U8} (h : x = ((p ^^^ i) ^^^ (q ^^^ a)) ^^^ r) (h' : x' = ((p' ^^^ i) ^^^ (q' ^^^ a)) ^^^ r')
    (hx : x = x') (hq : q = q') (hr : r = r') : p = p' := by
  refine cancel_q (p := q) (i := a) (q := p) (a := i) (r := r) (p' := q') (r' := r') ?_ ?_ hx hq hr
  · rw [h, BitVec.xor_comm (q ^^^ a)]
  · rw [h', BitVec.xor_comm (q' ^^^ a)]

/-- The recurrence, byte by byte. -/
theorem seq_byte (cs : State) (t n : Nat) : byteN (seq cs (t + 10)) n =
    ((byteN (seq cs (t + 3) >>> 8) n ^^^ byteN (invAlpha.getD (byteN (seq cs (t + 3)) 0).toNat 0) n)
      ^^^ (byteN (seq cs t <<< 8) n ^^^ byteN (alpha.getD (byteN (seq cs t) 3).toNat 0) n)) ^^^ byteN (seq cs (t + 9)) n := by
  rw [seq_rec, byte_top]
  simp only [byteN_xor]

/-- What equal reads mean for the sequences of words. -/
theorem allReads_inj (N : Nat) : ∀ (c d : State), allReads N c = allReads N d → ∀ t < N,
    byteN (seq c (t + 3)) 0 = byteN (seq d (t + 3)) 0 ∧ byteN (seq c t) 3 = byteN (seq d t) 3 := by
  induction N with
  | zero => intro c d _ t ht; omega
  | succ N ih =>
    intro c d h t ht
    rw [allReads, allReads] at h
    have hh := List.append_inj h rfl
    match t with
    | 0 =>
      have h1 := hh.1
      simp only [stepReads, byte_top, List.cons.injEq, Prod.mk.injEq, true_and, and_true] at h1
      refine ⟨?_, h1.2⟩
      rw [← seq_s3 c 0, ← seq_s3 d 0]
      exact h1.1
    | t + 1 => exact ih (step c) (step d) hh.2 t (by omega)

/-- Twenty-four steps with the same reads start from the same linear register. -/
theorem seq_eq (c d : State) (h : allReads 24 c = allReads 24 d) : ∀ t ≤ 9, seq c t = seq d t := by
  have H := allReads_inj 24 c d h
  have e3 : ∀ t < 24, byteN (seq c t) 3 = byteN (seq d t) 3 := fun t ht => (H t ht).2
  have e0 : ∀ t, 3 ≤ t → t < 27 → byteN (seq c t) 0 = byteN (seq d t) 0 := by
    intro t h3 ht
    have := (H (t - 3) (by omega)).1
    rwa [show t - 3 + 3 = t by omega] at this
  have rd := fun (t n : Nat) (ht : t < 24) => show byteN (seq d (t + 10)) n =
      ((byteN (seq d (t + 3) >>> 8) n ^^^ byteN (invAlpha.getD (byteN (seq c (t + 3)) 0).toNat 0) n)
      ^^^ (byteN (seq d t <<< 8) n ^^^ byteN (alpha.getD (byteN (seq c t) 3).toNat 0) n)) ^^^ byteN (seq d (t + 9)) n by
    rw [seq_byte, e3 t ht, e0 (t + 3) (by omega) (by omega)]
  have e2 : ∀ t ≤ 13, byteN (seq c t) 2 = byteN (seq d t) 2 := by
    intro t ht
    have := cancel_q (seq_byte c t 3) (rd t 3 (by omega)) (e3 _ (by omega)) (by rw [byte_shr_top, byte_shr_top]) (e3 _ (by omega))
    rwa [byte_shl _ 2 (by omega), byte_shl _ 2 (by omega)] at this
  have e1 : ∀ t, 3 ≤ t → t ≤ 19 → byteN (seq c t) 1 = byteN (seq d t) 1 := by
    intro t h3 ht
    obtain ⟨u, rfl⟩ : ∃ u, t = u + 3 := ⟨t - 3, by omega⟩
    have := cancel_p (seq_byte c u 0) (rd u 0 (by omega)) (e0 _ (by omega) (by omega)) (by rw [byte_shl_low, byte_shl_low])
      (e0 _ (by omega) (by omega))
    rwa [byte_shr _ 0 (by omega), byte_shr _ 0 (by omega)] at this
  have e0' : ∀ t ≤ 9, byteN (seq c t) 0 = byteN (seq d t) 0 := by
    intro t ht
    have := cancel_q (seq_byte c t 1) (rd t 1 (by omega)) (e1 _ (by omega) (by omega))
      (by rw [byte_shr _ 1 (by omega), byte_shr _ 1 (by omega), e2 _ (by omega)]) (e1 _ (by omega) (by omega))
    rwa [byte_shl _ 0 (by omega), byte_shl _ 0 (by omega)] at this
  have e1' : ∀ t ≤ 9, byteN (seq c t) 1 = byteN (seq d t) 1 := by
    intro t ht
    by_cases h3 : 3 ≤ t
    · exact e1 t h3 (by omega)
    · have := cancel_q (seq_byte c t 2) (rd t 2 (by omega)) (e2 _ (by omega))
        (by rw [byte_shr _ 2 (by omega), byte_shr _ 2 (by omega), e3 _ (by omega)]) (e2 _ (by omega))
      rwa [byte_shl _ 1 (by omega), byte_shl _ 1 (by omega)] at this
  intro t ht
  exact word_ext (e0' t ht) (e1' t ht) (e2 t (by omega)) (e3 t (by omega))

/-- The register of ten words that the bits of the output are filtered from. -/
def lfsr (cs : State) : List U32 := [cs.s0, cs.s1, cs.s2, cs.s3, cs.s4, cs.s5, cs.s6, cs.s7, cs.s8, cs.s9]

theorem allReads_length (N : Nat) : ∀ cs, (allReads N cs).length = 2 * N := by
  induction N with
  | zero => intro cs; rfl
  | succ N ih => intro cs; rw [allReads, List.length_append, ih]; simp [stepReads]; omega

theorem allReads_tables (N : Nat) : ∀ c d, (allReads N c).map Prod.fst = (allReads N d).map Prod.fst := by
  induction N with
  | zero => intro c d; rfl
  | succ N ih => intro c d; rw [allReads, allReads, List.map_append, List.map_append, ih (step c) (step d)]; rfl

/-- **C127.**  Two packets of at least eighty bytes that read the same entries of the tables start from the same contents of the
linear register: 320 of the 384 bits of the state. -/
theorem sosemanuk_reads_determine_lfsr (c d c' d' : State) (lc ld : Reads) (io jo io' jo' : Io) (n m : Nat) (hn : 80 ≤ n)
    (hm : 80 ≤ m) (hfn : io.Fits n) (hfm : jo.Fits m) (h1 : processPacketT (c, []) io n = .ok ((c', lc), io'))
    (h2 : processPacketT (d, []) jo m = .ok ((d', ld), jo')) (h : lc.take 48 = ld.take 48) : lfsr c = lfsr d := by
  rw [processPacketT_eq c [] io n hfn, Res.ok_inj, Prod.mk.injEq, Prod.mk.injEq, List.nil_append] at h1
  rw [processPacketT_eq d [] jo m hfm, Res.ok_inj, Prod.mk.injEq, Prod.mk.injEq, List.nil_append] at h2
  have tk : ∀ (cs : State) (k : Nat), 80 ≤ k → (allReads (4 * (k / 16 + 1)) cs).take 48 = allReads 24 cs := by
    intro cs k hk
    rw [show 4 * (k / 16 + 1) = 24 + (4 * (k / 16 + 1) - 24) by omega, allReads_add, List.take_append_of_le_length
      (by rw [allReads_length]; omega), List.take_of_length_le (by rw [allReads_length]; omega)]
  rw [← h1.1.2, ← h2.1.2, tk c n hn, tk d m hm] at h
  have e := seq_eq c d h
  unfold lfsr
  rw [show c.s0 = d.s0 from e 0 (by omega), show c.s1 = d.s1 from (seq_s1 c 0).trans ((e 1 (by omega)).trans (seq_s1 d 0).symm),
    show c.s2 = d.s2 from (seq_s2 c 0).trans ((e 2 (by omega)).trans (seq_s2 d 0).symm),
    show c.s3 = d.s3 from (seq_s3 c 0).trans ((e 3 (by omega)).trans (seq_s3 d 0).symm),
    show c.s4 = d.s4 from (seq_s4 c 0).trans ((e 4 (by omega)).trans (seq_s4 d 0).symm),
    show c.s5 = d.s5 from (seq_s5 c 0).trans ((e 5 (by omega)).trans (seq_s5 d 0).symm),
    show c.s6 = d.s6 from (seq_s6 c 0).trans ((e 6 (by omega)).trans (seq_s6 d 0).symm),
    show c.s7 = d.s7 from (seq_s7 c 0).trans ((e 7 (by omega)).trans (seq_s7 d 0).symm),
    show c.s8 = d.s8 from (seq_s8 c 0).trans ((e 8 (by omega)).trans (seq_s8 d 0).symm),
    show c.s9 = d.s9 from (seq_s9 c 0).trans ((e 9 (by omega)).trans (seq_s9 d 0).symm)]

/-- **C127.**  What does hold: how many entries are read, and of which tables, depends on the size of the packet alone. -/
theorem sosemanuk_reads_partial (c d c' d' : State) (lc ld : Reads) (io jo io' jo' : Io) (n : Nat) (hf : io.Fits n) (hg : jo.Fits n)
    (h1 : processPacketT (c, []) io n = .ok ((c', lc), io')) (h2 : processPacketT (d, []) jo n = .ok ((d', ld), jo')) :
    lc.length = 8 * (n / 16 + 1) ∧ lc.map Prod.fst = ld.map Prod.fst := by
  rw [processPacketT_eq c [] io n hf, Res.ok_inj, Prod.mk.injEq, Prod.mk.injEq, List.nil_append] at h1
  rw [processPacketT_eq d [] jo n hg, Res.ok_inj, Prod.mk.injEq, Prod.mk.injEq, List.nil_append] at h2
  rw [← h1.1.2, ← h2.1.2, allReads_length]
  exact ⟨by omega, allReads_tables _ c d⟩

example (c d : State) : ∃ c' d' lc ld io' jo', processPacketT (c, []) ⟨List.replicate 20 5, List.replicate 20 0, false⟩ 20 = .ok ((c', lc), io') ∧
    processPacketT (d, []) ⟨List.replicate 20 5, List.replicate 20 0, false⟩ 20 = .ok ((d', ld), jo') ∧ lc.length = 16 := by
  obtain ⟨c', lc, io', h1, -⟩ := sosemanuk_reads_erase c ⟨List.replicate 20 5, List.replicate 20 0, false⟩ 20 (by decide)
  obtain ⟨d', ld, jo', h2, -⟩ := sosemanuk_reads_erase d ⟨List.replicate 20 5, List.replicate 20 0, false⟩ 20 (by decide)
  exact ⟨_, _, _, _, _, _, h1, h2, (sosemanuk_reads_partial c d c' d' lc ld _ _ io' jo' 20 (by decide) (by decide) h1 h2).1⟩

/-- The generator before it is keyed, with some contents. -/
def blank : State := ⟨[], 0, 0, 0, 0, 0, 0, 0, 0, 0, 0, 0, 0⟩

/-- Key and IV loaded, then a packet, with the record of the packet. -/
def session (key iv : List U8) (io : Io) (n : Nat) : Res (Option Reads) := do
  match ← loadKey blank key key.length with
  | none => .ok none
  | some cs => do
    let cs ← loadIv cs iv
    let r ← processPacketT (cs, []) io n
    return some r.1.2

/-- The record of a session that ends well. -/
def logOf : Res (Option Reads) → Reads
  | .ok (some l) => l
  | _ => []

/-- **C127 is false:** the entries read depend on the key (here with the IV and the plaintext fixed). -/
theorem sosemanuk_reads_refuted : ¬ ∀ (key key' iv : List U8) (io : Io) (n : Nat) (log log' : Reads), key.length = 16 →
    key'.length = 16 → iv.length = 16 → io.Fits n → session key iv io n = .ok (some log) → session key' iv io n = .ok (some log') →
    log = log' := by
  intro h
  have e : logOf (session (List.replicate 16 0) (List.replicate 16 0) ⟨[], [], false⟩ 0) ≠
      logOf (session (List.replicate 16 1) (List.replicate 16 0) ⟨[], [], false⟩ 0) := by decide +kernel
  have d0 : session (List.replicate 16 0) (List.replicate 16 0) ⟨[], [], false⟩ 0 = .ok (some (logOf (session (List.replicate 16 0)
      (List.replicate 16 0) ⟨[], [], false⟩ 0))) := by decide +kernel
  have d1 : session (List.replicate 16 1) (List.replicate 16 0) ⟨[], [], false⟩ 0 = .ok (some (logOf (session (List.replicate 16 1)
      (List.replicate 16 0) ⟨[], [], false⟩ 0))) := by decide +kernel
  exact e (h _ _ _ _ 0 _ _ (by simp) (by simp) (by simp) (by decide) d0 d1)

/-- Non-trivial instance: a keyed session with a packet of eighty bytes, which the theorem on the register applies to. -/
example : (logOf (session [1, 2, 3] (List.replicate 16 7) ⟨List.replicate 80 5, List.replicate 80 0, false⟩ 80)).length = 48 ∧
    (⟨List.replicate 80 5, List.replicate 80 0, false⟩ : Io).Fits 80 := by decide +kernel

example : ∃ c' lc io', processPacketT (blank, []) ⟨List.replicate 80 5, List.replicate 80 0, false⟩ 80 = .ok ((c', lc), io') ∧
    lc.take 48 = lc := by
  obtain ⟨c', lc, io', h, -⟩ := sosemanuk_reads_erase blank ⟨List.replicate 80 5, List.replicate 80 0, false⟩ 80 (by decide)
  have := (sosemanuk_reads_partial blank blank c' c' lc lc _ _ io' io' 80 (by decide) (by decide) h h).1
  exact ⟨c', lc, io', h, List.take_of_length_le (by omega)⟩

end CT.Props.SosemanukTrace
