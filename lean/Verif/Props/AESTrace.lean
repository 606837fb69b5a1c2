import Verif.Model.AESTrace
import Verif.Props.AESCtr

/-!
# C108: the table entries that the AES code reads
-/

namespace CT.Props.AES
open CT CT.AES

/-! ### The record changes nothing -/

theorem Tr.bind_val {α β : Type} (x : Tr α) (f : α → Tr β) : (x >>= f).val = (f x.val).val := Eq.trans rfl rfl
theorem Tr.bind_reads {α β : Type} (x : Tr α) (f : α → Tr β) : (x >>= f).reads = x.reads ++ (f x.val).reads := Eq.trans rfl rfl
theorem Tr.pure_val {α : Type} (a : α) : (pure a : Tr α).val = a := Eq.trans rfl rfl
theorem Tr.pure_reads {α : Type} (a : α) : (pure a : Tr α).reads = [] := Eq.trans rfl rfl

theorem roundT_val (s k : Quad) : (roundT s k).val = round s k := rfl
theorem finalRoundT_val (s k : Quad) : (finalRoundT s k).val = finalRound s k := rfl
theorem subByteT_val (w : U32) : (subByteT w).val = subByte w := rfl

theorem expandTempT_val (i : Nat) (t : U32) : (expandTempT i t).val =
    if i % 4 = 0 then subByte (rotByte t) ^^^ (rconTab.getD (i / 4) 0).setWidth 32 else t := by
  rw [expandTempT]
  split <;> rfl

theorem expandLoopT_val (n : Nat) : ∀ (i : Nat) (ks : List U32), (expandLoopT n i ks).val = expandLoop n i ks := by
  induction n with
  | zero => intro i ks; rfl
  | succ n ih =>
    intro i ks
    rw [expandLoopT, expandLoop, Tr.bind_val, ih, expandTempT_val]

theorem keyExpansionT_val (key : List U8) : (keyExpansionT key).val = keyExpansion key := by
  rw [keyExpansionT, expandLoopT_val, keyExpansion]

theorem firstRoundsT_val (rk : List U32) (s : Quad) : (firstRoundsT rk s).val =
    round (round (round (round s (rkAt rk 4)) (rkAt rk 8)) (rkAt rk 12)) (rkAt rk 16) := by
  simp only [firstRoundsT, Tr.bind_val, roundT_val]

theorem lastRoundsT_val (rk : List U32) (s : Quad) : (lastRoundsT rk s).val = finalRound (round (round (round (round
    (round s (rkAt rk 20)) (rkAt rk 24)) (rkAt rk 28)) (rkAt rk 32)) (rkAt rk 36)) (rkAt rk 40) := by
  simp only [lastRoundsT, Tr.bind_val, roundT_val, finalRoundT_val]

theorem encryptT_val (reduced : Bool) (rk : List U32) (s : Quad) : (encryptT reduced rk s).val = encrypt reduced rk s := by
  cases reduced
  · simp only [encryptT, encrypt, Bool.false_eq_true, if_false, Tr.bind_val, lastRoundsT_val, firstRoundsT_val]
  · simp only [encryptT, encrypt, if_true, lastRoundsT_val]

theorem ctrBlkT_fst (m : Nat) (s : State × Reads) :
    (blkState ctrBlkT m s).1 = blkState (ctrBlk (encrypt false)) m s.1 ∧
      blkBytes ctrBlkT m s = blkBytes (ctrBlk (encrypt false)) m s.1 := by
  induction m generalizing s with
  | zero => exact ⟨rfl, rfl⟩
  | succ m ih =>
    obtain ⟨h1, h2⟩ := ih (ctrBlkT s).1
    refine ⟨by rw [blkState, h1]; rfl, ?_⟩
    have h3 : (ctrBlkT s).2 = (ctrBlk (encrypt false) s.1).2 := encryptT_val false s.1.rk s.1.reg
    rw [blkBytes, h2, blkBytes, h3]
    rfl

/-- C108, the record is a record: without it, key loading, the block function and the packet function
are those of the model. -/
theorem aes_traced_erase :
    (∀ (s : State × Reads) (key : List U8), (loadKeyT s key).1 = loadKey s.1 key) ∧
    (∀ (reduced : Bool) (rk : List U32) (s : Quad), (encryptT reduced rk s).val = encrypt reduced rk s) ∧
    ∀ (s : State × Reads) (io : Io) (n : Nat), io.Fits n →
      (do let r ← ctrPacketT s io n; return (r.1.1, r.2) : Res _) = ctrPacket s.1 io n := by
  refine ⟨fun s key => ?_, encryptT_val, fun s io n hf => ?_⟩
  · rw [loadKeyT, loadKey, keyExpansionT_val]
  · rw [ctrPacketT, ctrPacket]
    by_cases h4 : n % 4 ≤ 1
    · rw [ctrWith_ok _ _ h4 hf, ctrWith_ok _ _ h4 hf]
      obtain ⟨h1, _⟩ := ctrBlkT_fst ((n + 15) / 16) s
      obtain ⟨h2, h3⟩ := ctrBlkT_fst (n / 16) s
      have h5 : (ctrBlkT (blkState ctrBlkT (n / 16) s)).2 =
          (ctrBlk (encrypt false) (blkState (ctrBlk (encrypt false)) (n / 16) s.1)).2 := by
        rw [← h2]; exact encryptT_val _ _ _
      simp only [Res.ok_bind, Res.pure_eq, ctrNext, h1, ctrKs, h3, h5]
    · rw [ctrWith_ub _ _ (by omega) hf, ctrWith_ub _ _ (by omega) hf]; rfl

/-! ### What is read -/

/-- The entries `SubByte` reads for a word. -/
def subReads (w : U32) : Reads := [(.Sbox, cut w 0), (.Sbox, cut w 8), (.Sbox, cut w 16), (.Sbox, cut w 24)]

theorem subByteT_reads (w : U32) : (subByteT w).reads = subReads w := rfl

theorem expandTempT_reads (i : Nat) (t : U32) : (expandTempT i t).reads =
    if i % 4 = 0 then subReads (rotByte t) else [] := by
  rw [expandTempT]
  split <;> rfl

theorem expandLoopT_succ (n i : Nat) (ks : List U32) : (expandLoopT (n + 1) i ks).reads =
    (if i % 4 = 0 then subReads (rotByte (ks.getD (i - 1) 0)) else []) ++
      (expandLoopT n (i + 1) (expandLoop 1 i ks)).reads := by
  rw [expandLoopT, Tr.bind_reads, expandTempT_reads, expandTempT_val, expandLoop, expandLoop]

theorem expandLoop_one (n i : Nat) (ks : List U32) : expandLoop n (i + 1) (expandLoop 1 i ks) = expandLoop (n + 1) i ks := rfl

theorem expandLoopT_four (n i : Nat) (pre : List U32) (q : Quad) (hp : pre.length = 4 * i) :
    (expandLoopT (n + 4) (4 * i + 4) (pre ++ q.toList)).reads =
      subReads (rotByte q.w3) ++ (expandLoopT n (4 * i + 8) ((pre ++ q.toList) ++ (nextQuad (i + 1) q).toList)).reads := by
  have h4 := expandLoop_four 0 i pre q hp
  rw [expandLoopT_succ, expandLoopT_succ, expandLoopT_succ, expandLoopT_succ]
  rw [if_pos (by omega), if_neg (by omega), if_neg (by omega), if_neg (by omega)]
  rw [getD_append_right pre _ (4 * i + 4 - 1) 3 _ (by omega)]
  simp only [List.nil_append]
  rw [expandLoop_one, expandLoop_one, expandLoop_one]
  have h5 : expandLoop 4 (4 * i + 4) (pre ++ q.toList) = (pre ++ q.toList) ++ (nextQuad (i + 1) q).toList := h4
  rw [h5]
  rfl

/-- The entries read by the key expansion, from round key `i` on. -/
def expandReads (key : List U8) (i : Nat) : Nat → Reads
  | 0 => []
  | m + 1 => subReads (rotByte (rkq key i).w3) ++ expandReads key (i + 1) m

theorem expandLoopT_rkqs (key : List U8) (m i : Nat) :
    (expandLoopT (4 * m) (4 * i + 4) (rkqs key (i + 1))).reads = expandReads key i m := by
  induction m generalizing i with
  | zero => rfl
  | succ m ih =>
    rw [Nat.mul_succ, rkqs, expandLoopT_four _ _ _ _ (rkqs_length key i), expandReads]
    have := ih (i + 1)
    rw [rkqs, rkqs, rkq, show 4 * (i + 1) + 4 = 4 * i + 8 by omega] at this
    rw [this]

theorem keyExpansionT_reads (key : List U8) : (keyExpansionT key).reads = expandReads key 0 10 := by
  have e : keyExpansionT key = expandLoopT (4 * 10) (4 * 0 + 4) (rkqs key (0 + 1)) := rfl
  rw [e, expandLoopT_rkqs]

theorem cut_inj {v w : U32} (h0 : cut v 0 = cut w 0) (h8 : cut v 8 = cut w 8) (h16 : cut v 16 = cut w 16)
    (h24 : cut v 24 = cut w 24) : v = w := by
  apply BitVec.eq_of_getLsbD_eq
  intro i hi
  have b0 := congrArg (fun x : U8 => x.getLsbD i) h0
  have b1 := congrArg (fun x : U8 => x.getLsbD (i - 8)) h8
  have b2 := congrArg (fun x : U8 => x.getLsbD (i - 16)) h16
  have b3 := congrArg (fun x : U8 => x.getLsbD (i - 24)) h24
  simp only [cut, BitVec.getLsbD_setWidth, BitVec.getLsbD_ushiftRight] at b0 b1 b2 b3
  by_cases c0 : i < 8
  · simpa [c0] using b0
  · by_cases c1 : i < 16
    · simpa [show i - 8 < 8 by omega, show 8 + (i - 8) = i by omega] using b1
    · by_cases c2 : i < 24
      · simpa [show i - 16 < 8 by omega, show 16 + (i - 16) = i by omega] using b2
      · simpa [show i - 24 < 8 by omega, show 24 + (i - 24) = i by omega] using b3

theorem subReads_inj {v w : U32} (h : subReads v = subReads w) : v = w := by
  simp only [subReads, List.cons.injEq, Prod.mk.injEq, true_and, and_true] at h
  exact cut_inj h.1 h.2.1 h.2.2.1 h.2.2.2

theorem rotByte_inj {v w : U32} (h : rotByte v = rotByte w) : v = w := by
  rw [rotByte_eq, rotByte_eq] at h
  have e : ∀ n, byteN (le32 (byteN v 1) (byteN v 2) (byteN v 3) (byteN v 0)) n =
      byteN (le32 (byteN w 1) (byteN w 2) (byteN w 3) (byteN w 0)) n := fun n => by rw [h]
  have e0 := e 0
  have e1 := e 1
  have e2 := e 2
  have e3 := e 3
  rw [byteN0_le32, byteN0_le32] at e0
  rw [byteN1_le32, byteN1_le32] at e1
  rw [byteN2_le32, byteN2_le32] at e2
  rw [byteN3_le32, byteN3_le32] at e3
  exact cut_inj (by rw [cut0, cut0, e3]) (by rw [cut8, cut8, e0]) (by rw [cut16, cut16, e1]) (by rw [cut24, cut24, e2])

theorem expandReads_w3 {key key' : List U8} (m : Nat) : ∀ (i : Nat), expandReads key i m = expandReads key' i m →
    ∀ j, i ≤ j → j < i + m → (rkq key j).w3 = (rkq key' j).w3 := by
  induction m with
  | zero => intro i _ j h1 h2; omega
  | succ m ih =>
    intro i h j h1 h2
    rw [expandReads, expandReads] at h
    obtain ⟨h3, h4⟩ := List.append_inj h (by simp [subReads])
    by_cases e : j = i
    · subst e; exact rotByte_inj (subReads_inj h3)
    · exact ih (i + 1) h4 j (by omega) (by omega)

theorem xor_right_cancel {a b c d : U32} (h : a ^^^ b = c ^^^ d) (h' : b = d) : a = c := by
  subst h'
  have := congrArg (· ^^^ b) h
  simpa [BitVec.xor_assoc] using this

theorem xor_left_cancel {a b c d : U32} (h : a ^^^ b = c ^^^ d) (h' : a = c) : b = d := by
  subst h'
  have := congrArg (a ^^^ ·) h
  simpa [← BitVec.xor_assoc] using this

/-- The last words of four consecutive round keys determine the first of them. -/
theorem quad_of_w3 {i : Nat} {p q : Quad} (h0 : p.w3 = q.w3) (h1 : (nextQuad i p).w3 = (nextQuad i q).w3)
    (h2 : (nextQuad (i + 1) (nextQuad i p)).w3 = (nextQuad (i + 1) (nextQuad i q)).w3)
    (h3 : (nextQuad (i + 2) (nextQuad (i + 1) (nextQuad i p))).w3 =
      (nextQuad (i + 2) (nextQuad (i + 1) (nextQuad i q))).w3) : p = q := by
  -- from the last words of two consecutive round keys the third word of the second one
  have step (j : Nat) (a b : Quad) (g0 : a.w3 = b.w3) (g1 : (nextQuad j a).w3 = (nextQuad j b).w3) :
      (nextQuad j a).w2 = (nextQuad j b).w2 := by
    have e1 : (nextQuad j a).w3 = a.w3 ^^^ (nextQuad j a).w2 := rfl
    have e2 : (nextQuad j b).w3 = b.w3 ^^^ (nextQuad j b).w2 := rfl
    rw [e1, e2] at g1
    exact xor_left_cancel g1 g0
  have step2 (j : Nat) (a b : Quad) (g0 : a.w2 = b.w2) (g1 : (nextQuad j a).w2 = (nextQuad j b).w2) :
      (nextQuad j a).w1 = (nextQuad j b).w1 := by
    have e1 : (nextQuad j a).w2 = a.w2 ^^^ (nextQuad j a).w1 := rfl
    have e2 : (nextQuad j b).w2 = b.w2 ^^^ (nextQuad j b).w1 := rfl
    rw [e1, e2] at g1
    exact xor_left_cancel g1 g0
  have step1 (j : Nat) (a b : Quad) (g0 : a.w1 = b.w1) (g1 : (nextQuad j a).w1 = (nextQuad j b).w1) :
      (nextQuad j a).w0 = (nextQuad j b).w0 := by
    have e1 : (nextQuad j a).w1 = a.w1 ^^^ (nextQuad j a).w0 := rfl
    have e2 : (nextQuad j b).w1 = b.w1 ^^^ (nextQuad j b).w0 := rfl
    rw [e1, e2] at g1
    exact xor_left_cancel g1 g0
  have back (j : Nat) (a b : Quad) (g3 : a.w3 = b.w3) (g : nextQuad j a = nextQuad j b) : a = b := by
    have w0 : a.w0 = b.w0 := by
      have := congrArg Quad.w0 g
      have e1 : (nextQuad j a).w0 = a.w0 ^^^ (subByte (rotByte a.w3) ^^^ (rconTab.getD j 0).setWidth 32) := rfl
      have e2 : (nextQuad j b).w0 = b.w0 ^^^ (subByte (rotByte b.w3) ^^^ (rconTab.getD j 0).setWidth 32) := rfl
      rw [e1, e2] at this
      exact xor_right_cancel this (by rw [g3])
    have w1 : a.w1 = b.w1 := by
      have := congrArg Quad.w1 g
      have e1 : (nextQuad j a).w1 = a.w1 ^^^ (nextQuad j a).w0 := rfl
      have e2 : (nextQuad j b).w1 = b.w1 ^^^ (nextQuad j b).w0 := rfl
      rw [e1, e2] at this
      exact xor_right_cancel this (by rw [g])
    have w2 : a.w2 = b.w2 := by
      have := congrArg Quad.w2 g
      have e1 : (nextQuad j a).w2 = a.w2 ^^^ (nextQuad j a).w1 := rfl
      have e2 : (nextQuad j b).w2 = b.w2 ^^^ (nextQuad j b).w1 := rfl
      rw [e1, e2] at this
      exact xor_right_cancel this (by rw [g])
    cases a; cases b; simp_all
  have c1 := step i p q h0 h1
  have c2 := step (i + 1) _ _ h1 h2
  have c3 := step (i + 2) _ _ h2 h3
  have b2 := step2 (i + 1) _ _ c1 c2
  have b3 := step2 (i + 2) _ _ c2 c3
  have a3 := step1 (i + 2) _ _ b2 b3
  have e3 : nextQuad (i + 2) (nextQuad (i + 1) (nextQuad i p)) = nextQuad (i + 2) (nextQuad (i + 1) (nextQuad i q)) := by
    rcases hx : nextQuad (i + 2) (nextQuad (i + 1) (nextQuad i p)) with ⟨x0, x1, x2, x3⟩
    rcases hy : nextQuad (i + 2) (nextQuad (i + 1) (nextQuad i q)) with ⟨y0, y1, y2, y3⟩
    rw [hx, hy] at h3 c3 b3 a3
    simp only at h3 c3 b3 a3
    rw [h3, c3, b3, a3]
  exact back i _ _ h0 (back (i + 1) _ _ h1 (back (i + 2) _ _ h2 e3))

theorem loadKeyT_log (s : State) (log : Reads) (key : List U8) :
    (loadKeyT (s, log) key).2 = log ++ (keyExpansionT key).reads := by rw [loadKeyT]

theorem key_of_rkq_zero {key key' : List U8} (hk : key.length = 16) (hk' : key'.length = 16) (h : rkq key 0 = rkq key' 0) :
    key = key' := by
  rw [rkq_zero, rkq_zero] at h
  rw [← quadOf_bytes hk, ← quadOf_bytes hk', h]

/-- C108, refuted in the strongest way for key loading, in all builds (the key expansions are the same):
the entries of `Sbox` that loading a key reads determine the key. -/
theorem aes_key_setup_reads_determine_key (s s' : State) (key key' : List U8) (hk : key.length = 16)
    (hk' : key'.length = 16) (h : (loadKeyT (s, []) key).2 = (loadKeyT (s', []) key').2) : key = key' := by
  rw [loadKeyT_log, loadKeyT_log, List.nil_append, List.nil_append, keyExpansionT_reads, keyExpansionT_reads] at h
  have h2 := expandReads_w3 10 0 h
  exact key_of_rkq_zero hk hk' (quad_of_w3 (i := 1) (h2 0 (by omega) (by omega)) (h2 1 (by omega) (by omega))
    (h2 2 (by omega) (by omega)) (h2 3 (by omega) (by omega)))

/-- Two setups from different contents of the object read the same entries. -/
example : (loadKeyT (⟨⟨0, 0, 0, 0⟩, []⟩, []) fipsKey).2 = (loadKeyT (⟨⟨1, 2, 3, 4⟩, []⟩, []) fipsKey).2 ∧ fipsKey.length = 16 := ⟨rfl, rfl⟩

/-- The first sixteen entries read by the block function for the block `m` under the key `k`, both
sixteen bytes: `T0` to `T3`, at the bytes of `m xor k`. -/
def firstReads (k m : List U8) : Reads :=
  [0, 5, 10, 15, 4, 9, 14, 3, 8, 13, 2, 7, 12, 1, 6, 11].map fun j : Nat =>
    ([Table.T0, .T1, .T2, .T3].getD (j % 4) .T0, m.getD j 0 ^^^ k.getD j 0)

theorem roundT_reads (s k : Quad) : (roundT s k).reads =
    [(.T0, cut s.w0 0), (.T1, cut s.w1 8), (.T2, cut s.w2 16), (.T3, cut s.w3 24),
     (.T0, cut s.w1 0), (.T1, cut s.w2 8), (.T2, cut s.w3 16), (.T3, cut s.w0 24),
     (.T0, cut s.w2 0), (.T1, cut s.w3 8), (.T2, cut s.w0 16), (.T3, cut s.w1 24),
     (.T0, cut s.w3 0), (.T1, cut s.w0 8), (.T2, cut s.w1 16), (.T3, cut s.w2 24)] := rfl

theorem cut_xor (a b : U32) (n : Nat) : cut (a ^^^ b) n = cut a n ^^^ cut b n := by
  rw [cut, BitVec.ushiftRight_xor_distrib, BitVec.setWidth_xor]; rfl

theorem roundT_take (s k : Quad) (l : Reads) : ((roundT s k).reads ++ l).take 16 = (roundT s ⟨0, 0, 0, 0⟩).reads := by
  rw [List.take_append_of_le_length (by rw [roundT_reads]; simp), List.take_of_length_le (by rw [roundT_reads]; simp),
    roundT_reads, roundT_reads]

theorem encryptT_first (reduced : Bool) (rk : List U32) (s : Quad) :
    (encryptT reduced rk s).reads.take 16 = (roundT (initialRound s (rkAt rk 0)) ⟨0, 0, 0, 0⟩).reads := by
  rw [encryptT]
  split
  · rw [lastRoundsT, Tr.bind_reads, roundT_take]
  · rw [Tr.bind_reads, firstRoundsT, Tr.bind_reads, List.append_assoc, roundT_take]

theorem rkAt_zero (key : List U8) : rkAt (keyExpansion key) 0 = quadOf key := by
  rw [← rkq_zero, ← rkAt_keyExpansion key 0 (by omega), Nat.mul_zero]

/-- C108: the first sixteen entries that the portable block function reads are at the bytes of the
block xored with those of the key. -/
theorem aes_block_first_reads (reduced : Bool) (key block : List U8) :
    (encryptT reduced (keyExpansion key) (quadOf block)).reads.take 16 = firstReads key block := by
  rw [encryptT_first, rkAt_zero, roundT_reads]
  have c0 (a b c d : U8) : cut (le32 a b c d) 0 = a := by rw [cut0, byteN0_le32]
  have c1 (a b c d : U8) : cut (le32 a b c d) 8 = b := by rw [cut8, byteN1_le32]
  have c2 (a b c d : U8) : cut (le32 a b c d) 16 = c := by rw [cut16, byteN2_le32]
  have c3 (a b c d : U8) : cut (le32 a b c d) 24 = d := by rw [cut24, byteN3_le32]
  simp only [initialRound, quadOf, cut_xor, c0, c1, c2, c3, firstReads, List.map_cons, List.map_nil]
  rfl

theorem firstReads_inj {key key' block : List U8} (hk : key.length = 16) (hk' : key'.length = 16)
    (h : firstReads key block = firstReads key' block) : key = key' := by
  have hj : ∀ j : Nat, j ∈ [0, 5, 10, 15, 4, 9, 14, 3, 8, 13, 2, 7, 12, 1, 6, 11] →
      key.getD j 0 = key'.getD j 0 := by
    intro j hj
    have h1 := List.map_inj_left.mp h j hj
    have h2 := (Prod.mk.injEq ..).mp h1
    have h3 := congrArg (block.getD j 0 ^^^ ·) h2.2
    simpa [← BitVec.xor_assoc] using h3
  apply List.ext_getElem (by rw [hk, hk'])
  intro j h1 h2
  have := hj j (by
    rw [hk] at h1
    have : ∀ j : Fin 16, j.val ∈ [0, 5, 10, 15, 4, 9, 14, 3, 8, 13, 2, 7, 12, 1, 6, 11] := by decide
    exact this ⟨j, h1⟩)
  rw [List.getD_eq_getElem?_getD, List.getD_eq_getElem?_getD, List.getElem?_eq_getElem h1, List.getElem?_eq_getElem h2] at this
  exact this

/-- C108: so the entries read while one known block is encrypted determine the key. -/
theorem aes_block_reads_determine_key (reduced : Bool) (key key' block : List U8) (hk : key.length = 16)
    (hk' : key'.length = 16) (h : (encryptT reduced (keyExpansion key) (quadOf block)).reads =
      (encryptT reduced (keyExpansion key') (quadOf block)).reads) : key = key' := by
  apply firstReads_inj (block := block) hk hk'
  rw [← aes_block_first_reads reduced, ← aes_block_first_reads reduced, h]

/-- Keys that differ in one bit read different entries. -/
example : (encryptT false (keyExpansion (List.replicate 16 0)) (quadOf (List.replicate 16 5))).reads.take 4 ≠
    (encryptT false (keyExpansion (1 :: List.replicate 15 0)) (quadOf (List.replicate 16 5))).reads.take 4 := by decide +kernel

theorem ctrBlkT_log (cs : State) (log : Reads) :
    (ctrBlkT (cs, log)).1.2 = log ++ (encryptT false cs.rk cs.reg).reads := rfl

theorem ctrBlkT_reads_prefix (m : Nat) : ∀ (s : State × Reads), ∃ t, (blkState ctrBlkT m s).2 = s.2 ++ t := by
  induction m with
  | zero => intro s; exact ⟨[], by simp [blkState]⟩
  | succ m ih =>
    intro s
    obtain ⟨t, h⟩ := ih (ctrBlkT s).1
    refine ⟨(encryptT false s.1.rk s.1.reg).reads ++ t, ?_⟩
    rw [blkState, h, ← List.append_assoc]
    rfl

theorem loaded_rk (s : State) (key nonce : List U8) : (ctrLoadIv (loadKey s key) nonce).rk = keyExpansion key := rfl
theorem ctrLoadIv_reg (s : State) (nonce : List U8) : (ctrLoadIv s nonce).reg =
    ⟨(quadOf nonce).w0, (quadOf nonce).w1, (quadOf nonce).w2, le32 0x00 0x00 0x00 0x01⟩ := rfl
theorem loaded_reg (s : State) (key nonce : List U8) :
    (ctrLoadIv (loadKey s key) nonce).reg = (ctrLoadIv s nonce).reg := by rw [ctrLoadIv_reg, ctrLoadIv_reg]

theorem ctrPacketT_log (cs : State) {io : Io} {n : Nat} (hn : 0 < n) (hf : io.Fits n) {t : State} {log : Reads} {o : Io}
    (h : ctrPacketT (cs, []) io n = .ok ((t, log), o)) : ∃ r, log = (encryptT false cs.rk cs.reg).reads ++ r := by
  rw [ctrPacketT] at h
  by_cases h4 : n % 4 ≤ 1
  · rw [ctrWith_ok _ _ h4 hf] at h
    have h0 := Res.ok_inj.mp h
    have h1 : ctrNext ctrBlkT (cs, []) n = (t, log) := congrArg Prod.fst h0
    rw [ctrNext, show (n + 15) / 16 = (n - 1) / 16 + 1 by omega, blkState] at h1
    obtain ⟨r, hr⟩ := ctrBlkT_reads_prefix ((n - 1) / 16) (ctrBlkT (cs, [])).1
    rw [h1, ctrBlkT_log, List.nil_append] at hr
    exact ⟨r, hr⟩
  · rw [ctrWith_ub _ _ (by omega) hf] at h; cases h

theorem ctrPacketT_first (s : State) (key nonce : List U8) (io : Io) (n : Nat) (hn : 0 < n) (hf : io.Fits n)
    {t : State} {log : Reads} {o : Io}
    (h : ctrPacketT (ctrLoadIv (loadKey s key) nonce, []) io n = .ok ((t, log), o)) :
    log.take 16 = (roundT (initialRound (ctrLoadIv s nonce).reg (rkq key 0)) ⟨0, 0, 0, 0⟩).reads := by
  obtain ⟨r, hr⟩ := ctrPacketT_log _ hn hf h
  rw [loaded_rk, loaded_reg] at hr
  generalize (ctrLoadIv s nonce).reg = m at hr ⊢
  have h3 := encryptT_first false (keyExpansion key) m
  rw [rkAt_zero, ← rkq_zero] at h3
  generalize (encryptT false (keyExpansion key) m).reads = x at h3 hr
  have h5 : 16 ≤ x.length := by
    have := congrArg List.length h3
    rw [roundT_reads] at this
    simp only [List.length_take, List.length_cons, List.length_nil] at this
    omega
  rw [hr, List.take_append_of_le_length h5, h3]

/-- C108, refuted in the strongest way for packets: the table entries read while one packet of at least
one byte is processed in counter mode, starting with a freshly loaded nonce, determine the key, for every
known nonce and whatever the packet contains (the two packets need not be the same). -/
theorem aes_ctr_reads_determine_key (s s' : State) (key key' nonce : List U8) (hk : key.length = 16)
    (hk' : key'.length = 16) (io io' : Io) (n n' : Nat) (hn : 0 < n) (hn' : 0 < n') (hf : io.Fits n) (hf' : io'.Fits n')
    (t t' : State) (log : Reads) (o o' : Io)
    (h : ctrPacketT (ctrLoadIv (loadKey s key) nonce, []) io n = .ok ((t, log), o))
    (h' : ctrPacketT (ctrLoadIv (loadKey s' key') nonce, []) io' n' = .ok ((t', log), o')) : key = key' := by
  have e1 := ctrPacketT_first s key nonce io n hn hf h
  have e2 := ctrPacketT_first s' key' nonce io' n' hn' hf' h'
  have e3 : (ctrLoadIv s nonce).reg = (ctrLoadIv s' nonce).reg := by rw [ctrLoadIv_reg, ctrLoadIv_reg]
  rw [e1, e3] at e2
  apply key_of_rkq_zero hk hk'
  generalize (ctrLoadIv s' nonce).reg = m at e2
  rw [roundT_reads, roundT_reads] at e2
  simp only [List.cons.injEq, Prod.mk.injEq, true_and, and_true] at e2
  obtain ⟨a0, b1, c2, d3, b0, c1, d2, a3, c0, d1, a2, b3, d0, a1, b2, c3⟩ := e2
  have w0 := xor_left_cancel (cut_inj a0 a1 a2 a3) rfl
  have w1 := xor_left_cancel (cut_inj b0 b1 b2 b3) rfl
  have w2 := xor_left_cancel (cut_inj c0 c1 c2 c3) rfl
  have w3 := xor_left_cancel (cut_inj d0 d1 d2 d3) rfl
  rcases hx : rkq key 0 with ⟨x0, x1, x2, x3⟩
  rcases hy : rkq key' 0 with ⟨y0, y1, y2, y3⟩
  rw [hx, hy] at w0 w1 w2 w3
  simp only at w0 w1 w2 w3
  rw [w0, w1, w2, w3]

/-- The hypotheses are met by one packet with two contents of the output buffer. -/
example : ∃ r r', ctrPacketT (ctrLoadIv (loadKey ⟨⟨0, 0, 0, 0⟩, []⟩ fipsKey) (List.replicate 12 3), [])
      ⟨List.replicate 33 1, List.replicate 33 0, false⟩ (33 : Nat) = .ok r ∧
    ctrPacketT (ctrLoadIv (loadKey ⟨⟨0, 0, 0, 0⟩, []⟩ fipsKey) (List.replicate 12 3), [])
      ⟨List.replicate 33 2, List.replicate 33 7, false⟩ (33 : Nat) = .ok r' ∧ r.1.2 = r'.1.2 :=
  ⟨_, _, ctrWith_ok _ _ (by decide) (by decide), ctrWith_ok _ _ (by decide) (by decide), rfl⟩

theorem subReads_tables (w : U32) : (subReads w).map Prod.fst = List.replicate 4 .Sbox := rfl
theorem roundT_tables (s k : Quad) : (roundT s k).reads.map Prod.fst =
    (List.replicate 4 [Table.T0, .T1, .T2, .T3]).flatten := by rw [roundT_reads]; rfl
theorem finalRoundT_tables (s k : Quad) : (finalRoundT s k).reads.map Prod.fst = List.replicate 16 .Sbox := rfl

/-- C108, what holds: how many entries are read, and of which tables, is the same for all keys and
blocks: 40 entries of `Sbox` for loading a key, 144 of `T0` to `T3` and then 16 of `Sbox` for a block.
Missing: that the entries are the same, which is false. -/
theorem aes_reads_partial (s : State) (key : List U8) (rk : List U32) (m : Quad) :
    (loadKeyT (s, []) key).2.map Prod.fst = List.replicate 40 .Sbox ∧
      (encryptT false rk m).reads.map Prod.fst =
        (List.replicate 36 [Table.T0, .T1, .T2, .T3]).flatten ++ List.replicate 16 .Sbox := by
  constructor
  · rw [loadKeyT_log, List.nil_append, keyExpansionT_reads]
    simp only [expandReads, List.map_append, subReads_tables, List.map_nil]
    rfl
  · simp only [encryptT, firstRoundsT, lastRoundsT, Tr.bind_reads, Bool.false_eq_true, if_false, List.map_append, roundT_tables,
      finalRoundT_tables]
    rfl

/-- C108 is false: the entries read depend on the key. -/
theorem aes_reads_refuted : ¬ ∀ (s : State) (key key' : List U8), key.length = 16 → key'.length = 16 →
    (loadKeyT (s, []) key).2 = (loadKeyT (s, []) key').2 := by
  intro h
  have := aes_key_setup_reads_determine_key ⟨⟨0, 0, 0, 0⟩, []⟩ ⟨⟨0, 0, 0, 0⟩, []⟩ (List.replicate 16 0) (List.replicate 16 1)
    (by simp) (by simp) (h _ _ _ (by simp) (by simp))
  exact absurd this (by decide)

/-- Non-trivial instance: packets on which the record is defined. -/
example : ∃ r, ctrPacketT (ctrLoadIv (loadKey ⟨⟨0, 0, 0, 0⟩, []⟩ fipsKey) (List.replicate 12 3), [])
    ⟨List.replicate 33 1, List.replicate 33 0, false⟩ (33 : Nat) = .ok r :=
  ⟨_, ctrWith_ok _ _ (by decide) (by decide)⟩

example : firstReads (List.replicate 16 5) (List.replicate 16 4) =
    (List.replicate 4 [(Table.T0, (1 : U8)), (.T1, 1), (.T2, 1), (.T3, 1)]).flatten := by decide

end CT.Props.AES
