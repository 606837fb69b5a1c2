import Verif.Proof.AESCtr
import Verif.Proof.AESPerm

/-!
# AES block function and counter mode (C31 - C35, C79, C80)
-/

namespace CT.Props.AES
open CT.AES

/-- Key and block of FIPS 197, appendix B. -/
def fipsKey : List U8 :=
  [0x2b, 0x7e, 0x15, 0x16, 0x28, 0xae, 0xd2, 0xa6, 0xab, 0xf7, 0x15, 0x88, 0x09, 0xcf, 0x4f, 0x3c]
def fipsBlock : List U8 :=
  [0x32, 0x43, 0xf6, 0xa8, 0x88, 0x5a, 0x30, 0x8d, 0x31, 0x31, 0x98, 0xa2, 0xe0, 0x37, 0x07, 0x34]

/-- C31: the 44 words of the key schedule are the round keys of FIPS 197, column by column. -/
theorem aes_key_expansion_fips (key : List U8) :
    (keyExpansion key).length = 44 ∧ ∀ (i : Fin 11) (r c : Fin 4),
      byteN ((keyExpansion key).getD (4 * i.val + c.val) 0) r.val = Spec.AES.roundKey key i.val r c := by
  refine ⟨by rw [keyExpansion_eq, rkqs_length], fun i r c => ?_⟩
  have h := congrFun (congrFun (rk_state key i.val (by omega)) r) c
  rw [← h]
  generalize keyExpansion key = rk
  match c with
  | 0 => rfl
  | 1 => rfl
  | 2 => rfl
  | 3 => rfl

/-- C31: block encryption is FIPS 197 AES-128. -/
theorem aes_block_fips (key block : List U8) (hb : block.length = 16) :
    (encrypt false (keyExpansion key) (quadOf block)).bytes = Spec.AES.cipher key block := by
  rw [encrypt_eq, quadOf_bytes hb]

set_option maxRecDepth 10000 in
/-- The example of FIPS 197, appendix B, which also tests the specification. -/
example : fipsBlock.length = 16 ∧ Spec.AES.cipher fipsKey fipsBlock =
    [0x39, 0x25, 0x84, 0x1d, 0x02, 0xdc, 0x09, 0xfb, 0xdc, 0x11, 0x85, 0x97, 0x19, 0x6a, 0x0b, 0x32] := by
  rw [← aes_block_fips _ _ (by decide)]
  decide +kernel

/-- C32: the three block functions agree on every state and every key schedule. -/
theorem aes_variants_agree (rk : List U32) (s : Quad) :
    encryptX86 rk s = encrypt false rk s ∧ encryptArm rk s = encrypt false rk s :=
  ⟨encryptX86_eq rk s, encryptArm_eq rk s⟩

/-- C32: and so do the three counter mode packet functions, on every state, buffers and size. -/
theorem aes_ctr_variants_agree (cs : State) (io : Io) (size : Int) :
    ctrPacketX86 cs io size = ctrPacket cs io size ∧ ctrPacketArm cs io size = ctrPacket cs io size :=
  ⟨ctrPacketX86_eq cs io size, ctrPacketArm_eq cs io size⟩

set_option maxRecDepth 10000 in
/-- The flag `ROUND_REDUCED` is not covered by C32: it changes the portable code only. -/
theorem aes_round_reduced_differs : ¬ ∀ (rk : List U32) (s : Quad), encryptX86 rk s = encrypt true rk s := by
  intro h
  have h1 := h (List.replicate 44 0) ⟨0, 0, 0, 0⟩
  rw [encryptX86_eq] at h1
  exact absurd (congrArg Quad.w0 h1) (by decide +kernel)

/-! ### C33 -/

/-- A packet on a state with the given counter value. -/
theorem ctr_packet (key nonce : List U8) (c : Nat) (io : Io) (n : Nat) (hf : io.Fits n) (h4 : n % 4 ≤ 1) :
    ctrPacket (ctrSt (keyExpansion key) nonce c) io n =
      .ok (ctrSt (keyExpansion key) nonce (c + (n + 15) / 16),
        io.xored (ctrKs pblk (ctrSt (keyExpansion key) nonce c) n)) := by
  rw [ctrPacket, ctrWith_ok _ _ h4 hf, ctrNext, blkState_ctr]

theorem ctrKs_aligned (key : List U8) {nonce : List U8} (hn : nonce.length = 12) (c n : Nat) (h4 : n % 4 = 0) :
    ctrKs pblk (ctrSt (keyExpansion key) nonce c) n =
      (Spec.AES.ctrStream key nonce c ((n + 15) / 16)).take n := by
  rw [ctrKs_spec key hn, if_pos h4, List.append_nil, show 4 * (n / 4) = n by omega]

/-- C33, the part that holds: from a freshly loaded key and nonce, a sequence of packets whose sizes
are multiples of four is encrypted in counter mode with counter values starting at 1, every packet
starting with a new counter block.  Missing from the full statement: other sizes. -/
theorem aes_ctr_sp800_38a_partial (cs : State) (key nonce : List U8) (hn : nonce.length = 12)
    (ps : List (List U8)) (h4 : ∀ p ∈ ps, p.length % 4 = 0) :
    ∃ cs', runAll (fun s io n => ctrPacket s io n) (ctrLoadIv (loadKey cs key) nonce) ps =
      .ok (cs', Spec.AES.ctrMany key nonce 1 ps) := by
  rw [ctrLoadIv_eq]
  suffices h : ∀ (ps : List (List U8)) (c : Nat), (∀ p ∈ ps, p.length % 4 = 0) →
      ∃ cs', runAll (fun s io n => ctrPacket s io n) (ctrSt (keyExpansion key) nonce c) ps =
        .ok (cs', Spec.AES.ctrMany key nonce c ps) from h ps 1 h4
  intro ps
  induction ps with
  | nil => intro c _; exact ⟨_, rfl⟩
  | cons p ps ih =>
    intro c h
    have hp := h p (by simp)
    obtain ⟨cs', h1⟩ := ih (c + (p.length + 15) / 16) (fun q hq => h q (by simp [hq]))
    refine ⟨cs', ?_⟩
    rw [runAll, ctr_packet _ _ _ _ _ ⟨by simp [Io.src], by simp⟩ (by omega), ctrKs_aligned key hn _ _ hp]
    simp only [Res.ok_bind, h1, Res.pure_eq, Spec.AES.ctrMany, Spec.AES.ctr, Res.ok_inj, Prod.mk.injEq, true_and,
      List.cons.injEq, and_true]
    have hl : ((Spec.AES.ctrStream key nonce c ((p.length + 15) / 16)).take p.length).length = p.length := by
      rw [List.length_take, ctrStream_length]; omega
    simp only [Io.xored, hl, Io.src, Bool.false_eq_true, if_false, List.take_length, List.drop_replicate, Nat.sub_self,
      List.replicate_zero, List.append_nil, xorBytes_take_right]

/-- Non-trivial instance: two packets, the first ending inside a block. -/
example : ∃ (nonce : List U8) (ps : List (List U8)), nonce.length = 12 ∧ (∀ p ∈ ps, p.length % 4 = 0) ∧
    ps.map List.length = [20, 32] :=
  ⟨List.replicate 12 7, [List.replicate 20 1, List.replicate 32 2], by decide, by decide, by decide⟩

/-- C33, exactly: one packet is what the standard says if and only if its size is a multiple of four,
or it is one more than a multiple of four and the keystream happens to repeat a byte three positions
later. -/
theorem aes_ctr_sp800_38a_iff (cs : State) (key nonce : List U8) (hn : nonce.length = 12) (msg : List U8) :
    (∃ cs', ctrPacket (ctrLoadIv (loadKey cs key) nonce) ⟨msg, msg, false⟩ msg.length =
        .ok (cs', ⟨msg, Spec.AES.ctr key nonce 1 msg, false⟩)) ↔
      (msg.length % 4 = 0 ∨ (msg.length % 4 = 1 ∧
        (Spec.AES.ctrStream key nonce 1 ((msg.length + 15) / 16)).getD (msg.length - 1) 0 =
        (Spec.AES.ctrStream key nonce 1 ((msg.length + 15) / 16)).getD (msg.length + 2) 0)) := by
  have hf : (⟨msg, msg, false⟩ : Io).Fits msg.length := ⟨by simp [Io.src], by simp⟩
  rw [ctrLoadIv_eq]
  by_cases h2 : 2 ≤ msg.length % 4
  · rw [ctrPacket, ctrWith_ub _ _ h2 hf]
    constructor
    · rintro ⟨_, h⟩; cases h
    · intro h; omega
  · rw [ctr_packet _ _ _ _ _ hf (by omega)]
    have hst : (Spec.AES.ctrStream key nonce 1 ((msg.length + 15) / 16)).length = 16 * ((msg.length + 15) / 16) :=
      ctrStream_length ..
    have hl := ctrKs_length pblk (ctrSt (keyExpansion key) nonce 1) msg.length (by omega)
    rw [ctrKs_spec key hn] at hl ⊢
    rw [Spec.AES.ctr]
    generalize Spec.AES.ctrStream key nonce 1 ((msg.length + 15) / 16) = st at hst hl ⊢
    simp only [Io.xored, hl, Res.ok_inj, Prod.mk.injEq, Io.mk.injEq, Io.src, Bool.false_eq_true, if_false, true_and,
      List.take_length, List.drop_length, List.append_nil, and_true, exists_eq_left']
    by_cases h0 : msg.length % 4 = 0
    · simp only [h0, if_true, List.append_nil, true_or, iff_true]
      rw [show 4 * (msg.length / 4) = msg.length by omega, xorBytes_take_right]
    · have h1 : msg.length % 4 = 1 := by omega
      simp only [h1, show (1 : Nat) ≠ 0 by omega, if_false, false_or, true_and]
      have e1 : 4 * (msg.length / 4) = msg.length - 1 := by omega
      have e2 : msg.length - 1 + 3 = msg.length + 2 := by omega
      rw [e1, e2]
      have hm : msg = msg.take (msg.length - 1) ++ [msg.getD (msg.length - 1) 0] := by
        conv => lhs; rw [← List.take_append_drop (msg.length - 1) msg]
        congr 1
        rw [List.drop_eq_getElem_cons (by omega), List.getD_eq_getElem?_getD, List.getElem?_eq_getElem (by omega)]
        rw [List.drop_of_length_le (by omega)]; rfl
      have hs : st.take msg.length = st.take (msg.length - 1) ++ [st.getD (msg.length - 1) 0] := by
        have hlt : msg.length - 1 < st.length := by omega
        conv => lhs; rw [show msg.length = msg.length - 1 + 1 by omega]
        rw [List.take_add_one, List.getD_eq_getElem?_getD, List.getElem?_eq_getElem hlt]; rfl
      rw [← xorBytes_take_right msg st, hs]
      generalize hn' : msg.length - 1 = m at hm
      rw [hm, xorBytes_append (by simp; omega), xorBytes_append (by simp; omega)]
      simp only [List.append_cancel_left_eq, xorBytes_cons, xorBytes_nil_left, List.cons.injEq, and_true]
      generalize msg.getD m 0 = x
      generalize st.getD m 0 = y
      generalize st.getD (msg.length + 2) 0 = z
      constructor
      · intro h
        have := congrArg (x ^^^ ·) h
        simp only [← BitVec.xor_assoc, BitVec.xor_self, BitVec.zero_xor] at this
        exact this.symm
      · intro h; rw [h]

set_option maxRecDepth 10000 in
/-- C33 is false in general: a one-byte packet under the zero key. -/
theorem aes_ctr_sp800_38a_refuted : ¬ ∀ (cs : State) (key nonce msg : List U8), key.length = 16 → nonce.length = 12 →
    ∃ cs', ctrPacket (ctrLoadIv (loadKey cs key) nonce) ⟨msg, msg, false⟩ msg.length =
        .ok (cs', ⟨msg, Spec.AES.ctr key nonce 1 msg, false⟩) := by
  intro h
  have h1 := h ⟨⟨0, 0, 0, 0⟩, []⟩ (List.replicate 16 0) (List.replicate 12 0) [0] (by decide) (by decide)
  rw [aes_ctr_sp800_38a_iff _ _ _ (by decide)] at h1
  have hs : Spec.AES.ctrStream (List.replicate 16 0) (List.replicate 12 0) 1 1 =
      blkBytes pblk 1 (ctrSt (keyExpansion (List.replicate 16 0)) (List.replicate 12 0) 1) :=
    (blkBytes_ctr _ (by decide) _ _).symm
  rcases h1 with h1 | ⟨_, h1⟩
  · exact absurd h1 (by decide)
  · have e : ([0] : List U8).length = 1 := rfl
    simp only [e, show (1 + 15) / 16 = 1 by decide, hs] at h1
    exact absurd h1 (by decide +kernel)

/-! ### C34 -/

/-- C34, the part that holds: a receiver that replays the sender's nonce loads and processes the
received packets recovers every packet and ends in the sender's state, for packets of sizes 0 and 1
modulo 4.  Missing from the full statement: the other sizes, which are undefined behaviour
(`aes_ctr_ub_iff`). -/
theorem aes_ctr_lockstep_partial (cs : State) (cmds : List Cmd) (h : ∀ c ∈ cmds, c.sizesOk fun n => n % 4 ≤ 1) :
    ∃ cs' outs, runCmds (fun s io n => ctrPacket s io n) ctrLoadIv cs cmds = .ok (cs', outs) ∧
      outs.map Cmd.shape = cmds.map Cmd.shape ∧
      runCmds (fun s io n => ctrPacket s io n) ctrLoadIv cs outs = .ok (cs', cmds) :=
  (isStream pblk).runCmds_round_trip (ld := ctrLoadIv) (fun _ _ _ => trivial) cmds cs trivial h

/-- Non-trivial instance. -/
example : ∀ c ∈ [Cmd.load (List.replicate 12 1), .packet (List.replicate 33 2), .packet [], .packet [5, 6, 7, 8],
    .load (List.replicate 12 9), .packet (List.replicate 48 2)], c.sizesOk fun n => n % 4 ≤ 1 := by
  intro c hc
  simp only [List.mem_cons, List.not_mem_nil, or_false] at hc
  rcases hc with rfl | rfl | rfl | rfl | rfl | rfl <;> simp [Cmd.sizesOk]

/-- C34: with room in both buffers a packet is undefined behaviour exactly when two or three bytes
are left after the last whole word. -/
theorem aes_ctr_ub_iff (cs : State) (io : Io) (n : Nat) (hf : io.Fits n) :
    (ctrPacket cs io n).isUB = true ↔ 2 ≤ n % 4 := by
  by_cases h : n % 4 ≤ 1
  · rw [ctrPacket, ctrWith_ok _ _ h hf]; simp; omega
  · rw [ctrPacket, ctrWith_ub _ _ (by omega) hf]; simp; omega

example := aes_ctr_ub_iff ⟨⟨1, 2, 3, 4⟩, keyExpansion (List.replicate 16 7)⟩ ⟨List.replicate 34 1, List.replicate 40 0, false⟩ 34 (by decide)

/-- C34 is false in general: the packet "hi" is undefined behaviour under every key and nonce. -/
theorem aes_ctr_lockstep_refuted : ¬ ∀ (cs : State) (ps : List (List U8)),
    ∃ cs' outs, runAll (fun s io n => ctrPacket s io n) cs ps = .ok (cs', outs) := by
  intro h
  obtain ⟨_, _, h1⟩ := h ⟨⟨0, 0, 0, 0⟩, []⟩ [[0x68, 0x69]]
  rw [runAll] at h1
  obtain ⟨r, h2, _⟩ := Res.bind_eq_ok h1
  have := (aes_ctr_ub_iff ⟨⟨0, 0, 0, 0⟩, []⟩ ⟨[0x68, 0x69], List.replicate 2 0, false⟩ 2 (by decide)).mpr (by decide)
  have h3 : ctrPacket ⟨⟨0, 0, 0, 0⟩, []⟩ ⟨[0x68, 0x69], List.replicate 2 0, false⟩ (2 : Nat) = .ok r := h2
  rw [h3] at this
  cases this

/-! ### C35 -/

/-- The packet function with a record of the registers at every call of `aes_encrypt`. -/
def ctrTraced (s : State × List Quad) (io : Io) (n : Nat) : Res ((State × List Quad) × Io) :=
  ctrWith (tracedBlk (encrypt false)) s io n

/-- The record changes nothing else. -/
theorem ctrTraced_erase (s : State × List Quad) (io : Io) (n : Nat) (hf : io.Fits n) :
    (do let r ← ctrTraced s io n; return (r.1.1, r.2) : Res _) = ctrPacket s.1 io n :=
  ctrWith_traced _ s hf

example := ctrTraced_erase (⟨⟨1, 2, 3, 4⟩, keyExpansion (List.replicate 16 7)⟩, []) ⟨List.replicate 33 1, List.replicate 40 0, true⟩ 33 (by decide)

/-- Number of cipher blocks used for a sequence of packets. -/
def blocksOf (ps : List (List U8)) : Nat := (ps.map fun p => (p.length + 15) / 16).sum

theorem runAll_traced (rk : List U32) (nonce : List U8) (ps : List (List U8)) :
    ∀ (c : Nat) (log : List Quad) (s' : State × List Quad) (outs : List (List U8)),
      runAll ctrTraced (ctrSt rk nonce c, log) ps = .ok (s', outs) →
      s' = (ctrSt rk nonce (c + blocksOf ps), log ++ (List.range (blocksOf ps)).map fun i => ctrReg nonce (c + i)) := by
  induction ps with
  | nil =>
    intro c log s' outs h
    simp only [runAll, Res.ok_inj, Prod.mk.injEq] at h
    simp [← h.1, blocksOf]
  | cons p ps ih =>
    intro c log s' outs h
    rw [runAll] at h
    obtain ⟨r, h1, h2⟩ := Res.bind_eq_ok h
    obtain ⟨q, h3, h4⟩ := Res.bind_eq_ok h2
    have hf : (⟨p, List.replicate p.length 0, false⟩ : Io).Fits p.length := ⟨by simp [Io.src], by simp⟩
    have hr : r.1 = (ctrSt rk nonce (c + (p.length + 15) / 16),
        log ++ (List.range ((p.length + 15) / 16)).map fun i => ctrReg nonce (c + i)) := by
      rw [ctrTraced] at h1
      by_cases h5 : p.length % 4 ≤ 1
      · rw [ctrWith_ok _ _ h5 hf] at h1
        cases h1
        rw [ctrNext, blkState_traced]
      · rw [ctrWith_ub _ _ (by omega) hf] at h1; cases h1
    rw [hr] at h3
    have h6 := ih _ _ _ _ h3
    have h7 : s' = q.1 := by cases h4; rfl
    rw [h7, h6]
    have e : blocksOf (p :: ps) = (p.length + 15) / 16 + blocksOf ps := by simp [blocksOf]
    rw [e, List.range_add, List.map_append, List.map_map, ← List.append_assoc, ← Nat.add_assoc]
    congr 2
    apply List.map_congr_left
    intro i _
    simp only [Function.comp, Nat.add_assoc]

/-- C35: across any sequence of packets under one nonce load that needs at most 2^32 blocks in total,
the blocks given to the block cipher are `nonce || 1`, `nonce || 2`, ..., without repetition. -/
theorem aes_ctr_blocks_distinct (cs : State) (key nonce : List U8) (hn : nonce.length = 12) (ps : List (List U8))
    (hb : blocksOf ps ≤ 2 ^ 32) (s' : State × List Quad) (outs : List (List U8))
    (h : runAll ctrTraced (ctrLoadIv (loadKey cs key) nonce, []) ps = .ok (s', outs)) :
    s'.2.map Quad.bytes = (List.range (blocksOf ps)).map (fun i => nonce ++ Spec.AES.ctrField (1 + i)) ∧
      (s'.2.map Quad.bytes).Nodup := by
  rw [ctrLoadIv_eq] at h
  have h1 := runAll_traced _ _ _ _ _ _ _ h
  rw [h1]
  simp only [List.nil_append, List.map_map]
  have e : (Quad.bytes ∘ fun i => ctrReg nonce (1 + i)) = fun i => nonce ++ Spec.AES.ctrField (1 + i) := by
    funext i; exact ctrReg_bytes hn _
  refine ⟨by rw [e], ?_⟩
  rw [List.nodup_iff_pairwise_ne, List.pairwise_map]
  apply List.Pairwise.imp_of_mem (R := fun a b : Nat => a ≠ b) _ (List.nodup_iff_pairwise_ne.mp List.nodup_range)
  intro a b ha hb' hab heq
  have := ctrReg_inj (bytes_inj heq)
  rw [List.mem_range] at ha hb'
  omega

/-- Non-trivial instance: the hypotheses hold for two packets that need four blocks. -/
example : ∃ s' outs, runAll ctrTraced (ctrLoadIv (loadKey ⟨⟨0, 0, 0, 0⟩, []⟩ fipsKey) (List.replicate 12 3), [])
      [List.replicate 33 1, List.replicate 16 2] = .ok (s', outs) ∧
    blocksOf [List.replicate 33 (1 : U8), List.replicate 16 2] = 4 := by
  obtain ⟨s', cs, h, _⟩ := (isStream (tracedBlk (encrypt false))).runAll_round_trip
    [List.replicate 33 1, List.replicate 16 2] (ctrLoadIv (loadKey ⟨⟨0, 0, 0, 0⟩, []⟩ fipsKey) (List.replicate 12 3), [])
    trivial (by decide)
  exact ⟨s', cs, h, by decide⟩

/-- The bound is sharp: after 2^32 blocks the cipher is back in its first state. -/
theorem aes_ctr_period (cs : State) (key nonce : List U8) :
    blkState (ctrBlk (encrypt false)) (2 ^ 32) (ctrLoadIv (loadKey cs key) nonce) = ctrLoadIv (loadKey cs key) nonce := by
  rw [ctrLoadIv_eq, blkState_ctr, ctrSt, ctrReg_period]; rfl

/-- C35: packets of whole blocks continue the stream: their outputs put together are the counter mode
encryption of the packets put together. -/
theorem aes_ctr_continuation (cs : State) (key nonce : List U8) (hn : nonce.length = 12) (ps : List (List U8))
    (h16 : ∀ p ∈ ps, p.length % 16 = 0) :
    ∃ cs' outs, runAll (fun s io n => ctrPacket s io n) (ctrLoadIv (loadKey cs key) nonce) ps = .ok (cs', outs) ∧
      outs.flatten = Spec.AES.ctr key nonce 1 ps.flatten := by
  obtain ⟨cs', h⟩ := aes_ctr_sp800_38a_partial cs key nonce hn ps (fun p hp => by have := h16 p hp; omega)
  refine ⟨cs', _, h, ?_⟩
  clear h
  suffices hs : ∀ (ps : List (List U8)) (c : Nat), (∀ p ∈ ps, p.length % 16 = 0) →
      (Spec.AES.ctrMany key nonce c ps).flatten = Spec.AES.ctr key nonce c ps.flatten from hs ps 1 h16
  intro ps
  induction ps with
  | nil => intro c _; rfl
  | cons p ps ih =>
    intro c h
    have hp := h p (by simp)
    have h1 := ih (c + (p.length + 15) / 16) (fun q hq => h q (by simp [hq]))
    rw [Spec.AES.ctrMany, List.flatten_cons, h1, List.flatten_cons, Spec.AES.ctr, Spec.AES.ctr, Spec.AES.ctr,
      List.length_append, show (p.length + ps.flatten.length + 15) / 16 = (p.length + 15) / 16 + (ps.flatten.length + 15) / 16 by omega,
      ctrStream_add, xorBytes_append (by rw [ctrStream_length]; omega)]

/-- Non-trivial instance. -/
example : ∀ p ∈ [List.replicate 16 (1 : U8), [], List.replicate 48 2], p.length % 16 = 0 := by decide

/-! ### C79, C80 -/

/-- C79.  Under every key schedule, expanded from a key or not, each of the block functions - portable,
portable with `ROUND_REDUCED`, AES-NI, ARM - maps different blocks to different blocks, and every block
is the encryption of one. -/
theorem aes_block_permutation (f : List U32 → Quad → Quad)
    (hf : f ∈ [encrypt false, encrypt true, encryptX86, encryptArm]) (rk : List U32) :
    (∀ s t, f rk s = f rk t → s = t) ∧ ∀ t, ∃ s, f rk s = t := by
  obtain ⟨b, hb⟩ : ∃ b, ∀ s, f rk s = encrypt b rk s := by
    simp only [List.mem_cons, List.not_mem_nil, or_false] at hf
    rcases hf with rfl | rfl | rfl | rfl
    · exact ⟨false, fun _ => rfl⟩
    · exact ⟨true, fun _ => rfl⟩
    · exact ⟨false, encryptX86_eq rk⟩
    · exact ⟨false, encryptArm_eq rk⟩
  exact ⟨fun s t h => encrypt_inj b rk (by rw [← hb, ← hb, h]), fun t =>
    (encrypt_surj b rk t).imp fun s h => by rw [hb, h]⟩

/-- Instance: AES-NI with the key schedule of a key. -/
example : encryptX86 ∈ [encrypt false, encrypt true, encryptX86, encryptArm] ∧
    (⟨1, 2, 3, 4⟩ : Quad) ≠ ⟨1, 2, 3, 5⟩ := ⟨by simp, by decide⟩

/-- C80.  Up to `2^32` blocks after loading key and nonce, no two blocks of the keystream are equal:
two different blocks of plaintext xor ciphertext, in one packet or in two, differ. -/
theorem aes_ctr_keystream_blocks_distinct (cs : State) (key nonce : List U8) (hn : nonce.length = 12)
    (ps : List (List U8)) (h16 : ∀ p ∈ ps, p.length % 16 = 0) (hb : ps.flatten.length ≤ 16 * 2 ^ 32) :
    ∃ cs' outs, runAll (fun s io n => ctrPacket s io n) (ctrLoadIv (loadKey cs key) nonce) ps = .ok (cs', outs) ∧
      ∀ i j, i < j → 16 * (j + 1) ≤ ps.flatten.length →
        ((xorBytes ps.flatten outs.flatten).drop (16 * i)).take 16 ≠
          ((xorBytes ps.flatten outs.flatten).drop (16 * j)).take 16 := by
  obtain ⟨cs', h⟩ := aes_ctr_sp800_38a_partial cs key nonce hn ps (fun p hp => by have := h16 p hp; omega)
  refine ⟨cs', _, h, fun i j hij hj => ?_⟩
  have hl : ps.flatten.length % 16 = 0 := by
    clear hb h hj
    induction ps with
    | nil => rfl
    | cons q ps ih =>
      have h1 := h16 q (by simp)
      have h2 := ih (fun x hx => h16 x (by simp [hx]))
      simp only [List.flatten_cons, List.length_append]
      omega
  rw [ctrMany_flatten key nonce ps 1 h16, xorBytes_comm ps.flatten, xorBytes_comm ps.flatten,
    xorBytes_xorBytes _ _ (by rw [ctrStream_length]; omega), ctrStream_block _ _ _ _ _ (by omega),
    ctrStream_block _ _ _ _ _ (by omega)]
  intro e
  have := ctrBlock_inj hn e
  omega

/-- Instance of the hypotheses of C80: two packets, three blocks. -/
example : (List.replicate 12 (7 : U8)).length = 12 ∧
    (∀ p ∈ [List.replicate 16 (1 : U8), List.replicate 32 2], p.length % 16 = 0) ∧
    [List.replicate 16 (1 : U8), List.replicate 32 2].flatten.length ≤ 16 * 2 ^ 32 := by decide

end CT.Props.AES
