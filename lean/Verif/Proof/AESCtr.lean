import Verif.Proof.AES
import Verif.Basic.Lockstep

/-!
# AES counter mode packets
-/

namespace CT.AES

/-! ### The counter word -/

theorem swap_bits (x m0 m1 m2 m3 : U32) (i : Nat) (hi : i < 32)
    (h0 : m0.getLsbD i = decide (i < 8)) (h1 : m1.getLsbD i = (decide (8 ≤ i) && decide (i < 16)))
    (h2 : m2.getLsbD i = (decide (16 ≤ i) && decide (i < 24))) (h3 : m3.getLsbD i = decide (24 ≤ i)) :
    (((x >>> 24) &&& m0) ||| ((x >>> 8) &&& m1) ||| ((x <<< 8) &&& m2) ||| ((x <<< 24) &&& m3)).getLsbD i =
      x.getLsbD (24 - 8 * (i / 8) + i % 8) := by
  simp only [BitVec.getLsbD_or, BitVec.getLsbD_and, BitVec.getLsbD_ushiftRight, BitVec.getLsbD_shiftLeft, h0, h1, h2, h3]
  by_cases c1 : i < 8
  · have e : 24 - 8 * (i / 8) + i % 8 = 24 + i := by omega
    simp [e, c1, show ¬ 8 ≤ i by omega, show ¬ 16 ≤ i by omega, show ¬ 24 ≤ i by omega]
  · by_cases c2 : i < 16
    · have e : 24 - 8 * (i / 8) + i % 8 = 8 + i := by omega
      simp [e, c1, c2, show 8 ≤ i by omega, show ¬ 16 ≤ i by omega, show ¬ 24 ≤ i by omega]
    · by_cases c3 : i < 24
      · have e : 24 - 8 * (i / 8) + i % 8 = i - 8 := by omega
        simp [e, c1, c2, c3, hi, show 16 ≤ i by omega, show ¬ 24 ≤ i by omega]
      · have e : 24 - 8 * (i / 8) + i % 8 = i - 24 := by omega
        simp [e, c1, c2, c3, hi, show 24 ≤ i by omega]

theorem swap32_getLsbD (x : U32) (i : Nat) (hi : i < 32) :
    (swap32 x).getLsbD i = x.getLsbD (24 - 8 * (i / 8) + i % 8) := by
  have h : ∀ k : Fin 32, (0x000000ff : U32).getLsbD k = decide (k.val < 8) ∧
      (0x0000ff00 : U32).getLsbD k = (decide (8 ≤ k.val) && decide (k.val < 16)) ∧
      (0x00ff0000 : U32).getLsbD k = (decide (16 ≤ k.val) && decide (k.val < 24)) ∧
      (0xff000000 : U32).getLsbD k = decide (24 ≤ k.val) := by decide
  obtain ⟨h0, h1, h2, h3⟩ := h ⟨i, hi⟩
  exact swap_bits x _ _ _ _ i hi h0 h1 h2 h3

theorem swap32_le32 (a b c d : U8) : swap32 (le32 a b c d) = le32 d c b a := by
  apply BitVec.eq_of_getLsbD_eq
  intro i hi
  rw [swap32_getLsbD _ _ hi, le32_getLsbD, le32_getLsbD]
  repeat' split
  all_goals first | omega | (congr 1; omega)

theorem swap32_swap32 (x : U32) : swap32 (swap32 x) = x := by
  conv => lhs; rw [← le32_byteN x]
  rw [swap32_le32, swap32_le32, le32_byteN]

theorem bytesLE32_swap32 (x : U32) : bytesLE32 (swap32 x) = bytesBE32 x := by
  conv => lhs; rw [← le32_byteN x]
  rw [swap32_le32, bytesLE32_le32]; rfl

/-- The registers holding nonce and counter value `n`. -/
def ctrReg (nonce : List U8) (n : Nat) : Quad :=
  let q := quadOf nonce
  ⟨q.w0, q.w1, q.w2, swap32 (BitVec.ofNat 32 n)⟩

/-- State with nonce and counter value `n`. -/
def ctrSt (rk : List U32) (nonce : List U8) (n : Nat) : State := ⟨ctrReg nonce n, rk⟩

theorem ctrLoadIv_eq (cs : State) (key nonce : List U8) :
    ctrLoadIv (loadKey cs key) nonce = ctrSt (keyExpansion key) nonce 1 := by
  have : swap32 (BitVec.ofNat 32 1) = le32 0x00 0x00 0x00 0x01 := by decide
  simp only [ctrLoadIv, loadKey, ctrSt, ctrReg, this]

theorem stateUpdate_eq (rk : List U32) (nonce : List U8) (n : Nat) :
    stateUpdate (ctrSt rk nonce n) = ctrSt rk nonce (n + 1) := by
  simp only [stateUpdate, ctrSt, ctrReg, swap32_swap32, BitVec.ofNat_add]
  rfl

theorem ctrReg_bytes {nonce : List U8} (h : nonce.length = 12) (n : Nat) :
    (ctrReg nonce n).bytes = nonce ++ Spec.AES.ctrField n := by
  have e : (ctrReg nonce n).bytes =
      (bytesLE32 (quadOf nonce).w0 ++ (bytesLE32 (quadOf nonce).w1 ++ (bytesLE32 (quadOf nonce).w2 ++
        (bytesLE32 (swap32 (BitVec.ofNat 32 n)) ++ [])))) := rfl
  rw [e, bytesLE32_swap32]
  match nonce, h with
  | [_, _, _, _, _, _, _, _, _, _, _, _], _ =>
    simp [quadOf, bytesLE32_le32, Spec.AES.ctrField]

/-! ### The packet function -/

/-- Keystream bytes of a partial block: the bytes of the words that are used whole, and the last
byte of the word that is used for a single byte. -/
def tailKs (ws : List U32) (n : Nat) : List U8 :=
  (wordsToBytesLE ws).take (4 * (n / 4)) ++ (if n % 4 = 0 then [] else [byteN (ws.getD (n / 4) 0) 3])

theorem tail_ok (ws : List U32) {io : Io} (n off : Nat) (pre : List U8) (hp : pre.length = off)
    (hn : n < 16) (h4 : n % 4 ≤ 1) (hk : ws.length = 4) (hf : io.Fits (off + n)) :
    tailLoops ws n off (io.xored pre) = .ok (io.xored (pre ++ tailKs ws n)) := by
  rw [tailLoops, Io.wordLoop_xored ws 16 n 0 off pre hp hn (by omega) hf]
  simp only [Res.ok_bind, Nat.mul_zero, List.drop_zero, Nat.zero_add]
  have hl : (pre ++ (wordsToBytesLE ws).take (4 * (n / 4))).length = off + 4 * (n / 4) := by
    simp only [List.length_append, List.length_take, wordsToBytesLE_length, hp]; omega
  by_cases h0 : n % 4 = 0
  · rw [if_neg (by omega)]
    simp [tailKs, h0]
  · rw [if_pos (by omega)]
    have h1 : n % 4 = 1 := by omega
    have hlt : n / 4 < ws.length := by omega
    simp only [ksGet, List.getElem?_eq_getElem hlt, Res.ok_bind, h1, tailBytes]
    rw [if_neg (by omega), Io.xor8_xored hl (hf.mono (by omega))]
    simp only [Res.ok_bind, Nat.mul_zero, Nat.add_zero, cut24, tailKs, h1]
    rw [if_neg (by omega), List.append_assoc, List.getD_eq_getElem?_getD, List.getElem?_eq_getElem hlt]
    rfl

theorem tail_ub (ws : List U32) {io : Io} (n off : Nat) (pre : List U8) (hp : pre.length = off)
    (hn : n < 16) (h4 : 2 ≤ n % 4) (hk : ws.length = 4) (hf : io.Fits (off + n)) :
    tailLoops ws n off (io.xored pre) = .ub .badShift := by
  rw [tailLoops, Io.wordLoop_xored ws 16 n 0 off pre hp hn (by omega) hf]
  simp only [Res.ok_bind, Nat.mul_zero, List.drop_zero, Nat.zero_add]
  have hl : (pre ++ (wordsToBytesLE ws).take (4 * (n / 4))).length = off + 4 * (n / 4) := by
    simp only [List.length_append, List.length_take, wordsToBytesLE_length, hp]; omega
  rw [if_pos (by omega)]
  have hlt : n / 4 < ws.length := by omega
  obtain ⟨m, hm⟩ : ∃ m, n % 4 = m + 2 := ⟨n % 4 - 2, by omega⟩
  simp only [ksGet, List.getElem?_eq_getElem hlt, Res.ok_bind, hm, tailBytes]
  rw [if_neg (by omega), Io.xor8_xored hl (hf.mono (by omega))]
  simp only [Res.ok_bind]
  rfl

theorem tailKs_length (ws : List U32) (n : Nat) (hn : n < 16) (h4 : n % 4 ≤ 1) (hk : ws.length = 4) :
    (tailKs ws n).length = n := by
  rw [tailKs, List.length_append, List.length_take, wordsToBytesLE_length]
  split <;> simp <;> omega

/-- Keystream of a packet. -/
def ctrKs {σ : Type} (blk : σ → σ × Quad) (cs : σ) (n : Nat) : List U8 :=
  blkBytes blk (n / 16) cs ++ if n % 16 > 0 then tailKs (blk (blkState blk (n / 16) cs)).2.toList (n % 16) else []

/-- State after a packet. -/
def ctrNext {σ : Type} (blk : σ → σ × Quad) (cs : σ) (n : Nat) : σ := blkState blk ((n + 15) / 16) cs

theorem ctrKs_length {σ : Type} (blk : σ → σ × Quad) (cs : σ) (n : Nat) (h4 : n % 4 ≤ 1) :
    (ctrKs blk cs n).length = n := by
  rw [ctrKs, List.length_append, blkBytes_length]
  split
  · rw [tailKs_length _ _ (by omega) (by omega) rfl]; omega
  · simp; omega

theorem ctrWith_ok {σ : Type} (blk : σ → σ × Quad) (cs : σ) {io : Io} {n : Nat} (h4 : n % 4 ≤ 1) (hf : io.Fits n) :
    ctrWith blk cs io n = .ok (ctrNext blk cs n, io.xored (ctrKs blk cs n)) := by
  have hb := Io.blockLoop_xored blk (io := io) (n + 1) n 0 cs [] rfl (by omega) (hf.mono (by omega))
  rw [Io.xored_nil] at hb
  simp only [ctrWith, Int.toNat_natCast, hb, Res.ok_bind, List.nil_append, Nat.zero_add]
  by_cases h0 : n % 16 > 0
  · rw [if_pos h0]
    have ht := tail_ok (blk (blkState blk (n / 16) cs)).2.toList (io := io) (n % 16) (16 * (n / 16))
      (blkBytes blk (n / 16) cs) (blkBytes_length ..) (by omega) (by omega) rfl (hf.mono (by omega))
    have e : (n + 15) / 16 = n / 16 + 1 := by omega
    rw [ht]
    simp only [Res.ok_bind, Res.pure_eq, ctrKs, if_pos h0, ctrNext, e, blkState_succ]
  · rw [if_neg h0]
    have e : (n + 15) / 16 = n / 16 := by omega
    simp only [ctrKs, if_neg h0, ctrNext, e, List.append_nil, Res.pure_eq]

theorem ctrWith_ub {σ : Type} (blk : σ → σ × Quad) (cs : σ) {io : Io} {n : Nat} (h4 : 2 ≤ n % 4) (hf : io.Fits n) :
    ctrWith blk cs io n = .ub .badShift := by
  have hb := Io.blockLoop_xored blk (io := io) (n + 1) n 0 cs [] rfl (by omega) (hf.mono (by omega))
  rw [Io.xored_nil] at hb
  simp only [ctrWith, Int.toNat_natCast, hb, Res.ok_bind, List.nil_append, Nat.zero_add]
  rw [if_pos (by omega), tail_ub (blk (blkState blk (n / 16) cs)).2.toList (io := io) (n % 16) (16 * (n / 16))
      (blkBytes blk (n / 16) cs) (blkBytes_length ..) (by omega) (by omega) rfl (hf.mono (by omega))]
  rfl

/-- Negative sizes are empty packets. -/
theorem ctrWith_nonpos {σ : Type} (blk : σ → σ × Quad) (cs : σ) (io : Io) {n : Int} (h : n ≤ 0) :
    ctrWith blk cs io n = .ok (cs, io) := by
  have e : n.toNat = 0 := by omega
  simp only [ctrWith, e]
  rfl

theorem isStream {σ : Type} (blk : σ → σ × Quad) :
    IsStream (fun s io n => ctrWith blk s io n) (fun _ => True) (fun n => n % 4 ≤ 1) (ctrKs blk) (ctrNext blk) :=
  fun s n _ h => ⟨trivial, ctrKs_length blk s n h, fun _ hf => ctrWith_ok blk s h hf⟩

/-! ### Against the specification -/

/-- Block function of the portable code. -/
abbrev pblk := ctrBlk (encrypt false)

theorem blkState_ctr (enc : List U32 → Quad → Quad) (rk : List U32) (nonce : List U8) (c m : Nat) :
    blkState (ctrBlk enc) m (ctrSt rk nonce c) = ctrSt rk nonce (c + m) := by
  induction m generalizing c with
  | zero => rfl
  | succ m ih =>
    rw [blkState, ctrBlk, stateUpdate_eq, ih]
    congr 1; omega

theorem blkBytes_ctr (key : List U8) {nonce : List U8} (hn : nonce.length = 12) (c m : Nat) :
    blkBytes pblk m (ctrSt (keyExpansion key) nonce c) = Spec.AES.ctrStream key nonce c m := by
  induction m generalizing c with
  | zero => rfl
  | succ m ih =>
    rw [blkBytes, Spec.AES.ctrStream]
    have h1 : (pblk (ctrSt (keyExpansion key) nonce c)).1 = ctrSt (keyExpansion key) nonce (c + 1) :=
      stateUpdate_eq ..
    have h2 : (pblk (ctrSt (keyExpansion key) nonce c)).2.bytes = Spec.AES.cipher key (nonce ++ Spec.AES.ctrField c) := by
      have : (pblk (ctrSt (keyExpansion key) nonce c)).2 = encrypt false (keyExpansion key) (ctrReg nonce c) := rfl
      rw [this, encrypt_eq, ctrReg_bytes hn]
    rw [h1, h2, ih]

theorem ctrStream_length (key nonce : List U8) (c m : Nat) :
    (Spec.AES.ctrStream key nonce c m).length = 16 * m := by
  induction m generalizing c with
  | zero => rfl
  | succ m ih =>
    rw [Spec.AES.ctrStream, List.length_append, ih]
    have : (Spec.AES.cipher key (nonce ++ Spec.AES.ctrField c)).length = 16 := rfl
    omega

theorem ctrStream_add (key nonce : List U8) (c m k : Nat) : Spec.AES.ctrStream key nonce c (m + k) =
    Spec.AES.ctrStream key nonce c m ++ Spec.AES.ctrStream key nonce (c + m) k := by
  induction m generalizing c with
  | zero => simp [Spec.AES.ctrStream]
  | succ m ih =>
    rw [Nat.add_right_comm, Spec.AES.ctrStream, ih, Spec.AES.ctrStream, List.append_assoc]
    congr 3; omega

/-- The keystream of a packet: the standard's, except that a single last byte is taken three
positions too far. -/
theorem ctrKs_spec (key : List U8) {nonce : List U8} (hn : nonce.length = 12) (c n : Nat) :
    ctrKs pblk (ctrSt (keyExpansion key) nonce c) n =
      (Spec.AES.ctrStream key nonce c ((n + 15) / 16)).take (4 * (n / 4)) ++
        (if n % 4 = 0 then [] else [(Spec.AES.ctrStream key nonce c ((n + 15) / 16)).getD (4 * (n / 4) + 3) 0]) := by
  rw [ctrKs, blkBytes_ctr key hn, blkState_ctr]
  split
  · rename_i h0
    have e : (n + 15) / 16 = n / 16 + 1 := by omega
    have h1 : blkBytes pblk 1 (ctrSt (keyExpansion key) nonce (c + n / 16)) =
        Spec.AES.ctrStream key nonce (c + n / 16) 1 := blkBytes_ctr key hn _ _
    have h2 : wordsToBytesLE (pblk (ctrSt (keyExpansion key) nonce (c + n / 16))).2.toList =
        Spec.AES.ctrStream key nonce (c + n / 16) 1 := by
      rw [← h1]; simp [blkBytes, Quad.bytes]
    generalize hq : (pblk (ctrSt (keyExpansion key) nonce (c + n / 16))).2 = q at h2
    rw [e, ctrStream_add, ← h2, tailKs, List.take_append, ctrStream_length,
      List.take_of_length_le (l := Spec.AES.ctrStream key nonce c (n / 16)) (by rw [ctrStream_length]; omega),
      show 4 * (n / 4) - 16 * (n / 16) = 4 * (n % 16 / 4) by omega, List.append_assoc]
    congr 2
    rw [show n % 16 % 4 = n % 4 by omega]
    split
    · rfl
    · rw [getD_append_right _ _ _ (4 * (n % 16 / 4) + 3) _ (by rw [ctrStream_length]; omega)]
      rw [List.getD_eq_getElem?_getD, List.getD_eq_getElem?_getD,
        wordsToBytesLE_getElem _ _ (by rw [Quad.toList_length]; omega)]
      have e1 : (4 * (n % 16 / 4) + 3) / 4 = n % 16 / 4 := by omega
      have e2 : (4 * (n % 16 / 4) + 3) % 4 = 3 := by omega
      have hlt : n % 16 / 4 < q.toList.length := by rw [Quad.toList_length]; omega
      simp only [e1, e2, List.getElem?_eq_getElem hlt, Option.getD_some]
  · rename_i h0
    have e : (n + 15) / 16 = n / 16 := by omega
    rw [e, if_pos (by omega), List.take_of_length_le (by rw [ctrStream_length]; omega)]

/-! ### Variants -/

theorem ctrPacketX86_eq (cs : State) (io : Io) (size : Int) : ctrPacketX86 cs io size = ctrPacket cs io size := by
  have : encryptX86 = encrypt false := by funext rk s; exact encryptX86_eq rk s
  rw [ctrPacketX86, ctrPacket, this]

theorem ctrPacketArm_eq (cs : State) (io : Io) (size : Int) : ctrPacketArm cs io size = ctrPacket cs io size := by
  have : encryptArm = encrypt false := by funext rk s; exact encryptArm_eq rk s
  rw [ctrPacketArm, ctrPacket, this]

/-! ### The blocks fed to the cipher -/

/-- The block function with a record of the blocks fed to the cipher. -/
def tracedBlk (enc : List U32 → Quad → Quad) (s : State × List Quad) : (State × List Quad) × Quad :=
  ((stateUpdate s.1, s.2 ++ [s.1.reg]), enc s.1.rk s.1.reg)

theorem blkState_traced (enc : List U32 → Quad → Quad) (rk : List U32) (nonce : List U8) (c m : Nat) (log : List Quad) :
    blkState (tracedBlk enc) m (ctrSt rk nonce c, log) =
      (ctrSt rk nonce (c + m), log ++ (List.range m).map fun i => ctrReg nonce (c + i)) := by
  induction m with
  | zero => simp [blkState]
  | succ m ih =>
    rw [blkState_succ, ih, tracedBlk]
    simp only [stateUpdate_eq, List.range_succ, List.map_append, List.map_cons, List.map_nil, List.append_assoc]
    rfl

theorem blk_traced_fst (enc : List U32 → Quad → Quad) (m : Nat) (s : State × List Quad) :
    (blkState (tracedBlk enc) m s).1 = blkState (ctrBlk enc) m s.1 ∧
      blkBytes (tracedBlk enc) m s = blkBytes (ctrBlk enc) m s.1 := by
  induction m generalizing s with
  | zero => exact ⟨rfl, rfl⟩
  | succ m ih =>
    obtain ⟨h1, h2⟩ := ih (tracedBlk enc s).1
    exact ⟨by rw [blkState, h1]; rfl, by rw [blkBytes, h2]; rfl⟩

/-- Forgetting the record gives the packet function of the code. -/
theorem ctrWith_traced (enc : List U32 → Quad → Quad) (s : State × List Quad) {io : Io} {n : Nat} (hf : io.Fits n) :
    (do let r ← ctrWith (tracedBlk enc) s io n; return (r.1.1, r.2) : Res _) = ctrWith (ctrBlk enc) s.1 io n := by
  by_cases h4 : n % 4 ≤ 1
  · rw [ctrWith_ok _ _ h4 hf, ctrWith_ok _ _ h4 hf]
    obtain ⟨h1, _⟩ := blk_traced_fst enc ((n + 15) / 16) s
    obtain ⟨h2, h3⟩ := blk_traced_fst enc (n / 16) s
    have h5 : (tracedBlk enc (blkState (tracedBlk enc) (n / 16) s)).2 = (ctrBlk enc (blkState (ctrBlk enc) (n / 16) s.1)).2 := by
      rw [← h2]; rfl
    simp only [Res.ok_bind, Res.pure_eq, ctrNext, h1, ctrKs, h3, h5]
  · rw [ctrWith_ub _ _ (by omega) hf, ctrWith_ub _ _ (by omega) hf]; rfl

theorem ctrReg_inj {nonce : List U8} {a b : Nat} (h : ctrReg nonce a = ctrReg nonce b) : a % 2 ^ 32 = b % 2 ^ 32 := by
  have h1 : swap32 (BitVec.ofNat 32 a) = swap32 (BitVec.ofNat 32 b) := congrArg Quad.w3 h
  have h2 := congrArg swap32 h1
  rw [swap32_swap32, swap32_swap32] at h2
  have h3 := congrArg BitVec.toNat h2
  simpa using h3

theorem ctrReg_period (nonce : List U8) (c : Nat) : ctrReg nonce (c + 2 ^ 32) = ctrReg nonce c := by
  have : BitVec.ofNat 32 (c + 2 ^ 32) = BitVec.ofNat 32 c := by
    apply BitVec.eq_of_toNat_eq
    simp
  rw [ctrReg, ctrReg, this]

end CT.AES
