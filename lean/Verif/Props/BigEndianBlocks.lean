import Verif.Model.BigEndianBlocks
import Verif.Props.BigEndian
import Verif.Props.AESCtr
import Verif.Props.Sosemanuk

/-! # C145: AES counter mode and Sosemanuk on big-endian machines -/

namespace CT.Props.BigEndian
open CT

theorem rev4_append : ∀ (a b : List U8), a.length % 4 = 0 → rev4 (a ++ b) = rev4 a ++ rev4 b
  | [], b, _ => rfl
  | [_], _, h => by simp at h
  | [_, _], _, h => by simp at h
  | [_, _, _], _, h => by simp at h
  | _ :: _ :: _ :: _ :: t, b, h => by
    simp only [List.cons_append, rev4]
    rw [rev4_append t b (by simp at h; omega)]

theorem rev4_take : ∀ (l : List U8) (n : Nat), n % 4 = 0 → (rev4 l).take n = rev4 (l.take n)
  | l, 0, _ => by simp [rev4]
  | l, 1, h => by omega
  | l, 2, h => by omega
  | l, 3, h => by omega
  | a :: b :: c :: d :: t, n + 4, h => by
    simp only [rev4, List.take_succ_cons]
    rw [rev4_take t n (by omega)]
  | [], n + 4, _ => by simp [rev4]
  | [_], n + 4, _ => by simp [rev4]
  | [_, _], n + 4, _ => by simp [rev4]
  | [_, _, _], n + 4, _ => by simp [rev4]

theorem xorBytes_rev4 : ∀ (a b : List U8), a.length = b.length → xorBytes (rev4 a) (rev4 b) = rev4 (xorBytes a b)
  | [], [], _ => rfl
  | [_], [_], _ => rfl
  | [_, _], [_, _], _ => rfl
  | [_, _, _], [_, _, _], _ => rfl
  | _ :: _ :: _ :: _ :: t, _ :: _ :: _ :: _ :: u, h => by
    have ih := xorBytes_rev4 t u (by simpa using h)
    simp only [xorBytes] at ih
    simp only [rev4, xorBytes, List.zipWith_cons_cons, ih]
  | [], _ :: _, h => by simp at h
  | _ :: _, [], h => by simp at h
  | [_], _ :: _ :: _, h => by simp at h
  | [_, _], [_], h => by simp at h
  | [_, _], _ :: _ :: _ :: _, h => by simp at h
  | [_, _, _], [_], h => by simp at h
  | [_, _, _], [_, _], h => by simp at h
  | [_, _, _], _ :: _ :: _ :: _ :: _, h => by simp at h
  | _ :: _ :: _ :: _ :: _, [_], h => by simp at h
  | _ :: _ :: _ :: _ :: _, [_, _], h => by simp at h
  | _ :: _ :: _ :: _ :: _, [_, _, _], h => by simp at h

/-! ### Blocks -/

/-- A block with the bytes of every word in the opposite order. -/
def revQuad (q : Quad) : Quad := ⟨rev32 q.w0, rev32 q.w1, rev32 q.w2, rev32 q.w3⟩

/-- A block function with reversed output. -/
def revBlk {σ : Type} (blk : σ → σ × Quad) (s : σ) : σ × Quad := ((blk s).1, revQuad (blk s).2)

theorem blockLoopBE_eq {σ : Type} (blk : σ → σ × Quad) (fuel n off : Nat) (s : σ) (io : Io) :
    Io.blockLoopBE blk fuel n off s io = Io.blockLoop (revBlk blk) fuel n off s io := by
  induction fuel generalizing n off s io with
  | zero => rfl
  | succ fuel ih => simp only [Io.blockLoopBE, Io.blockLoop, revBlk, revQuad, xor32BE_eq, ih]

theorem blkState_rev {σ : Type} (blk : σ → σ × Quad) (m : Nat) (s : σ) : blkState (revBlk blk) m s = blkState blk m s := by
  induction m generalizing s with
  | zero => rfl
  | succ m ih => rw [blkState, blkState, ih]; rfl

theorem blkBytes_rev {σ : Type} (blk : σ → σ × Quad) (m : Nat) (s : σ) :
    blkBytes (revBlk blk) m s = rev4 (blkBytes blk m s) := by
  induction m generalizing s with
  | zero => rfl
  | succ m ih =>
    rw [blkBytes, blkBytes, rev4_append _ _ (by rw [Quad.bytes_length]), ← ih]
    have : (revBlk blk s).2.bytes = rev4 (blk s).2.bytes := bytes_rev32 (blk s).2.toList
    rw [this]
    rfl

/-! ### AES counter mode -/

theorem tailLoopsBE_ok (ws : List U32) {io : Io} (n off : Nat) (pre : List U8) (hp : pre.length = off)
    (hn : n < 16) (h4 : n % 4 ≤ 1) (hk : ws.length = 4) (hf : io.Fits (off + n)) :
    AES.tailLoopsBE ws n off (io.xored pre) = .ok (io.xored (pre ++ (rev4 (wordsToBytesLE ws)).take n)) := by
  rw [AES.tailLoopsBE, wordLoopBE_eq,
    Io.wordLoop_xored (ws.map rev32) 16 n 0 off pre hp hn (by rw [List.length_map]; omega) hf, bytes_rev32]
  simp only [Res.ok_bind, Nat.mul_zero, List.drop_zero, Nat.zero_add]
  have hl : (pre ++ (rev4 (wordsToBytesLE ws)).take (4 * (n / 4))).length = off + 4 * (n / 4) := by
    simp only [List.length_append, List.length_take, rev4_length, wordsToBytesLE_length, hp]; omega
  by_cases h0 : n % 4 = 0
  · rw [if_neg (by omega), show 4 * (n / 4) = n by omega]
    rfl
  · rw [if_pos (by omega)]
    have h1 : n % 4 = 1 := by omega
    have hlt : n / 4 < ws.length := by omega
    simp only [ksGet, List.getElem?_eq_getElem hlt, Res.ok_bind, h1, AES.tailBytes]
    rw [if_neg (by omega), Io.xor8_xored hl (hf.mono (by omega))]
    simp only [Res.ok_bind, Nat.mul_zero, Nat.add_zero, AES.cut24]
    have e : (rev4 (wordsToBytesLE ws)).take n =
        (rev4 (wordsToBytesLE ws)).take (4 * (n / 4)) ++ [byteN ws[n / 4] 3] := by
      have hc : n = 1 ∨ n = 5 ∨ n = 9 ∨ n = 13 := by omega
      match ws, hk with
      | [a, b, c, d], _ =>
        rcases hc with rfl | rfl | rfl | rfl <;> simp [wordsToBytesLE_cons, bytesLE32, rev4]
    rw [e, List.append_assoc]

theorem aes_loadIvBE (cs : AES.State) (key nonce : List U8) (hn : nonce.length = 12) :
    AES.ctrLoadIvBE (AES.loadKey cs key) nonce = AES.ctrSt (AES.keyExpansion key) (rev4 nonce) (2 ^ 24) := by
  have e : AES.swap32 (BitVec.ofNat 32 (2 ^ 24)) = be32 0x00 0x00 0x00 0x01 := by decide
  match nonce, hn with
  | [_, _, _, _, _, _, _, _, _, _, _, _], _ =>
    simp only [AES.ctrLoadIvBE, AES.loadKey, AES.ctrSt, AES.ctrReg, e]
    rfl

theorem aes_packetBE (key nonce : List U8) (hn : nonce.length = 12) (c : Nat) (io : Io) (n : Nat) (h4 : n % 4 ≤ 1) (hf : io.Fits n) :
    AES.ctrPacketBE (AES.ctrSt (AES.keyExpansion key) nonce c) io n =
      .ok (AES.ctrSt (AES.keyExpansion key) nonce (c + (n + 15) / 16),
        io.xored ((rev4 (Spec.AES.ctrStream key nonce c ((n + 15) / 16))).take n)) := by
  generalize hs : AES.ctrSt (AES.keyExpansion key) nonce c = s
  have hb := Io.blockLoop_xored (revBlk AES.pblk) (io := io) (n + 1) n 0 s [] rfl (by omega) (hf.mono (by omega))
  rw [Io.xored_nil, blkState_rev, blkBytes_rev, ← blockLoopBE_eq] at hb
  simp only [AES.ctrPacketBE, Int.toNat_natCast, hb, Res.ok_bind, List.nil_append, Nat.zero_add]
  have hst : ∀ m, blkState AES.pblk m s = AES.ctrSt (AES.keyExpansion key) nonce (c + m) := by
    intro m; rw [← hs]; exact AES.blkState_ctr _ _ _ _ _
  have hby : ∀ m, blkBytes AES.pblk m s = Spec.AES.ctrStream key nonce c m := by
    intro m; rw [← hs]; exact AES.blkBytes_ctr key hn _ _
  by_cases h0 : n % 16 > 0
  · rw [if_pos h0]
    have ht := tailLoopsBE_ok (AES.pblk (blkState AES.pblk (n / 16) s)).2.toList (io := io) (n % 16) (16 * (n / 16))
      (rev4 (blkBytes AES.pblk (n / 16) s)) (by rw [rev4_length, blkBytes_length]) (by omega) (by omega) rfl (hf.mono (by omega))
    have e : (n + 15) / 16 = n / 16 + 1 := by omega
    have eb : rev4 (blkBytes AES.pblk (n / 16) s) ++
        (rev4 (wordsToBytesLE (AES.pblk (blkState AES.pblk (n / 16) s)).2.toList)).take (n % 16) =
        (rev4 (blkBytes AES.pblk (n / 16 + 1) s)).take n := by
      rw [blkBytes_add, rev4_append _ _ (by rw [blkBytes_length]; omega), List.take_append, rev4_length, blkBytes_length,
        List.take_of_length_le (l := rev4 (blkBytes AES.pblk (n / 16) s)) (by rw [rev4_length, blkBytes_length]; omega),
        show n - 16 * (n / 16) = n % 16 by omega]
      simp [blkBytes, Quad.bytes]
    rw [ht]
    simp only [Res.ok_bind, Res.pure_eq, e]
    rw [eb, hby, ← hst, blkState_succ]
  · rw [if_neg h0]
    have e : (n + 15) / 16 = n / 16 := by omega
    simp only [Res.pure_eq, e]
    rw [hby, hst, List.take_of_length_le (by rw [rev4_length, AES.ctrStream_length]; omega)]

/-- C145, AES counter mode, what happens: on a big-endian machine the first counter value is 2^24, and the keystream is that of SP
800-38A for the nonce with the bytes of every word reversed, again with the bytes of every word reversed; the byte that the code takes
for packets of 4 k + 1 bytes is the right one of these. -/
theorem aes_ctr_big_endian (cs : AES.State) (key nonce : List U8) (hn : nonce.length = 12) (io : Io) (n : Nat) (h4 : n % 4 ≤ 1)
    (hf : io.Fits n) :
    ∃ cs', AES.ctrPacketBE (AES.ctrLoadIvBE (AES.loadKey cs key) nonce) io n = .ok (cs',
      { io with
        out := xorBytes (io.src.take n) (rev4 (Spec.AES.ctrStream key (rev4 nonce) (2 ^ 24) ((n + 15) / 16))) ++ io.out.drop n }) := by
  refine ⟨AES.ctrSt (AES.keyExpansion key) (rev4 nonce) (2 ^ 24 + (n + 15) / 16), ?_⟩
  rw [aes_loadIvBE cs key nonce hn, aes_packetBE key (rev4 nonce) (by rw [rev4_length]; exact hn) _ io n h4 hf]
  have hl : ((rev4 (Spec.AES.ctrStream key (rev4 nonce) (2 ^ 24) ((n + 15) / 16))).take n).length = n := by
    rw [List.length_take, rev4_length, AES.ctrStream_length]; omega
  have hx := xorBytes_take_right (io.src.take n) (rev4 (Spec.AES.ctrStream key (rev4 nonce) (2 ^ 24) ((n + 15) / 16)))
  rw [List.length_take, Nat.min_eq_left hf.1] at hx
  rw [Io.xored, hl, hx]

example := aes_ctr_big_endian ⟨⟨0, 0, 0, 0⟩, []⟩ (List.replicate 16 1) (List.replicate 12 2) (by simp) ⟨List.replicate 33 3, List.replicate 40 0, false⟩ 33
  (by decide) (by decide)

/-- The same for a sequence of packets of whole words: each is reversed, encrypted as SP 800-38A says (first counter value 2^24), and
reversed again. -/
theorem aes_ctr_packets_big_endian (cs : AES.State) (key nonce : List U8) (hn : nonce.length = 12) (ps : List (List U8))
    (h4 : ∀ p ∈ ps, p.length % 4 = 0) :
    ∃ cs', runAll (fun s io n => AES.ctrPacketBE s io n) (AES.ctrLoadIvBE (AES.loadKey cs key) nonce) ps =
      .ok (cs', (Spec.AES.ctrMany key (rev4 nonce) (2 ^ 24) (ps.map rev4)).map rev4) := by
  have hn' : (rev4 nonce).length = 12 := by rw [rev4_length]; exact hn
  rw [aes_loadIvBE cs key nonce hn]
  generalize rev4 nonce = nonce' at *
  suffices h : ∀ (ps : List (List U8)) (c : Nat), (∀ p ∈ ps, p.length % 4 = 0) →
      ∃ cs', runAll (fun s io n => AES.ctrPacketBE s io n) (AES.ctrSt (AES.keyExpansion key) nonce' c) ps =
        .ok (cs', (Spec.AES.ctrMany key nonce' c (ps.map rev4)).map rev4) from h ps _ h4
  intro ps
  induction ps with
  | nil => intro c _; exact ⟨_, rfl⟩
  | cons p ps ih =>
    intro c h
    have hp := h p (by simp)
    obtain ⟨cs', h1⟩ := ih (c + (p.length + 15) / 16) (fun q hq => h q (by simp [hq]))
    refine ⟨cs', ?_⟩
    rw [runAll, aes_packetBE key nonce' hn' _ _ _ (by omega) ⟨by simp [Io.src], by simp⟩, rev4_take _ _ hp]
    have hl : ((Spec.AES.ctrStream key nonce' c ((p.length + 15) / 16)).take p.length).length = p.length := by
      rw [List.length_take, AES.ctrStream_length]; omega
    have hx : rev4 (xorBytes (rev4 p) (Spec.AES.ctrStream key nonce' c ((p.length + 15) / 16))) =
        xorBytes p (rev4 ((Spec.AES.ctrStream key nonce' c ((p.length + 15) / 16)).take p.length)) := by
      have e := xorBytes_take_right (rev4 p) (Spec.AES.ctrStream key nonce' c ((p.length + 15) / 16))
      rw [rev4_length] at e
      rw [← e, ← xorBytes_rev4 _ _ (by rw [rev4_length, hl]), rev4_rev4]
    have hl' : (rev4 ((Spec.AES.ctrStream key nonce' c ((p.length + 15) / 16)).take p.length)).length = p.length := by
      rw [rev4_length, hl]
    simp only [Res.ok_bind, h1, Res.pure_eq, List.map_cons, Spec.AES.ctrMany, Spec.AES.ctr, rev4_length, Res.ok_inj, Prod.mk.injEq,
      true_and, List.cons.injEq, and_true]
    rw [hx]
    simp only [Io.xored, hl', Io.src, Bool.false_eq_true, if_false, List.take_length, List.drop_replicate, Nat.sub_self,
      List.replicate_zero, List.append_nil]

example : (List.replicate 12 (7 : U8)).length = 12 ∧ (∀ p ∈ [List.replicate 20 (1 : U8), List.replicate 4 2], p.length % 4 = 0) := by
  decide

/-! ### Sosemanuk -/

theorem sosemanuk_words (key : List U8) (hk : key.length = 32) : Serpent.wordsBE key = Serpent.words (rev4 key) := by
  have e1 : Serpent.padKey key = key := by rw [Serpent.padKey, if_neg (by omega)]
  have e2 : Serpent.padKey (rev4 key) = rev4 key := by rw [Serpent.padKey, if_neg (by rw [rev4_length]; omega)]
  rw [Serpent.wordsBE, Serpent.words, e1, e2, wordsBE]
  generalize bytesToWordsLE (rev4 key) = l
  rfl

theorem sosemanuk_key (cs : Sosemanuk.State) (key : List U8) (hk : key.length = 32) :
    Sosemanuk.loadKeyBE cs key 32 = Sosemanuk.loadKey cs (rev4 key) 32 := by
  have hr : (rev4 key).length = 32 := by rw [rev4_length]; exact hk
  have e : Serpent.keyScheduleBE key 32 = Serpent.keySchedule (rev4 key) 32 := by
    rw [Serpent.keyScheduleBE, Serpent.keySchedule, if_neg (by decide), if_neg (by rw [hk]; decide), if_neg (by decide),
      if_neg (by rw [hr]; decide), Serpent.schedule]
    have t1 : key.take (32 : Int).toNat = key := List.take_of_length_le (by rw [hk]; decide)
    have t2 : (rev4 key).take (32 : Int).toNat = rev4 key := List.take_of_length_le (by rw [hr]; decide)
    rw [t1, t2, sosemanuk_words key hk]
  rw [Sosemanuk.loadKeyBE, Sosemanuk.loadKey, e]

theorem sosemanuk_iv (cs : Sosemanuk.State) (iv : List U8) : Sosemanuk.loadIvBE cs iv = Sosemanuk.loadIv cs (rev4 iv) := by
  have e : Serpent.processPacketBE cs.rk iv 16 = Serpent.processPacket cs.rk (rev4 iv) 16 := by
    rw [Serpent.processPacketBE, Serpent.processPacket, wordsBE, rev4_length, rev4_take _ _ (by decide)]
    generalize bytesToWordsLE (rev4 (List.take 16 iv)) = l
    rfl
  rw [Sosemanuk.loadIvBE, Sosemanuk.loadIv, e]
  rfl

theorem sosemanuk_packetBE (cs : Sosemanuk.State) (io : Io) (n : Nat) (hf : io.Fits n) :
    Sosemanuk.processPacketBE cs io n =
      .ok (blkState Sosemanuk.block (n / 16 + 1) cs, io.xored (rev4 ((blkBytes Sosemanuk.block (n / 16 + 1) cs).take n))) := by
  have hb := Io.blockLoop_xored (revBlk Sosemanuk.block) (io := io) (n + 1) n 0 cs [] rfl (by omega) (hf.mono (by omega))
  rw [Io.xored_nil, blkState_rev, blkBytes_rev, ← blockLoopBE_eq] at hb
  simp only [Sosemanuk.processPacketBE, hb, Res.ok_bind, List.nil_append, Nat.zero_add]
  generalize hs : blkState Sosemanuk.block (n / 16) cs = s
  generalize hq : (Sosemanuk.block s).2.toList = ws
  have hwl : ws.length = 4 := by rw [← hq]; rfl
  rw [wordLoopBE_eq, Io.wordLoop_xored (ws.map rev32) (io := io) (n % 16 + 1) (n % 16) 0 (16 * (n / 16))
    (rev4 (blkBytes Sosemanuk.block (n / 16) cs)) (by rw [rev4_length, blkBytes_length]) (by omega)
    (by rw [List.length_map]; omega) (hf.mono (by omega)), bytes_rev32]
  simp only [Res.ok_bind, Nat.mul_zero, List.drop_zero, Nat.zero_add]
  rw [Io.byteLoop_xored ws (n % 16 % 4) (4 * (n % 16 / 4)) _ _
    (by simp only [List.length_append, List.length_take, rev4_length, blkBytes_length, wordsToBytesLE_length]; omega)
    (by omega) (hf.mono (by omega))]
  simp only [Res.ok_bind, Res.pure_eq, Res.ok_inj, Prod.mk.injEq]
  refine ⟨by rw [blkState_succ, hs], ?_⟩
  have e : (blkBytes Sosemanuk.block (n / 16 + 1) cs).take n =
      blkBytes Sosemanuk.block (n / 16) cs ++ ((wordsToBytesLE ws).take (4 * (n % 16 / 4)) ++
        ((wordsToBytesLE ws).drop (4 * (n % 16 / 4))).take (n % 16 % 4)) := by
    rw [blkBytes_add, List.take_append, blkBytes_length,
      List.take_of_length_le (l := blkBytes Sosemanuk.block (n / 16) cs) (by rw [blkBytes_length]; omega),
      show n - 16 * (n / 16) = n % 16 by omega, hs, ← List.take_add, show 4 * (n % 16 / 4) + n % 16 % 4 = n % 16 by omega]
    simp [blkBytes, Quad.bytes, hq]
  rw [e, rev4_append _ _ (by rw [blkBytes_length]; omega),
    rev4_append _ _ (by rw [List.length_take, wordsToBytesLE_length, hwl]; omega), rev4_take _ _ (by omega), List.append_assoc]
  have short : ∀ l : List U8, l.length < 4 → rev4 l = l := by
    intro l hl
    match l, hl with
    | [], _ => rfl
    | [_], _ => rfl
    | [_, _], _ => rfl
    | [_, _, _], _ => rfl
  rw [short (((wordsToBytesLE ws).drop (4 * (n % 16 / 4))).take (n % 16 % 4)) (by rw [List.length_take]; omega)]

/-- The loads of key and IV followed by packets, on a little-endian machine. -/
def sosemanukRun (cs : Sosemanuk.State) (key iv : List U8) (ps : List (List U8)) : Res (Option (Sosemanuk.State × List (List U8))) := do
  match ← Sosemanuk.loadKey cs key key.length with
  | none => return none
  | some cs =>
    let cs ← Sosemanuk.loadIv cs iv
    let r ← runAll Sosemanuk.processPacket cs ps
    return some r

/-- The same on a big-endian machine. -/
def sosemanukRunBE (cs : Sosemanuk.State) (key iv : List U8) (ps : List (List U8)) : Res (Option (Sosemanuk.State × List (List U8))) := do
  match ← Sosemanuk.loadKeyBE cs key key.length with
  | none => return none
  | some cs =>
    let cs ← Sosemanuk.loadIvBE cs iv
    let r ← runAll Sosemanuk.processPacketBE cs ps
    return some r

theorem sosemanuk_runAll (ps : List (List U8)) (cs : Sosemanuk.State) :
    runAll Sosemanuk.processPacketBE cs ps =
      (do let r ← runAll Sosemanuk.processPacket cs (ps.map rev4)
          return (r.1, r.2.map rev4)) := by
  induction ps generalizing cs with
  | nil => rfl
  | cons p ps ih =>
    rw [runAll, List.map_cons, runAll, sosemanuk_packetBE _ _ _ ⟨by simp [Io.src], by simp⟩,
      Sosemanuk.processPacket_eq _ _ _ ⟨by simp [Io.src], by simp⟩]
    simp only [Res.ok_bind, rev4_length, ih, Res.bind_assoc]
    congr 1
    funext r
    simp only [Res.pure_eq, Res.ok_bind, List.map_cons, Res.ok_inj, Prod.mk.injEq, List.cons.injEq, true_and, and_true]
    have hl : ((blkBytes Sosemanuk.block (p.length / 16 + 1) cs).take p.length).length = p.length := by
      rw [List.length_take, blkBytes_length]; omega
    have hx := xorBytes_rev4 (rev4 p) ((blkBytes Sosemanuk.block (p.length / 16 + 1) cs).take p.length) (by rw [rev4_length, hl])
    rw [rev4_rev4] at hx
    have hlp : (rev4 p).length = p.length := rev4_length p
    simp only [Io.xored, rev4_length, hl, Io.src, Bool.false_eq_true, if_false, List.take_length, List.drop_replicate, Nat.sub_self,
      List.replicate_zero, List.append_nil]
    rw [hx, List.take_of_length_le (l := rev4 p) (by omega)]

/-- C145, Sosemanuk, what happens: for keys of 32 bytes a big-endian machine does what a little-endian machine does for key, IV and
packets with the bytes of every complete word reversed, and reverses the result; packets may have any size. -/
theorem sosemanuk_big_endian (cs : Sosemanuk.State) (key iv : List U8) (hk : key.length = 32) (ps : List (List U8)) :
    sosemanukRunBE cs key iv ps =
      (do let r ← sosemanukRun cs (rev4 key) (rev4 iv) (ps.map rev4)
          return r.map fun x => (x.1, x.2.map rev4)) := by
  have hr : (rev4 key).length = 32 := by rw [rev4_length]; exact hk
  rw [sosemanukRunBE, sosemanukRun, hk, hr]
  have := sosemanuk_key cs key hk
  rw [show ((32 : Nat) : Int) = 32 from rfl, this]
  cases Sosemanuk.loadKey cs (rev4 key) 32 with
  | ub w => rfl
  | ok o =>
    cases o with
    | none => rfl
    | some c =>
      simp only [Res.ok_bind, sosemanuk_iv, sosemanuk_runAll, Res.bind_assoc, Res.pure_eq, Option.map_some]

example : (List.replicate 32 (9 : U8)).length = 32 ∧ rev4 [1, 2, 3, 4, 5, 6] = [4, 3, 2, 1, 5, 6] := by decide

/-- And this is not the result of the little-endian machine: the first byte of the keystream differs for a key and an IV that do not
change under the reversal. -/
theorem sosemanuk_byte_order_refuted : ¬ ∀ (cs : Sosemanuk.State) (key iv : List U8) (ps : List (List U8)), key.length = 32 →
    iv.length = 16 → (∀ p ∈ ps, p.length % 4 = 0) → sosemanukRunBE cs key iv ps = sosemanukRun cs key iv ps := by
  intro h
  have := h ⟨[], 0, 0, 0, 0, 0, 0, 0, 0, 0, 0, 0, 0⟩ (List.replicate 32 0) (List.replicate 16 0) [[0, 0, 0, 0]] rfl rfl (by decide)
  revert this
  decide +kernel

/-! ### Machines of the same byte order -/

theorem hc128_streamBE : IsStream HC128.processPacketBE (fun _ => True) (fun n => n ≤ 2 ^ 33 - 8)
    (fun cs n => (rev4 (wordsToBytesLE (HC128.gen ((n + 3) / 4) 0 cs).2)).take n) HC128.pktNext := by
  intro cs n _ hn
  refine ⟨trivial, ?_, fun io hf => hc128_packetBE cs io n hn hf⟩
  rw [List.length_take, rev4_length, wordsToBytesLE_length, HC128.gen_length]
  omega

theorem sosemanuk_streamBE : IsStream Sosemanuk.processPacketBE (fun _ => True) (fun _ => True)
    (fun cs n => rev4 ((blkBytes Sosemanuk.block (n / 16 + 1) cs).take n)) (fun cs n => blkState Sosemanuk.block (n / 16 + 1) cs) := by
  intro cs n _ _
  refine ⟨trivial, ?_, fun io hf => sosemanuk_packetBE cs io n hf⟩
  rw [rev4_length, List.length_take, blkBytes_length]
  omega

theorem aes_streamBE (key : List U8) : IsStream (fun s io n => AES.ctrPacketBE s io n)
    (fun s => ∃ nonce c, nonce.length = 12 ∧ s = AES.ctrSt (AES.keyExpansion key) nonce c) (fun n => n % 4 ≤ 1)
    (fun s n => (rev4 (blkBytes AES.pblk ((n + 15) / 16) s)).take n) (fun s n => blkState AES.pblk ((n + 15) / 16) s) := by
  rintro _ n ⟨nonce, c, hn, rfl⟩ h4
  refine ⟨⟨nonce, c + (n + 15) / 16, hn, AES.blkState_ctr _ _ _ _ _⟩, ?_, fun io hf => ?_⟩
  · rw [List.length_take, rev4_length, blkBytes_length]
    omega
  · show AES.ctrPacketBE _ io n = _
    rw [aes_packetBE key nonce hn c io n h4 hf]
    simp only
    rw [AES.blkBytes_ctr key hn, AES.blkState_ctr]

/-- C145, what holds, for the other ciphers: a big-endian receiver that starts with the same key and IV recovers every packet of a
big-endian sender, and both end in the same state. -/
theorem byte_order_sessions_partial :
    (∀ (key iv : List U8) (ps : List (List U8)), (∀ p ∈ ps, p.length ≤ 2 ^ 33 - 8) →
      ∃ s cts, runAll HC128.processPacketBE (HC128.initBE key iv) ps = .ok (s, cts) ∧ cts.map List.length = ps.map List.length ∧
        runAll HC128.processPacketBE (HC128.initBE key iv) cts = .ok (s, ps)) ∧
    (∀ (cs : Sosemanuk.State) (ps : List (List U8)),
      ∃ s cts, runAll Sosemanuk.processPacketBE cs ps = .ok (s, cts) ∧ cts.map List.length = ps.map List.length ∧
        runAll Sosemanuk.processPacketBE cs cts = .ok (s, ps)) ∧
    (∀ (cs cr : AES.State) (key nonce : List U8) (ps : List (List U8)), nonce.length = 12 → (∀ p ∈ ps, p.length % 4 ≤ 1) →
      ∃ s cts, runAll (fun s io n => AES.ctrPacketBE s io n) (AES.ctrLoadIvBE (AES.loadKey cs key) nonce) ps = .ok (s, cts) ∧
        cts.map List.length = ps.map List.length ∧
        runAll (fun s io n => AES.ctrPacketBE s io n) (AES.ctrLoadIvBE (AES.loadKey cr key) nonce) cts = .ok (s, ps)) := by
  refine ⟨fun key iv ps h => hc128_streamBE.runAll_round_trip ps _ trivial h,
    fun cs ps => sosemanuk_streamBE.runAll_round_trip ps cs trivial (fun _ _ => trivial), fun cs cr key nonce ps hn h => ?_⟩
  rw [aes_loadIvBE cs key nonce hn, aes_loadIvBE cr key nonce hn]
  exact (aes_streamBE key).runAll_round_trip ps _ ⟨rev4 nonce, 2 ^ 24, by rw [rev4_length]; exact hn, rfl⟩ h

example : ∀ p ∈ [List.replicate 17 (1 : U8), [], [5]], p.length % 4 ≤ 1 := by decide

end CT.Props.BigEndian
