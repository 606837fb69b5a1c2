import Verif.Model.HeapLeft
import Verif.Props.HMAC
import Verif.Props.Stream
import Verif.Proof.Sosemanuk
import Verif.Proof.SosemanukLinear

/-!
# Heap blocks that the functions give back (C150)
-/

namespace CT.Props.HeapLeft

/-- The result without the list of the blocks. -/
def erase {α : Type} (r : Res (α × Freed)) : Res α := r.bind fun x => .ok x.1

/-- The list of the blocks. -/
def left {α : Type} (r : Res (α × Freed)) : Res Freed := r.bind fun x => .ok x.2

/-! ### The functions are those of the other models -/

theorem hmac_gen_erase (junk : Nat → U8) (cs : HMAC.State) (tag msg : List U8) (n : Nat) (t : Int) :
    erase (HMAC.tagGenerationF junk cs tag msg n t) = HMAC.tagGeneration junk cs tag msg n t := by
  rw [HMAC.tagGenerationF, HMAC.tagGeneration]
  split
  · rfl
  simp only []
  cases Mem.wrs ((List.range (n + 64)).map junk) 0 (cs.innerKey.take 64) with
  | ub w => rfl
  | ok i =>
  simp only [Res.ok_bind]
  split
  · rfl
  cases Mem.wrs i 64 (msg.take n) with
  | ub w => rfl
  | ok i =>
  simp only [Res.ok_bind]
  cases SHA256.hmacCopy junk ((List.range 32).map junk) i (n + 64) with
  | ub w => rfl
  | ok h =>
  simp only [Res.ok_bind]
  cases Mem.wrs (List.replicate 96 0) 0 (cs.outerKey.take 64) with
  | ub w => rfl
  | ok o =>
  simp only [Res.ok_bind]
  cases Mem.wrs o 64 (h.take 32) with
  | ub w => rfl
  | ok o =>
  simp only [Res.ok_bind]
  cases SHA256.hmacCopy junk ((List.range 32).map junk) o 96 with
  | ub w => rfl
  | ok h =>
  simp only [Res.ok_bind]
  cases HMAC.memcpyInt tag 0 h t <;> rfl

theorem hmac_val_erase (junk : Nat → U8) (cs : HMAC.State) (tag msg : List U8) (n : Nat) (t : Int) :
    erase (HMAC.tagValidationF junk cs tag msg n t) = HMAC.tagValidation junk cs tag msg n t := by
  rw [HMAC.tagValidationF, HMAC.tagValidation]
  split
  · rfl
  simp only [← hmac_gen_erase]
  cases HMAC.tagGenerationF junk cs ((List.range t.toNat).map junk) msg n t with
  | ub w => rfl
  | ok x =>
  simp only [Res.ok_bind, erase, Res.bind]
  cases HMAC.compareLoop tag x.1 t.toNat 0 <;> rfl

theorem chacha_erase (r : Nat) (cs : ChaCha.State) (io : Io) (size : U64) :
    erase (ChaCha.processPacketF r cs io size) = ChaCha.processPacket r cs io size := by
  rw [ChaCha.processPacketF, ChaCha.processPacket]
  simp only []
  split
  · rfl
  split
  · rfl
  generalize (ChaCha.ksLoop r (((size.toNat + 3) / 4 + 15) / 16) cs 1 []) = k
  cases Io.wordLoop k.2 ((size.setWidth 32).toInt.toNat + 1) (size.setWidth 32).toInt.toNat 0 0 io with
  | ub w => rfl
  | ok x =>
  simp only [Res.ok_bind]
  cases Io.byteLoop k.2 x.1 (4 * x.2.1) x.2.2.1 x.2.2.2 <;> rfl

theorem ad_erase (rnd : Quad → Quad → Quad) (cs : AEGIS.State) (ad : List U8) (n : Nat) :
    erase (AEGIS.processAdF rnd cs ad n) = AEGIS.processAd rnd cs ad n := by
  rw [AEGIS.processAdF, AEGIS.processAd]
  split
  · rfl
  split
  · rfl
  split
  · rfl
  split <;> rfl

theorem aegis_enc_erase (rnd : Quad → Quad → Quad) (cs : AEGIS.State) (io : Io) (ad iv : List U8) (n m : Nat) :
    erase (AEGIS.encryptPacketF rnd cs io ad iv n m) = AEGIS.encryptPacket rnd cs io ad iv n m := by
  rw [AEGIS.encryptPacketF, AEGIS.encryptPacket]
  simp only []
  generalize AEGIS.initState rnd cs iv = s
  rw [← ad_erase]
  cases AEGIS.processAdF rnd s ad n with
  | ub w => rfl
  | ok x =>
  simp only [Res.ok_bind, erase, Res.bind]
  cases AEGIS.crypt rnd false x.1 io m <;> rfl

theorem aegis_dec_erase (rnd : Quad → Quad → Quad) (cs : AEGIS.State) (io : Io) (ad iv tag : List U8) (n m : Nat) :
    erase (AEGIS.decryptPacketF rnd cs io ad iv tag n m) = AEGIS.decryptPacket rnd cs io ad iv tag n m := by
  rw [AEGIS.decryptPacketF, AEGIS.decryptPacket]
  simp only []
  generalize AEGIS.initState rnd cs iv = s
  rw [← ad_erase]
  cases AEGIS.processAdF rnd s ad n with
  | ub w => rfl
  | ok x =>
  simp only [Res.ok_bind, erase, Res.bind]
  cases AEGIS.crypt rnd true x.1 io m with
  | ub w => rfl
  | ok y =>
  simp only [Res.ok_bind]
  generalize AEGIS.finalize rnd y.1 n m = f
  by_cases h : f.2 ≠ AES.quadOf tag
  · simp only [if_pos h]
    cases Mem.wrs y.2.out 0 (List.replicate m 0) with
    | ub w => rfl
    | ok o =>
    simp only [Res.ok_bind]
    cases Mem.wrs tag 0 (List.replicate 16 0) <;> rfl
  · simp only [if_neg h]

theorem rounds_erase (rk : List U32) (a b c d : U32) : (Serpent.roundsF rk a b c d).1 = Serpent.rounds rk a b c d := rfl

theorem serpent_packet_erase (rk : List U32) (inp : List U8) (n : Nat) :
    erase (Serpent.processPacketF rk inp n) = Serpent.processPacket rk inp n := by
  rw [Serpent.processPacketF, Serpent.processPacket]
  split
  · rfl
  split
  · rfl
  split
  · rfl
  split
  · rfl
  generalize bytesToWordsLE (inp.take 16) = w
  match w with
  | [] => rfl
  | [_] => rfl
  | [_, _] => rfl
  | [_, _, _] => rfl
  | [a, b, c, d] => exact congrArg Res.ok (rounds_erase rk a b c d)
  | _ :: _ :: _ :: _ :: _ :: _ => rfl

theorem serpent_key_erase (key : List U8) (size : Int) : erase (Serpent.keyScheduleF key size) = Serpent.keySchedule key size := by
  rw [Serpent.keyScheduleF, Serpent.keySchedule]
  split
  · rfl
  split <;> rfl

theorem serpent1_erase (a b c d : U32) : Serpent.serpent1F a b c d = (Serpent.serpent1 a b c d, [bytesLE32 (Serpent.serpent1 a b c d).w3]) :=
  rfl

theorem sos_key_erase (cs : Sosemanuk.State) (key : List U8) (size : Int) :
    erase (Sosemanuk.loadKeyF cs key size) = Sosemanuk.loadKey cs key size := by
  rw [Sosemanuk.loadKeyF, Sosemanuk.loadKey, ← serpent_key_erase]
  cases Serpent.keyScheduleF key size <;> rfl

theorem sos_iv_erase (cs : Sosemanuk.State) (iv : List U8) : erase (Sosemanuk.loadIvF cs iv) = Sosemanuk.loadIv cs iv := by
  rw [Sosemanuk.loadIvF, Sosemanuk.loadIv, ← serpent_packet_erase]
  cases Serpent.processPacketF cs.rk iv 16 with
  | ub w => rfl
  | ok x =>
  obtain ⟨i, l⟩ := x
  simp only [Res.ok_bind, erase, Res.bind]
  match i with
  | [] => rfl
  | [_] => rfl
  | [_, _] => rfl
  | [_, _, _] => rfl
  | [_, _, _, _] => rfl
  | [_, _, _, _, _] => rfl
  | [_, _, _, _, _, _] => rfl
  | [_, _, _, _, _, _, _] => rfl
  | [_, _, _, _, _, _, _, _] => rfl
  | [_, _, _, _, _, _, _, _, _] => rfl
  | [_, _, _, _, _, _, _, _, _, _] => rfl
  | [_, _, _, _, _, _, _, _, _, _, _] => rfl
  | [_, _, _, _, _, _, _, _, _, _, _, _] => rfl
  | _ :: _ :: _ :: _ :: _ :: _ :: _ :: _ :: _ :: _ :: _ :: _ :: _ :: _ => rfl

/-- What one block leaves: the fourth word of `serpent1`. -/
def blockLeft (cs : Sosemanuk.State) : List U8 := bytesLE32 ((Sosemanuk.block cs).2.w3 ^^^ cs.s3)

theorem blockF_eq (cs : Sosemanuk.State) (l : Freed) :
    Sosemanuk.blockF (cs, l) = (((Sosemanuk.block cs).1, l ++ [blockLeft cs]), (Sosemanuk.block cs).2) := by
  have h : ∃ F : U32, (Sosemanuk.block cs).2.w3 = cs.s3 ^^^ F ∧
      Sosemanuk.blockF (cs, l) = (((Sosemanuk.block cs).1, l ++ [bytesLE32 F]), (Sosemanuk.block cs).2) := ⟨_, rfl, rfl⟩
  obtain ⟨F, h1, h2⟩ := h
  rw [h2, blockLeft, h1, BitVec.xor_comm cs.s3 F, BitVec.xor_assoc, BitVec.xor_self, BitVec.xor_zero]

theorem blkStateF (m : Nat) : ∀ (cs : Sosemanuk.State) (l : Freed), blkState Sosemanuk.blockF m (cs, l) =
    (blkState Sosemanuk.block m cs, l ++ (List.range m).map fun i => blockLeft (blkState Sosemanuk.block i cs)) := by
  induction m with
  | zero => intro cs l; simp [blkState]
  | succ m ih =>
    intro cs l
    rw [blkState, blockF_eq, ih, blkState, List.range_succ_eq_map, List.map_cons, List.map_map, List.append_assoc]
    rfl

theorem blkBytesF (m : Nat) : ∀ (cs : Sosemanuk.State) (l : Freed), blkBytes Sosemanuk.blockF m (cs, l) = blkBytes Sosemanuk.block m cs := by
  induction m with
  | zero => intro cs l; rfl
  | succ m ih => intro cs l; rw [blkBytes, blockF_eq, ih, blkBytes]

/-- The block loop with and without the list. -/
theorem blockLoopF (fuel : Nat) : ∀ (n off : Nat) (cs : Sosemanuk.State) (l : Freed) (io : Io),
    (Io.blockLoop Sosemanuk.blockF fuel n off (cs, l) io).bind (fun x => .ok (x.1, x.2.1, x.2.2.1.1, x.2.2.2)) =
      Io.blockLoop Sosemanuk.block fuel n off cs io := by
  induction fuel with
  | zero => intros; rfl
  | succ f ih =>
    intro n off cs l io
    rw [Io.blockLoop, Io.blockLoop]
    split
    · simp only [blockF_eq]
      cases io.xor32 off (Sosemanuk.block cs).2.w0 with
      | ub w => rfl
      | ok io =>
      simp only [Res.ok_bind]
      cases io.xor32 (off + 4) (Sosemanuk.block cs).2.w1 with
      | ub w => rfl
      | ok io =>
      simp only [Res.ok_bind]
      cases io.xor32 (off + 8) (Sosemanuk.block cs).2.w2 with
      | ub w => rfl
      | ok io =>
      simp only [Res.ok_bind]
      cases io.xor32 (off + 12) (Sosemanuk.block cs).2.w3 with
      | ub w => rfl
      | ok io => exact ih _ _ _ _ _
    · rfl

theorem sos_packet_erase (cs : Sosemanuk.State) (io : Io) (size : Nat) :
    erase (Sosemanuk.processPacketF cs io size) = Sosemanuk.processPacket cs io size := by
  rw [Sosemanuk.processPacketF, Sosemanuk.processPacket, ← blockLoopF _ _ _ _ []]
  cases Io.blockLoop Sosemanuk.blockF (size + 1) size 0 (cs, []) io with
  | ub w => rfl
  | ok x =>
  obtain ⟨n, off, ⟨cs, l⟩, io⟩ := x
  simp only [Res.ok_bind, Res.bind, blockF_eq, erase]
  generalize (Sosemanuk.block cs).2.toList = k
  cases Io.wordLoop k (n + 1) n 0 off io with
  | ub w => rfl
  | ok y =>
  simp only [Res.ok_bind]
  cases Io.byteLoop k y.1 (4 * y.2.1) y.2.2.1 y.2.2.2 <;> rfl

/-- C150, the functions with their blocks are the functions of the other models. -/
theorem heap_left_erase (junk : Nat → U8) (hs : HMAC.State) (tag msg : List U8) (n : Nat) (t : Int) (r : Nat) (cc : ChaCha.State) (io : Io)
    (sz : U64) (rnd : Quad → Quad → Quad) (ae : AEGIS.State) (ad iv : List U8) (m : Nat) (rk : List U32) (key : List U8)
    (so : Sosemanuk.State) :
    erase (HMAC.tagGenerationF junk hs tag msg n t) = HMAC.tagGeneration junk hs tag msg n t ∧
    erase (HMAC.tagValidationF junk hs tag msg n t) = HMAC.tagValidation junk hs tag msg n t ∧
    erase (ChaCha.processPacketF r cc io sz) = ChaCha.processPacket r cc io sz ∧
    erase (AEGIS.encryptPacketF rnd ae io ad iv n m) = AEGIS.encryptPacket rnd ae io ad iv n m ∧
    erase (AEGIS.decryptPacketF rnd ae io ad iv tag n m) = AEGIS.decryptPacket rnd ae io ad iv tag n m ∧
    erase (Serpent.keyScheduleF key t) = Serpent.keySchedule key t ∧
    erase (Serpent.processPacketF rk msg n) = Serpent.processPacket rk msg n ∧
    erase (Sosemanuk.loadKeyF so key t) = Sosemanuk.loadKey so key t ∧
    erase (Sosemanuk.loadIvF so iv) = Sosemanuk.loadIv so iv ∧
    erase (Sosemanuk.processPacketF so io n) = Sosemanuk.processPacket so io n :=
  ⟨hmac_gen_erase .., hmac_val_erase .., chacha_erase .., aegis_enc_erase .., aegis_dec_erase .., serpent_key_erase ..,
    serpent_packet_erase .., sos_key_erase .., sos_iv_erase .., sos_packet_erase ..⟩

/-! ### HMAC -/

open CT.Spec.HMAC (normKey hmac) in
/-- C150, HMAC: after the tag of a message was made, the inner key and the message are in the block. -/
theorem hmac_left (junk junk' : Nat → U8) (k msg ek em tag : List U8) (n : Nat)
    (hk : k.length + 128 < 2 ^ 31) (h0 : msg ≠ []) (hm : msg.length + 192 < 2 ^ 31) (hn : n ≤ 32) (ht : n ≤ tag.length) :
    ∃ cs, HMAC.loadKey junk (k ++ ek) k.length = .ok cs ∧
      HMAC.tagGenerationF junk' cs tag (msg ++ em) msg.length n =
        .ok ((hmac k msg).take n ++ tag.drop n, [(normKey k).map (· ^^^ 0x36) ++ msg]) := by
  refine ⟨_, HMAC.hmac_load_key_normalises junk k ek hk, ?_⟩
  have he := HMAC.tagGeneration_ok junk' k tag msg em n h0 hm hn ht
  rw [HMAC.keyState] at he
  rw [← hmac_gen_erase] at he
  obtain ⟨⟨x, l⟩, h1, h2⟩ := Res.bind_eq_ok he
  obtain rfl := Res.ok_inj.mp h2
  rw [h1]
  suffices l = [(normKey k).map (· ^^^ 0x36) ++ msg] by rw [this]
  have hm0 : ¬ msg.length < 1 := by
    have := List.length_pos_iff.2 h0; omega
  have li : ((normKey k).map (· ^^^ 0x36)).length = 64 := by simp [HMAC.normKey_length]
  simp only [HMAC.tagGenerationF, hm0, if_false] at h1
  generalize (normKey k).map (· ^^^ 0x36) = I at *
  rw [List.take_of_length_le (l := I) (by omega), List.take_left, Mem.wrs_eq _ _ (by simp [li])] at h1
  simp only [Res.ok_bind, List.take_zero, List.nil_append, Nat.zero_add] at h1
  rw [if_neg (by simp), Mem.wrs_eq _ _ (by simp [li, Nat.add_comm])] at h1
  simp only [Res.ok_bind] at h1
  obtain ⟨_, -, h1⟩ := Res.bind_eq_ok h1
  obtain ⟨_, -, h1⟩ := Res.bind_eq_ok h1
  obtain ⟨_, -, h1⟩ := Res.bind_eq_ok h1
  obtain ⟨_, -, h1⟩ := Res.bind_eq_ok h1
  obtain ⟨_, -, h1⟩ := Res.bind_eq_ok h1
  have := (Prod.mk.inj (Res.ok_inj.mp h1)).2
  rw [← this, List.take_left' li, List.drop_eq_nil_of_le (by simp [li]), List.append_nil]

example (junk junk' : Nat → U8) := hmac_left junk junk' [1, 2] [3, 4, 5] [] [6] (List.replicate 16 0) 16 (by decide) (by decide) (by decide) (by decide) (by decide)

open CT.Spec.HMAC (normKey hmac) in
/-- C150, HMAC: validation leaves the same, and nothing else. -/
theorem hmac_val_left (junk junk' : Nat → U8) (k msg ek em tag : List U8) (n : Nat)
    (hk : k.length + 128 < 2 ^ 31) (h0 : msg ≠ []) (hm : msg.length + 192 < 2 ^ 31) (hn : n ≤ 32) (ht : n ≤ tag.length) :
    ∃ cs, HMAC.loadKey junk (k ++ ek) k.length = .ok cs ∧
      HMAC.tagValidationF junk' cs tag (msg ++ em) msg.length n =
        .ok (if tag.take n = (hmac k msg).take n then 1 else 0, [(normKey k).map (· ^^^ 0x36) ++ msg]) := by
  obtain ⟨cs, h1, h2⟩ := hmac_left junk junk' k msg ek em ((List.range n).map junk') n hk h0 hm hn (by simp)
  refine ⟨cs, h1, ?_⟩
  have hd : ((List.range n).map junk').drop n = [] := List.drop_eq_nil_of_le (by simp)
  rw [hd, List.append_nil] at h2
  have lh := HMAC.hmac_length k msg
  have := HMAC.compareLoop_ok [] [] tag ((hmac k msg).take n) rfl n ht (by simp [lh, hn])
  simp only [List.nil_append, List.length_nil] at this
  rw [HMAC.tagValidationF, if_neg (by omega), Int.toNat_natCast]
  dsimp only
  rw [h2]
  simp only [Res.ok_bind]
  rw [this, List.take_take, Nat.min_self]
  rfl

example : ∃ cs, HMAC.loadKey (fun _ => 1) ([1, 2] ++ []) 2 = .ok cs ∧
    HMAC.tagValidationF (fun _ => 9) cs (List.replicate 16 0) ([3] ++ []) 1 16 =
      .ok (if List.replicate 16 0 = (Spec.HMAC.hmac [1, 2] [3]).take 16 then 1 else 0, [(Spec.HMAC.normKey [1, 2]).map (· ^^^ 0x36) ++ [3]]) :=
  hmac_val_left (fun _ => 1) (fun _ => 9) [1, 2] [3] [] [] (List.replicate 16 0) 16 (by simp) (by simp) (by simp) (by simp) (by simp)

/-- What an attacker makes of the block: an HMAC object. -/
def stateOf (b : List U8) : HMAC.State := ⟨b.take 64, (b.take 64).map fun x => x ^^^ 0x36 ^^^ 0x5c⟩

/-- The object made of the block is the object of the owner of the key. -/
theorem stateOf_eq (k msg : List U8) : stateOf ((Spec.HMAC.normKey k).map (· ^^^ 0x36) ++ msg) = HMAC.keyState k := by
  have li : ((Spec.HMAC.normKey k).map (· ^^^ 0x36)).length = 64 := by simp [HMAC.normKey_length]
  rw [stateOf, List.take_left' li, HMAC.keyState, List.map_map]
  congr 1
  refine List.map_congr_left fun x _ => ?_
  show (x ^^^ 0x36) ^^^ 0x36 ^^^ 0x5c = x ^^^ 0x5c
  rw [BitVec.xor_assoc x, BitVec.xor_self, BitVec.xor_zero]

open CT.Spec.HMAC (normKey hmac) in
/-- C150, HMAC: whoever reads the block that one call left makes valid tags of every message, under any key. -/
theorem hmac_left_forge (junk junk' junk2 junk3 : Nat → U8) (k msg ek em tag : List U8) (n : Nat)
    (hk : k.length + 128 < 2 ^ 31) (h0 : msg ≠ []) (hm : msg.length + 192 < 2 ^ 31) (hn : n ≤ 32) (ht : n ≤ tag.length) :
    ∃ cs b, HMAC.loadKey junk (k ++ ek) k.length = .ok cs ∧
      left (HMAC.tagGenerationF junk' cs tag (msg ++ em) msg.length n) = .ok [b] ∧
      ∀ m ex : List U8, m ≠ [] → m.length + 192 < 2 ^ 31 →
        HMAC.tagGeneration junk2 (stateOf b) (List.replicate 32 0) (m ++ ex) m.length 32 = .ok (hmac k m) ∧
        HMAC.tagValidation junk3 cs (hmac k m) (m ++ ex) m.length 32 = .ok 1 := by
  obtain ⟨cs, h1, h2⟩ := hmac_left junk junk' k msg ek em tag n hk h0 hm hn ht
  refine ⟨cs, (normKey k).map (· ^^^ 0x36) ++ msg, h1, by rw [h2]; rfl, fun m ex hm0 hml => ⟨?_, ?_⟩⟩
  · rw [stateOf_eq]
    have := HMAC.tagGeneration_ok junk2 k (List.replicate 32 0) m ex 32 hm0 hml (by omega) (by simp)
    rw [List.take_of_length_le (by rw [HMAC.hmac_length]), List.drop_eq_nil_of_le (by simp), List.append_nil] at this
    exact this
  · have hl := HMAC.hmac_length k m
    have := HMAC.hmac_validation_decides junk junk3 k m ek ex (hmac k m) 32 hk hm0 hml (by omega) (by omega)
    rw [h1] at this
    simp only [Res.ok_bind] at this
    exact this.trans (by rw [if_pos trivial])

example (junk junk' : Nat → U8) := hmac_left_forge junk junk' junk junk' [1, 2] [3, 4, 5] [] [6] (List.replicate 16 0) 16 (by decide) (by decide) (by decide)
  (by decide) (by decide)

/-! ### ChaCha -/

/-- C150, ChaCha: the keystream of the packet is in the block. -/
theorem chacha_left (r : Nat) (key nonce : List U8) (hk : key.length = 32) (hn : nonce.length = 12) (cs : ChaCha.State)
    (h : ChaCha.History r key nonce cs) (io : Io) (size : U64) (l : Freed) (hl : left (ChaCha.processPacketF r cs io size) = .ok l) :
    l = [Spec.ChaCha.keystream r key 1 nonce ((size.toNat + 63) / 64)] := by
  obtain ⟨x, h1, h2⟩ := Res.bind_eq_ok hl
  obtain rfl := Res.ok_inj.mp h2
  simp only [ChaCha.processPacketF] at h1
  split at h1
  · cases h1
  split at h1
  · cases h1
  obtain ⟨_, -, h1⟩ := Res.bind_eq_ok h1
  obtain ⟨_, -, h1⟩ := Res.bind_eq_ok h1
  have h3 := (Prod.mk.inj (Res.ok_inj.mp h1)).2
  rw [← h3, (ChaCha.ksLoop_eq r _ cs 1 [] (h.keyed hk hn)).2.2, show ((size.toNat + 3) / 4 + 15) / 16 = (size.toNat + 63) / 64 by omega,
    wordsToBytesLE_nil, List.nil_append]

/-- C150, ChaCha: whoever reads the block that one packet left decrypts, with an exclusive or, this packet and every packet of the same
key and nonce that is not longer. -/
theorem chacha_left_opens (r : Nat) (key nonce : List U8) (hk : key.length = 32) (hn : nonce.length = 12) (cs cs2 : ChaCha.State)
    (h : ChaCha.History r key nonce cs) (h2 : ChaCha.History r key nonce cs2) (p q : List U8) (hp : p.length < 2 ^ 31)
    (hq : q.length ≤ (p.length + 63) / 64 * 64) (hq2 : q.length < 2 ^ 31) :
    ∃ cs' cs2' b c, ChaCha.processPacketF r cs ⟨p, List.replicate p.length 0, false⟩ (BitVec.ofNat 64 p.length) = .ok (cs', [b]) ∧
      ChaCha.processPacket r cs2 ⟨q, List.replicate q.length 0, false⟩ (BitVec.ofNat 64 q.length) = .ok (cs2', ⟨q, c, false⟩) ∧
      xorBytes c b = q := by
  have e : ∀ n < 2 ^ 31, (BitVec.ofNat 64 n).toNat = n := fun n hn => by rw [BitVec.toNat_ofNat, Nat.mod_eq_of_lt (by omega)]
  obtain ⟨s1, -, e1⟩ := ChaCha.processPacket_eq (h.keyed hk hn) r (io := ⟨p, List.replicate p.length 0, false⟩) (size := BitVec.ofNat 64 p.length)
    (by rw [e _ hp]; exact hp) (by rw [e _ hp]; exact ⟨by simp [Io.src], by simp⟩)
  rw [← chacha_erase] at e1
  obtain ⟨⟨y, l⟩, f1, f2⟩ := Res.bind_eq_ok e1
  have hl := chacha_left r key nonce hk hn cs h ⟨p, List.replicate p.length 0, false⟩ (BitVec.ofNat 64 p.length) l (by rw [left, f1]; rfl)
  rw [e _ hp] at hl
  have hs := (Stream.chacha_isStream r key nonce).single (s := cs2) q (h2.keyed hk hn) hq2
  refine ⟨y, _, Spec.ChaCha.keystream r key 1 nonce ((p.length + 63) / 64), _, by rw [f1, hl], hs, ?_⟩
  have hpre : (Spec.ChaCha.keystream r key 1 nonce ((q.length + 63) / 64)).take q.length =
      (Spec.ChaCha.keystream r key 1 nonce ((p.length + 63) / 64)).take q.length :=
    (ChaCha.keystream_take r key nonce 1 _ _ q.length (by omega) (by omega)).symm
  rw [hpre, xorBytes_take_right]
  exact xorBytes_xorBytes _ _ (by rw [ChaCha.keystream_length]; omega)

example := chacha_left_opens 20 (List.replicate 32 7) (List.replicate 12 9) (by decide) (by decide) _ _ .init .init
  (List.replicate 70 1) (List.replicate 100 2) (by decide) (by decide) (by decide)

/-! ### Serpent and Sosemanuk -/

/-- C150, Serpent: the last word of the round keys is in the block that the key schedule gives back, and for Sosemanuk in that of
`sosemanuk_load_key`. -/
theorem serpent_key_left (key : List U8) (size : Int) (rk : List U32) (l : Freed)
    (h : Serpent.keyScheduleF key size = .ok (some rk, l)) : l = [bytesLE32 (rk.getD 99 0)] ∧
    ∀ cs, Sosemanuk.loadKeyF cs key size = .ok (some { cs with rk := rk }, [bytesLE32 (rk.getD 99 0)]) := by
  have e : l = [bytesLE32 (rk.getD 99 0)] := by
    rw [Serpent.keyScheduleF] at h
    split at h
    · cases h
    split at h
    · cases h
    obtain ⟨h1, h2⟩ := Prod.mk.inj (Res.ok_inj.mp h)
    obtain rfl := Option.some.inj h1
    rw [← h2]
    generalize Serpent.words (key.take size.toNat) = w
    have hs : ∀ (n b : Nat) (w : List U32) (k : Nat),
        (Serpent.rkLoop (n + 1) b w).getD (4 + k) 0 = (Serpent.rkLoop n (b + 1) (w.drop 4)).getD k 0 := by
      intro n b w k
      rw [Serpent.rkLoop, List.getD_eq_getElem?_getD, List.getElem?_append_right (by rw [Serpent.keyBlock_length]; omega),
        Serpent.keyBlock_length, Nat.add_sub_cancel_left, List.getD_eq_getElem?_getD]
    have hd : ∀ (j n b : Nat) (w : List U32),
        (Serpent.rkLoop (j + (n + 1)) b w).getD (4 * j + 3) 0 = (Serpent.rkLoop (n + 1) (b + j) (w.drop (4 * j))).getD 3 0 := by
      intro j
      induction j with
      | zero => intro n b w; rw [Nat.zero_add, Nat.mul_zero, List.drop_zero]; rfl
      | succ j ih =>
        intro n b w
        rw [show j + 1 + (n + 1) = (j + (n + 1)) + 1 by omega, show 4 * (j + 1) + 3 = 4 + (4 * j + 3) by omega, hs, ih, List.drop_drop,
          show b + 1 + j = b + (j + 1) by omega, show 4 + 4 * j = 4 * (j + 1) by omega]
    have h99 := hd 24 0 0 w
    have hg : ∀ i, (w.drop (4 * 24)).getD i 0 = w.getD (96 + i) 0 := by
      intro i; rw [List.getD_eq_getElem?_getD, List.getElem?_drop, List.getD_eq_getElem?_getD]
    rw [show (Serpent.rkLoop 25 0 w).getD 99 0 = _ from h99, Serpent.rkLoop, hg, hg, hg, hg]
    rfl
  refine ⟨e, fun cs => ?_⟩
  rw [Sosemanuk.loadKeyF, h, e]
  rfl

set_option maxRecDepth 10000 in
example : ∃ rk l, Serpent.keyScheduleF [1, 2, 3] 3 = .ok (some rk, l) := ⟨_, _, rfl⟩

/-- Two tables of round keys. -/
def rkA : List U32 := List.replicate 100 0
def rkB : List U32 := List.replicate 95 0 ++ [1, 0x1040, 2, 0x60000000, 0x80]

/-- C150, Serpent: the block that the packet function gives back tells more of the round keys than the words that it writes: they are the
same for these two tables. -/
theorem serpent_packet_left : ∃ l l' : Freed, ∃ o, Serpent.processPacketF rkA (List.replicate 16 0) 16 = .ok (o, l) ∧
    Serpent.processPacketF rkB (List.replicate 16 0) 16 = .ok (o, l') ∧ l ≠ l' := by
  have e : ∀ rk, Serpent.processPacketF rk (List.replicate 16 0) 16 = .ok (Serpent.roundsF rk 0 0 0 0) := fun _ => rfl
  have h1 : (Serpent.roundsF rkA 0 0 0 0).1 = (Serpent.roundsF rkB 0 0 0 0).1 := by decide +kernel
  have h2 : (Serpent.roundsF rkA 0 0 0 0).2 ≠ (Serpent.roundsF rkB 0 0 0 0).2 := by decide +kernel
  refine ⟨(Serpent.roundsF rkA 0 0 0 0).2, (Serpent.roundsF rkB 0 0 0 0).2, (Serpent.roundsF rkA 0 0 0 0).1, e _, ?_, h2⟩
  rw [e, h1]

theorem S7_scratch (a b c d : U32) : (Serpent.S7 a b c d).r2 =
    (Serpent.S7 a b c d).r0 ||| ((Serpent.S7 a b c d).r4 ^^^ (Serpent.S7 a b c d).r1) := by
  apply BitVec.eq_of_getLsbD_eq
  intro i hi
  simp only [Serpent.S7, BitVec.getLsbD_or, BitVec.getLsbD_xor, BitVec.getLsbD_and, BitVec.getLsbD_not, hi, decide_true, Bool.true_and]
  cases a.getLsbD i <;> cases b.getLsbD i <;> cases c.getLsbD i <;> cases d.getLsbD i <;> rfl

/-- C150, Serpent, exactly: with `y0 y1 y2 y3` the words before the last linear transformation, which are what the last four words and
the last round key determine, the block contains `y3 | (y0 ^ y2)`. -/
theorem serpent_packet_left_exact (rk : List U32) (inp : List U8) (o : List U32) (l : Freed)
    (h : Serpent.processPacketF rk inp 16 = .ok (o, l)) :
    ∃ y0 y1 y2 y3 : U32, Serpent.LT y0 y1 y2 y3 =
        ⟨o.getD 8 0 ^^^ rk.getD 96 0, o.getD 9 0 ^^^ rk.getD 97 0, o.getD 10 0 ^^^ rk.getD 98 0, o.getD 11 0 ^^^ rk.getD 99 0⟩ ∧
      l = [bytesLE32 (y3 ||| (y0 ^^^ y2))] := by
  have key : ∀ a b c d : U32, ∃ (p0 p1 p2 p3 p4 p5 p6 p7 : U32) (x : Serpent.Regs), Serpent.roundsF rk a b c d =
      ([p0, p1, p2, p3, p4, p5, p6, p7, (Serpent.lastKey rk (Serpent.round23 rk x)).r0, (Serpent.lastKey rk (Serpent.round23 rk x)).r1,
        (Serpent.lastKey rk (Serpent.round23 rk x)).r2, (Serpent.lastKey rk (Serpent.round23 rk x)).r3],
        [bytesLE32 (Serpent.lastKey rk (Serpent.round23 rk x)).r4]) := fun a b c d => ⟨_, _, _, _, _, _, _, _, _, rfl⟩
  have h' : ∃ a b c d : U32, Serpent.roundsF rk a b c d = (o, l) := by
    unfold Serpent.processPacketF at h
    by_cases h1 : inp.length < 16
    · rw [if_pos h1] at h; cases h
    · simp only [if_neg h1, show ¬ (16 : Nat) = 0 from by decide, show ¬ (16 : Nat) < 16 from by decide, if_false] at h
      split at h
      · exact ⟨_, _, _, _, Res.ok_inj.mp h⟩
      · cases h
  obtain ⟨a, b, c, d, h'⟩ := h'
  obtain ⟨p0, p1, p2, p3, p4, p5, p6, p7, x, hx⟩ := key a b c d
  rw [hx, Prod.mk.injEq] at h'
  obtain ⟨rfl, rfl⟩ := h'
  have k2 : ∀ u v : U32, u ^^^ v ^^^ v = u := fun u v => by rw [BitVec.xor_assoc, BitVec.xor_self, BitVec.xor_zero]
  generalize hq : Serpent.ARK rk x.r3 x.r2 x.r4 x.r1 23 = q
  refine ⟨(Serpent.S7 q.w0 q.w1 q.w2 q.w3).r4, (Serpent.S7 q.w0 q.w1 q.w2 q.w3).r3, (Serpent.S7 q.w0 q.w1 q.w2 q.w3).r1,
    (Serpent.S7 q.w0 q.w1 q.w2 q.w3).r0, ?_, ?_⟩
  · have e : ∀ r : Serpent.Regs, Serpent.ARK rk r.r3 r.r2 r.r4 r.r1 23 = q → ∃ r4, Serpent.round23 rk r =
        ⟨(Serpent.LT (Serpent.S7 q.w0 q.w1 q.w2 q.w3).r4 (Serpent.S7 q.w0 q.w1 q.w2 q.w3).r3 (Serpent.S7 q.w0 q.w1 q.w2 q.w3).r1
            (Serpent.S7 q.w0 q.w1 q.w2 q.w3).r0).w0,
          (Serpent.LT (Serpent.S7 q.w0 q.w1 q.w2 q.w3).r4 (Serpent.S7 q.w0 q.w1 q.w2 q.w3).r3 (Serpent.S7 q.w0 q.w1 q.w2 q.w3).r1
            (Serpent.S7 q.w0 q.w1 q.w2 q.w3).r0).w1,
          (Serpent.LT (Serpent.S7 q.w0 q.w1 q.w2 q.w3).r4 (Serpent.S7 q.w0 q.w1 q.w2 q.w3).r3 (Serpent.S7 q.w0 q.w1 q.w2 q.w3).r1
            (Serpent.S7 q.w0 q.w1 q.w2 q.w3).r0).w2,
          (Serpent.LT (Serpent.S7 q.w0 q.w1 q.w2 q.w3).r4 (Serpent.S7 q.w0 q.w1 q.w2 q.w3).r3 (Serpent.S7 q.w0 q.w1 q.w2 q.w3).r1
            (Serpent.S7 q.w0 q.w1 q.w2 q.w3).r0).w3, r4⟩ := by
      rintro r rfl
      exact ⟨_, rfl⟩
    obtain ⟨r4, e⟩ := e x hq
    rw [e]
    generalize Serpent.LT (Serpent.S7 q.w0 q.w1 q.w2 q.w3).r4 (Serpent.S7 q.w0 q.w1 q.w2 q.w3).r3 (Serpent.S7 q.w0 q.w1 q.w2 q.w3).r1
      (Serpent.S7 q.w0 q.w1 q.w2 q.w3).r0 = z
    simp [Serpent.lastKey, Serpent.ARK, k2]
  · rw [← S7_scratch, ← hq]
    rfl

example : ∃ o l, Serpent.processPacketF rkB (List.replicate 16 0) 16 = .ok (o, l) := ⟨_, _, rfl⟩

/-- C150, Sosemanuk: the block that is given back while the IV is loaded, in terms of the object that results and its round keys. -/
theorem sosemanuk_iv_left (cs cs' : Sosemanuk.State) (iv : List U8) (l : Freed) (h : Sosemanuk.loadIvF cs iv = .ok (cs', l)) :
    ∃ y0 y1 y2 y3 : U32, Serpent.LT y0 y1 y2 y3 =
        ⟨cs'.s3 ^^^ cs.rk.getD 96 0, cs'.s2 ^^^ cs.rk.getD 97 0, cs'.s1 ^^^ cs.rk.getD 98 0, cs'.s0 ^^^ cs.rk.getD 99 0⟩ ∧
      l = [bytesLE32 (y3 ||| (y0 ^^^ y2))] := by
  rw [Sosemanuk.loadIvF] at h
  obtain ⟨⟨i, l'⟩, h1, h⟩ := Res.bind_eq_ok h
  obtain ⟨y0, y1, y2, y3, h2, h3⟩ := serpent_packet_left_exact _ _ _ _ h1
  refine ⟨y0, y1, y2, y3, ?_⟩
  simp only [] at h
  split at h
  · have h := Res.ok_inj.mp h
    simp only [Prod.mk.injEq] at h
    obtain ⟨rfl, rfl⟩ := h
    exact ⟨h2, h3⟩
  · cases h

example : ∃ cs' l, Sosemanuk.loadIvF ⟨rkB, 0, 0, 0, 0, 0, 0, 0, 0, 0, 0, 0, 0⟩ (List.replicate 16 0) = .ok (cs', l) := ⟨_, _, rfl⟩

/-- C150, Serpent and Sosemanuk: a key of more than 32 bytes ends the program before there is any block. -/
theorem serpent_key_long_left (key : List U8) (size : Int) (h : 32 < size) (cs : Sosemanuk.State) :
    Serpent.keyScheduleF key size = .ok (none, []) ∧ Sosemanuk.loadKeyF cs key size = .ok (none, []) := by
  have e : Serpent.keyScheduleF key size = .ok (none, []) := by rw [Serpent.keyScheduleF, if_pos h]
  exact ⟨e, by rw [Sosemanuk.loadKeyF, e]; rfl⟩

theorem sos_packet_left (cs : Sosemanuk.State) (io : Io) (n : Nat) (hf : io.Fits n) :
    Sosemanuk.processPacketF cs io n = .ok ((blkState Sosemanuk.block (n / 16 + 1) cs,
      io.xored ((blkBytes Sosemanuk.block (n / 16 + 1) cs).take n)),
      (List.range (n / 16 + 1)).map fun i => blockLeft (blkState Sosemanuk.block i cs)) := by
  have he := Sosemanuk.processPacket_eq cs io n hf
  rw [← sos_packet_erase] at he
  obtain ⟨⟨x, l⟩, h1, h2⟩ := Res.bind_eq_ok he
  obtain rfl := Res.ok_inj.mp h2
  rw [h1]
  suffices l = (List.range (n / 16 + 1)).map fun i => blockLeft (blkState Sosemanuk.block i cs) by rw [this]
  have hb := Io.blockLoop_xored Sosemanuk.blockF (io := io) (n + 1) n 0 (cs, []) [] rfl (by omega) (hf.mono (by omega))
  rw [Io.xored_nil] at hb
  simp only [Sosemanuk.processPacketF, hb, Res.ok_bind, List.nil_append, Nat.zero_add] at h1
  rw [blkStateF, blockF_eq] at h1
  obtain ⟨_, -, h1⟩ := Res.bind_eq_ok h1
  obtain ⟨_, -, h1⟩ := Res.bind_eq_ok h1
  have h3 := (Prod.mk.inj (Res.ok_inj.mp h1)).2
  rw [← h3, List.nil_append, List.range_succ, List.map_append]
  rfl

theorem blkBytes_word (m i : Nat) (cs : Sosemanuk.State) (hi : i < m) :
    ((blkBytes Sosemanuk.block m cs).drop (16 * i + 12)).take 4 = bytesLE32 (Sosemanuk.block (blkState Sosemanuk.block i cs)).2.w3 := by
  obtain ⟨d, rfl⟩ := Nat.exists_eq_add_of_le (show i + 1 ≤ m by omega)
  rw [show i + 1 + d = i + (d + 1) by omega, blkBytes_add, List.drop_append, List.drop_eq_nil_of_le (by rw [blkBytes_length]; omega),
    List.nil_append, blkBytes_length, Nat.add_sub_cancel_left, blkBytes]
  generalize (Sosemanuk.block (blkState Sosemanuk.block i cs)).2 = q
  obtain ⟨a, b, c, e⟩ := q
  rfl

/-- C150, Sosemanuk: every sixteen bytes of a packet leave a block of four; whoever knows message and ciphertext gets from it the word
`s3` that the linear register had, every fourth of the words that it runs through. -/
theorem sosemanuk_packet_left (cs : Sosemanuk.State) (p : List U8) :
    ∃ cs' c l, Sosemanuk.processPacketF cs ⟨p, List.replicate p.length 0, false⟩ p.length = .ok ((cs', ⟨p, c, false⟩), l) ∧
      l.length = p.length / 16 + 1 ∧
      ∀ i < p.length / 16, xorBytes (l.getD i []) (((xorBytes p c).drop (16 * i + 12)).take 4) =
        bytesLE32 (blkState Sosemanuk.block i cs).s3 := by
  have hk : ((blkBytes Sosemanuk.block (p.length / 16 + 1) cs).take p.length).length = p.length := by
    rw [List.length_take, blkBytes_length]; omega
  have h := sos_packet_left cs ⟨p, List.replicate p.length 0, false⟩ p.length ⟨by simp [Io.src], by simp⟩
  have hx : (⟨p, List.replicate p.length 0, false⟩ : Io).xored ((blkBytes Sosemanuk.block (p.length / 16 + 1) cs).take p.length) =
      ⟨p, xorBytes p ((blkBytes Sosemanuk.block (p.length / 16 + 1) cs).take p.length), false⟩ := by
    simp [Io.xored, Io.src, hk]
  rw [hx] at h
  refine ⟨_, _, _, h, by simp, fun i hi => ?_⟩
  have hg : ((List.range (p.length / 16 + 1)).map fun i => blockLeft (blkState Sosemanuk.block i cs)).getD i [] =
      blockLeft (blkState Sosemanuk.block i cs) := by
    rw [List.getD_eq_getElem?_getD, List.getElem?_map, List.getElem?_range (by omega)]
    rfl
  have hks : xorBytes p (xorBytes p ((blkBytes Sosemanuk.block (p.length / 16 + 1) cs).take p.length)) =
      (blkBytes Sosemanuk.block (p.length / 16 + 1) cs).take p.length := by
    generalize (blkBytes Sosemanuk.block (p.length / 16 + 1) cs).take p.length = K at *
    rw [xorBytes_comm p K, xorBytes_comm p, xorBytes_xorBytes K p (by omega)]
  rw [hg, hks, List.drop_take, List.take_take, Nat.min_eq_left (by omega), blkBytes_word _ _ _ (by omega), blockLeft]
  generalize (Sosemanuk.block (blkState Sosemanuk.block i cs)).2.w3 = a
  generalize (blkState Sosemanuk.block i cs).s3 = b
  have e : ∀ k, byteN (a ^^^ b) k ^^^ byteN a k = byteN b k := by
    intro k
    rw [byteN_xor, BitVec.xor_comm (byteN a k), BitVec.xor_assoc, BitVec.xor_self, BitVec.xor_zero]
  show [byteN (a ^^^ b) 0 ^^^ byteN a 0, byteN (a ^^^ b) 1 ^^^ byteN a 1, byteN (a ^^^ b) 2 ^^^ byteN a 2, byteN (a ^^^ b) 3 ^^^ byteN a 3] = _
  rw [e, e, e, e]
  rfl

/-- The linear register of a state. -/
def reg (cs : Sosemanuk.State) : Sosemanuk.Reg := ⟨cs.s0, cs.s1, cs.s2, cs.s3, cs.s4, cs.s5, cs.s6, cs.s7, cs.s8, cs.s9⟩

theorem reg_block (cs : Sosemanuk.State) : reg (Sosemanuk.block cs).1 = (reg cs).four := rfl

theorem reg_fourths (n : Nat) : ∀ cs : Sosemanuk.State,
    (List.range n).map (fun i => (blkState Sosemanuk.block i cs).s3) = (reg cs).fourths n := by
  induction n with
  | zero => intro cs; rfl
  | succ n ih =>
    intro cs
    rw [List.range_succ_eq_map, List.map_cons, List.map_map, Sosemanuk.Reg.fourths, ← reg_block, ← ih]
    rfl

/-- C150, Sosemanuk: with a known message of at least 160 bytes, the first ten of the blocks give the whole linear register at the
beginning of the packet, 320 of the 384 bits of the state. -/
theorem sosemanuk_left_lfsr (cs : Sosemanuk.State) (p : List U8) (hp : 160 ≤ p.length) :
    ∃ cs' c l, Sosemanuk.processPacketF cs ⟨p, List.replicate p.length 0, false⟩ p.length = .ok ((cs', ⟨p, c, false⟩), l) ∧
      Sosemanuk.fromFourths ((List.range 10).map fun i =>
        (bytesToWordsLE (xorBytes (l.getD i []) (((xorBytes p c).drop (16 * i + 12)).take 4))).getD 0 0) =
        [cs.s0, cs.s1, cs.s2, cs.s3, cs.s4, cs.s5, cs.s6, cs.s7, cs.s8, cs.s9] := by
  obtain ⟨cs', c, l, h1, -, h2⟩ := sosemanuk_packet_left cs p
  refine ⟨cs', c, l, h1, ?_⟩
  have e : (List.range 10).map (fun i =>
      (bytesToWordsLE (xorBytes (l.getD i []) (((xorBytes p c).drop (16 * i + 12)).take 4))).getD 0 0) =
      (List.range 10).map (fun i => (blkState Sosemanuk.block i cs).s3) := by
    apply List.map_congr_left
    intro i hi
    rw [h2 i (by have := List.mem_range.mp hi; omega), show bytesLE32 (blkState Sosemanuk.block i cs).s3 =
      wordsToBytesLE [(blkState Sosemanuk.block i cs).s3] from (List.append_nil _).symm, bytesToWordsLE_wordsToBytesLE]
    rfl
  rw [e, reg_fourths]
  exact Sosemanuk.fromFourths_fourths (reg cs)

/-- The map on a register with given contents. -/
example : (Sosemanuk.Reg.fourths 10 ⟨1, 2, 3, 4, 5, 6, 7, 8, 9, 10⟩).take 3 = [4, 8, 0x180f43c7] ∧
    Sosemanuk.fromFourths (Sosemanuk.Reg.fourths 10 ⟨1, 2, 3, 4, 5, 6, 7, 8, 9, 10⟩) = [1, 2, 3, 4, 5, 6, 7, 8, 9, 10] := by
  decide +kernel

/-! ### AEGIS -/

/-- What the associated data leave. -/
def adLeft (ad : List U8) : Freed := if ad.length % 16 = 0 then [] else [ad ++ List.replicate (16 - ad.length % 16) 0]

theorem ad_left (rnd : Quad → Quad → Quad) (cs : AEGIS.State) (ad ex : List U8) (x : AEGIS.State × Freed)
    (h : AEGIS.processAdF rnd cs (ad ++ ex) ad.length = .ok x) : x.2 = adLeft ad := by
  rw [AEGIS.processAdF] at h
  rw [adLeft]
  split at h
  · rename_i h0
    rw [if_pos (by omega), ← Res.ok_inj.mp h]
  split at h
  · cases h
  split at h
  · cases h
  split at h
  · rename_i h1
    rw [if_neg h1, ← Res.ok_inj.mp h, List.take_left]
  · rename_i h1
    rw [if_pos (by omega), ← Res.ok_inj.mp h]

/-- C150, the part that holds: AEGIS gives back at most the padded associated data, whatever the key, the message and the verdict.
Missing: HMAC, ChaCha, Serpent and Sosemanuk, for which it is false (`heap_left_refuted`). -/
theorem aegis_left_partial (rnd : Quad → Quad → Quad) (cs : AEGIS.State) (io : Io) (ad ex iv tag : List U8) (m : Nat) :
    (∀ x l, AEGIS.encryptPacketF rnd cs io (ad ++ ex) iv ad.length m = .ok (x, l) → l = adLeft ad) ∧
    ∀ x l, AEGIS.decryptPacketF rnd cs io (ad ++ ex) iv tag ad.length m = .ok (x, l) → l = adLeft ad := by
  refine ⟨fun x l h => ?_, fun x l h => ?_⟩
  · simp only [AEGIS.encryptPacketF] at h
    obtain ⟨y, h1, h⟩ := Res.bind_eq_ok h
    obtain ⟨z, -, h⟩ := Res.bind_eq_ok h
    rw [← ad_left rnd _ ad ex y h1]
    exact (Prod.mk.inj (Res.ok_inj.mp h)).2.symm
  · simp only [AEGIS.decryptPacketF] at h
    obtain ⟨y, h1, h⟩ := Res.bind_eq_ok h
    obtain ⟨z, -, h⟩ := Res.bind_eq_ok h
    rw [← ad_left rnd _ ad ex y h1]
    generalize AEGIS.finalize rnd z.1 ad.length m = f at h
    by_cases hf : f.2 ≠ AES.quadOf tag
    · simp only [if_pos hf] at h
      obtain ⟨_, -, h⟩ := Res.bind_eq_ok h
      obtain ⟨_, -, h⟩ := Res.bind_eq_ok h
      exact (Prod.mk.inj (Res.ok_inj.mp h)).2.symm
    · simp only [if_neg hf] at h
      exact (Prod.mk.inj (Res.ok_inj.mp h)).2.symm

/-- C150 is false: what HMAC and the Serpent key schedule give back depends on the key, what ChaCha gives back as well, and what HMAC gives
back depends on the message. -/
theorem heap_left_refuted :
    (¬ ∀ (k k' : List U8) (cs cs' : HMAC.State), k.length = k'.length → HMAC.loadKey (fun _ => 0) k k.length = .ok cs →
      HMAC.loadKey (fun _ => 0) k' k'.length = .ok cs' →
      left (HMAC.tagGenerationF (fun _ => 0) cs (List.replicate 32 0) [1] 1 32) =
        left (HMAC.tagGenerationF (fun _ => 0) cs' (List.replicate 32 0) [1] 1 32)) ∧
    (¬ ∀ (cs : HMAC.State) (m m' : List U8), m.length = m'.length → HMAC.loadKey (fun _ => 0) [1] 1 = .ok cs →
      left (HMAC.tagGenerationF (fun _ => 0) cs (List.replicate 32 0) m m.length 32) =
        left (HMAC.tagGenerationF (fun _ => 0) cs (List.replicate 32 0) m' m'.length 32)) ∧
    (¬ ∀ (k k' nonce : List U8), k.length = 32 → k'.length = 32 → nonce.length = 12 →
      left (ChaCha.processPacketF 20 (ChaCha.init k nonce) ⟨[0], [0], false⟩ 1) =
        left (ChaCha.processPacketF 20 (ChaCha.init k' nonce) ⟨[0], [0], false⟩ 1)) ∧
    (¬ ∀ (k k' : List U8), k.length = 32 → k'.length = 32 → left (Serpent.keyScheduleF k 32) = left (Serpent.keyScheduleF k' 32)) := by
  refine ⟨fun h => ?_, fun h => ?_, fun h => ?_, fun h => ?_⟩
  · obtain ⟨cs, h1, h2⟩ := hmac_left (fun _ => 0) (fun _ => 0) [1] [1] [] [] (List.replicate 32 0) 32 (by decide) (by decide) (by decide)
      (by decide) (by decide)
    obtain ⟨cs', h1', h2'⟩ := hmac_left (fun _ => 0) (fun _ => 0) [2] [1] [] [] (List.replicate 32 0) 32 (by decide) (by decide) (by decide)
      (by decide) (by decide)
    have := h [1] [2] cs cs' rfl h1 h1'
    rw [show left (HMAC.tagGenerationF (fun _ => 0) cs (List.replicate 32 0) [1] 1 32) = _ from congrArg left h2,
      show left (HMAC.tagGenerationF (fun _ => 0) cs' (List.replicate 32 0) [1] 1 32) = _ from congrArg left h2'] at this
    have := (List.cons.inj (Res.ok_inj.mp this)).1
    exact absurd this (by decide)
  · obtain ⟨cs, h1, h2⟩ := hmac_left (fun _ => 0) (fun _ => 0) [1] [1] [] [] (List.replicate 32 0) 32 (by decide) (by decide) (by decide)
      (by decide) (by decide)
    obtain ⟨cs', h1', h2'⟩ := hmac_left (fun _ => 0) (fun _ => 0) [1] [2] [] [] (List.replicate 32 0) 32 (by decide) (by decide) (by decide)
      (by decide) (by decide)
    obtain rfl := Res.ok_inj.mp (h1.symm.trans h1')
    have := h cs [1] [2] rfl h1
    rw [show left (HMAC.tagGenerationF (fun _ => 0) cs (List.replicate 32 0) [1] ([1] : List U8).length 32) = _ from congrArg left h2,
      show left (HMAC.tagGenerationF (fun _ => 0) cs (List.replicate 32 0) [2] ([2] : List U8).length 32) = _ from congrArg left h2'] at this
    have := (List.cons.inj (Res.ok_inj.mp this)).1
    exact absurd (congrArg (fun l => l.getD 64 0) this) (by decide)
  · exact absurd (h (List.replicate 32 0) (List.replicate 32 1) (List.replicate 12 0) rfl rfl rfl) (by decide +kernel)
  · exact absurd (h (List.replicate 32 0) (List.replicate 32 1) rfl rfl) (by decide +kernel)

/-- Instances of the hypotheses: a key of sixteen bytes and a message of 70; a packet of 70 bytes and a longer one. -/
example : (List.replicate 16 (1 : U8)).length + 128 < 2 ^ 31 ∧ List.replicate 70 (2 : U8) ≠ [] ∧ 70 + 192 < 2 ^ 31 ∧ 16 ≤ 32 ∧
    128 ≤ (70 + 63) / 64 * 64 ∧ (Sosemanuk.processPacketF ⟨[], 1, 2, 3, 4, 5, 6, 7, 8, 9, 10, 11, 12⟩
      ⟨List.replicate 20 0, List.replicate 20 0, false⟩ 20).bind (fun x => .ok x.2.length) = .ok 2 := by decide +kernel

example : adLeft [1, 2, 3] = [[1, 2, 3, 0, 0, 0, 0, 0, 0, 0, 0, 0, 0, 0, 0, 0]] ∧ adLeft (List.replicate 16 1) = [] := by decide

/-- A packet of 70 bytes leaves 128 bytes of keystream. -/
example : left (ChaCha.processPacketF 20 (ChaCha.init (List.replicate 32 7) (List.replicate 12 9)) ⟨List.replicate 70 1, List.replicate 70 0, false⟩ 70) =
    .ok [Spec.ChaCha.keystream 20 (List.replicate 32 7) 1 (List.replicate 12 9) 2] := by
  obtain ⟨cs', -, b, -, h, -⟩ := chacha_left_opens 20 (List.replicate 32 7) (List.replicate 12 9) (by decide) (by decide) _ _ .init .init
    (List.replicate 70 1) [] (by decide) (by decide) (by decide)
  have h' : left (ChaCha.processPacketF 20 (ChaCha.init (List.replicate 32 7) (List.replicate 12 9)) ⟨List.replicate 70 1, List.replicate 70 0, false⟩ 70) =
    .ok [b] := by
      change (ChaCha.processPacketF 20 (ChaCha.init (List.replicate 32 7) (List.replicate 12 9)) ⟨List.replicate 70 1, List.replicate 70 0, false⟩ 70) = _ at h
      rw [h]; rfl
  rw [h', chacha_left 20 _ _ (by decide) (by decide) _ .init _ _ _ h']; rfl

end CT.Props.HeapLeft
