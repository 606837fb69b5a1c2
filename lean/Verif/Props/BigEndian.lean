import Verif.Model.BigEndian
import Verif.Props.ChaCha
import Verif.Props.HC128
import Verif.Props.SHA256
import Verif.Props.HMAC

/-! # C145: results do not depend on the byte order of the machine -/

namespace CT.Props.BigEndian
open CT

/-- The bytes of every word in the opposite order. -/
def rev4 : List U8 → List U8
  | a :: b :: c :: d :: t => d :: c :: b :: a :: rev4 t
  | t => t

theorem rev4_length : ∀ l : List U8, (rev4 l).length = l.length
  | a :: b :: c :: d :: t => by simp [rev4, rev4_length t]
  | [] => rfl
  | [_] => rfl
  | [_, _] => rfl
  | [_, _, _] => rfl

theorem rev4_rev4 : ∀ l : List U8, rev4 (rev4 l) = l
  | a :: b :: c :: d :: t => by simp [rev4, rev4_rev4 t]
  | [] => rfl
  | [_] => rfl
  | [_, _] => rfl
  | [_, _, _] => rfl

theorem wordsBE : ∀ l : List U8, bytesToWordsBE l = bytesToWordsLE (rev4 l)
  | a :: b :: c :: d :: t => by rw [bytesToWordsBE, rev4, bytesToWordsLE, wordsBE t]; rfl
  | [] => rfl
  | [_] => rfl
  | [_, _] => rfl
  | [_, _, _] => rfl

/-- A word with its bytes in the opposite order. -/
def rev32 (w : U32) : U32 := le32 (byteN w 3) (byteN w 2) (byteN w 1) (byteN w 0)

theorem byteN_rev32 (w : U32) : byteN (rev32 w) 0 = byteN w 3 ∧ byteN (rev32 w) 1 = byteN w 2 ∧
    byteN (rev32 w) 2 = byteN w 1 ∧ byteN (rev32 w) 3 = byteN w 0 := byteN_le32 _ _ _ _

theorem byteN_rev32' (w : U32) {n : Nat} (h : n < 4) : byteN (rev32 w) n = byteN w (3 - n) := by
  obtain ⟨h0, h1, h2, h3⟩ := byteN_rev32 w
  match n, h with
  | 0, _ => exact h0
  | 1, _ => exact h1
  | 2, _ => exact h2
  | 3, _ => exact h3

theorem bytes_rev32 (ws : List U32) : wordsToBytesLE (ws.map rev32) = rev4 (wordsToBytesLE ws) := by
  induction ws with
  | nil => rfl
  | cons w ws ih =>
    obtain ⟨h0, h1, h2, h3⟩ := byteN_rev32 w
    rw [List.map_cons, wordsToBytesLE_cons, wordsToBytesLE_cons, ih]
    simp only [bytesLE32, h0, h1, h2, h3, List.cons_append, List.nil_append, rev4]

theorem bytesBE (ws : List U32) : wordsToBytesBE ws = rev4 (wordsToBytesLE ws) := by
  induction ws with
  | nil => rfl
  | cons w ws ih =>
    rw [wordsToBytesLE_cons, wordsToBytesBE, List.flatMap_cons, ← wordsToBytesBE, ih]
    simp only [bytesBE32, bytesLE32, List.cons_append, List.nil_append, rev4]

theorem xor32BE_eq (io : Io) (i : Nat) (k : U32) : io.xor32BE i k = io.xor32 i (rev32 k) := by
  obtain ⟨r0, r1, r2, r3⟩ := byteN_rev32 k
  simp only [Io.xor32BE, Io.xor32, Io.rd32BE, Io.rd32, Io.wr32BE, Io.wr32, Res.bind_assoc]
  cases io.rd8 i with
  | ub w => rfl
  | ok b0 =>
  cases io.rd8 (i + 1) with
  | ub w => rfl
  | ok b1 =>
  cases io.rd8 (i + 2) with
  | ub w => rfl
  | ok b2 =>
  cases io.rd8 (i + 3) with
  | ub w => rfl
  | ok b3 =>
    obtain ⟨k0, k1, k2, k3⟩ := byteN_le32 b0 b1 b2 b3
    obtain ⟨l0, l1, l2, l3⟩ := byteN_le32 b3 b2 b1 b0
    have e : be32 b0 b1 b2 b3 = le32 b3 b2 b1 b0 := rfl
    simp only [Res.ok_bind, Res.pure_eq, e, byteN_xor, k0, k1, k2, k3, l0, l1, l2, l3, r0, r1, r2, r3]

theorem ksGet_rev (ks : List U32) (i : Nat) : ksGet (ks.map rev32) i = (do let k ← ksGet ks i; pure (rev32 k)) := by
  simp only [ksGet, List.getElem?_map]
  cases ks[i]? <;> rfl

theorem wordLoopBE_eq (ks : List U32) (fuel n idx off : Nat) (io : Io) :
    Io.wordLoopBE ks fuel n idx off io = Io.wordLoop (ks.map rev32) fuel n idx off io := by
  induction fuel generalizing n idx off io with
  | zero => rfl
  | succ fuel ih => simp only [Io.wordLoopBE, Io.wordLoop, ksGet_rev, Res.bind_assoc, Res.pure_eq, Res.ok_bind, xor32BE_eq, ih]

theorem byteLoopBE_eq (ks : List U32) (n j off : Nat) (io : Io) :
    Io.byteLoopBE ks n j off io = Io.byteLoop (ks.map rev32) n j off io := by
  induction n generalizing j off io with
  | zero => rfl
  | succ n ih =>
    simp only [Io.byteLoopBE, Io.byteLoop, ksGet_rev, Res.bind_assoc, Res.pure_eq, Res.ok_bind,
      byteN_rev32' _ (Nat.mod_lt _ (by decide)), ih]

/-- Both loops on a big-endian machine. -/
theorem loopsBE (ks : List U32) (io : Io) (n : Nat) (hk : n ≤ 4 * ks.length) (hf : io.Fits n) :
    (do
      let (rest, i, off, io) ← Io.wordLoopBE ks (n + 1) n 0 0 io
      Io.byteLoopBE ks rest (4 * i) off io) = .ok (io.xored ((rev4 (wordsToBytesLE ks)).take n)) := by
  have h := Io.loops_xored (ks.map rev32) (io := io) (n + 1) n 0 0 [] rfl (by omega) (by rw [List.length_map]; omega)
    (by rw [Nat.zero_add]; exact hf)
  rw [Io.xored_nil, bytes_rev32, Nat.mul_zero, List.drop_zero, List.nil_append] at h
  simp only [wordLoopBE_eq, byteLoopBE_eq]
  exact h

/-! ### ChaCha -/

theorem chacha_init (key nonce : List U8) : ChaCha.initBE key nonce = ChaCha.init (rev4 key) (rev4 nonce) := by
  simp only [ChaCha.initBE, ChaCha.init, wordsBE]

theorem chacha_keyed {key nonce : List U8} (hk : key.length = 32) (hn : nonce.length = 12) :
    ChaCha.Keyed (ChaCha.initBE key nonce) (rev4 key) (rev4 nonce) := by
  rw [chacha_init]
  exact ⟨1, ChaCha.init_eq (by rw [rev4_length]; exact hk) (by rw [rev4_length]; exact hn)⟩

/-- C145, ChaCha, what happens: on a big-endian machine the keystream is that of RFC 7539 for key and nonce with the bytes of every
word reversed, again with the bytes of every word reversed. -/
theorem chacha_big_endian (rounds : Nat) (key nonce : List U8) (hk : key.length = 32) (hn : nonce.length = 12) (io : Io) (size : U64)
    (hs : size.toNat < 2 ^ 31) (hf : io.Fits size.toNat) :
    ∃ cs', ChaCha.processPacketBE rounds (ChaCha.initBE key nonce) io size = .ok (cs',
      { io with
        out := xorBytes (io.src.take size.toNat)
          (rev4 (Spec.ChaCha.keystream rounds (rev4 key) 1 (rev4 nonce) ((size.toNat + 63) / 64))) ++ io.out.drop size.toNat }) := by
  obtain ⟨k1, k2, k3⟩ := ChaCha.ksLoop_eq rounds ((size.toNat + 63) / 64) _ 1 [] (chacha_keyed hk hn)
  have e : ((size.toNat + 3) / 4 + 15) / 16 = (size.toNat + 63) / 64 := by omega
  have he := ChaCha.effective_small hs
  rw [ChaCha.effective] at he
  refine ⟨(ChaCha.ksLoop rounds ((size.toNat + 63) / 64) (ChaCha.initBE key nonce) 1 []).1, ?_⟩
  simp only [ChaCha.processPacketBE, e]
  rw [if_neg (by omega), if_neg (by omega), he]
  generalize hr : ChaCha.ksLoop rounds ((size.toNat + 63) / 64) (ChaCha.initBE key nonce) 1 [] = r at *
  have h := loopsBE r.2 io size.toNat (by rw [k2]; simp; omega) hf
  rw [k3, wordsToBytesLE_nil, List.nil_append] at h
  cases hw : Io.wordLoopBE r.2 (size.toNat + 1) size.toNat 0 0 io with
  | ub w => rw [hw] at h; cases h
  | ok v =>
    rw [hw] at h
    simp only [Res.ok_bind] at h ⊢
    rw [h]
    have hl : ((rev4 (Spec.ChaCha.keystream rounds (rev4 key) 1 (rev4 nonce) ((size.toNat + 63) / 64))).take size.toNat).length =
        size.toNat := by
      rw [List.length_take, rev4_length, ChaCha.keystream_length]; omega
    have hs1 := hf.1
    simp only [Res.ok_bind, Res.pure_eq, Io.xored, hl]
    have hx := xorBytes_take_right (io.src.take size.toNat)
      (rev4 (Spec.ChaCha.keystream rounds (rev4 key) 1 (rev4 nonce) ((size.toNat + 63) / 64)))
    rw [List.length_take, Nat.min_eq_left hs1] at hx
    rw [hx]

example := chacha_big_endian 20 (List.replicate 32 1) (List.replicate 12 2) (by simp) (by simp) ⟨List.replicate 70 3, List.replicate 75 0, false⟩ 70
  (by decide) (by decide)

/-! ### HC-128 -/

theorem hc128_init (key iv : List U8) : HC128.initBE key iv = HC128.init (rev4 key) (rev4 iv) := by
  rw [HC128.initBE, HC128.init, HC128.wArrayBE, HC128.wArray, wordsBE, wordsBE]

/-- The HC-128 packet function on a big-endian machine. -/
theorem hc128_packetBE (cs : HC128.State) (io : Io) (n : Nat) (hn : n ≤ 2 ^ 33 - 8) (hf : io.Fits n) :
    HC128.processPacketBE cs io n = .ok (HC128.pktNext cs n,
      io.xored ((rev4 (wordsToBytesLE (HC128.gen ((n + 3) / 4) 0 cs).2)).take n)) := by
  rw [HC128.processPacketBE]
  by_cases h0 : n < 1
  · have : n = 0 := by omega
    subst this
    rw [if_pos h0]
    simp [HC128.pktNext, HC128.gen, Io.xored_nil]
  · rw [if_neg h0, if_neg (by omega), show (n - 1) / 4 + 1 = (n + 3) / 4 by omega]
    generalize hr : HC128.gen ((n + 3) / 4) 0 cs = r
    have hl : r.2.length = (n + 3) / 4 := by rw [← hr]; exact HC128.gen_length _ _ _
    have h := loopsBE r.2 io n (by rw [hl]; omega) hf
    simp only
    cases hw : Io.wordLoopBE r.2 (n + 1) n 0 0 io with
    | ub w => rw [hw] at h; cases h
    | ok v =>
      rw [hw] at h
      simp only [Res.ok_bind] at h ⊢
      rw [h, HC128.pktNext, hr]
      rfl

/-- C145, HC-128, what happens: likewise. -/
theorem hc128_big_endian (key iv : List U8) (hk : key.length = 16) (hi : iv.length = 16) (io : Io) (size : Nat)
    (hs : size ≤ 2 ^ 33 - 8) (hf : io.Fits size) :
    ∃ cs', HC128.processPacketBE (HC128.initBE key iv) io size = .ok (cs',
      { io with
        out := xorBytes (io.src.take size)
          (rev4 (Spec.HC128.keystream (rev4 key) (rev4 iv) (4 * ((size + 3) / 4)))) ++ io.out.drop size }) := by
  have hk' : (rev4 key).length = 16 := by rw [rev4_length]; exact hk
  have hi' : (rev4 iv).length = 16 := by rw [rev4_length]; exact hi
  have hks := HC128.keystream_eq (rev4 key) (rev4 iv) hk' hi' (4 * ((size + 3) / 4))
  have hg : wordsToBytesLE (CT.HC128.gen ((size + 3) / 4) 0 (CT.HC128.init (rev4 key) (rev4 iv))).2 =
      Spec.HC128.keystream (rev4 key) (rev4 iv) (4 * ((size + 3) / 4)) := by
    rw [← hks, CT.HC128.pktKs, show (4 * ((size + 3) / 4) + 3) / 4 = (size + 3) / 4 by omega,
      List.take_of_length_le (by rw [wordsToBytesLE_length, CT.HC128.gen_length]; omega)]
  have hlen : (Spec.HC128.keystream (rev4 key) (rev4 iv) (4 * ((size + 3) / 4))).length = 4 * ((size + 3) / 4) := by
    rw [← hks, CT.HC128.pktKs_length]
  refine ⟨HC128.pktNext (HC128.init (rev4 key) (rev4 iv)) size, ?_⟩
  rw [hc128_packetBE _ _ _ hs hf, hc128_init, hg]
  have hl : ((rev4 (Spec.HC128.keystream (rev4 key) (rev4 iv) (4 * ((size + 3) / 4)))).take size).length = size := by
    rw [List.length_take, rev4_length, hlen]; omega
  have hs1 := hf.1
  have hx := xorBytes_take_right (io.src.take size) (rev4 (Spec.HC128.keystream (rev4 key) (rev4 iv) (4 * ((size + 3) / 4))))
  rw [List.length_take, Nat.min_eq_left hs1] at hx
  rw [Io.xored, hl, hx]

example := hc128_big_endian (List.replicate 16 1) (List.replicate 16 2) (by simp) (by simp) ⟨List.replicate 70 3, List.replicate 75 0, true⟩ 70
  (by decide) (by decide)

/-! ### SHA-256 -/

/-- The two byte orders differ in the final store only. -/
theorem sha256_rev (grow : Nat → Bool) (junk : Nat → U8) (dst msg : List U8) (n : Nat) (d : List U8) (hd : 32 ≤ dst.length)
    (hl : d.length = 32) (h : SHA256.processWith grow junk dst msg n = .ok (d ++ dst.drop 32)) :
    SHA256.processWithBE grow junk dst msg n = .ok (rev4 d ++ dst.drop 32) := by
  simp only [SHA256.processWith, SHA256.processWithBE] at h ⊢
  generalize (if grow n then n / 64 * 64 + 128 else n / 64 * 64 + 64) = m at *
  split at h
  · cases h
  split at h
  · cases h
  rw [if_neg (by assumption), if_neg (by assumption)]
  cases h1 : Mem.wrs ((List.range m).map junk) 0 (msg.take n) with
  | ub w => rw [h1] at h; cases h
  | ok a =>
  rw [h1] at h
  simp only [Res.ok_bind] at h ⊢
  cases h2 : SHA256.padMessage a n with
  | ub w => rw [h2] at h; cases h
  | ok b =>
  rw [h2] at h
  simp only [Res.ok_bind] at h ⊢
  cases h3 : SHA256.blockLoop b (m / 64) 0 SHA256.H0 with
  | ub w => rw [h3] at h; cases h
  | ok H =>
  rw [h3] at h
  simp only [Res.ok_bind] at h ⊢
  have hw : (wordsToBytesLE (H.toList.map SHA256.swapWord)).length = 32 := by
    rw [wordsToBytesLE_length, List.length_map, Vector.length_toList]
  rw [Mem.wrs_eq _ _ (by rw [hw]; omega), hw, List.take_zero, List.nil_append, Nat.zero_add] at h
  have e := List.append_inj_left (Res.ok_inj.mp h) (by rw [hw, hl])
  rw [bytesBE, e, Mem.wrs_eq _ _ (by rw [rev4_length, hl]; omega), rev4_length, hl, List.take_zero, List.nil_append, Nat.zero_add]

/-- C145, SHA-256, what happens: on a big-endian machine the digest is the FIPS 180-4 digest with the bytes of every word reversed. -/
theorem sha256_big_endian (junk : Nat → U8) (dst msg extra : List U8) (hs : msg.length + 128 < 2 ^ 31) (hd : 32 ≤ dst.length) :
    SHA256.hmacCopyBE junk dst (msg ++ extra) msg.length = .ok (rev4 (Spec.SHA256.digest msg) ++ dst.drop 32) :=
  sha256_rev _ junk dst _ _ _ hd (CT.SHA256.digest_length _)
    (CT.SHA256.processWith_ok _ junk dst msg extra rfl hs hd)

/-- The same for the other copy, except for the lengths it pads wrongly anyway. -/
theorem sha256_hash_big_endian (junk : Nat → U8) (dst msg extra : List U8) (hs : msg.length + 128 < 2 ^ 31) (hd : 32 ≤ dst.length)
    (h63 : msg.length % 64 ≠ 63) :
    SHA256.hashCopyBE junk dst (msg ++ extra) msg.length = .ok (rev4 (Spec.SHA256.digest msg) ++ dst.drop 32) :=
  sha256_rev _ junk dst _ _ _ hd (CT.SHA256.digest_length _)
    (CT.SHA256.processWith_ok _ junk dst msg extra (by
      by_cases h : msg.length % 64 ≥ 56
      · have : (msg.length + 1) % 64 > 56 := by omega
        simp [h, this]
      · have : ¬ (msg.length + 1) % 64 > 56 := by omega
        simp [h, this]) hs hd)

example := sha256_hash_big_endian (fun _ => 5) (List.replicate 33 1) [0x61, 0x62, 0x63] [7] (by simp) (by simp) (by simp)

/-! ### HMAC -/

/-- HMAC over the hash function that reverses the bytes of every word of the digest (in the notation of RFC 2104: `H` is that
function). -/
def hmacRev (k msg : List U8) : List U8 :=
  let H := fun m => rev4 (Spec.SHA256.digest m)
  let k0 := (if k.length > 64 then H k else k)
  let key := k0 ++ List.replicate (64 - k0.length) 0
  H (key.map (· ^^^ 0x5c) ++ H (key.map (· ^^^ 0x36) ++ msg))

/-- The key of `hmacRev`. -/
def normRev (k : List U8) : List U8 :=
  let k0 := (if k.length > 64 then rev4 (Spec.SHA256.digest k) else k)
  k0 ++ List.replicate (64 - k0.length) 0

theorem revDigest_length (m : List U8) : (rev4 (Spec.SHA256.digest m)).length = 32 := by
  rw [rev4_length, CT.SHA256.digest_length]

theorem normRev_length (k : List U8) : (normRev k).length = 64 := by
  simp only [normRev]
  split
  · simp [revDigest_length]
  · simp; omega

theorem loadKeyBE_ok (junk : Nat → U8) (k extra : List U8) (hk : k.length + 128 < 2 ^ 31) :
    HMAC.loadKeyBE junk (k ++ extra) k.length =
      .ok { innerKey := (normRev k).map (· ^^^ 0x36), outerKey := (normRev k).map (· ^^^ 0x5c) } := by
  have comm : ∀ (c : U8) (l : List U8), l.map (c ^^^ ·) = l.map (· ^^^ c) := by
    intro c l
    congr 1
    funext x
    exact BitVec.xor_comm c x
  by_cases h : k.length > 64
  · have h' : (k.length : Int) > 64 := by omega
    simp only [HMAC.loadKeyBE, h', if_true, Int.toNat_natCast]
    rw [sha256_big_endian junk _ k extra hk (by simp)]
    simp only [Res.ok_bind]
    have ht : (rev4 (Spec.SHA256.digest k) ++ ((List.range 32).map junk).drop 32).take 32 = rev4 (Spec.SHA256.digest k) :=
      List.take_left' (revDigest_length k)
    rw [ht, Mem.wrs_eq _ _ (by rw [revDigest_length]; simp)]
    simp only [Res.ok_bind, revDigest_length, List.take_zero, List.nil_append, Nat.zero_add]
    rw [Mem.wrs_eq _ _ (by simp [revDigest_length])]
    have e : List.take 32 (rev4 (Spec.SHA256.digest k) ++ List.drop 32 (List.map junk (List.range 64))) ++ List.replicate (64 - 32) 0 ++
        List.drop (32 + (List.replicate (64 - 32) (0 : U8)).length)
          (rev4 (Spec.SHA256.digest k) ++ List.drop 32 (List.map junk (List.range 64))) = normRev k := by
      rw [List.take_left' (revDigest_length k), List.drop_eq_nil_of_le (by simp [revDigest_length]), List.append_nil]
      simp [normRev, h, revDigest_length]
    rw [e]
    simp only [Res.ok_bind, comm]
  · have h' : ¬ (k.length : Int) > 64 := by omega
    simp only [HMAC.loadKeyBE, h', if_false, Int.toNat_natCast, HMAC.memcpyInt]
    rw [if_neg (by omega), if_neg (by simp), List.take_left, Mem.wrs_eq _ _ (by simp; omega)]
    simp only [Res.ok_bind, List.take_zero, List.nil_append, Nat.zero_add]
    rw [Mem.wrs_eq _ _ (by simp)]
    have e : List.take k.length (k ++ List.drop k.length (List.map junk (List.range 64))) ++ List.replicate (64 - k.length) 0 ++
        List.drop (k.length + (List.replicate (64 - k.length) (0 : U8)).length)
          (k ++ List.drop k.length (List.map junk (List.range 64))) = normRev k := by
      rw [List.take_left, List.drop_eq_nil_of_le (by simp), List.append_nil]
      simp [normRev, h]
    rw [e]
    simp only [Res.ok_bind, comm]

theorem tagGenerationBE_mid (junk : Nat → U8) (key tag msg extra : List U8) (n : Int) (hkey : key.length = 64)
    (h0 : msg ≠ []) (hm : msg.length + 192 < 2 ^ 31) :
    HMAC.tagGenerationBE junk ⟨key.map (· ^^^ 0x36), key.map (· ^^^ 0x5c)⟩ tag (msg ++ extra) msg.length n =
      HMAC.memcpyInt tag 0 (rev4 (Spec.SHA256.digest (key.map (· ^^^ 0x5c) ++
        rev4 (Spec.SHA256.digest (key.map (· ^^^ 0x36) ++ msg))))) n := by
  have hm0 : ¬ msg.length < 1 := by
    have := List.length_pos_iff.2 h0; omega
  have li : (key.map (· ^^^ 0x36)).length = 64 := by simp [hkey]
  have lo : (key.map (· ^^^ 0x5c)).length = 64 := by simp [hkey]
  simp only [HMAC.tagGenerationBE, hm0, if_false]
  generalize hI : key.map (· ^^^ 0x36) = I at *
  generalize hO : key.map (· ^^^ 0x5c) = O at *
  rw [List.take_of_length_le (l := I) (by omega), List.take_of_length_le (l := O) (by omega), List.take_left]
  rw [Mem.wrs_eq _ _ (by simp [li])]
  simp only [Res.ok_bind, List.take_zero, List.nil_append, Nat.zero_add]
  rw [if_neg (by simp), Mem.wrs_eq _ _ (by simp [li, Nat.add_comm])]
  simp only [Res.ok_bind]
  have e1 : List.take 64 (I ++ List.drop I.length (List.map junk (List.range (msg.length + 64)))) ++ msg ++
      List.drop (64 + msg.length) (I ++ List.drop I.length (List.map junk (List.range (msg.length + 64)))) = (I ++ msg) ++ [] := by
    rw [List.take_left' li, List.drop_eq_nil_of_le (by simp [li])]
  have e2 : msg.length + 64 = (I ++ msg).length := by simp [li]; omega
  have hh := sha256_big_endian junk ((List.range 32).map junk) (I ++ msg) [] (by simp [li]; omega) (by simp)
  rw [← e2] at hh
  rw [e1, hh]
  simp only [Res.ok_bind]
  rw [Mem.wrs_eq _ _ (by simp [lo]), List.take_left' (revDigest_length _)]
  simp only [Res.ok_bind, List.take_zero, List.nil_append, Nat.zero_add, lo]
  rw [Mem.wrs_eq _ _ (by simp [lo, revDigest_length])]
  simp only [Res.ok_bind]
  have e3 : List.take 64 (O ++ List.drop 64 (List.replicate 96 0)) ++ rev4 (Spec.SHA256.digest (I ++ msg)) ++
      List.drop (64 + (rev4 (Spec.SHA256.digest (I ++ msg))).length) (O ++ List.drop 64 (List.replicate 96 0)) =
      (O ++ rev4 (Spec.SHA256.digest (I ++ msg))) ++ [] := by
    rw [List.take_left' lo, List.drop_eq_nil_of_le (by simp [lo, revDigest_length])]
  have e4 : 96 = (O ++ rev4 (Spec.SHA256.digest (I ++ msg))).length := by simp [lo, revDigest_length]
  rw [e3]
  have := sha256_big_endian junk ((List.range 32).map junk) (O ++ rev4 (Spec.SHA256.digest (I ++ msg))) []
    (by simp [lo, revDigest_length]) (by simp)
  rw [← e4] at this
  rw [this]
  have hd : ((List.range 32).map junk).drop 32 = [] := List.drop_eq_nil_of_le (by simp)
  rw [hd, List.append_nil]
  rfl

/-- C145, HMAC, what happens: the tags are those of HMAC over the hash function with reversed words. -/
theorem hmac_big_endian (junk junk' : Nat → U8) (k msg ek em tag : List U8) (n : Nat)
    (hk : k.length + 128 < 2 ^ 31) (h0 : msg ≠ []) (hm : msg.length + 192 < 2 ^ 31) (hn : n ≤ 32) (ht : n ≤ tag.length) :
    (do let cs ← HMAC.loadKeyBE junk (k ++ ek) k.length
        HMAC.tagGenerationBE junk' cs tag (msg ++ em) msg.length n) = .ok ((hmacRev k msg).take n ++ tag.drop n) := by
  have lh : (hmacRev k msg).length = 32 := revDigest_length _
  rw [loadKeyBE_ok junk k ek hk, Res.ok_bind, tagGenerationBE_mid junk' _ tag msg em n (normRev_length k) h0 hm]
  show HMAC.memcpyInt tag 0 (hmacRev k msg) n = _
  rw [HMAC.memcpyInt, if_neg (by omega), if_neg (by rw [lh, Int.toNat_natCast]; omega),
    Int.toNat_natCast, Mem.wrs_eq _ _ (by simp [lh]; omega)]
  simp [lh, Nat.min_eq_left hn]

example : (do let cs ← HMAC.loadKeyBE (fun _ => 0) ([1, 2] ++ []) 2
              HMAC.tagGenerationBE (fun _ => 9) cs (List.replicate 16 0) ([3] ++ []) 1 16) =
    .ok ((hmacRev [1, 2] [3]).take 16 ++ []) :=
  hmac_big_endian _ _ [1, 2] [3] [] [] (List.replicate 16 0) 16 (by simp) (by simp) (by simp) (by simp) (by simp)

example : SHA256.hmacCopyBE (fun _ => 5) (List.replicate 33 1) ([0x61, 0x62, 0x63] ++ [7]) 3 =
    .ok (rev4 (Spec.SHA256.digest [0x61, 0x62, 0x63]) ++ [1]) :=
  sha256_big_endian _ _ [0x61, 0x62, 0x63] [7] (by simp) (by simp)

/-! ### The property -/

/-- C145 fails: for the key and the nonce of zeros already the first byte differs. -/
theorem byte_order_refuted : ¬ ∀ (key nonce : List U8) (io : Io) (size : U64), key.length = 32 → nonce.length = 12 →
    size.toNat < 2 ^ 31 → io.Fits size.toNat →
    (do let r ← ChaCha.processPacketBE 20 (ChaCha.initBE key nonce) io size; pure r.2 : Res Io) =
      (do let r ← ChaCha.processPacket 20 (ChaCha.init key nonce) io size; pure r.2) := by
  intro h
  have := h (List.replicate 32 0) (List.replicate 12 0) ⟨[0], [0], false⟩ 1 rfl rfl (by decide) (by decide)
  revert this
  decide +kernel

/-- C145, what holds: machines of the same byte order understand each other.  A packet processed twice on a big-endian machine is the
message again. -/
theorem byte_order_partial (rounds : Nat) (key nonce : List U8) (hk : key.length = 32) (hn : nonce.length = 12)
    (msg buf1 buf2 : List U8) (size : U64) (hsz : size.toNat = msg.length) (hs : msg.length < 2 ^ 31)
    (hb1 : msg.length ≤ buf1.length) (hb2 : msg.length ≤ buf2.length) :
    ∃ cs1 cs2 ct, ct.length = msg.length ∧
      ChaCha.processPacketBE rounds (ChaCha.initBE key nonce) ⟨msg, buf1, false⟩ size =
        .ok (cs1, ⟨msg, ct ++ buf1.drop msg.length, false⟩) ∧
      ChaCha.processPacketBE rounds (ChaCha.initBE key nonce) ⟨ct, buf2, false⟩ size =
        .ok (cs2, ⟨ct, msg ++ buf2.drop msg.length, false⟩) := by
  have hl : msg.length ≤ (rev4 (Spec.ChaCha.keystream rounds (rev4 key) 1 (rev4 nonce) ((size.toNat + 63) / 64))).length := by
    rw [rev4_length, CT.ChaCha.keystream_length]; omega
  obtain ⟨c1, e1⟩ := chacha_big_endian rounds key nonce hk hn ⟨msg, buf1, false⟩ size (by omega) ⟨by simp [Io.src]; omega, hsz ▸ hb1⟩
  have hct : (xorBytes msg (rev4 (Spec.ChaCha.keystream rounds (rev4 key) 1 (rev4 nonce) ((size.toNat + 63) / 64)))).length =
      msg.length := by
    rw [xorBytes_length]; omega
  obtain ⟨c2, e2⟩ := chacha_big_endian rounds key nonce hk hn
    ⟨xorBytes msg (rev4 (Spec.ChaCha.keystream rounds (rev4 key) 1 (rev4 nonce) ((size.toNat + 63) / 64))), buf2, false⟩ size (by omega)
    ⟨by simp only [Io.src]; rw [if_neg (by simp), hct]; omega, hsz ▸ hb2⟩
  refine ⟨c1, c2, _, hct, ?_, ?_⟩
  · rw [e1]
    simp only [Io.src, hsz]
    simp
  · rw [e2]
    simp only [Io.src, hsz] at hct ⊢
    simp only [Bool.false_eq_true, if_false]
    rw [List.take_of_length_le (by omega), xorBytes_xorBytes _ _ (by rw [hsz] at hl; exact hl)]

example : (3#64).toNat = ([1, 2, 3] : List U8).length ∧ ([1, 2, 3] : List U8).length ≤ (List.replicate 4 (0 : U8)).length := by decide

end CT.Props.BigEndian
