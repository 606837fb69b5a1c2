import Verif.Model.AEGISArray
import Verif.Props.OverlapBlock
import Verif.Props.AEGIS

/-!
# C149: AEGIS packets in one array
-/

namespace CT.Props.AEGISArray
open CT CT.AEGIS CT.Props.AEGIS

/-- `n` bytes of an array. -/
def part (mem : List U8) (a n : Nat) : List U8 := (mem.drop a).take n

/-- Bytes of an array replaced. -/
def put (mem : List U8) (a : Nat) (bs : List U8) : List U8 := mem.take a ++ bs ++ mem.drop (a + bs.length)

theorem part_length {mem : List U8} {a n : Nat} (h : a + n ≤ mem.length) : (part mem a n).length = n := by
  rw [part, List.length_take, List.length_drop]
  omega

theorem put_length {mem : List U8} {a : Nat} {bs : List U8} (h : a + bs.length ≤ mem.length) : (put mem a bs).length = mem.length := by
  rw [put, List.length_append, List.length_append, List.length_take, List.length_drop]
  omega

theorem copy_part (mem : List U8) (n a : Nat) (h : a + n ≤ mem.length) : copy (Mem.rd mem) n a = .ok (part mem a n) := by
  have := copy_list (Mem.rd mem) (part mem a n) a (fun i hi => by
    rw [part_length h] at hi
    rw [Mem.rd_eq (by omega), part, List.getD_eq_getElem?_getD, List.getElem?_take, if_pos hi, List.getElem?_drop,
      List.getElem?_eq_getElem (by omega), Option.getD_some])
  rwa [part_length h] at this

theorem processAd_part (rnd : Quad → Quad → Quad) (cs : State) (mem : List U8) (a n : Nat) (h : a + n ≤ mem.length) :
    processAd rnd cs (mem.drop a) n = processAd rnd cs (part mem a n) n := by
  have h1 : ¬ (mem.drop a).length < n := by rw [List.length_drop]; omega
  have h2 : ¬ (part mem a n).length < n := by rw [part_length h]; omega
  rw [processAd, processAd, if_neg h1, if_neg h2, part, List.take_take, Nat.min_self]

/-- Encryption in one array is encryption with copies of IV and associated data, after which the tag is stored. -/
theorem encryptParts_eq (rnd : Quad → Quad → Quad) (cs : State) (p : Parts) (adlen n : Nat) (hi : p.iv + 16 ≤ p.mem.length)
    (ha : p.ad + adlen ≤ p.mem.length) :
    encryptParts rnd cs p adlen n = (do
      let r ← Ov.aegisEncrypt rnd cs ⟨p.mem, p.ct, p.pt⟩ (part p.mem p.ad adlen) (part p.mem p.iv 16) adlen n
      let mem ← Mem.wrs r.2.1.mem p.tag r.2.2
      .ok (r.1, mem)) := by
  rw [encryptParts, copy_part _ _ _ hi, Res.ok_bind, Ov.aegisEncrypt]
  dsimp only
  rw [processAd_part _ _ _ _ _ ha]
  cases processAd rnd (initState rnd cs (part p.mem p.iv 16)) (part p.mem p.ad adlen) adlen with
  | ub e => rfl
  | ok c1 =>
    rw [Res.ok_bind, Res.ok_bind]
    cases Ov.aegisCrypt rnd false c1 ⟨p.mem, p.ct, p.pt⟩ n with
    | ub e => rfl
    | ok r => rfl

/-- IV, five bytes of associated data, twenty of plaintext, room for the tag, and the ciphertext over the plaintext. -/
example := encryptParts_eq rndX86 someState ⟨zeros 57, 21, 21, 16, 0, 41⟩ 5 20 (by decide) (by decide)

/-- Decryption in one array is decryption with copies of IV, associated data and tag; a rejected tag is cleared in the array. -/
theorem decryptParts_eq (rnd : Quad → Quad → Quad) (cs : State) (p : Parts) (adlen n : Nat) (hi : p.iv + 16 ≤ p.mem.length)
    (ht : p.tag + 16 ≤ p.mem.length) (ha : p.ad + adlen ≤ p.mem.length) :
    decryptParts rnd cs p adlen n = (do
      let r ← Ov.aegisDecrypt rnd cs ⟨p.mem, p.pt, p.ct⟩ (part p.mem p.ad adlen) (part p.mem p.iv 16) (part p.mem p.tag 16) adlen n
      if r.2.2.2 = 0 then do
        let mem ← Mem.wrs r.2.1.mem p.tag (List.replicate 16 0)
        .ok (r.1, mem, 0)
      else .ok (r.1, r.2.1.mem, 1)) := by
  rw [decryptParts, copy_part _ _ _ ht, Res.ok_bind, copy_part _ _ _ hi, Res.ok_bind, Ov.aegisDecrypt]
  dsimp only
  rw [processAd_part _ _ _ _ _ ha]
  cases processAd rnd (initState rnd cs (part p.mem p.iv 16)) (part p.mem p.ad adlen) adlen with
  | ub e => rfl
  | ok c1 =>
    rw [Res.ok_bind, Res.ok_bind]
    cases Ov.aegisCrypt rnd true c1 ⟨p.mem, p.pt, p.ct⟩ n with
    | ub e => rfl
    | ok r =>
      rw [Res.ok_bind, Res.ok_bind]
      obtain ⟨c2, v⟩ := r
      simp only
      generalize finalize rnd c2 adlen n = f
      by_cases h : f.2 = AES.quadOf (part p.mem p.tag 16)
      · rw [if_neg (fun g => g h), if_neg (fun g => g h)]
        rfl
      · rw [if_pos h, if_pos h]
        have w : Mem.wrs (part p.mem p.tag 16) 0 (List.replicate 16 0) = .ok (List.replicate 16 0) := by
          have := Mem.wrs_eq (l := part p.mem p.tag 16) 0 (List.replicate 16 0) (by rw [part_length ht]; decide)
          rw [this, List.drop_of_length_le (by rw [part_length ht]; decide)]
          rfl
        rw [w]
        cases Mem.wrs v.mem v.o (List.replicate n 0) with
        | ub e => rfl
        | ok m => rfl

example := decryptParts_eq rndArm someState ⟨zeros 57, 21, 21, 16, 0, 41⟩ 5 20 (by decide) (by decide) (by decide)

/-- Encryption, the part that holds: message and ciphertext as in C130; IV, associated data and tag anywhere, also over the message, the
ciphertext or each other.  Everything is read as it was before the call, the ciphertext is stored, and then the tag. -/
theorem array_encrypt_partial {rnd : Quad → Quad → Quad} (hv : IsVariant rnd) (cs : State) (key : List U8) (p : Parts) (adlen n : Nat)
    (hk : key.length = 16) (hi : p.iv + 16 ≤ p.mem.length) (ha : p.ad + adlen ≤ p.mem.length) (had : adlen ≤ 2 ^ 33)
    (ht : p.tag + 16 ≤ p.mem.length) (hp : p.pt + n ≤ p.mem.length) (hc : p.ct + n ≤ p.mem.length) (h15 : n = 0 ∨ 15 ≤ n)
    (hn : n < 2 ^ 64) (h3 : p.ct + 16 ≤ p.pt ∨ p.pt + n ≤ p.ct) :
    ∃ cs', encryptParts rnd (loadKey cs key) p adlen n = .ok (cs',
      put (put p.mem p.ct (Spec.AEGIS.encrypt key (part p.mem p.iv 16) (part p.mem p.ad adlen) (part p.mem p.pt n)).1) p.tag
        (Spec.AEGIS.encrypt key (part p.mem p.iv 16) (part p.mem p.ad adlen) (part p.mem p.pt n)).2) := by
  have la := part_length ha
  obtain ⟨cs', e⟩ := aegis_conforms_partial hv cs key (part p.mem p.iv 16) (part p.mem p.ad adlen)
    ⟨p.mem.drop p.pt, p.mem.drop p.ct, false⟩ n hk (part_length hi) (by omega) h15 hn
    (by simp only [Io.Fits, Io.src, Bool.false_eq_true, if_false, List.length_drop]; omega) rfl
  rw [la] at e
  have o := OverlapBlock.aegis_encrypt_overlap_partial rnd _ _ p.mem p.ct p.pt n _ _ _ _ _ h15 hn h3 e
  refine ⟨cs', ?_⟩
  rw [encryptParts_eq _ _ _ _ _ hi ha, o, Res.ok_bind]
  dsimp only
  rw [show (p.mem.drop p.pt).take n = part p.mem p.pt n from rfl]
  have hcl : (Spec.AEGIS.encrypt key (part p.mem p.iv 16) (part p.mem p.ad adlen) (part p.mem p.pt n)).1.length = n := by
    rw [spec_header _ _ _ _ hk (part_length hi) (by omega)]
    simp only [xorBytes_length, msgRun_length, part_length hp]; omega
  have htl : (Spec.AEGIS.encrypt key (part p.mem p.iv 16) (part p.mem p.ad adlen) (part p.mem p.pt n)).2.length = 16 := by
    rw [spec_header _ _ _ _ hk (part_length hi) (by omega)]; rfl
  generalize Spec.AEGIS.encrypt key (part p.mem p.iv 16) (part p.mem p.ad adlen) (part p.mem p.pt n) = ct at hcl htl ⊢
  have e1 : p.mem.take p.ct ++ (ct.1 ++ (p.mem.drop p.ct).drop n) = put p.mem p.ct ct.1 := by
    rw [put, hcl, List.drop_drop, List.append_assoc]
  rw [e1, Mem.wrs_eq _ _ (by rw [put_length (by omega)]; omega), Res.ok_bind]
  rfl

example := array_encrypt_partial (.inr (.inl rfl)) someState (zeros 16) ⟨zeros 77, 57, 21, 16, 0, 41⟩ 5 20 rfl (by decide) (by decide) (by decide)
  (by decide) (by decide) (by decide) (by decide) (by decide) (by decide)

/-- Decryption, the part that holds: message and ciphertext as in C130; IV, associated data and tag anywhere. -/
theorem array_decrypt_partial {rnd : Quad → Quad → Quad} (hv : IsVariant rnd) (cs : State) (key : List U8) (p : Parts) (adlen n : Nat)
    (hk : key.length = 16) (hi : p.iv + 16 ≤ p.mem.length) (ha : p.ad + adlen ≤ p.mem.length) (had : adlen ≤ 2 ^ 33)
    (ht : p.tag + 16 ≤ p.mem.length) (hp : p.pt + n ≤ p.mem.length) (hc : p.ct + n ≤ p.mem.length) (h15 : n = 0 ∨ 15 ≤ n)
    (hn : n < 2 ^ 64) (h3 : p.pt ≤ p.ct ∨ p.ct + n ≤ p.pt) :
    ∃ cs' mem' r, decryptParts rnd (loadKey cs key) p adlen n = .ok (cs', mem', r) ∧
      ((r = 1 ∧ ∃ m, mem' = put p.mem p.pt m ∧
          Spec.AEGIS.encrypt key (part p.mem p.iv 16) (part p.mem p.ad adlen) m = (part p.mem p.ct n, part p.mem p.tag 16)) ∨
       (r = 0 ∧ mem' = put (put p.mem p.pt (List.replicate n 0)) p.tag (List.replicate 16 0) ∧
          ∀ m, Spec.AEGIS.encrypt key (part p.mem p.iv 16) (part p.mem p.ad adlen) m ≠ (part p.mem p.ct n, part p.mem p.tag 16))) := by
  have la := part_length ha
  obtain ⟨cs', io', tag', r, e, h⟩ := aegis_decrypt_decides_partial hv cs key (part p.mem p.iv 16) (part p.mem p.ad adlen)
    (part p.mem p.tag 16) ⟨p.mem.drop p.ct, p.mem.drop p.pt, false⟩ n hk (part_length hi) (by omega) (part_length ht) h15 hn
    (by simp only [Io.Fits, Io.src, Bool.false_eq_true, if_false, List.length_drop]; omega)
  rw [la] at e
  have o := OverlapBlock.aegis_decrypt_overlap_partial rnd _ _ p.mem p.pt p.ct n _ _ _ _ _ _ _ h15 hn hp h3 e
  have hs : (⟨p.mem.drop p.ct, p.mem.drop p.pt, false⟩ : Io).src.take n = part p.mem p.ct n := rfl
  rw [hs] at h
  rw [decryptParts_eq _ _ _ _ _ hi ht ha, o, Res.ok_bind]
  rcases h with ⟨rfl, -, m, h1, h2⟩ | ⟨rfl, -, h1, h2⟩
  · have hm : m.length = n := by
      have : (Spec.AEGIS.encrypt key (part p.mem p.iv 16) (part p.mem p.ad adlen) m).1.length = n := by rw [h2]; exact part_length hc
      rw [spec_header _ _ _ _ hk (part_length hi) (by omega)] at this
      simp only [xorBytes_length, msgRun_length] at this
      omega
    refine ⟨cs', put p.mem p.pt m, 1, ?_, .inl ⟨rfl, m, rfl, h2⟩⟩
    rw [if_neg (show ¬ (1 : Int) = 0 by decide)]
    dsimp only
    rw [h1, put, hm, List.drop_drop, List.append_assoc]
  · refine ⟨cs', _, 0, ?_, .inr ⟨rfl, rfl, h2⟩⟩
    rw [if_pos rfl]
    dsimp only
    have e1 : p.mem.take p.pt ++ (List.replicate n 0 ++ (p.mem.drop p.pt).drop n) = put p.mem p.pt (List.replicate n 0) := by
      rw [put, List.length_replicate, List.drop_drop, List.append_assoc]
    rw [h1, e1, Mem.wrs_eq _ _ (by rw [put_length (by rw [List.length_replicate]; omega), List.length_replicate]; omega), Res.ok_bind]
    rfl

example := array_decrypt_partial (.inl rfl) someState (zeros 16) ⟨zeros 57, 21, 21, 16, 0, 41⟩ 5 20 rfl (by decide) (by decide) (by decide)
  (by decide) (by decide) (by decide) (by decide) (by decide) (by decide)

theorem part_mid (a b c : List U8) (i n : Nat) (hi : i = a.length) (hn : n = b.length) : part (a ++ (b ++ c)) i n = b := by
  rw [part, List.drop_left' hi.symm, List.take_left' hn.symm]

theorem put_mid (a b b' c : List U8) (i : Nat) (hi : i = a.length) (hb : b'.length = b.length) :
    put (a ++ (b ++ c)) i b' = a ++ (b' ++ c) := by
  have e : a ++ (b ++ c) = (a ++ b) ++ c := (List.append_assoc _ _ _).symm
  rw [put, List.take_left' hi.symm, e, List.drop_left' (by rw [List.length_append]; omega), List.append_assoc]

/-- A packet put together in one array (IV, associated data, ciphertext, tag), the message lying behind; and opened where it is. -/
theorem array_packet_partial {rnd rnd' : Quad → Quad → Quad} (hv : IsVariant rnd) (hv' : IsVariant rnd') (cs cr : State)
    (key iv ad msg room room' : List U8) (hk : key.length = 16) (hi : iv.length = 16) (had : ad.length ≤ 2 ^ 33)
    (h15 : msg.length = 0 ∨ 15 ≤ msg.length) (hn : msg.length < 2 ^ 64) (hr : room.length = msg.length) (hr' : room'.length = 16) :
    ∃ cs' cr' ct tag, ct.length = msg.length ∧ tag.length = 16 ∧
      encryptParts rnd (loadKey cs key) ⟨iv ++ ad ++ room ++ room' ++ msg, 32 + ad.length + msg.length, 16 + ad.length, 16, 0,
        16 + ad.length + msg.length⟩ ad.length msg.length = .ok (cs', iv ++ ad ++ ct ++ tag ++ msg) ∧
      decryptParts rnd' (loadKey cr key) ⟨iv ++ ad ++ ct ++ tag, 16 + ad.length, 16 + ad.length, 16, 0, 16 + ad.length + msg.length⟩
        ad.length msg.length = .ok (cr', iv ++ ad ++ msg ++ tag, 1) := by
  have hl : (iv ++ ad ++ room ++ room' ++ msg).length = 32 + ad.length + 2 * msg.length := by
    simp only [List.length_append]; omega
  obtain ⟨cs', e⟩ := array_encrypt_partial hv cs key ⟨iv ++ ad ++ room ++ room' ++ msg, 32 + ad.length + msg.length, 16 + ad.length, 16, 0,
    16 + ad.length + msg.length⟩ ad.length msg.length hk (by simp only; omega) (by simp only; omega) had (by simp only; omega)
    (by simp only; omega) (by simp only; omega) h15 hn (.inl (by simp only; omega))
  simp only at e
  have p1 : part (iv ++ ad ++ room ++ room' ++ msg) 0 16 = iv := by
    simp only [List.append_assoc]
    exact part_mid [] iv _ 0 16 rfl hi.symm
  have p2 : part (iv ++ ad ++ room ++ room' ++ msg) 16 ad.length = ad := by
    simp only [List.append_assoc]
    exact part_mid iv ad _ _ _ hi.symm rfl
  have p3 : part (iv ++ ad ++ room ++ room' ++ msg) (32 + ad.length + msg.length) msg.length = msg := by
    have := part_mid (iv ++ ad ++ room ++ room') msg [] (32 + ad.length + msg.length) msg.length
      (by simp only [List.length_append]; omega) rfl
    rwa [List.append_nil] at this
  rw [p1, p2, p3] at e
  have hcl : (Spec.AEGIS.encrypt key iv ad msg).1.length = msg.length := by
    rw [spec_header _ _ _ _ hk hi had]
    simp only [xorBytes_length, msgRun_length]; omega
  have htl : (Spec.AEGIS.encrypt key iv ad msg).2.length = 16 := by
    rw [spec_header _ _ _ _ hk hi had]; rfl
  have inj : ∀ m, Spec.AEGIS.encrypt key iv ad m = ((Spec.AEGIS.encrypt key iv ad msg).1, (Spec.AEGIS.encrypt key iv ad msg).2) → m = msg :=
    fun m hm => spec_inj hk hi had (congrArg Prod.fst hm)
  have self : Spec.AEGIS.encrypt key iv ad msg = ((Spec.AEGIS.encrypt key iv ad msg).1, (Spec.AEGIS.encrypt key iv ad msg).2) := rfl
  generalize hct : (Spec.AEGIS.encrypt key iv ad msg).1 = ct at e hcl inj self
  generalize htg : (Spec.AEGIS.encrypt key iv ad msg).2 = tag at e htl inj self
  have q1 : put (iv ++ ad ++ room ++ room' ++ msg) (16 + ad.length) ct = iv ++ ad ++ ct ++ room' ++ msg := by
    have := put_mid (iv ++ ad) room ct (room' ++ msg) (16 + ad.length) (by rw [List.length_append]; omega) (by omega)
    simpa only [List.append_assoc] using this
  have q2 : put (iv ++ ad ++ ct ++ room' ++ msg) (16 + ad.length + msg.length) tag = iv ++ ad ++ ct ++ tag ++ msg := by
    have := put_mid (iv ++ ad ++ ct) room' tag msg (16 + ad.length + msg.length) (by simp only [List.length_append]; omega) (by omega)
    simpa only [List.append_assoc] using this
  rw [q1, q2] at e
  have hl2 : (iv ++ ad ++ ct ++ tag).length = 32 + ad.length + msg.length := by
    simp only [List.length_append]; omega
  obtain ⟨cr', mem', r, d, h⟩ := array_decrypt_partial hv' cr key ⟨iv ++ ad ++ ct ++ tag, 16 + ad.length, 16 + ad.length, 16, 0,
    16 + ad.length + msg.length⟩ ad.length msg.length hk (by simp only; omega) (by simp only; omega) had (by simp only; omega)
    (by simp only; omega) (by simp only; omega) h15 hn (.inl (by simp only; omega))
  simp only at h
  have d1 : part (iv ++ ad ++ ct ++ tag) 0 16 = iv := by
    simp only [List.append_assoc]
    exact part_mid [] iv _ 0 16 rfl hi.symm
  have d2 : part (iv ++ ad ++ ct ++ tag) 16 ad.length = ad := by
    simp only [List.append_assoc]
    exact part_mid iv ad _ _ _ hi.symm rfl
  have d3 : part (iv ++ ad ++ ct ++ tag) (16 + ad.length) msg.length = ct := by
    have := part_mid (iv ++ ad) ct tag (16 + ad.length) msg.length (by rw [List.length_append]; omega) hcl.symm
    simpa only [List.append_assoc] using this
  have d4 : part (iv ++ ad ++ ct ++ tag) (16 + ad.length + msg.length) 16 = tag := by
    have := part_mid (iv ++ ad ++ ct) tag [] (16 + ad.length + msg.length) 16 (by simp only [List.length_append]; omega) htl.symm
    rwa [List.append_nil] at this
  rw [d1, d2, d3, d4] at h
  rcases h with ⟨rfl, m, h1, h2⟩ | ⟨-, -, h2⟩
  · refine ⟨cs', cr', ct, tag, hcl, htl, e, ?_⟩
    rw [d, h1, inj m h2]
    have := put_mid (iv ++ ad) ct msg tag (16 + ad.length) (by rw [List.length_append]; omega) hcl.symm
    simp only [List.append_assoc] at this ⊢
    rw [this]
  · exact absurd self (h2 msg)

/-- The hypotheses hold for a packet of 20 bytes with 5 bytes of associated data. -/
example : ∃ cs' cr' ct tag, ct.length = 20 ∧ tag.length = 16 ∧
    encryptParts rndX86 (loadKey someState (zeros 16)) ⟨zeros 16 ++ [1, 2, 3, 4, 5] ++ zeros 20 ++ zeros 16 ++ List.replicate 20 7, 57, 21, 16, 0, 41⟩
      5 20 = .ok (cs', zeros 16 ++ [1, 2, 3, 4, 5] ++ ct ++ tag ++ List.replicate 20 7) ∧
    decryptParts rndArm (loadKey someState (zeros 16)) ⟨zeros 16 ++ [1, 2, 3, 4, 5] ++ ct ++ tag, 21, 21, 16, 0, 41⟩ 5 20 =
      .ok (cr', zeros 16 ++ [1, 2, 3, 4, 5] ++ List.replicate 20 7 ++ tag, 1) :=
  array_packet_partial (.inr (.inl rfl)) (.inr (.inr rfl)) someState someState (zeros 16) (zeros 16) [1, 2, 3, 4, 5] (List.replicate 20 7) (zeros 20)
    (zeros 16) rfl rfl (by decide) (by decide) (by decide) rfl rfl

theorem part_put_self {mem bs : List U8} {a n : Nat} (h : a + n ≤ mem.length) (hn : bs.length = n) : part (put mem a bs) a n = bs := by
  have : (mem.take a).length = a := by rw [List.length_take]; omega
  rw [part, put, List.append_assoc, List.drop_left' this, ← hn, List.take_left]

theorem part_put_other {mem bs : List U8} {a b n : Nat} (h : a + bs.length ≤ mem.length) (hb : b + n ≤ a ∨ a + bs.length ≤ b) :
    part (put mem a bs) b n = part mem b n := by
  have hl : (mem.take a).length = a := by rw [List.length_take]; omega
  apply List.ext_getElem?
  intro k
  simp only [part, List.getElem?_take, List.getElem?_drop]
  split
  · rw [put]
    rcases hb with hb | hb
    · rw [List.append_assoc, List.getElem?_append_left (by omega), List.getElem?_take, if_pos (by omega)]
    · rw [List.getElem?_append_right (by rw [List.length_append, hl]; omega), List.getElem?_drop, List.length_append, hl]
      congr 1
      omega
  · rfl

/-- C149, packets of every layout: ciphertext and tag are put beside IV and associated data and beside each other, in any order and with
or without gaps.  What one build encrypts there a build opens there in place, and nothing but the place of the ciphertext changes. -/
theorem array_layout_partial {rnd rnd' : Quad → Quad → Quad} (hv : IsVariant rnd) (hv' : IsVariant rnd') (cs cr : State) (key : List U8)
    (p : Parts) (adlen n : Nat) (hk : key.length = 16) (hi : p.iv + 16 ≤ p.mem.length) (ha : p.ad + adlen ≤ p.mem.length)
    (had : adlen ≤ 2 ^ 33) (ht : p.tag + 16 ≤ p.mem.length) (hp : p.pt + n ≤ p.mem.length) (hc : p.ct + n ≤ p.mem.length)
    (h15 : n = 0 ∨ 15 ≤ n) (hn : n < 2 ^ 64) (h3 : p.ct + 16 ≤ p.pt ∨ p.pt + n ≤ p.ct) (hct : p.tag + 16 ≤ p.ct ∨ p.ct + n ≤ p.tag)
    (hca : p.ad + adlen ≤ p.ct ∨ p.ct + n ≤ p.ad) (hta : p.ad + adlen ≤ p.tag ∨ p.tag + 16 ≤ p.ad)
    (hci : p.iv + 16 ≤ p.ct ∨ p.ct + n ≤ p.iv) (hti : p.iv + 16 ≤ p.tag ∨ p.tag + 16 ≤ p.iv) :
    ∃ cs' mem', encryptParts rnd (loadKey cs key) p adlen n = .ok (cs', mem') ∧
      ∃ cr', decryptParts rnd' (loadKey cr key) ⟨mem', p.ct, p.ct, p.ad, p.iv, p.tag⟩ adlen n =
        .ok (cr', put mem' p.ct (part p.mem p.pt n), 1) := by
  have la := part_length ha
  have li := part_length hi
  have lp := part_length hp
  obtain ⟨cs', h⟩ := array_encrypt_partial hv cs key p adlen n hk hi ha had ht hp hc h15 hn h3
  refine ⟨cs', _, h, ?_⟩
  have hl : (Spec.AEGIS.encrypt key (part p.mem p.iv 16) (part p.mem p.ad adlen) (part p.mem p.pt n)).1.length = n := by
    rw [spec_header _ _ _ _ hk li (by rw [la]; exact had)]
    simp only [xorBytes_length, msgRun_length]; omega
  have hg : (Spec.AEGIS.encrypt key (part p.mem p.iv 16) (part p.mem p.ad adlen) (part p.mem p.pt n)).2.length = 16 := by
    rw [spec_header _ _ _ _ hk li (by rw [la]; exact had)]; rfl
  generalize hC : Spec.AEGIS.encrypt key (part p.mem p.iv 16) (part p.mem p.ad adlen) (part p.mem p.pt n) = C at h hl hg ⊢
  have l1 : (put p.mem p.ct C.1).length = p.mem.length := put_length (by rw [hl]; exact hc)
  have l2 : (put (put p.mem p.ct C.1) p.tag C.2).length = p.mem.length := by rw [put_length (by rw [hg, l1]; exact ht), l1]
  have both : ∀ j k, (j + k ≤ p.ct ∨ p.ct + n ≤ j) → (j + k ≤ p.tag ∨ p.tag + 16 ≤ j) →
      part (put (put p.mem p.ct C.1) p.tag C.2) j k = part p.mem j k := by
    intro j k h1 h2
    rw [part_put_other (by rw [hg, l1]; exact ht) (by rw [hg]; exact h2), part_put_other (by rw [hl]; exact hc) (by rw [hl]; exact h1)]
  have ra := both p.ad adlen hca hta
  have rv := both p.iv 16 hci hti
  have rt : part (put (put p.mem p.ct C.1) p.tag C.2) p.tag 16 = C.2 := part_put_self (by rw [l1]; exact ht) hg
  have ro : part (put (put p.mem p.ct C.1) p.tag C.2) p.ct n = C.1 := by
    rw [part_put_other (by rw [hg, l1]; exact ht) (by rw [hg]; exact hct.symm), part_put_self hc hl]
  obtain ⟨cr', m', r, h2, hs⟩ := array_decrypt_partial hv' cr key ⟨put (put p.mem p.ct C.1) p.tag C.2, p.ct, p.ct, p.ad, p.iv, p.tag⟩ adlen n
    hk (by rw [l2]; exact hi) (by rw [l2]; exact ha) had (by rw [l2]; exact ht) (by rw [l2]; exact hc) (by rw [l2]; exact hc) h15 hn
    (Or.inl (Nat.le_refl _))
  simp only at hs
  rw [ra, rv, rt, ro] at hs
  obtain ⟨h4, m, h5, h6⟩ | ⟨-, -, h6⟩ := hs
  · have : m = part p.mem p.pt n := spec_inj hk li (by rw [la]; exact had) (by rw [h6, hC])
    rw [h2, h4, h5, this]
    exact ⟨cr', rfl⟩
  · exact absurd hC (h6 _)

/-- The tag first, then the ciphertext, the associated data and the IV, and the plaintext after that. -/
example := array_layout_partial (rnd := rndPortable) (rnd' := rndX86) (.inl rfl) (.inr (.inl rfl)) someState someState (zeros 16)
  ⟨List.replicate 107 7, 72, 16, 51, 56, 0⟩ 5 35 rfl (by decide) (by decide) (by decide) (by decide) (by decide) (by decide) (by decide)
  (by decide) (by decide) (by decide) (by decide) (by decide) (by decide) (by decide)

/-! ### Where it is false -/

/-- Encrypt in an array and open what is there, in the same places. -/
def opens (p : Parts) (q : Nat) (adlen n : Nat) : Bool :=
  match encryptParts rndPortable (loadKey someState (zeros 16)) p adlen n with
  | .ok (_, mem) =>
    match decryptParts rndPortable (loadKey someState (zeros 16)) ⟨mem, q, p.ct, p.ad, p.iv, p.tag⟩ adlen n with
    | .ok (_, mem', r) => r = 1 ∧ part mem' q n = part p.mem p.pt n
    | .ub _ => false
  | .ub _ => false

set_option maxRecDepth 100000 in
/-- **C149** is false: a message encrypted in its place in the packet, a tag that is stored over the last byte of the ciphertext, over
the IV, and over the associated data; a tag over the message is fine. -/
theorem array_refuted :
    let mem := (List.range 112).map fun i => BitVec.ofNat 8 i
    opens ⟨mem, 32, 32, 16, 0, 64⟩ 32 16 32 = false ∧ opens ⟨mem, 80, 32, 16, 0, 63⟩ 32 16 32 = false ∧
    opens ⟨mem, 80, 32, 16, 0, 0⟩ 32 16 32 = false ∧ opens ⟨mem, 80, 32, 16, 0, 16⟩ 32 16 32 = false ∧
    opens ⟨mem, 80, 32, 16, 0, 64⟩ 32 16 32 = true ∧ opens ⟨mem, 64, 32, 16, 0, 64⟩ 32 16 32 = true := by
  decide +kernel

end CT.Props.AEGISArray
