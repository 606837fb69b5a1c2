import Verif.Model.Stack
import Verif.Props.HC128Short
import Verif.Props.HMAC
import Verif.Props.SHA256

/-!
# How much stack a message needs (C157)
-/

namespace CT.Props.Stack
open CT.Stack

/-- Size of the padded message (FIPS 180-4, 5.1.1): the smallest multiple of 64 that has room for nine bytes more. -/
def padded (n : Nat) : Nat := 64 * ((n + 72) / 64)

theorem frame_pos {α : Type} {room n : Nat} (f : Nat → Lim α) (h : room < n) : frame room n f = .exhausted := if_pos h
theorem frame_neg {α : Type} {room n : Nat} (f : Nat → Lim α) (h : n ≤ room) : frame room n f = f (room - n) := if_neg (by omega)

theorem sha256_eq (grow : Nat → Bool) (room : Nat) (junk : Nat → U8) (dst msg extra : List U8)
    (hg : grow msg.length = decide (msg.length % 64 ≥ 56)) (hs : msg.length + 128 < 2 ^ 31) (hd : 32 ≤ dst.length) :
    sha256 grow room junk dst (msg ++ extra) msg.length =
      if room < padded msg.length + 320 then .exhausted else .done (.ok (Spec.SHA256.digest msg ++ dst.drop 32)) := by
  have hn : (if grow msg.length then msg.length / 64 * 64 + 128 else msg.length / 64 * 64 + 64) = padded msg.length := by
    rw [hg, padded]
    by_cases hc : msg.length % 64 ≥ 56
    · rw [decide_eq_true hc, if_pos rfl]; omega
    · rw [decide_eq_false hc, if_neg (by decide)]; omega
  have hp : padded msg.length < 2 ^ 31 ∧ 4 * (padded msg.length / 4) = padded msg.length := by rw [padded]; omega
  simp only [sha256, hn]
  rw [if_neg (by omega), hp.2, SHA256.processWith_ok grow junk dst msg extra hg hs hd]
  rfl

/-- **C157**, SHA-256 (the copy of HMAC): the arrays need the size of the padded message and 320 bytes; with less the stack is exhausted,
with as much the digest is computed. -/
theorem sha256_stack (room : Nat) (junk : Nat → U8) (dst msg extra : List U8) (hs : msg.length + 128 < 2 ^ 31) (hd : 32 ≤ dst.length) :
    hmacCopy room junk dst (msg ++ extra) msg.length =
      if room < padded msg.length + 320 then .exhausted else .done (.ok (Spec.SHA256.digest msg ++ dst.drop 32)) :=
  sha256_eq _ room junk dst msg extra rfl hs hd

/-- **C157**, SHA-256 (the copy in Hash), lengths other than 63 modulo 64 (C05). -/
theorem sha256_hash_stack (room : Nat) (junk : Nat → U8) (dst msg extra : List U8) (h63 : msg.length % 64 ≠ 63)
    (hs : msg.length + 128 < 2 ^ 31) (hd : 32 ≤ dst.length) :
    hashCopy room junk dst (msg ++ extra) msg.length =
      if room < padded msg.length + 320 then .exhausted else .done (.ok (Spec.SHA256.digest msg ++ dst.drop 32)) := by
  apply sha256_eq _ room junk dst msg extra _ hs hd
  show decide _ = _
  congr 1
  apply propext
  constructor <;> intro h <;> omega

example (junk : Nat → U8) : hashCopy 400 junk (List.replicate 32 0) [97, 98, 99] 3 = .done (.ok (Spec.SHA256.digest [97, 98, 99] ++ [])) :=
  sha256_hash_stack 400 junk (List.replicate 32 0) [97, 98, 99] [] (by decide) (by decide) (by decide)

/-- **C157**, HMAC: the padded size of key and message, and 480 bytes. -/
theorem hmac_stack (room : Nat) (junk : Nat → U8) (k tag msg extra : List U8) (n : Nat) (h0 : msg ≠ []) (hm : msg.length + 192 < 2 ^ 31)
    (hn : n ≤ 32) (ht : n ≤ tag.length) :
    tagGeneration room junk (Props.HMAC.keyState k) tag (msg ++ extra) msg.length n =
      if room < padded (msg.length + 64) + 480 then .exhausted else .done (.ok ((Spec.HMAC.hmac k msg).take n ++ tag.drop n)) := by
  have hm0 : ¬ msg.length < 1 := by
    have := List.length_pos_iff.2 h0; omega
  have li : ((Spec.HMAC.normKey k).map (· ^^^ 0x36)).length = 64 := by simp [Props.HMAC.normKey_length]
  have lo : ((Spec.HMAC.normKey k).map (· ^^^ 0x5c)).length = 64 := by simp [Props.HMAC.normKey_length]
  have eh : Spec.HMAC.hmac k msg = Spec.SHA256.digest ((Spec.HMAC.normKey k).map (· ^^^ 0x5c) ++
      Spec.SHA256.digest ((Spec.HMAC.normKey k).map (· ^^^ 0x36) ++ msg)) := rfl
  have lh := Props.HMAC.hmac_length k msg
  rw [eh] at lh ⊢
  simp only [tagGeneration, hm0, if_false, Props.HMAC.keyState]
  generalize hI : (Spec.HMAC.normKey k).map (· ^^^ 0x36) = I at *
  generalize hO : (Spec.HMAC.normKey k).map (· ^^^ 0x5c) = O at *
  rw [List.take_of_length_le (l := I) (by omega), List.take_of_length_le (l := O) (by omega), List.take_left]
  have hp : 128 ≤ padded (msg.length + 64) := by rw [padded]; omega
  by_cases h1 : room < 160
  · rw [frame_pos _ h1, if_pos (by omega)]
  rw [frame_neg _ (by omega), if_neg (by simp)]
  have lm : (I ++ msg).length = msg.length + 64 := by simp [li]; omega
  have a := sha256_stack (room - 160) junk ((List.range 32).map junk) (I ++ msg) [] (by omega) (by simp)
  rw [lm, List.append_nil] at a
  rw [a]
  by_cases h2 : room - 160 < padded (msg.length + 64) + 320
  · rw [if_pos h2, if_pos (by omega)]
    rfl
  rw [if_neg h2, if_neg (by omega)]
  simp only [Lim.bind]
  rw [List.take_left' (SHA256.digest_length _)]
  generalize hD : Spec.SHA256.digest (I ++ msg) = D at *
  have lD : D.length = 32 := by rw [← hD, SHA256.digest_length]
  have lm2 : (O ++ D).length = 96 := by simp [lo, lD]
  have b := sha256_stack (room - 160) junk ((List.range 32).map junk) (O ++ D) [] (by omega) (by simp)
  rw [lm2, List.append_nil, if_neg (by rw [padded]; omega)] at b
  rw [b]
  simp only
  have hd : ((List.range 32).map junk).drop 32 = [] := List.drop_eq_nil_of_le (by simp)
  rw [hd, List.append_nil]
  generalize Spec.SHA256.digest (O ++ D) = X at *
  rw [HMAC.memcpyInt, if_neg (by omega), if_neg (by simp [lh]; omega), Int.toNat_natCast, Mem.wrs_eq _ _ (by simp [lh]; omega)]
  simp [lh, Nat.min_eq_left hn]

/-- **C157**, validation of a tag: the array for the new tag comes on top. -/
theorem hmac_validation_stack (room : Nat) (junk : Nat → U8) (k tag msg extra : List U8) (n : Nat) (h0 : msg ≠ [])
    (hm : msg.length + 192 < 2 ^ 31) (hn : n ≤ 32) (ht : n ≤ tag.length) :
    tagValidation room junk (Props.HMAC.keyState k) tag (msg ++ extra) msg.length n =
      if room < padded (msg.length + 64) + 480 + n then .exhausted
      else .done (.ok (if tag.take n = (Spec.HMAC.hmac k msg).take n then 1 else 0)) := by
  have lh := Props.HMAC.hmac_length k msg
  rw [tagValidation, if_neg (by omega), Int.toNat_natCast]
  by_cases h1 : room < n
  · rw [frame_pos _ h1, if_pos (by omega)]
  rw [frame_neg _ (by omega), hmac_stack (room - n) junk k _ msg extra n h0 hm hn (by simp)]
  by_cases h2 : room - n < padded (msg.length + 64) + 480
  · rw [if_pos h2, if_pos (by omega)]
    rfl
  rw [if_neg h2, if_neg (by omega)]
  have hd : ((List.range n).map junk).drop n = [] := List.drop_eq_nil_of_le (by simp)
  rw [hd, List.append_nil]
  have := Props.HMAC.compareLoop_ok [] [] tag ((Spec.HMAC.hmac k msg).take n) rfl n ht (by simp [lh, hn])
  simp only [List.nil_append, List.length_nil] at this
  simp only [Lim.bind]
  rw [this, List.take_take, Nat.min_self]

example (junk : Nat → U8) : tagValidation 623 junk (Props.HMAC.keyState [1]) (List.replicate 16 0) [3] 1 16 = .exhausted :=
  hmac_validation_stack 623 junk [1] (List.replicate 16 0) [3] [] 16 (by decide) (by decide) (by decide) (by decide)

/-- **C157**, `hmac_load_key`: a key of more than 64 bytes is hashed, which takes room for the key; any other takes 96 bytes. -/
theorem hmac_key_stack (room : Nat) (junk : Nat → U8) (k extra : List U8) (hk : k.length + 128 < 2 ^ 31) :
    loadKey room junk (k ++ extra) k.length =
      if room < 96 + (if 64 < k.length then padded k.length + 320 else 0) then .exhausted
      else .done (.ok (Props.HMAC.keyState k)) := by
  have hl := Props.HMAC.hmac_load_key_normalises junk k extra hk
  rw [loadKey, hl]
  by_cases h1 : room < 96
  · rw [frame_pos _ h1, if_pos (by omega)]
  rw [frame_neg _ (by omega)]
  by_cases h : 64 < k.length
  · rw [if_pos (by omega), if_pos h, Int.toNat_natCast, sha256_stack (room - 96) junk _ k extra hk (by simp)]
    by_cases h2 : room - 96 < padded k.length + 320
    · rw [if_pos h2, if_pos (by omega)]
      rfl
    · rw [if_neg h2, if_neg (by omega)]
      rfl
  · rw [if_neg (by omega), if_neg h, if_neg (by omega)]
    rfl

example (junk : Nat → U8) : loadKey 96 junk [1, 2] 2 = .done (.ok (Props.HMAC.keyState [1, 2])) ∧ loadKey 95 junk [1, 2] 2 = .exhausted :=
  ⟨hmac_key_stack 96 junk [1, 2] [] (by decide), hmac_key_stack 95 junk [1, 2] [] (by decide)⟩

/-- **C157**, HC-128: the key stream of the whole packet is on the stack. -/
theorem hc128_stack (room : Nat) (cs : HC128.State) (io : Io) (size : Nat) (h1 : 1 ≤ size) :
    hc128 room cs io size = if room < 4 * ((size + 3) / 4) then .exhausted else .done (HC128.processPacket cs io size) := by
  rw [hc128, if_neg (by omega), show (size - 1) / 4 + 1 = (size + 3) / 4 by omega]
  rfl

example (cs : HC128.State) (io : Io) : hc128 8 cs io 5 = .done (HC128.processPacket cs io 5) ∧ hc128 7 cs io 5 = .exhausted :=
  ⟨hc128_stack 8 cs io 5 (by decide), hc128_stack 7 cs io 5 (by decide)⟩

/-- **C157**, what holds: ChaCha, Rabbit and Sosemanuk need a fixed number of bytes; with 64 a packet of any size is processed as
by the function without limit.  SHA-256 and HMAC take what is said above, at most 632 bytes more than the message. -/
theorem stack_partial :
    (∀ (rounds room : Nat) (cs : ChaCha.State) (io : Io) (size : U64), 64 ≤ room →
      chacha rounds room cs io size = .done (ChaCha.processPacket rounds cs io size)) ∧
    (∀ (room : Nat) (cs : Rabbit.State) (io : Io) (size : Nat), 48 ≤ room →
      rabbit room cs io size = .done (Rabbit.processPacket cs io size)) ∧
    (∀ (room : Nat) (cs : Sosemanuk.State) (io : Io) (size : Nat), 32 ≤ room →
      sosemanuk room cs io size = .done (Sosemanuk.processPacket cs io size)) ∧
    (∀ (room : Nat) (cs : HC128.State) (io : Io) (size : Nat), size + 3 ≤ room →
      hc128 room cs io size = .done (HC128.processPacket cs io size)) ∧
    (∀ (room : Nat) (junk : Nat → U8) (dst msg : List U8), msg.length + 128 < 2 ^ 31 → 32 ≤ dst.length → msg.length + 392 ≤ room →
      hmacCopy room junk dst msg msg.length = .done (.ok (Spec.SHA256.digest msg ++ dst.drop 32))) ∧
    (∀ (room : Nat) (junk : Nat → U8) (k tag msg : List U8) (n : Nat), msg ≠ [] → msg.length + 192 < 2 ^ 31 → n ≤ 32 → n ≤ tag.length →
      msg.length + 616 ≤ room →
      tagGeneration room junk (Props.HMAC.keyState k) tag msg msg.length n =
        .done (.ok ((Spec.HMAC.hmac k msg).take n ++ tag.drop n))) := by
  refine ⟨fun rounds room cs io size h => ?_, fun room cs io size h => ?_, fun room cs io size h => ?_, fun room cs io size h => ?_,
    fun room junk dst msg hs hd h => ?_, fun room junk k tag msg n h0 hm hn ht h => ?_⟩
  · rw [chacha, frame_neg _ h]
  · rw [rabbit, frame_neg _ (by omega), frame_neg _ (by omega)]
  · rw [sosemanuk, frame_neg _ h]
  · by_cases h1 : 1 ≤ size
    · rw [hc128_stack room cs io size h1, if_neg (by omega)]
    · have h2 : size < 1 := by omega
      rw [hc128, if_pos h2, HC128.processPacket, if_pos h2]
  · have := sha256_stack room junk dst msg [] hs hd
    rw [List.append_nil] at this
    rw [this, if_neg (by rw [padded]; omega)]
  · have := hmac_stack room junk k tag msg [] n h0 hm hn ht
    rw [List.append_nil] at this
    rw [this, if_neg (by rw [padded]; omega)]

/-- **C157**, refuted: whatever the stack (up to 1 GiB), there is a message that exhausts it, in SHA-256, in both functions of HMAC,
in HC-128, and a key that exhausts it in `hmac_load_key`: any of at least that size. -/
theorem stack_refuted (room : Nat) (junk : Nat → U8) (k dst tag msg : List U8) (cs : HC128.State) (hr : room ≤ msg.length) (h0 : msg ≠ [])
    (hm : msg.length ≤ 2 ^ 30) (hd : 32 ≤ dst.length) (ht : 32 ≤ tag.length) :
    hmacCopy room junk dst msg msg.length = .exhausted ∧
    (msg.length % 64 ≠ 63 → hashCopy room junk dst msg msg.length = .exhausted) ∧
    tagGeneration room junk (Props.HMAC.keyState k) tag msg msg.length 32 = .exhausted ∧
    tagValidation room junk (Props.HMAC.keyState k) tag msg msg.length 32 = .exhausted ∧
    loadKey room junk msg msg.length = .exhausted ∧
    (∀ io : Io, room < msg.length → hc128 room cs io msg.length = .exhausted) := by
  have hp : 0 < msg.length := List.length_pos_iff.2 h0
  have a1 := sha256_stack room junk dst msg [] (by omega) hd
  have a2 := fun h => sha256_hash_stack room junk dst msg [] h (by omega) hd
  have a3 := hmac_stack room junk k tag msg [] 32 h0 (by omega) (by omega) ht
  have a4 := hmac_validation_stack room junk k tag msg [] 32 h0 (by omega) (by omega) ht
  have a5 := hmac_key_stack room junk msg [] (by omega)
  rw [List.append_nil] at a1 a3 a4 a5
  simp only [List.append_nil] at a2
  refine ⟨?_, fun h => ?_, ?_, ?_, ?_, fun io h => ?_⟩
  · rw [a1, if_pos (by rw [padded]; omega)]
  · rw [a2 h, if_pos (by rw [padded]; omega)]
  · exact a3.trans (if_pos (by rw [padded]; omega))
  · exact a4.trans (if_pos (by rw [padded]; omega))
  · rw [a5, if_pos]
    by_cases h : 64 < msg.length
    · rw [if_pos h, padded]; omega
    · rw [if_neg h]; omega
  · rw [hc128_stack room cs io _ (by omega), if_pos (by omega)]

example (junk : Nat → U8) (cs : HC128.State) := stack_refuted 99 junk [1] (List.replicate 32 0) (List.replicate 32 0) (List.replicate 100 5) cs
  (by decide) (by decide) (by decide) (by decide) (by decide)

/-- The usual 8 MiB, and any message and packet of one byte more. -/
theorem stack_8MiB (msg : List U8) (hl : msg.length = 2 ^ 23 + 1) (cs : HC128.State) (io : Io) :
    hmacCopy (2 ^ 23) (fun _ => 0) (List.replicate 32 0) msg (2 ^ 23 + 1) = .exhausted ∧
    hc128 (2 ^ 23) cs io (2 ^ 23 + 1) = .exhausted := by
  have h := stack_refuted (2 ^ 23) (fun _ => 0) [] (List.replicate 32 0) (List.replicate 32 0) msg cs (by omega)
    (List.ne_nil_of_length_pos (by omega)) (by omega) (by simp) (by simp)
  rw [hl] at h
  exact ⟨h.1, h.2.2.2.2.2 io (by omega)⟩

example : ∃ msg : List U8, msg.length = 2 ^ 23 + 1 := ⟨List.replicate (2 ^ 23 + 1) 7, List.length_replicate⟩

/-- "abc" in 384 bytes, not in 383. -/
example : hmacCopy 384 (fun _ => 0) (List.replicate 32 0) [97, 98, 99] 3 = .done (.ok (Spec.SHA256.digest [97, 98, 99] ++ [])) ∧
    hmacCopy 383 (fun _ => 0) (List.replicate 32 0) [97, 98, 99] 3 = .exhausted :=
  ⟨sha256_stack 384 (fun _ => 0) (List.replicate 32 0) [97, 98, 99] [] (by simp) (by simp),
   sha256_stack 383 (fun _ => 0) (List.replicate 32 0) [97, 98, 99] [] (by simp) (by simp)⟩

/-- A tag of one byte: 608 bytes, and not fewer. -/
example : tagGeneration 608 (fun _ => 0) (Props.HMAC.keyState [1]) (List.replicate 32 0) [3] 1 32 =
      .done (.ok ((Spec.HMAC.hmac [1] [3]).take 32 ++ [])) ∧
    tagGeneration 607 (fun _ => 0) (Props.HMAC.keyState [1]) (List.replicate 32 0) [3] 1 32 = .exhausted :=
  ⟨hmac_stack 608 (fun _ => 0) [1] (List.replicate 32 0) [3] [] 32 (by simp) (by simp) (by simp) (by simp),
   hmac_stack 607 (fun _ => 0) [1] (List.replicate 32 0) [3] [] 32 (by simp) (by simp) (by simp) (by simp)⟩

end CT.Props.Stack
