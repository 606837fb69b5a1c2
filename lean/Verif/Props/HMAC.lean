import Verif.Proof.SHA256
import Verif.Model.HMAC

/-!
# C06-C10: HMAC
-/

namespace CT.Props.HMAC
open CT CT.HMAC
open CT.Spec.HMAC (hmac normKey)

/-- The state that belongs to a key. -/
def keyState (k : List U8) : State :=
  { innerKey := (normKey k).map (· ^^^ 0x36), outerKey := (normKey k).map (· ^^^ 0x5c) }

theorem normKey_length (k : List U8) : (normKey k).length = 64 := by
  simp only [normKey]
  split
  · simp [SHA256.digest_length]
  · simp; omega

/-- C10: loading a key of any length gives the RFC 2104 inner and outer keys: longer ones are hashed,
shorter ones padded with zeros. -/
theorem hmac_load_key_normalises (junk : Nat → U8) (k extra : List U8) (hk : k.length + 128 < 2 ^ 31) :
    loadKey junk (k ++ extra) k.length =
      .ok { innerKey := (normKey k).map (· ^^^ 0x36), outerKey := (normKey k).map (· ^^^ 0x5c) } := by
  have comm : ∀ (c : U8) (l : List U8), l.map (c ^^^ ·) = l.map (· ^^^ c) := by
    intro c l
    congr 1
    funext x
    exact BitVec.xor_comm c x
  by_cases h : k.length > 64
  · have h' : (k.length : Int) > 64 := by omega
    simp only [loadKey, h', if_true, Int.toNat_natCast]
    rw [SHA256.hmacCopy, SHA256.processWith_ok _ junk _ k extra rfl hk (by simp)]
    simp only [Res.ok_bind]
    have ht : (Spec.SHA256.digest k ++ ((List.range 32).map junk).drop 32).take 32 = Spec.SHA256.digest k :=
      List.take_left' (SHA256.digest_length k)
    rw [ht, Mem.wrs_eq _ _ (by rw [SHA256.digest_length]; simp)]
    simp only [Res.ok_bind, SHA256.digest_length, List.take_zero, List.nil_append, Nat.zero_add]
    rw [Mem.wrs_eq _ _ (by simp [SHA256.digest_length])]
    have e : List.take 32 (Spec.SHA256.digest k ++ List.drop 32 (List.map junk (List.range 64))) ++ List.replicate (64 - 32) 0 ++
        List.drop (32 + (List.replicate (64 - 32) (0 : U8)).length)
          (Spec.SHA256.digest k ++ List.drop 32 (List.map junk (List.range 64))) = normKey k := by
      rw [List.take_left' (SHA256.digest_length k), List.drop_eq_nil_of_le (by simp [SHA256.digest_length]), List.append_nil]
      simp [normKey, h, SHA256.digest_length]
    rw [e]
    simp only [Res.ok_bind, comm]
  · have h' : ¬ (k.length : Int) > 64 := by omega
    simp only [loadKey, h', if_false, Int.toNat_natCast, memcpyInt]
    rw [if_neg (by omega), if_neg (by simp), List.take_left, Mem.wrs_eq _ _ (by simp; omega)]
    simp only [Res.ok_bind, List.take_zero, List.nil_append, Nat.zero_add]
    rw [Mem.wrs_eq _ _ (by simp)]
    have e : List.take k.length (k ++ List.drop k.length (List.map junk (List.range 64))) ++ List.replicate (64 - k.length) 0 ++
        List.drop (k.length + (List.replicate (64 - k.length) (0 : U8)).length)
          (k ++ List.drop k.length (List.map junk (List.range 64))) = normKey k := by
      rw [List.take_left, List.drop_eq_nil_of_le (by simp), List.append_nil]
      simp [normKey, h]
    rw [e]
    simp only [Res.ok_bind, comm]

example : loadKey (fun _ => 3) ([1, 2, 3] ++ [4]) 3 =
    .ok (State.mk ([0x37, 0x34, 0x35] ++ List.replicate 61 0x36) ([0x5d, 0x5e, 0x5f] ++ List.replicate 61 0x5c)) :=
  hmac_load_key_normalises _ [1, 2, 3] [4] (by simp)

/-- C10, negative sizes are not survivable. -/
theorem hmac_load_key_negative (junk : Nat → U8) (k : List U8) (n : Int) (h : n < 0) :
    loadKey junk k n = .ub .outOfBounds := by
  simp only [loadKey, memcpyInt, h, if_true, show ¬ n > 64 by omega, if_false]
  rfl

example : loadKey (fun _ => 0) [1, 2] (-1) = .ub .outOfBounds := hmac_load_key_negative _ _ _ (by decide)

/-- Two keys give the same tags on everything as soon as their normalised keys coincide; zero bytes at
the end of a short key do not matter.  (A consequence of RFC 2104, worth knowing for callers.) -/
theorem hmac_trailing_zero (junk junk' : Nat → U8) (k : List U8) (hk : k.length < 64) :
    loadKey junk k k.length = loadKey junk' (k ++ [0]) (k.length + 1) := by
  have h1 := hmac_load_key_normalises junk k [] (by omega)
  have h2 := hmac_load_key_normalises junk' (k ++ [0]) [] (by simp; omega)
  simp only [List.append_nil, List.length_append, List.length_singleton] at h1 h2
  rw [h1]
  have e : normKey (k ++ [0]) = normKey k := by
    simp only [normKey, List.length_append, List.length_singleton, show ¬ k.length + 1 > 64 by omega,
      show ¬ k.length > 64 by omega, if_false]
    rw [List.append_assoc]
    congr 1
    rw [show 64 - k.length = (64 - (k.length + 1)) + 1 by omega, List.replicate_succ]
    rfl
  rw [e] at h2
  exact h2.symm

example : loadKey (fun _ => 0) [1] 1 = loadKey (fun _ => 5) ([1] ++ [0]) 2 :=
  hmac_trailing_zero _ _ [1] (by simp)

/-- C10: a key of at most 64 bytes may be extended by zero bytes up to 64 bytes without any effect. -/
theorem hmac_zero_extension (junk junk' : Nat → U8) (k : List U8) (n : Nat) (hk : k.length + n ≤ 64) :
    loadKey junk k k.length = loadKey junk' (k ++ List.replicate n 0) ↑(k.length + n) := by
  have h1 := hmac_load_key_normalises junk k [] (by omega)
  have h2 := hmac_load_key_normalises junk' (k ++ List.replicate n 0) [] (by simp; omega)
  simp only [List.append_nil, List.length_append, List.length_replicate] at h1 h2
  rw [h1, h2]
  have e : normKey (k ++ List.replicate n 0) = normKey k := by
    simp only [normKey, List.length_append, List.length_replicate, show ¬ k.length + n > 64 by omega,
      show ¬ k.length > 64 by omega, if_false]
    rw [List.append_assoc, List.replicate_append_replicate]
    congr 2
    omega
  rw [e]

example : loadKey (fun _ => 7) [1, 2] 2 = loadKey (fun _ => 5) ([1, 2] ++ List.replicate 62 0) 64 :=
  hmac_zero_extension _ _ [1, 2] 62 (by simp)

/-- C10: a key of more than 64 bytes has the effect of its SHA-256 digest. -/
theorem hmac_long_key (junk junk' : Nat → U8) (k : List U8) (h : 64 < k.length) (hk : k.length + 128 < 2 ^ 31) :
    loadKey junk k k.length = loadKey junk' (Spec.SHA256.digest k) 32 := by
  have h1 := hmac_load_key_normalises junk k [] hk
  have h2 := hmac_load_key_normalises junk' (Spec.SHA256.digest k) [] (by rw [SHA256.digest_length]; omega)
  simp only [List.append_nil, SHA256.digest_length] at h1 h2
  rw [h1]
  have e : normKey (Spec.SHA256.digest k) = normKey k := by
    simp [normKey, SHA256.digest_length, h]
  rw [e] at h2
  exact h2.symm

example : loadKey (fun _ => 7) (List.replicate 131 0xaa) 131 =
    loadKey (fun _ => 5) (Spec.SHA256.digest (List.replicate 131 0xaa)) 32 :=
  hmac_long_key _ _ (List.replicate 131 0xaa) (by simp) (by simp)

theorem tagGeneration_mid (junk : Nat → U8) (k tag msg extra : List U8) (n : Int)
    (h0 : msg ≠ []) (hm : msg.length + 192 < 2 ^ 31) :
    tagGeneration junk (keyState k) tag (msg ++ extra) msg.length n = memcpyInt tag 0 (hmac k msg) n := by
  have hm0 : ¬ msg.length < 1 := by
    have := List.length_pos_iff.2 h0; omega
  have li : ((normKey k).map (· ^^^ 0x36)).length = 64 := by simp [normKey_length]
  have lo : ((normKey k).map (· ^^^ 0x5c)).length = 64 := by simp [normKey_length]
  simp only [tagGeneration, hm0, if_false, keyState]
  have eh : hmac k msg = Spec.SHA256.digest ((normKey k).map (· ^^^ 0x5c) ++
      Spec.SHA256.digest ((normKey k).map (· ^^^ 0x36) ++ msg)) := rfl
  rw [eh]
  generalize hI : (normKey k).map (· ^^^ 0x36) = I at *
  generalize hO : (normKey k).map (· ^^^ 0x5c) = O at *
  rw [List.take_of_length_le (l := I) (by omega), List.take_of_length_le (l := O) (by omega), List.take_left]
  rw [Mem.wrs_eq _ _ (by simp [li])]
  simp only [Res.ok_bind, List.take_zero, List.nil_append, Nat.zero_add]
  rw [if_neg (by simp), Mem.wrs_eq _ _ (by simp [li, Nat.add_comm])]
  simp only [Res.ok_bind]
  have e1 : List.take 64 (I ++ List.drop I.length (List.map junk (List.range (msg.length + 64)))) ++ msg ++
      List.drop (64 + msg.length) (I ++ List.drop I.length (List.map junk (List.range (msg.length + 64)))) = (I ++ msg) ++ [] := by
    rw [List.take_left' li, List.drop_eq_nil_of_le (by simp [li])]
  have e2 : msg.length + 64 = (I ++ msg).length := by simp [li]; omega
  have hh := SHA256.processWith_ok (fun size => decide (size % 64 ≥ 56)) junk ((List.range 32).map junk)
    (I ++ msg) [] rfl (by simp [li]; omega) (by simp)
  rw [← e2] at hh
  rw [e1, SHA256.hmacCopy, hh]
  simp only [Res.ok_bind]
  rw [Mem.wrs_eq _ _ (by simp [lo]), List.take_left' (SHA256.digest_length _)]
  simp only [Res.ok_bind, List.take_zero, List.nil_append, Nat.zero_add, lo]
  rw [Mem.wrs_eq _ _ (by simp [lo, SHA256.digest_length])]
  simp only [Res.ok_bind]
  have e3 : List.take 64 (O ++ List.drop 64 (List.replicate 96 0)) ++ Spec.SHA256.digest (I ++ msg) ++
      List.drop (64 + (Spec.SHA256.digest (I ++ msg)).length) (O ++ List.drop 64 (List.replicate 96 0)) =
      (O ++ Spec.SHA256.digest (I ++ msg)) ++ [] := by
    rw [List.take_left' lo, List.drop_eq_nil_of_le (by simp [lo, SHA256.digest_length])]
  have e4 : 96 = (O ++ Spec.SHA256.digest (I ++ msg)).length := by simp [lo, SHA256.digest_length]
  rw [e3]
  have := SHA256.processWith_ok (fun size => decide (size % 64 ≥ 56)) junk ((List.range 32).map junk)
    (O ++ Spec.SHA256.digest (I ++ msg)) [] rfl (by simp [lo, SHA256.digest_length]) (by simp)
  rw [← e4] at this
  rw [this]
  have hd : ((List.range 32).map junk).drop 32 = [] := List.drop_eq_nil_of_le (by simp)
  rw [hd, List.append_nil]
  rfl

theorem hmac_length (k msg : List U8) : (hmac k msg).length = 32 := by rw [hmac, SHA256.digest_length]

theorem tagGeneration_ok (junk : Nat → U8) (k tag msg extra : List U8) (n : Nat)
    (h0 : msg ≠ []) (hm : msg.length + 192 < 2 ^ 31) (hn : n ≤ 32) (ht : n ≤ tag.length) :
    tagGeneration junk (keyState k) tag (msg ++ extra) msg.length n =
      .ok ((hmac k msg).take n ++ tag.drop n) := by
  have lh := hmac_length k msg
  rw [tagGeneration_mid junk k tag msg extra n h0 hm, memcpyInt, if_neg (by omega), if_neg (by simp [lh]; omega),
    Int.toNat_natCast, Mem.wrs_eq _ _ (by simp [lh]; omega)]
  simp [lh, Nat.min_eq_left hn]

/-- C06: after loading any key, the tag of every non-empty message is the (truncated) RFC 2104 HMAC,
independent of uninitialised memory and of whatever lies behind key and message; the bytes behind
the tag stay as they were. -/
theorem hmac_rfc2104 (junk junk' : Nat → U8) (k msg ek em tag : List U8) (n : Nat)
    (hk : k.length + 128 < 2 ^ 31) (h0 : msg ≠ []) (hm : msg.length + 192 < 2 ^ 31) (hn : n ≤ 32) (ht : n ≤ tag.length) :
    (do let cs ← loadKey junk (k ++ ek) k.length
        tagGeneration junk' cs tag (msg ++ em) msg.length n) =
      .ok ((hmac k msg).take n ++ tag.drop n) := by
  rw [hmac_load_key_normalises junk k ek hk]
  exact tagGeneration_ok junk' k tag msg em n h0 hm hn ht

example : (do let cs ← loadKey (fun _ => 0) ([1, 2] ++ []) 2
              tagGeneration (fun _ => 9) cs (List.replicate 16 0) ([3] ++ []) 1 16) =
    .ok ((hmac [1, 2] [3]).take 16 ++ []) :=
  hmac_rfc2104 _ _ [1, 2] [3] [] [] (List.replicate 16 0) 16 (by simp) (by simp) (by simp) (by simp) (by simp)

/-- A tag longer than the digest reads beyond the digest. -/
theorem hmac_long_tag_overreads (junk : Nat → U8) (k tag msg extra : List U8) (n : Int)
    (h0 : msg ≠ []) (hm : msg.length + 192 < 2 ^ 31) (hn : 32 < n) :
    tagGeneration junk (keyState k) tag (msg ++ extra) msg.length n = .ub .outOfBounds := by
  rw [tagGeneration_mid junk k tag msg extra n h0 hm, memcpyInt, if_neg (by omega), if_pos]
  rw [hmac_length]
  omega

example : tagGeneration (fun _ => 0) (keyState [1]) (List.replicate 64 0) ([3] ++ []) 1 33 = .ub .outOfBounds :=
  hmac_long_tag_overreads _ [1] (List.replicate 64 0) [3] [] 33 (by simp) (by simp) (by decide)

/-- C07 refuted: for the empty message no tag is produced at all: the tag buffer stays as it was. -/
theorem hmac_empty_message_no_tag (junk : Nat → U8) (cs : State) (tag msg : List U8) (n : Int) :
    tagGeneration junk cs tag msg 0 n = .ok tag := rfl

/-- C07 refuted: the empty message does not get its RFC 2104 tag. -/
theorem hmac_empty_message_refuted :
    ¬ ∀ (junk : Nat → U8) (k tag : List U8), tag.length = 32 → k.length = 16 →
      (do let cs ← loadKey junk k k.length
          tagGeneration junk cs tag [] 0 32) = .ok (hmac k []) := by
  intro h
  have key : ∀ tag : List U8, tag.length = 32 → tag = hmac (List.replicate 16 0) [] := by
    intro tag ht
    have h1 := h (fun _ => 0) (List.replicate 16 0) tag ht (by simp)
    have h2 := hmac_load_key_normalises (fun _ => 0) (List.replicate 16 0) [] (by simp)
    rw [List.append_nil] at h2
    rw [h2] at h1
    exact Res.ok_inj.1 h1
  have h1 := key (List.replicate 32 0) (by simp)
  have h2 := key (List.replicate 32 1) (by simp)
  rw [← h2] at h1
  exact absurd h1 (by decide)

/-! ### Validation -/

theorem compareLoop_ok (p q a b : List U8) (hp : p.length = q.length) (n : Nat) (ha : n ≤ a.length) (hb : n ≤ b.length) :
    compareLoop (p ++ a) (q ++ b) n p.length = .ok (if a.take n = b.take n then 1 else 0) := by
  induction n generalizing p q a b with
  | zero => simp [compareLoop]
  | succ n ih =>
    cases a with
    | nil => simp at ha
    | cons x a =>
      cases b with
      | nil => simp at hb
      | cons y b =>
        have h1 := Mem.rd_append_right p (x :: a) 0
        have h2 := Mem.rd_append_right q (y :: b) 0
        rw [Nat.add_zero] at h1 h2
        rw [compareLoop, h1, hp, h2]
        simp only [Mem.rd, List.getElem?_cons_zero, Res.ok_bind, List.take_succ_cons, List.cons.injEq]
        by_cases e : x = y
        · subst e
          have := ih (p ++ [x]) (q ++ [x]) a b (by simp [hp]) (by simpa using ha) (by simpa using hb)
          simp only [List.append_assoc, List.singleton_append, List.length_append, List.length_singleton] at this
          simp only [ne_eq, not_true_eq_false, if_false, true_and]
          rw [← hp]
          exact this
        · simp [e]

/-- C08: validation accepts exactly the tags whose first `n` bytes equal the RFC 2104 tag. -/
theorem hmac_validation_decides (junk junk' : Nat → U8) (k msg ek em tag : List U8) (n : Nat)
    (hk : k.length + 128 < 2 ^ 31) (h0 : msg ≠ []) (hm : msg.length + 192 < 2 ^ 31) (hn : n ≤ 32) (ht : n ≤ tag.length) :
    (do let cs ← loadKey junk (k ++ ek) k.length
        tagValidation junk' cs tag (msg ++ em) msg.length n) =
      .ok (if tag.take n = (hmac k msg).take n then 1 else 0) := by
  rw [hmac_load_key_normalises junk k ek hk]
  simp only [Res.ok_bind, tagValidation]
  rw [if_neg (by omega)]
  have := tagGeneration_ok junk' k ((List.range n).map junk') msg em n h0 hm hn (by simp)
  rw [keyState] at this
  simp only [Int.toNat_natCast]
  rw [this]
  simp only [Res.ok_bind]
  have hd : ((List.range n).map junk').drop n = [] := List.drop_eq_nil_of_le (by simp)
  rw [hd, List.append_nil]
  have lh : (hmac k msg).length = 32 := by rw [hmac, SHA256.digest_length]
  have := compareLoop_ok [] [] tag ((hmac k msg).take n) rfl n ht (by simp [lh, hn])
  simp only [List.nil_append, List.length_nil] at this
  rw [this, List.take_take, Nat.min_self]

example : (do let cs ← loadKey (fun _ => 1) ([1, 2] ++ []) 2
              tagValidation (fun _ => 9) cs ((hmac [1, 2] [3]).take 16) ([3] ++ []) 1 16) = .ok 1 := by
  have := hmac_validation_decides (fun _ => 1) (fun _ => 9) [1, 2] [3] [] [] ((hmac [1, 2] [3]).take 16) 16
    (by simp) (by simp) (by simp) (by simp) (by simp [hmac, SHA256.digest_length])
  rw [List.take_take, Nat.min_self, if_pos rfl] at this
  exact this

/-- C08, round trip: a tag made with the same key validates; flipping anything in its first `n` bytes
makes validation fail. -/
theorem hmac_generate_validate (junk : Nat → U8) (k msg tag0 forged : List U8) (n : Nat)
    (hk : k.length + 128 < 2 ^ 31) (h0 : msg ≠ []) (hm : msg.length + 192 < 2 ^ 31) (hn : n ≤ 32)
    (ht : n = tag0.length) (hf : forged.length = n) :
    (do let cs ← loadKey junk k k.length
        let tag ← tagGeneration junk cs tag0 msg msg.length n
        let good ← tagValidation junk cs tag msg msg.length n
        let bad ← tagValidation junk cs forged msg msg.length n
        Res.ok (decide (good = 1), decide (bad = 1), decide (forged = tag))) =
      .ok (true, decide (forged = (hmac k msg).take n), decide (forged = (hmac k msg).take n)) := by
  have hl := hmac_load_key_normalises junk k [] hk
  have hg := tagGeneration_ok junk k tag0 msg [] n h0 hm hn (by omega)
  have hv := fun t (h : n ≤ List.length t) => hmac_validation_decides junk junk k msg [] [] t n hk h0 hm hn h
  have lh : (hmac k msg).length = 32 := by rw [hmac, SHA256.digest_length]
  have hd : tag0.drop n = [] := List.drop_eq_nil_of_le (by omega)
  simp only [List.append_nil, keyState, hd] at hl hg hv
  simp only [hl, Res.ok_bind] at hv ⊢
  rw [hg]
  simp only [Res.ok_bind]
  rw [hv _ (by simp [lh, hn]), hv _ (by omega)]
  simp only [Res.ok_bind, List.take_take, Nat.min_self, if_true]
  rw [List.take_of_length_le (Nat.le_of_eq hf)]
  simp

example : (do let cs ← loadKey (fun _ => 1) [1, 2] 2
              let tag ← tagGeneration (fun _ => 1) cs [0, 0, 0, 0] [3] 1 4
              let good ← tagValidation (fun _ => 1) cs tag [3] 1 4
              let bad ← tagValidation (fun _ => 1) cs [9, 9, 9, 9] [3] 1 4
              Res.ok (decide (good = 1), decide (bad = 1), decide ([9, 9, 9, 9] = tag))) =
    .ok (true, decide ([9, 9, 9, 9] = (hmac [1, 2] [3]).take 4), decide ([9, 9, 9, 9] = (hmac [1, 2] [3]).take 4)) :=
  hmac_generate_validate (fun _ => 1) [1, 2] [3] [0, 0, 0, 0] [9, 9, 9, 9] 4 (by simp) (by simp) (by simp) (by simp) rfl rfl

/-- A requested tag length of zero accepts everything. -/
theorem hmac_zero_tag_accepts (junk : Nat → U8) (cs : State) (tag msg : List U8) :
    tagValidation junk cs tag msg 0 0 = .ok 1 := rfl

/-- C09, what holds: for non-empty messages the verdict does not depend on uninitialised memory.
Missing: the empty message (see `hmac_verdict_refuted`). -/
theorem hmac_verdict_partial (junk junk' : Nat → U8) (k msg em tag : List U8) (n : Nat)
    (hk : k.length + 128 < 2 ^ 31) (h0 : msg ≠ []) (hm : msg.length + 192 < 2 ^ 31) (hn : n ≤ 32) (ht : n ≤ tag.length) :
    tagValidation junk (keyState k) tag (msg ++ em) msg.length n =
      tagValidation junk' (keyState k) tag (msg ++ em) msg.length n := by
  have h1 := hmac_validation_decides junk junk k msg [] em tag n hk h0 hm hn ht
  have h2 := hmac_validation_decides junk junk' k msg [] em tag n hk h0 hm hn ht
  rw [hmac_load_key_normalises junk k [] hk] at h1 h2
  simp only [Res.ok_bind] at h1 h2
  rw [keyState, h1, h2]

example : tagValidation (fun _ => 1) (keyState [1]) (List.replicate 16 7) ([3] ++ []) 1 16 =
    tagValidation (fun _ => 2) (keyState [1]) (List.replicate 16 7) ([3] ++ []) 1 16 :=
  hmac_verdict_partial _ _ [1] [3] [] _ 16 (by simp) (by simp) (by simp) (by simp) (by simp)

/-- C09 refuted: for the empty message, the verdict compares the received tag with uninitialised
memory: any tag is accepted or rejected depending on the stack. -/
theorem hmac_empty_message_verdict (junk : Nat → U8) (cs : State) (tag : List U8) (n : Nat) (h : n ≤ tag.length) :
    tagValidation junk cs tag [] 0 n = .ok (if tag.take n = (List.range n).map junk then 1 else 0) := by
  simp only [tagValidation, tagGeneration, Int.toNat_natCast]
  rw [if_neg (by omega), if_pos (by omega)]
  simp only [Res.ok_bind]
  have := compareLoop_ok [] [] tag ((List.range n).map junk) rfl n h (by simp)
  simp only [List.nil_append, List.length_nil] at this
  rw [this, List.take_of_length_le (l := (List.range n).map junk) (by simp)]

/-- C09 refuted. -/
theorem hmac_verdict_refuted : ¬ ∀ (junk junk' : Nat → U8) (k tag msg : List U8), tag.length = 16 →
    tagValidation junk (keyState k) tag msg msg.length 16 = tagValidation junk' (keyState k) tag msg msg.length 16 := by
  intro h
  have h1 := h (fun _ => 0) (fun _ => 1) [1] (List.replicate 16 0) [] (by simp)
  have e1 := hmac_empty_message_verdict (fun _ => 0) (keyState [1]) (List.replicate 16 0) 16 (by simp)
  have e2 := hmac_empty_message_verdict (fun _ => 1) (keyState [1]) (List.replicate 16 0) 16 (by simp)
  simp only [List.length_nil] at h1
  have h3 := e1.symm.trans (h1.trans e2)
  exact absurd h3 (by decide)

end CT.Props.HMAC
