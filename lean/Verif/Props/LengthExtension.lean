import Verif.Props.SHA256
import Verif.Props.MD5

/-!
# C112: a digest of a secret followed by a message as an authenticator

A forger knows the digest of `secret ++ msg`, the message and the length of the secret, and wants the
digest of the secret followed by another message.
-/

namespace CT.Props.SHA256
open CT CT.SHA256 CT.Spec.SHA256

/-- The bytes that padding appends to a message of `n` bytes (FIPS 180-4, 5.1.1). -/
def glue (n : Nat) : List U8 := [0x80] ++ List.replicate (zeros n) 0 ++ be64 (8 * n)

/-- The hash value with a given byte string. -/
def ofBytes (d : List U8) : Vars :=
  let w := fun i => be32 (d.getD (4 * i) 0) (d.getD (4 * i + 1) 0) (d.getD (4 * i + 2) 0) (d.getD (4 * i + 3) 0)
  { a := w 0, b := w 1, c := w 2, d := w 3, e := w 4, f := w 5, g := w 6, h := w 7 }

/-- Hash value after `i` blocks of `p`, starting with `v`. -/
def hashFrom (v : Vars) (p : List U8) : Nat → Vars
  | 0 => v
  | i + 1 => compress (hashFrom v p i) (M p i)

/-- The digest that the forger computes: of some message of `n` bytes with digest `d`, its padding, and `x`. -/
def extended (d : List U8) (n : Nat) (x : List U8) : List U8 :=
  let p := x ++ glue (n + (glue n).length + x.length)
  (hashFrom (ofBytes d) p (p.length / 64)).bytes

theorem ofBytes_bytes (v : Vars) : ofBytes v.bytes = v := by
  have h (w : U32) : be32 (byteN w 3) (byteN w 2) (byteN w 1) (byteN w 0) = w := le32_byteN w
  cases v
  simp only [ofBytes, Vars.bytes, bytesBE32, List.cons_append, List.nil_append, List.getD_cons_succ, List.getD_cons_zero,
    Nat.mul_zero, Nat.mul_one, Nat.reduceMul, Nat.reduceAdd, Nat.zero_add, h]

theorem pad_eq_glue (m : List U8) : pad m = m ++ glue m.length := by
  simp [pad, glue]

theorem pad_mod (m : List U8) : (pad m).length % 64 = 0 := by
  rw [CT.SHA256.pad_length, zeros]; omega

theorem M_append_right (a b : List U8) (k j : Nat) (h : a.length = 64 * k) : M (a ++ b) (k + j) = M b j := by
  funext t
  have g (n : Nat) : (a ++ b).getD (64 * (k + j) + 4 * t + n) 0 = b.getD (64 * j + 4 * t + n) 0 := by
    rw [List.getD_eq_getElem?_getD, List.getD_eq_getElem?_getD, List.getElem?_append_right (by omega)]
    congr 2; omega
  simp only [M, g]

theorem M_append_left (a b : List U8) (k i t : Nat) (h : a.length = 64 * k) (hi : i < k) (ht : t < 16) :
    M (a ++ b) i t = M a i t := by
  have g (n : Nat) (hn : n < 4) : (a ++ b).getD (64 * i + 4 * t + n) 0 = a.getD (64 * i + 4 * t + n) 0 := by
    rw [List.getD_eq_getElem?_getD, List.getD_eq_getElem?_getD, List.getElem?_append_left (by omega)]
  simp only [M, g 0 (by omega), g 1 (by omega), g 2 (by omega), g 3 (by omega)]

theorem W_congr {A B : Nat → U32} (h : ∀ t, t < 16 → A t = B t) (t : Nat) : W A t = W B t := by
  induction t using Nat.strongRecOn with
  | ind t ih =>
    rw [W, W.eq_def B]
    split
    · rename_i ht; exact h t ht
    · rw [ih (t - 2) (by omega), ih (t - 7) (by omega), ih (t - 15) (by omega), ih (t - 16) (by omega)]

theorem compress_congr {A B : Nat → U32} (h : ∀ t, t < 16 → A t = B t) (v : Vars) : compress v A = compress v B := by
  have hr (n : Nat) : rounds A v n = rounds B v n := by
    induction n with
    | zero => rfl
    | succ n ih => rw [rounds, rounds, ih, W_congr h]
  rw [compress, compress, hr]

theorem hashAt_append_left (a b : List U8) (k : Nat) (h : a.length = 64 * k) (i : Nat) (hi : i ≤ k) :
    hashAt (a ++ b) i = hashAt a i := by
  induction i with
  | zero => rfl
  | succ i ih =>
    rw [hashAt, hashAt, ih (by omega)]
    exact compress_congr (fun t ht => M_append_left a b k i t h (by omega) ht) _

theorem hashAt_append (a b : List U8) (k : Nat) (h : a.length = 64 * k) (j : Nat) :
    hashAt (a ++ b) (k + j) = hashFrom (hashAt a k) b j := by
  induction j with
  | zero => rw [Nat.add_zero, hashFrom, hashAt_append_left a b k h k (Nat.le_refl k)]
  | succ j ih => rw [← Nat.add_assoc, hashAt, hashFrom, ih, M_append_right a b k j h]

theorem digest_extend (m x : List U8) : digest (m ++ glue m.length ++ x) = extended (digest m) m.length x := by
  have hp : pad (m ++ glue m.length ++ x) = pad m ++ (x ++ glue (m.length + (glue m.length).length + x.length)) := by
    rw [pad_eq_glue, pad_eq_glue m]
    simp only [List.append_assoc, List.length_append, Nat.add_assoc]
  have h0 := pad_mod m
  have hk : (pad m).length = 64 * ((pad m).length / 64) := by omega
  rw [digest, hp, List.length_append, extended]
  have e : ((pad m).length + (x ++ glue (m.length + (glue m.length).length + x.length)).length) / 64 =
      (pad m).length / 64 + (x ++ glue (m.length + (glue m.length).length + x.length)).length / 64 := by omega
  rw [e, hashAt_append _ _ _ hk, digest, ofBytes_bytes]

/-- C112, refuted in the strongest way for SHA-256: from the digest of any message of `n` bytes (say a
secret followed by a text), without the message, anyone computes the digest of the message followed by
its padding and any bytes `x`; both copies of the code write that digest. -/
theorem sha256_length_extension (junk : Nat → U8) (dst m x extra : List U8) (d : List U8) (hdst : dst.length = 32)
    (hs : (m ++ glue m.length ++ x).length + 128 < 2 ^ 31)
    (h : hmacCopy junk dst m m.length = .ok d) :
    hmacCopy junk dst (m ++ glue m.length ++ x ++ extra) (m ++ glue m.length ++ x).length =
      .ok (extended d m.length x) ∧
    ((m ++ glue m.length ++ x).length % 64 ≠ 63 →
      hashCopy junk dst (m ++ glue m.length ++ x ++ extra) (m ++ glue m.length ++ x).length =
        .ok (extended d m.length x)) := by
  have hl : m.length + 128 < 2 ^ 31 := by simp only [List.length_append] at hs; omega
  have h1 := sha256_hmac_copy_fips junk dst m [] hl (by omega)
  rw [List.append_nil, h, List.drop_of_length_le (by omega), List.append_nil] at h1
  have h2 : d = digest m := Res.ok_inj.mp h1
  rw [h2, ← digest_extend]
  refine ⟨?_, fun h63 => ?_⟩
  · rw [sha256_hmac_copy_fips junk dst _ extra hs (by omega), List.drop_of_length_le (by omega), List.append_nil]
  · rw [sha256_hash_copy_fips_partial junk dst _ extra h63 hs (by omega), List.drop_of_length_le (by omega), List.append_nil]

/-- Non-trivial instance. -/
example : ∃ d, hmacCopy (fun _ => 7) (List.replicate 32 0) [0x61, 0x62, 0x63] 3 = .ok d ∧
    ([0x61, 0x62, 0x63] ++ glue 3 ++ [0x64]).length + 128 < 2 ^ 31 := by
  refine ⟨_, sha256_hmac_copy_fips _ _ [0x61, 0x62, 0x63] [] (by simp) (by simp), ?_⟩
  decide

/-- C112 is false for SHA-256: there is a forger that, given the digest of `secret ++ msg`, `msg` and the
length of the secret, returns another message and the digest of the secret followed by it, for all secrets. -/
theorem sha256_secret_prefix_refuted : ¬ ∀ forger : List U8 → Nat → List U8 → List U8 × List U8,
    ∃ (junk : Nat → U8) (secret msg : List U8), secret.length ≤ 64 ∧ msg.length ≤ 64 ∧
      ∀ d, hmacCopy junk (List.replicate 32 0) (secret ++ msg) (secret ++ msg).length = .ok d →
        (forger d secret.length msg).1 = msg ∨
        hmacCopy junk (List.replicate 32 0) (secret ++ (forger d secret.length msg).1)
          (secret ++ (forger d secret.length msg).1).length ≠ .ok (forger d secret.length msg).2 := by
  intro h
  obtain ⟨junk, secret, msg, h1, h2, h3⟩ := h fun d n msg =>
    (msg ++ glue (n + msg.length), extended d (n + msg.length) [])
  have hl : (glue (secret ++ msg).length).length ≤ 72 := by
    simp only [glue, List.length_append, List.length_replicate, List.length_cons, List.length_nil, zeros, be64, List.length_map]
    omega
  have hs : (secret ++ msg).length + 128 < 2 ^ 31 := by rw [List.length_append]; omega
  have e := sha256_hmac_copy_fips junk (List.replicate 32 0) (secret ++ msg) [] hs (by simp)
  rw [List.append_nil] at e
  have e' := (sha256_length_extension junk (List.replicate 32 0) (secret ++ msg) [] [] _ (by simp)
    (by simp only [List.length_append, List.append_nil] at hl ⊢; omega) e).1
  rcases h3 _ e with h4 | h4
  · have := congrArg List.length h4
    simp [glue] at this
  · simp only [List.append_nil, List.length_append, List.append_assoc] at e' h4
    exact h4 e'

end CT.Props.SHA256

namespace CT.Props.MD5
open CT CT.MD5 CT.Spec.MD5

/-- The bytes that padding appends to a message of `n` bytes (RFC 1321, 3.1 and 3.2). -/
def glue (n : Nat) : List U8 := [0x80] ++ List.replicate (zeros n) 0 ++ le64 (8 * n)

/-- The registers with a given byte string. -/
def ofBytes (d : List U8) : Spec.MD5.Regs :=
  let w := fun i => le32 (d.getD (4 * i) 0) (d.getD (4 * i + 1) 0) (d.getD (4 * i + 2) 0) (d.getD (4 * i + 3) 0)
  { a := w 0, b := w 1, c := w 2, d := w 3 }

/-- Registers after `i` blocks of `p`, starting with `v`. -/
def hashFrom (v : Spec.MD5.Regs) (p : List U8) : Nat → Spec.MD5.Regs
  | 0 => v
  | i + 1 => compress (hashFrom v p i) (word p i)

/-- The digest that the forger computes: of some message of `n` bytes with digest `d`, its padding, and `x`. -/
def extended (d : List U8) (n : Nat) (x : List U8) : List U8 :=
  let p := x ++ glue (n + (glue n).length + x.length)
  (hashFrom (ofBytes d) p (p.length / 64)).bytes

theorem ofBytes_bytes (v : Spec.MD5.Regs) : ofBytes v.bytes = v := by
  cases v
  simp only [ofBytes, Spec.MD5.Regs.bytes, bytesLE32, List.cons_append, List.nil_append, List.getD_cons_succ, List.getD_cons_zero,
    Nat.mul_zero, Nat.mul_one, Nat.reduceMul, Nat.reduceAdd, Nat.zero_add, le32_byteN]

theorem pad_eq_glue (m : List U8) : pad m = m ++ glue m.length := by
  simp [pad, glue]

theorem pad_mod (m : List U8) : (pad m).length % 64 = 0 := by
  rw [CT.MD5.pad_length, zeros]; omega

theorem word_append_right (a b : List U8) (k j : Nat) (h : a.length = 64 * k) : word (a ++ b) (k + j) = word b j := by
  funext t
  have g (n : Nat) : (a ++ b).getD (64 * (k + j) + 4 * t + n) 0 = b.getD (64 * j + 4 * t + n) 0 := by
    rw [List.getD_eq_getElem?_getD, List.getD_eq_getElem?_getD, List.getElem?_append_right (by omega)]
    congr 2; omega
  simp only [word, g]

theorem word_append_left (a b : List U8) (k i t : Nat) (h : a.length = 64 * k) (hi : i < k) (ht : t < 16) :
    word (a ++ b) i t = word a i t := by
  have g (n : Nat) (hn : n < 4) : (a ++ b).getD (64 * i + 4 * t + n) 0 = a.getD (64 * i + 4 * t + n) 0 := by
    rw [List.getD_eq_getElem?_getD, List.getD_eq_getElem?_getD, List.getElem?_append_left (by omega)]
  simp only [word, g 0 (by omega), g 1 (by omega), g 2 (by omega), g 3 (by omega)]

theorem idx_lt (t : Nat) : idx t < 16 := by
  rw [idx]; split <;> omega

theorem compress_congr {A B : Nat → U32} (h : ∀ t, t < 16 → A t = B t) (v : Spec.MD5.Regs) : compress v A = compress v B := by
  have hs : step A = step B := by
    funext r t
    rw [step, step, h _ (idx_lt t)]
  rw [compress, compress, hs]

theorem hashAt_append_left (a b : List U8) (k : Nat) (h : a.length = 64 * k) (i : Nat) (hi : i ≤ k) :
    hashAt (a ++ b) i = hashAt a i := by
  induction i with
  | zero => rfl
  | succ i ih =>
    rw [hashAt, hashAt, ih (by omega)]
    exact compress_congr (fun t ht => word_append_left a b k i t h (by omega) ht) _

theorem hashAt_append (a b : List U8) (k : Nat) (h : a.length = 64 * k) (j : Nat) :
    hashAt (a ++ b) (k + j) = hashFrom (hashAt a k) b j := by
  induction j with
  | zero => rw [Nat.add_zero, hashFrom, hashAt_append_left a b k h k (Nat.le_refl k)]
  | succ j ih => rw [← Nat.add_assoc, hashAt, hashFrom, ih, word_append_right a b k j h]

theorem digest_extend (m x : List U8) : digest (m ++ glue m.length ++ x) = extended (digest m) m.length x := by
  have hp : pad (m ++ glue m.length ++ x) = pad m ++ (x ++ glue (m.length + (glue m.length).length + x.length)) := by
    rw [pad_eq_glue, pad_eq_glue m]
    simp only [List.append_assoc, List.length_append, Nat.add_assoc]
  have h0 := pad_mod m
  have hk : (pad m).length = 64 * ((pad m).length / 64) := by omega
  rw [digest, hp, List.length_append, extended]
  have e : ((pad m).length + (x ++ glue (m.length + (glue m.length).length + x.length)).length) / 64 =
      (pad m).length / 64 + (x ++ glue (m.length + (glue m.length).length + x.length)).length / 64 := by omega
  rw [e, hashAt_append _ _ _ hk, digest, ofBytes_bytes]

/-- C112, refuted in the strongest way for MD5: see `sha256_length_extension`. -/
theorem md5_length_extension (c : Ctx) (dst m x extra : List U8) (d : List U8) (c' : Ctx) (hc : c.buffer.length = 64)
    (hdst : dst.length = 16) (hs : (m ++ glue m.length ++ x).length < 2 ^ 32)
    (h : processPacket c dst m (BitVec.ofNat 32 m.length) = .ok (d, c')) :
    processPacket c dst (m ++ glue m.length ++ x ++ extra) (BitVec.ofNat 32 (m ++ glue m.length ++ x).length) =
      .ok (extended d m.length x, c') := by
  have hl : m.length < 2 ^ 32 := by simp only [List.length_append] at hs; omega
  have h1 := md5_one_shot c dst m [] (BitVec.ofNat 32 m.length)
    (by rw [BitVec.toNat_ofNat, Nat.mod_eq_of_lt hl]) hc (by omega)
  rw [List.append_nil, h, List.drop_of_length_le (by omega), List.append_nil] at h1
  have h2 := (Prod.mk.injEq ..).mp (Res.ok_inj.mp h1)
  rw [md5_one_shot c dst _ extra _ (by rw [BitVec.toNat_ofNat, Nat.mod_eq_of_lt hs]) hc (by omega),
    List.drop_of_length_le (by omega), List.append_nil, digest_extend, h2.1, h2.2]

/-- Non-trivial instance. -/
example : ∃ d c', processPacket (init wiped) (List.replicate 16 0) [0x61, 0x62, 0x63] (BitVec.ofNat 32 3) = .ok (d, c') ∧
    ([0x61, 0x62, 0x63] ++ glue 3 ++ [0x64]).length < 2 ^ 32 := by
  refine ⟨_, _, md5_one_shot (init wiped) _ [0x61, 0x62, 0x63] [] _ (by simp) (by simp [init, wiped]) (by simp), ?_⟩
  decide

/-- C112 is false for MD5. -/
theorem md5_secret_prefix_refuted : ¬ ∀ forger : List U8 → Nat → List U8 → List U8 × List U8,
    ∃ (c : Ctx) (secret msg : List U8), c.buffer.length = 64 ∧ secret.length ≤ 64 ∧ msg.length ≤ 64 ∧
      ∀ d c', processPacket c (List.replicate 16 0) (secret ++ msg) (BitVec.ofNat 32 (secret ++ msg).length) = .ok (d, c') →
        (forger d secret.length msg).1 = msg ∨
        ¬ ∃ c'', processPacket c (List.replicate 16 0) (secret ++ (forger d secret.length msg).1)
          (BitVec.ofNat 32 (secret ++ (forger d secret.length msg).1).length) = .ok ((forger d secret.length msg).2, c'') := by
  intro h
  obtain ⟨c, secret, msg, hc, h1, h2, h3⟩ := h fun d n msg =>
    (msg ++ glue (n + msg.length), extended d (n + msg.length) [])
  have hl : (glue (secret ++ msg).length).length ≤ 72 := by
    simp only [glue, List.length_append, List.length_replicate, List.length_cons, List.length_nil, zeros, le64, List.length_map]
    omega
  have hs : (secret ++ msg).length < 2 ^ 32 := by rw [List.length_append]; omega
  have e := md5_one_shot c (List.replicate 16 0) (secret ++ msg) [] (BitVec.ofNat 32 (secret ++ msg).length)
    (by rw [BitVec.toNat_ofNat, Nat.mod_eq_of_lt hs]) hc (by simp)
  rw [List.append_nil] at e
  have e' := md5_length_extension c (List.replicate 16 0) (secret ++ msg) [] [] _ _ hc (by simp)
    (by simp only [List.length_append, List.append_nil] at hl ⊢; omega) e
  rcases h3 _ _ e with h4 | h4
  · have := congrArg List.length h4
    simp [glue] at this
  · simp only [List.append_nil, List.length_append, List.append_assoc] at e' h4
    exact h4 ⟨_, e'⟩

end CT.Props.MD5
