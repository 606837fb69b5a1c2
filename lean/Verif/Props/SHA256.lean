import Verif.Proof.SHA256

/-!
# C03-C05: the two copies of SHA-256
-/

namespace CT.Props.SHA256
open CT CT.SHA256

/-- C04: the copy used by HMAC writes the FIPS 180-4 digest, for every message, whatever lies behind
the message, whatever the stack contained, and leaves the bytes behind the digest alone.  The bound
is that of the code's `int n`. -/
theorem sha256_hmac_copy_fips (junk : Nat → U8) (dst msg extra : List U8)
    (hs : msg.length + 128 < 2 ^ 31) (hd : 32 ≤ dst.length) :
    hmacCopy junk dst (msg ++ extra) msg.length = .ok (Spec.SHA256.digest msg ++ dst.drop 32) :=
  processWith_ok _ junk dst msg extra rfl hs hd

example : hmacCopy (fun _ => 7) (List.replicate 32 0) ([0x61, 0x62, 0x63] ++ [9]) 3 =
    .ok (Spec.SHA256.digest [0x61, 0x62, 0x63] ++ []) :=
  sha256_hmac_copy_fips _ _ [0x61, 0x62, 0x63] [9] (by simp) (by simp)

/-- C03, what holds: the stand-alone copy writes the FIPS 180-4 digest of every message whose length is
not 63 mod 64.  Missing: those lengths (see `sha256_hash_copy_fips_refuted`). -/
theorem sha256_hash_copy_fips_partial (junk : Nat → U8) (dst msg extra : List U8)
    (h63 : msg.length % 64 ≠ 63) (hs : msg.length + 128 < 2 ^ 31) (hd : 32 ≤ dst.length) :
    hashCopy junk dst (msg ++ extra) msg.length = .ok (Spec.SHA256.digest msg ++ dst.drop 32) := by
  apply processWith_ok _ junk dst msg extra _ hs hd
  show decide _ = _
  congr 1
  apply propext
  constructor <;> intro h <;> omega

example : hashCopy (fun _ => 7) (List.replicate 40 1) ([0x61, 0x62, 0x63] ++ []) 3 =
    .ok (Spec.SHA256.digest [0x61, 0x62, 0x63] ++ List.replicate 8 1) :=
  sha256_hash_copy_fips_partial _ _ [0x61, 0x62, 0x63] [] (by simp) (by simp) (by simp)

/-- C05 for the stand-alone copy, refuted completely: it leaves its stack buffer on every message whose
length is 63 mod 64. -/
theorem sha256_hash_copy_overflows (junk : Nat → U8) (dst msg extra : List U8) (h : msg.length % 64 = 63) :
    hashCopy junk dst (msg ++ extra) msg.length = .ub .outOfBounds := by
  apply processWith_oob _ junk dst msg extra _ h
  show decide _ = _
  rw [decide_eq_false_iff_not]
  omega

example : hashCopy (fun _ => 0) (List.replicate 32 0) (List.replicate 63 5 ++ []) 63 = .ub .outOfBounds :=
  sha256_hash_copy_overflows _ _ (List.replicate 63 5) [] (by simp)

/-- C05 for the stand-alone copy, exact: for messages within the range of `int`, it has undefined
behaviour exactly when the length is 63 mod 64. -/
theorem sha256_hash_copy_ub_iff (junk : Nat → U8) (dst msg extra : List U8)
    (hs : msg.length + 128 < 2 ^ 31) (hd : 32 ≤ dst.length) :
    (hashCopy junk dst (msg ++ extra) msg.length).isUB = true ↔ msg.length % 64 = 63 := by
  constructor
  · intro h
    by_cases h63 : msg.length % 64 = 63
    · exact h63
    · rw [sha256_hash_copy_fips_partial junk dst msg extra h63 hs hd] at h
      exact absurd h (by simp [Res.isUB])
  · intro h
    rw [sha256_hash_copy_overflows junk dst msg extra h]
    rfl

/-- C03 refuted: some message is not hashed as FIPS 180-4 says. -/
theorem sha256_hash_copy_fips_refuted :
    ¬ ∀ (junk : Nat → U8) (dst msg : List U8), msg.length + 128 < 2 ^ 31 → dst.length = 32 →
      hashCopy junk dst msg msg.length = .ok (Spec.SHA256.digest msg) := by
  intro h
  have h1 := h (fun _ => 0) (List.replicate 32 0) (List.replicate 63 0) (by simp) (by simp)
  have h2 := sha256_hash_copy_overflows (fun _ => 0) (List.replicate 32 0) (List.replicate 63 0) [] (by simp)
  rw [List.append_nil] at h2
  rw [h2] at h1
  cases h1

/-- C05 for the HMAC copy: padding stays inside the buffer and nothing else is undefined either. -/
theorem sha256_hmac_copy_no_ub (junk : Nat → U8) (dst msg extra : List U8)
    (hs : msg.length + 128 < 2 ^ 31) (hd : 32 ≤ dst.length) :
    (hmacCopy junk dst (msg ++ extra) msg.length).isUB = false := by
  rw [sha256_hmac_copy_fips junk dst msg extra hs hd]
  rfl

example : (hmacCopy (fun _ => 3) (List.replicate 32 0) (List.replicate 63 5 ++ []) 63).isUB = false :=
  sha256_hmac_copy_no_ub (fun _ => 3) (List.replicate 32 0) (List.replicate 63 5) [] (by simp) (by simp)

/-- The two copies agree wherever the stand-alone one is defined. -/
theorem sha256_copies_agree (junk junk' : Nat → U8) (dst msg extra : List U8)
    (h63 : msg.length % 64 ≠ 63) (hs : msg.length + 128 < 2 ^ 31) (hd : 32 ≤ dst.length) :
    hashCopy junk dst (msg ++ extra) msg.length = hmacCopy junk' dst (msg ++ extra) msg.length := by
  rw [sha256_hash_copy_fips_partial junk dst msg extra h63 hs hd, sha256_hmac_copy_fips junk' dst msg extra hs hd]

end CT.Props.SHA256
