import Verif.Model.InPlace
import Verif.Props.SHA256
import Verif.Props.HMAC
import Verif.Props.MD5

/-! # C146: digests and tags over the message -/

namespace CT.Props.InPlace
open CT

/-- The array with the bytes from `i` on replaced. -/
def put (mem : List U8) (i : Nat) (x : List U8) : List U8 := mem.take i ++ x ++ mem.drop (i + x.length)

theorem wrs_in {mem x y : List U8} {i : Nat} (h : i ≤ mem.length) (e : Mem.wrs (mem.drop i) 0 x = .ok (y ++ (mem.drop i).drop y.length))
    (hl : x.length = y.length) (hx : i + x.length ≤ mem.length) : Mem.wrs mem i x = .ok (put mem i y) := by
  rw [Mem.wrs_eq _ _ (by rw [List.length_drop]; omega), List.take_zero, List.nil_append, Nat.zero_add, hl] at e
  have := List.append_inj_left (Res.ok_inj.mp e) hl
  rw [Mem.wrs_eq _ _ hx, this, put]

theorem sha256_in (grow : Nat → Bool) (junk : Nat → U8) (mem y : List U8) (d m n : Nat) (hd : d + 32 ≤ mem.length)
    (hm : m + n ≤ mem.length) (hy : y.length = 32)
    (h : SHA256.processWith grow junk (mem.drop d) (mem.drop m) n = .ok (y ++ (mem.drop d).drop 32)) :
    SHA256.processIn grow junk mem d m n = .ok (put mem d y) := by
  simp only [SHA256.processWith, SHA256.processIn] at h ⊢
  generalize (if grow n then n / 64 * 64 + 128 else n / 64 * 64 + 64) = N at *
  split at h
  · cases h
  split at h
  · cases h
  rw [if_neg (by assumption), if_neg (by omega)]
  cases h1 : Mem.wrs ((List.range N).map junk) 0 ((mem.drop m).take n) with
  | ub w => rw [h1] at h; cases h
  | ok a =>
  rw [h1] at h
  simp only [Res.ok_bind] at h ⊢
  cases h2 : SHA256.padMessage a n with
  | ub w => rw [h2] at h; cases h
  | ok b =>
  rw [h2] at h
  simp only [Res.ok_bind] at h ⊢
  cases h3 : SHA256.blockLoop b (N / 64) 0 SHA256.H0 with
  | ub w => rw [h3] at h; cases h
  | ok H =>
  rw [h3] at h
  simp only [Res.ok_bind] at h ⊢
  have hw : (wordsToBytesLE (H.toList.map SHA256.swapWord)).length = 32 := by
    rw [wordsToBytesLE_length, List.length_map, Vector.length_toList]
  exact wrs_in (by omega) (by rw [hy]; exact h) (by rw [hw, hy]) (by omega)

/-- Bytes of an array. -/
theorem split_at {mem x : List U8} {m : Nat} (h : (mem.drop m).take x.length = x) :
    mem.drop m = x ++ (mem.drop m).drop x.length := by
  have := List.take_append_drop x.length (mem.drop m)
  rw [h] at this
  exact this.symm

/-- C146, SHA-256: whatever part of the array contains the message and whatever part gets the digest. -/
theorem sha256_in_place (junk : Nat → U8) (mem x : List U8) (d m : Nat) (hd : d + 32 ≤ mem.length) (hm : m + x.length ≤ mem.length)
    (hx : (mem.drop m).take x.length = x) (hs : x.length + 128 < 2 ^ 31) :
    SHA256.hmacCopyIn junk mem d m x.length = .ok (put mem d (Spec.SHA256.digest x)) ∧
    (x.length % 64 ≠ 63 → SHA256.hashCopyIn junk mem d m x.length = .ok (put mem d (Spec.SHA256.digest x))) := by
  have e := split_at hx
  refine ⟨?_, fun h63 => ?_⟩
  · refine sha256_in _ junk mem _ d m _ hd hm (CT.SHA256.digest_length _) ?_
    rw [e]
    exact SHA256.sha256_hmac_copy_fips junk _ x _ hs (by rw [List.length_drop]; omega)
  · refine sha256_in _ junk mem _ d m _ hd hm (CT.SHA256.digest_length _) ?_
    rw [e]
    exact SHA256.sha256_hash_copy_fips_partial junk _ x _ h63 hs (by rw [List.length_drop]; omega)

/-- Repeated hashing of one buffer. -/
def chain (f : List U8 → Res (List U8)) : Nat → List U8 → Res (List U8)
  | 0, b => .ok b
  | n + 1, b => do
    let b ← f b
    chain f n b

/-- A function applied `n` times. -/
def times (f : List U8 → List U8) : Nat → List U8 → List U8
  | 0, b => b
  | n + 1, b => times f n (f b)

/-- C146, consequence: a chain of digests computed in one buffer of 32 bytes. -/
theorem sha256_chain (junk : Nat → U8) (n : Nat) (x : List U8) (hx : x.length = 32) :
    chain (fun b => SHA256.hmacCopyIn junk b 0 0 32) n x = .ok (times Spec.SHA256.digest n x) ∧
    chain (fun b => SHA256.hashCopyIn junk b 0 0 32) n x = .ok (times Spec.SHA256.digest n x) := by
  induction n generalizing x with
  | zero => exact ⟨rfl, rfl⟩
  | succ n ih =>
    obtain ⟨h1, h2⟩ := sha256_in_place junk x x 0 0 (by omega) (by omega) (by rw [List.drop_zero, List.take_length]) (by omega)
    have hp : put x 0 (Spec.SHA256.digest x) = Spec.SHA256.digest x := by
      rw [put, CT.SHA256.digest_length, List.drop_eq_nil_of_le (by omega), List.take_zero, List.nil_append, List.append_nil]
    have h2 := h2 (by omega)
    rw [hx, hp] at h1 h2
    obtain ⟨i1, i2⟩ := ih (Spec.SHA256.digest x) (CT.SHA256.digest_length x)
    simp only [chain, times, h1, h2, Res.ok_bind]
    exact ⟨i1, i2⟩

example : SHA256.hmacCopyIn (fun _ => 5) ([0x61, 0x62, 0x63] ++ List.replicate 33 7) 1 0 3 =
    .ok (0x61 :: (Spec.SHA256.digest [0x61, 0x62, 0x63] ++ [7, 7, 7])) := by
  have h := (sha256_in_place (fun _ => 5) ([0x61, 0x62, 0x63] ++ List.replicate 33 7) [0x61, 0x62, 0x63] 1 0 (by decide) (by decide)
    (by decide) (by decide)).1
  rw [put, CT.SHA256.digest_length] at h
  exact h

/-! ### HMAC -/

theorem tagGeneration_in (junk : Nat → U8) (cs : HMAC.State) (mem y : List U8) (t m n k : Nat) (ht : t + k ≤ mem.length)
    (hm : m + n ≤ mem.length) (hn : 0 < n) (hy : y.length = k)
    (h : HMAC.tagGeneration junk cs (mem.drop t) (mem.drop m) n k = .ok (y ++ (mem.drop t).drop k)) :
    HMAC.tagGenerationIn junk cs mem t m n k = .ok (put mem t y) := by
  simp only [HMAC.tagGeneration, HMAC.tagGenerationIn] at h ⊢
  rw [if_neg (by omega)] at h ⊢
  cases h1 : Mem.wrs ((List.range (n + 64)).map junk) 0 (cs.innerKey.take 64) with
  | ub w => rw [h1] at h; cases h
  | ok a =>
  rw [h1] at h
  simp only [Res.ok_bind] at h ⊢
  rw [if_neg (by rw [List.length_drop]; omega)] at h
  rw [if_neg (by omega)]
  cases h2 : Mem.wrs a 64 ((mem.drop m).take n) with
  | ub w => rw [h2] at h; cases h
  | ok b =>
  rw [h2] at h
  simp only [Res.ok_bind] at h ⊢
  cases h3 : SHA256.hmacCopy junk ((List.range 32).map junk) b (n + 64) with
  | ub w => rw [h3] at h; cases h
  | ok c =>
  rw [h3] at h
  simp only [Res.ok_bind] at h ⊢
  cases h4 : Mem.wrs (List.replicate 96 0) 0 (cs.outerKey.take 64) with
  | ub w => rw [h4] at h; cases h
  | ok e =>
  rw [h4] at h
  simp only [Res.ok_bind] at h ⊢
  cases h5 : Mem.wrs e 64 (c.take 32) with
  | ub w => rw [h5] at h; cases h
  | ok f =>
  rw [h5] at h
  simp only [Res.ok_bind] at h ⊢
  cases h6 : SHA256.hmacCopy junk ((List.range 32).map junk) f 96 with
  | ub w => rw [h6] at h; cases h
  | ok g =>
  rw [h6] at h
  simp only [Res.ok_bind, HMAC.memcpyInt, Int.toNat_natCast] at h ⊢
  rw [if_neg (by omega)] at h ⊢
  split at h
  · cases h
  rw [if_neg (by assumption)]
  have hl : (g.take k).length = k := by rw [List.length_take]; omega
  exact wrs_in (by omega) (by rw [hy]; exact h) (by rw [hl, hy]) (by omega)

/-- C146, HMAC. -/
theorem hmac_in_place (junk junk' : Nat → U8) (key ek mem x : List U8) (t m k : Nat) (hkey : key.length + 128 < 2 ^ 31) (h0 : x ≠ [])
    (hs : x.length + 192 < 2 ^ 31) (hk : k ≤ 32) (ht : t + k ≤ mem.length) (hm : m + x.length ≤ mem.length)
    (hx : (mem.drop m).take x.length = x) :
    (do let cs ← HMAC.loadKey junk (key ++ ek) key.length
        HMAC.tagGenerationIn junk' cs mem t m x.length k) = .ok (put mem t ((Spec.HMAC.hmac key x).take k)) := by
  have h := HMAC.hmac_rfc2104 junk junk' key x ek ((mem.drop m).drop x.length) (mem.drop t) k hkey h0 hs hk
    (by rw [List.length_drop]; omega)
  rw [← split_at hx] at h
  cases hc : HMAC.loadKey junk (key ++ ek) key.length with
  | ub w => rw [hc] at h; cases h
  | ok cs =>
    rw [hc] at h
    simp only [Res.ok_bind] at h ⊢
    exact tagGeneration_in junk' cs mem _ t m _ k ht hm (List.length_pos_iff.2 h0)
      (by rw [List.length_take, HMAC.hmac_length]; omega) h

example : (do let cs ← HMAC.loadKey (fun _ => 1) ([1, 2] ++ []) 2
              HMAC.tagGenerationIn (fun _ => 9) cs [3, 4, 5, 6] 1 0 2 2) =
    .ok ([3] ++ (Spec.HMAC.hmac [1, 2] [3, 4]).take 2 ++ [6]) := by
  have h := hmac_in_place (fun _ => 1) (fun _ => 9) [1, 2] [] [3, 4, 5, 6] [3, 4] 1 0 2 (by decide) (by decide) (by decide) (by decide)
    (by decide) (by decide) (by decide)
  rw [put, List.length_take, HMAC.hmac_length] at h
  exact h

/-! ### MD5 -/

/-- C146, MD5. -/
theorem md5_in_place (c : MD5.Ctx) (mem x : List U8) (d m : Nat) (size : U32) (hs : size.toNat = x.length) (hc : c.buffer.length = 64)
    (hd : d + 16 ≤ mem.length) (hx : (mem.drop m).take x.length = x) :
    MD5.processPacketIn c mem d m size = .ok (put mem d (Spec.MD5.digest x), MD5.wiped) := by
  have h := MD5.md5_one_shot c (mem.drop d) x ((mem.drop m).drop x.length) size hs hc (by rw [List.length_drop]; omega)
  rw [← split_at hx] at h
  simp only [MD5.processPacket, MD5.final, MD5.processPacketIn] at h ⊢
  cases h1 : MD5.update (MD5.init c) (mem.drop m) size with
  | ub w => rw [h1] at h; cases h
  | ok c1 =>
  rw [h1] at h
  simp only [Res.ok_bind] at h ⊢
  generalize hp : (if (c1.count0 >>> 3) &&& 0x3f < 56 then 56 - ((c1.count0 >>> 3) &&& 0x3f) else 120 - ((c1.count0 >>> 3) &&& 0x3f)) =
    padLen at *
  cases h2 : MD5.update c1 MD5.PADDING padLen with
  | ub w => rw [h2] at h; cases h
  | ok c2 =>
  rw [h2] at h
  simp only [Res.ok_bind] at h ⊢
  cases h3 : MD5.update c2 (MD5.encodeWord c1.count0 ++ MD5.encodeWord c1.count1) 8 with
  | ub w => rw [h3] at h; cases h
  | ok c3 =>
  rw [h3] at h
  simp only [Res.ok_bind] at h ⊢
  generalize hw : MD5.encodeWord c3.s0 ++ MD5.encodeWord c3.s1 ++ MD5.encodeWord c3.s2 ++ MD5.encodeWord c3.s3 = w at *
  have hl : w.length = 16 := by rw [← hw]; rfl
  have hy : (Spec.MD5.digest x).length = 16 := by
    rw [Spec.MD5.digest, Spec.MD5.Regs.bytes]; simp [bytesLE32]
  cases h4 : Mem.wrs (mem.drop d) 0 w with
  | ub w => rw [h4] at h; cases h
  | ok r =>
  rw [h4] at h
  simp only [Res.ok_bind] at h
  have e := Res.ok_inj.mp h
  rw [Prod.mk.injEq] at e
  rw [wrs_in (y := Spec.MD5.digest x) (by omega) (by rw [h4, e.1, hy]) (by rw [hl, hy]) (by omega)]
  simp only [Res.ok_bind, e.2]

/-- C146, consequence: a chain of MD5 digests in one buffer of 16 bytes, with any contexts. -/
theorem md5_chain (ctx : List U8 → MD5.Ctx) (hc : ∀ b, (ctx b).buffer.length = 64) (n : Nat) (x : List U8) (hx : x.length = 16) :
    chain (fun b => do
      let r ← MD5.processPacketIn (ctx b) b 0 0 16
      .ok r.1) n x = .ok (times Spec.MD5.digest n x) := by
  induction n generalizing x with
  | zero => rfl
  | succ n ih =>
    have hy : (Spec.MD5.digest x).length = 16 := by
      rw [Spec.MD5.digest, Spec.MD5.Regs.bytes]; simp [bytesLE32]
    have h := md5_in_place (ctx x) x x 0 0 16 (by rw [hx]; rfl) (hc x) (by omega) (by rw [List.drop_zero, List.take_length])
    have hp : put x 0 (Spec.MD5.digest x) = Spec.MD5.digest x := by
      rw [put, hy, List.drop_eq_nil_of_le (by omega), List.take_zero, List.nil_append, List.append_nil]
    rw [hp] at h
    simp only [chain, times, h, Res.ok_bind]
    exact ih _ hy

example : MD5.processPacketIn MD5.wiped (List.replicate 20 3) 2 1 5 =
    .ok ([3, 3] ++ Spec.MD5.digest [3, 3, 3, 3, 3] ++ [3, 3], MD5.wiped) := by
  have h := md5_in_place MD5.wiped (List.replicate 20 3) [3, 3, 3, 3, 3] 2 1 5 rfl (by decide) (by decide) (by decide)
  have hy : (Spec.MD5.digest [3, 3, 3, 3, 3]).length = 16 := by
    rw [Spec.MD5.digest, Spec.MD5.Regs.bytes]; simp [bytesLE32]
  rw [put, hy] at h
  exact h

end CT.Props.InPlace
