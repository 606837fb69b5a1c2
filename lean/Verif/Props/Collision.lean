import Verif.Props.LengthExtension
import Verif.Props.HMAC

/-!
# C131, C132: collisions of the hash functions

Some inputs of a compression function have the same output, since there are more inputs than outputs.  The
theorems therefore say where a collision is found: among the blocks of the two messages.
-/

namespace CT.Props.Collision
open CT

/-- Block `i` of a padded message. -/
def block (p : List U8) (i : Nat) : List U8 := (p.drop (64 * i)).take 64

/-- In the computation of the digests of `x` and `y` the SHA-256 compression function is called with two different pairs
of hash value and block and gives the same result. -/
def FoundSHA256 (x y : List U8) : Prop :=
  let p := Spec.SHA256.pad x
  let q := Spec.SHA256.pad y
  ∃ i j, i < p.length / 64 ∧ j < q.length / 64 ∧
    (Spec.SHA256.hashAt p i, block p i) ≠ (Spec.SHA256.hashAt q j, block q j) ∧
    Spec.SHA256.compress (Spec.SHA256.hashAt p i) (Spec.SHA256.M p i) =
      Spec.SHA256.compress (Spec.SHA256.hashAt q j) (Spec.SHA256.M q j)

/-- The same for MD5. -/
def FoundMD5 (x y : List U8) : Prop :=
  let p := Spec.MD5.pad x
  let q := Spec.MD5.pad y
  ∃ i j, i < p.length / 64 ∧ j < q.length / 64 ∧
    (Spec.MD5.hashAt p i, block p i) ≠ (Spec.MD5.hashAt q j, block q j) ∧
    Spec.MD5.compress (Spec.MD5.hashAt p i) (Spec.MD5.word p i) =
      Spec.MD5.compress (Spec.MD5.hashAt q j) (Spec.MD5.word q j)

/-! ### Iterated compression in general -/

theorem back {σ : Type} (hx hy : Nat → σ) (p q : List U8) : ∀ n, hx n = hy n →
    (∀ i, i < n → block p i = block q i) ∨
    ∃ i, i < n ∧ (hx i, block p i) ≠ (hy i, block q i) ∧ hx (i + 1) = hy (i + 1) := by
  intro n
  induction n with
  | zero => intro _; exact .inl fun i hi => absurd hi (Nat.not_lt_zero i)
  | succ n ih =>
    intro h
    by_cases e : (hx n, block p n) = (hy n, block q n)
    · rw [Prod.mk.injEq] at e
      rcases ih e.1 with h1 | ⟨i, h1, h2, h3⟩
      · left
        intro i hi
        rcases Nat.lt_or_ge i n with hl | hl
        · exact h1 i hl
        · rw [show i = n by omega]; exact e.2
      · exact .inr ⟨i, by omega, h2, h3⟩
    · exact .inr ⟨n, by omega, e, h⟩

theorem eq_of_blocks {p q : List U8} {n : Nat} (hp : p.length = 64 * n) (hq : q.length = 64 * n)
    (h : ∀ i, i < n → block p i = block q i) : p = q := by
  apply List.ext_getElem? 
  intro k
  by_cases hk : k < 64 * n
  · have e := congrArg (fun l => l[k % 64]?) (h (k / 64) (by omega))
    simp only [block, List.getElem?_take, List.getElem?_drop, if_pos (Nat.mod_lt k (by omega : 0 < 64))] at e
    rwa [Nat.div_add_mod] at e
  · rw [List.getElem?_eq_none (by omega), List.getElem?_eq_none (by omega)]

/-- The last eight bytes of the last block. -/
theorem block_last {p t : List U8} {n : Nat} (hn : (p ++ t).length = 64 * (n + 1)) (ht : t.length = 8) :
    (block (p ++ t) n).drop 56 = t := by
  have hp : p.length = 64 * n + 56 := by simp at hn; omega
  rw [block, List.take_of_length_le (by simp at hn ⊢; omega), List.drop_drop, List.drop_append, List.drop_eq_nil_of_le (by omega),
    List.nil_append, hp, Nat.sub_self, List.drop_zero]

theorem len_inj {a b : Nat} (ha : a < 2 ^ 64) (hb : b < 2 ^ 64)
    (h : ∀ s : Nat, s ∈ [0, 8, 16, 24, 32, 40, 48, 56] → BitVec.ofNat 8 (a / 2 ^ s) = BitVec.ofNat 8 (b / 2 ^ s)) : a = b := by
  have g : ∀ s : Nat, s ∈ [0, 8, 16, 24, 32, 40, 48, 56] → a / 2 ^ s % 256 = b / 2 ^ s % 256 := fun s hs => by
    have := congrArg BitVec.toNat (h s hs)
    rwa [BitVec.toNat_ofNat, BitVec.toNat_ofNat] at this
  have g0 := g 0 (by simp)
  have g1 := g 8 (by simp)
  have g2 := g 16 (by simp)
  have g3 := g 24 (by simp)
  have g4 := g 32 (by simp)
  have g5 := g 40 (by simp)
  have g6 := g 48 (by simp)
  have g7 := g 56 (by simp)
  omega

/-! ### SHA-256 -/

theorem sha256_found (x y : List U8) (hx : x.length < 2 ^ 61) (hy : y.length < 2 ^ 61) (hne : x ≠ y)
    (h : Spec.SHA256.digest x = Spec.SHA256.digest y) : FoundSHA256 x y := by
  have mx := SHA256.pad_mod x
  have my := SHA256.pad_mod y
  have lx := CT.SHA256.pad_length x
  have ly := CT.SHA256.pad_length y
  have hv : Spec.SHA256.hashAt (Spec.SHA256.pad x) ((Spec.SHA256.pad x).length / 64) =
      Spec.SHA256.hashAt (Spec.SHA256.pad y) ((Spec.SHA256.pad y).length / 64) := by
    rw [← SHA256.ofBytes_bytes (Spec.SHA256.hashAt (Spec.SHA256.pad x) _), ← SHA256.ofBytes_bytes (Spec.SHA256.hashAt (Spec.SHA256.pad y) _)]
    exact congrArg _ h
  by_cases hl : x.length = y.length
  · have hl' : (Spec.SHA256.pad y).length = (Spec.SHA256.pad x).length := by rw [lx, ly, hl]
    rw [hl'] at hv
    rcases back _ _ (Spec.SHA256.pad x) (Spec.SHA256.pad y) _ hv with hb | ⟨i, h1, h2, h3⟩
    · refine absurd ?_ hne
      have e := eq_of_blocks (n := (Spec.SHA256.pad x).length / 64) (by omega) (by omega) hb
      rw [SHA256.pad_eq_glue, SHA256.pad_eq_glue] at e
      exact (List.append_inj e hl).1
    · exact ⟨i, i, h1, by omega, h2, h3⟩
  · have px : 1 ≤ (Spec.SHA256.pad x).length / 64 := by omega
    have py : 1 ≤ (Spec.SHA256.pad y).length / 64 := by omega
    refine ⟨(Spec.SHA256.pad x).length / 64 - 1, (Spec.SHA256.pad y).length / 64 - 1, by omega, by omega, ?_, ?_⟩
    · intro e
      rw [Prod.mk.injEq] at e
      have e2 := congrArg (List.drop 56) e.2
      have b (m : List U8) (hm : 1 ≤ (Spec.SHA256.pad m).length / 64) (h0 : (Spec.SHA256.pad m).length % 64 = 0) :
          (block (Spec.SHA256.pad m) ((Spec.SHA256.pad m).length / 64 - 1)).drop 56 = Spec.SHA256.be64 (8 * m.length) :=
        block_last (p := m ++ [0x80] ++ List.replicate (Spec.SHA256.zeros m.length) 0)
          (by show (Spec.SHA256.pad m).length = _; omega) rfl
      rw [b x px mx, b y py my] at e2
      simp only [Spec.SHA256.be64, List.map_cons, List.map_nil, List.cons.injEq] at e2
      obtain ⟨e7, e6, e5, e4, e3, e2, e1, e0, -⟩ := e2
      have := len_inj (a := 8 * x.length) (b := 8 * y.length) (by omega) (by omega) (by
        intro s hs
        simp only [List.mem_cons, List.not_mem_nil, or_false] at hs
        rcases hs with rfl | rfl | rfl | rfl | rfl | rfl | rfl | rfl <;> assumption)
      omega
    · have sx : (Spec.SHA256.pad x).length / 64 = (Spec.SHA256.pad x).length / 64 - 1 + 1 := by omega
      have sy : (Spec.SHA256.pad y).length / 64 = (Spec.SHA256.pad y).length / 64 - 1 + 1 := by omega
      rw [sx, sy] at hv
      exact hv

/-- C131, SHA-256 (the copy in HMAC): two different messages have different digests, unless the compression function was called with two
different inputs and gave the same output. -/
theorem sha256_collision (junk junk' : Nat → U8) (dst dst' x y ex ey d d' : List U8) (hx : x.length + 128 < 2 ^ 31)
    (hy : y.length + 128 < 2 ^ 31) (hd : dst.length = 32) (hd' : dst'.length = 32) (hne : x ≠ y)
    (h1 : SHA256.hmacCopy junk dst (x ++ ex) x.length = .ok d) (h2 : SHA256.hmacCopy junk' dst' (y ++ ey) y.length = .ok d') :
    d ≠ d' ∨ FoundSHA256 x y := by
  rw [SHA256.sha256_hmac_copy_fips junk dst x ex hx (by omega), List.drop_eq_nil_of_le (by omega), List.append_nil, Res.ok_inj] at h1
  rw [SHA256.sha256_hmac_copy_fips junk' dst' y ey hy (by omega), List.drop_eq_nil_of_le (by omega), List.append_nil, Res.ok_inj] at h2
  by_cases hdd : d = d'
  · exact .inr (sha256_found x y (by omega) (by omega) hne (h1.trans (hdd.trans h2.symm)))
  · exact .inl hdd

example := sha256_collision (fun _ => 1) (fun _ => 2) (List.replicate 32 0) (List.replicate 32 0) [1] [2, 3] [] [] _ _ (by decide) (by decide) (by decide)
  (by decide) (by decide) (SHA256.sha256_hmac_copy_fips _ _ [1] [] (by decide) (by decide))
  (SHA256.sha256_hmac_copy_fips _ _ [2, 3] [] (by decide) (by decide))

/-- C131, SHA-256 (the copy in Hash). -/
theorem sha256_hash_copy_collision (junk junk' : Nat → U8) (dst dst' x y ex ey d d' : List U8) (hx : x.length + 128 < 2 ^ 31)
    (hy : y.length + 128 < 2 ^ 31) (hd : dst.length = 32) (hd' : dst'.length = 32) (hne : x ≠ y)
    (h1 : SHA256.hashCopy junk dst (x ++ ex) x.length = .ok d) (h2 : SHA256.hashCopy junk' dst' (y ++ ey) y.length = .ok d') :
    d ≠ d' ∨ FoundSHA256 x y := by
  have n63 (j : Nat → U8) (t m em d : List U8) (h : SHA256.hashCopy j t (m ++ em) m.length = .ok d) : m.length % 64 ≠ 63 := by
    intro h63
    rw [SHA256.sha256_hash_copy_overflows j t m em h63] at h
    cases h
  rw [SHA256.sha256_hash_copy_fips_partial junk dst x ex (n63 _ _ _ _ _ h1) hx (by omega), List.drop_eq_nil_of_le (by omega), List.append_nil,
    Res.ok_inj] at h1
  rw [SHA256.sha256_hash_copy_fips_partial junk' dst' y ey (n63 _ _ _ _ _ h2) hy (by omega), List.drop_eq_nil_of_le (by omega),
    List.append_nil, Res.ok_inj] at h2
  by_cases hdd : d = d'
  · exact .inr (sha256_found x y (by omega) (by omega) hne (h1.trans (hdd.trans h2.symm)))
  · exact .inl hdd

example := sha256_hash_copy_collision (fun _ => 1) (fun _ => 2) (List.replicate 32 0) (List.replicate 32 0) [1] [2, 3] [] [] _ _ (by decide) (by decide)
  (by decide) (by decide) (by decide) (SHA256.sha256_hash_copy_fips_partial _ _ [1] [] (by decide) (by decide) (by decide))
  (SHA256.sha256_hash_copy_fips_partial _ _ [2, 3] [] (by decide) (by decide) (by decide))

/-! ### HMAC -/

/-- C131, HMAC with whole tags: the tags of two messages differ, and so do those of two keys (that differ as RFC 2104 uses them), unless
the compression function was called with two different inputs and gave the same output, in the inner or in the outer hash. -/
theorem hmac_collision (junk junk1 junk2 junk3 : Nat → U8) (k k' x y ek ek' ex ey t t' tag tag' : List U8)
    (hk : k.length + 128 < 2 ^ 31) (hk' : k'.length + 128 < 2 ^ 31) (x0 : x ≠ []) (y0 : y ≠ []) (hx : x.length + 192 < 2 ^ 31)
    (hy : y.length + 192 < 2 ^ 31) (ht : t.length = 32) (ht' : t'.length = 32)
    (hne : x ≠ y ∨ Spec.HMAC.normKey k ≠ Spec.HMAC.normKey k')
    (h1 : (do let cs ← HMAC.loadKey junk (k ++ ek) k.length
              HMAC.tagGeneration junk1 cs t (x ++ ex) x.length 32) = .ok tag)
    (h2 : (do let cs ← HMAC.loadKey junk2 (k' ++ ek') k'.length
              HMAC.tagGeneration junk3 cs t' (y ++ ey) y.length 32) = .ok tag') :
    let I := fun k : List U8 => (Spec.HMAC.normKey k).map (· ^^^ 0x36)
    let O := fun k : List U8 => (Spec.HMAC.normKey k).map (· ^^^ 0x5c)
    tag ≠ tag' ∨ FoundSHA256 (I k ++ x) (I k' ++ y) ∨
    FoundSHA256 (O k ++ Spec.SHA256.digest (I k ++ x)) (O k' ++ Spec.SHA256.digest (I k' ++ y)) := by
  intro I O
  by_cases htt : tag ≠ tag'
  · exact .inl htt
  right
  obtain rfl : tag = tag' := Decidable.not_not.1 htt
  have e1 := HMAC.hmac_rfc2104 junk junk1 k x ek ex t 32 hk x0 hx (by omega) (by omega)
  have e2 := HMAC.hmac_rfc2104 junk2 junk3 k' y ek' ey t' 32 hk' y0 hy (by omega) (by omega)
  rw [List.take_of_length_le (by rw [HMAC.hmac_length]; omega), List.drop_eq_nil_of_le (by omega), List.append_nil] at e1 e2
  have e : Spec.HMAC.hmac k x = Spec.HMAC.hmac k' y := by
    have := e1.symm.trans h1
    have := e2.symm.trans h2
    simp only [Res.ok_inj] at *
    simp [*]
  have lI (k : List U8) : (I k).length = 64 := by simp [I, HMAC.normKey_length]
  have lO (k : List U8) : (O k).length = 64 := by simp [O, HMAC.normKey_length]
  by_cases hin : O k ++ Spec.SHA256.digest (I k ++ x) = O k' ++ Spec.SHA256.digest (I k' ++ y)
  · left
    obtain ⟨o1, o2⟩ := List.append_inj hin (by rw [lO, lO])
    have hK : Spec.HMAC.normKey k = Spec.HMAC.normKey k' := by
      have inj : ∀ {a b : U8}, a ^^^ 0x5c = b ^^^ 0x5c → a = b := by
        intro a b h
        have := congrArg (· ^^^ (0x5c : U8)) h
        simpa [BitVec.xor_assoc] using this
      exact List.map_inj_right (fun _ _ h => inj h) |>.1 o1
    refine sha256_found _ _ (by rw [List.length_append, lI]; omega) (by rw [List.length_append, lI]; omega) ?_ o2
    intro h
    obtain ⟨i1, i2⟩ := List.append_inj h (by rw [lI, lI])
    rcases hne with h' | h'
    · exact h' i2
    · exact h' hK
  · right
    exact sha256_found _ _ (by rw [List.length_append, lO, CT.SHA256.digest_length]; omega)
      (by rw [List.length_append, lO, CT.SHA256.digest_length]; omega) hin e

/-- Instances of the hypotheses. -/
example : ∃ d d', SHA256.hmacCopy (fun _ => 1) (List.replicate 32 0) ([1] ++ []) ([1] : List U8).length = .ok d ∧
    SHA256.hmacCopy (fun _ => 2) (List.replicate 32 0) ([2] ++ []) ([2] : List U8).length = .ok d' ∧ ([1] : List U8) ≠ [2] :=
  ⟨_, _, SHA256.sha256_hmac_copy_fips _ _ [1] [] (by decide) (by decide), SHA256.sha256_hmac_copy_fips _ _ [2] [] (by decide) (by decide),
    by decide⟩

example : ∃ tag tag', (do let cs ← HMAC.loadKey (fun _ => 1) ([1, 2, 3] ++ []) ([1, 2, 3] : List U8).length
                          HMAC.tagGeneration (fun _ => 2) cs (List.replicate 32 0) ([4] ++ []) ([4] : List U8).length 32) = .ok tag ∧
    (do let cs ← HMAC.loadKey (fun _ => 1) ([1, 2, 3] ++ []) ([1, 2, 3] : List U8).length
        HMAC.tagGeneration (fun _ => 2) cs (List.replicate 32 0) ([5] ++ []) ([5] : List U8).length 32) = .ok tag' :=
  ⟨_, _, HMAC.hmac_rfc2104 _ _ [1, 2, 3] [4] [] [] _ 32 (by decide) (by decide) (by decide) (by decide) (by decide),
    HMAC.hmac_rfc2104 _ _ [1, 2, 3] [5] [] [] _ 32 (by decide) (by decide) (by decide) (by decide) (by decide)⟩

/-! ### MD5 -/

theorem md5_found (x y : List U8) (hx : x.length < 2 ^ 61) (hy : y.length < 2 ^ 61) (hne : x ≠ y)
    (h : Spec.MD5.digest x = Spec.MD5.digest y) : FoundMD5 x y := by
  have mx := MD5.pad_mod x
  have my := MD5.pad_mod y
  have lx := CT.MD5.pad_length x
  have ly := CT.MD5.pad_length y
  have hv : Spec.MD5.hashAt (Spec.MD5.pad x) ((Spec.MD5.pad x).length / 64) =
      Spec.MD5.hashAt (Spec.MD5.pad y) ((Spec.MD5.pad y).length / 64) := by
    rw [← MD5.ofBytes_bytes (Spec.MD5.hashAt (Spec.MD5.pad x) _), ← MD5.ofBytes_bytes (Spec.MD5.hashAt (Spec.MD5.pad y) _)]
    exact congrArg _ h
  by_cases hl : x.length = y.length
  · have hl' : (Spec.MD5.pad y).length = (Spec.MD5.pad x).length := by rw [lx, ly, hl]
    rw [hl'] at hv
    rcases back _ _ (Spec.MD5.pad x) (Spec.MD5.pad y) _ hv with hb | ⟨i, h1, h2, h3⟩
    · refine absurd ?_ hne
      have e := eq_of_blocks (n := (Spec.MD5.pad x).length / 64) (by omega) (by omega) hb
      rw [MD5.pad_eq_glue, MD5.pad_eq_glue] at e
      exact (List.append_inj e hl).1
    · exact ⟨i, i, h1, by omega, h2, h3⟩
  · have px : 1 ≤ (Spec.MD5.pad x).length / 64 := by omega
    have py : 1 ≤ (Spec.MD5.pad y).length / 64 := by omega
    refine ⟨(Spec.MD5.pad x).length / 64 - 1, (Spec.MD5.pad y).length / 64 - 1, by omega, by omega, ?_, ?_⟩
    · intro e
      rw [Prod.mk.injEq] at e
      have e2 := congrArg (List.drop 56) e.2
      have b (m : List U8) (hm : 1 ≤ (Spec.MD5.pad m).length / 64) (h0 : (Spec.MD5.pad m).length % 64 = 0) :
          (block (Spec.MD5.pad m) ((Spec.MD5.pad m).length / 64 - 1)).drop 56 = Spec.MD5.le64 (8 * m.length) :=
        block_last (p := m ++ [0x80] ++ List.replicate (Spec.MD5.zeros m.length) 0)
          (by show (Spec.MD5.pad m).length = _; omega) rfl
      rw [b x px mx, b y py my] at e2
      simp only [Spec.MD5.le64, List.map_cons, List.map_nil, List.cons.injEq] at e2
      obtain ⟨e7, e6, e5, e4, e3, e2, e1, e0, -⟩ := e2
      have := len_inj (a := 8 * x.length) (b := 8 * y.length) (by omega) (by omega) (by
        intro s hs
        simp only [List.mem_cons, List.not_mem_nil, or_false] at hs
        rcases hs with rfl | rfl | rfl | rfl | rfl | rfl | rfl | rfl <;> assumption)
      omega
    · have sx : (Spec.MD5.pad x).length / 64 = (Spec.MD5.pad x).length / 64 - 1 + 1 := by omega
      have sy : (Spec.MD5.pad y).length / 64 = (Spec.MD5.pad y).length / 64 - 1 + 1 := by omega
      rw [sx, sy] at hv
      exact hv

/-- C132, the part that holds: MD5 digests of different messages, in chunks of any sizes, differ, unless the compression function was
called with two different inputs and gave the same output. -/
theorem md5_collision_partial (c c' : MD5.Ctx) (dst dst' : List U8) (xs ys : List (List U8)) (d d' : List U8) (w w' : MD5.Ctx)
    (hc : c.buffer.length = 64) (hc' : c'.buffer.length = 64) (hd : dst.length = 16) (hd' : dst'.length = 16)
    (hx : ∀ x ∈ xs, x.length + 63 < 2 ^ 32) (hy : ∀ x ∈ ys, x.length + 63 < 2 ^ 32) (lx : xs.flatten.length < 2 ^ 61)
    (ly : ys.flatten.length < 2 ^ 61) (hne : xs.flatten ≠ ys.flatten)
    (h1 : (do let c ← MD5.updates (MD5.init c) xs
              MD5.final dst c) = .ok (d, w))
    (h2 : (do let c ← MD5.updates (MD5.init c') ys
              MD5.final dst' c) = .ok (d', w')) : d ≠ d' ∨ FoundMD5 xs.flatten ys.flatten := by
  rw [MD5.md5_chunked c dst xs hc (by omega) hx, List.drop_eq_nil_of_le (by omega), List.append_nil, Res.ok_inj, Prod.mk.injEq] at h1
  rw [MD5.md5_chunked c' dst' ys hc' (by omega) hy, List.drop_eq_nil_of_le (by omega), List.append_nil, Res.ok_inj, Prod.mk.injEq] at h2
  by_cases hdd : d = d'
  · exact .inr (md5_found _ _ lx ly hne (h1.1.trans (hdd.trans h2.1.symm)))
  · exact .inl hdd

/-- Two messages of 128 bytes (X. Wang, D. Feng, X. Lai, H. Yu, 2004). -/
def wang1 : List U8 := [
  0xd1, 0x31, 0xdd, 0x02, 0xc5, 0xe6, 0xee, 0xc4, 0x69, 0x3d, 0x9a, 0x06, 0x98, 0xaf, 0xf9, 0x5c,
  0x2f, 0xca, 0xb5, 0x87, 0x12, 0x46, 0x7e, 0xab, 0x40, 0x04, 0x58, 0x3e, 0xb8, 0xfb, 0x7f, 0x89,
  0x55, 0xad, 0x34, 0x06, 0x09, 0xf4, 0xb3, 0x02, 0x83, 0xe4, 0x88, 0x83, 0x25, 0x71, 0x41, 0x5a,
  0x08, 0x51, 0x25, 0xe8, 0xf7, 0xcd, 0xc9, 0x9f, 0xd9, 0x1d, 0xbd, 0xf2, 0x80, 0x37, 0x3c, 0x5b,
  0xd8, 0x82, 0x3e, 0x31, 0x56, 0x34, 0x8f, 0x5b, 0xae, 0x6d, 0xac, 0xd4, 0x36, 0xc9, 0x19, 0xc6,
  0xdd, 0x53, 0xe2, 0xb4, 0x87, 0xda, 0x03, 0xfd, 0x02, 0x39, 0x63, 0x06, 0xd2, 0x48, 0xcd, 0xa0,
  0xe9, 0x9f, 0x33, 0x42, 0x0f, 0x57, 0x7e, 0xe8, 0xce, 0x54, 0xb6, 0x70, 0x80, 0xa8, 0x0d, 0x1e,
  0xc6, 0x98, 0x21, 0xbc, 0xb6, 0xa8, 0x83, 0x93, 0x96, 0xf9, 0x65, 0x2b, 0x6f, 0xf7, 0x2a, 0x70]
def wang2 : List U8 := [
  0xd1, 0x31, 0xdd, 0x02, 0xc5, 0xe6, 0xee, 0xc4, 0x69, 0x3d, 0x9a, 0x06, 0x98, 0xaf, 0xf9, 0x5c,
  0x2f, 0xca, 0xb5, 0x07, 0x12, 0x46, 0x7e, 0xab, 0x40, 0x04, 0x58, 0x3e, 0xb8, 0xfb, 0x7f, 0x89,
  0x55, 0xad, 0x34, 0x06, 0x09, 0xf4, 0xb3, 0x02, 0x83, 0xe4, 0x88, 0x83, 0x25, 0xf1, 0x41, 0x5a,
  0x08, 0x51, 0x25, 0xe8, 0xf7, 0xcd, 0xc9, 0x9f, 0xd9, 0x1d, 0xbd, 0x72, 0x80, 0x37, 0x3c, 0x5b,
  0xd8, 0x82, 0x3e, 0x31, 0x56, 0x34, 0x8f, 0x5b, 0xae, 0x6d, 0xac, 0xd4, 0x36, 0xc9, 0x19, 0xc6,
  0xdd, 0x53, 0xe2, 0x34, 0x87, 0xda, 0x03, 0xfd, 0x02, 0x39, 0x63, 0x06, 0xd2, 0x48, 0xcd, 0xa0,
  0xe9, 0x9f, 0x33, 0x42, 0x0f, 0x57, 0x7e, 0xe8, 0xce, 0x54, 0xb6, 0x70, 0x80, 0x28, 0x0d, 0x1e,
  0xc6, 0x98, 0x21, 0xbc, 0xb6, 0xa8, 0x83, 0x93, 0x96, 0xf9, 0x65, 0xab, 0x6f, 0xf7, 0x2a, 0x70]

/-- The registers after the two blocks of a message, computed by the code. -/
def two (p : List U8) : MD5.Regs :=
  MD5.transform (MD5.transform ⟨0x67452301, 0xefcdab89, 0x98badcfe, 0x10325476⟩ ((p.drop (64 * 0)).take 64)) ((p.drop (64 * 1)).take 64)

theorem two_eq (p : List U8) : (two p).spec = Spec.MD5.hashAt p 2 :=
  CT.MD5.transform_hashAt p _ 1 (CT.MD5.transform_hashAt p _ 0 rfl)

theorem wang_two : two wang1 = two wang2 := by decide +kernel

theorem wang_hash : Spec.MD5.hashAt wang1 2 = Spec.MD5.hashAt wang2 2 := by
  rw [← two_eq, ← two_eq, wang_two]

theorem wang_digest (s : List U8) : Spec.MD5.digest (wang1 ++ s) = Spec.MD5.digest (wang2 ++ s) := by
  have l1 : wang1.length = 64 * 2 := rfl
  have l2 : wang2.length = 64 * 2 := rfl
  have hl : (wang1 ++ s).length = (wang2 ++ s).length := by rw [List.length_append, List.length_append, l1, l2]
  rw [Spec.MD5.digest, Spec.MD5.digest, MD5.pad_eq_glue, MD5.pad_eq_glue, hl, List.append_assoc, List.append_assoc]
  generalize hg : s ++ MD5.glue (wang2 ++ s).length = g
  have e : (wang1 ++ g).length / 64 = 2 + g.length / 64 := by rw [List.length_append, l1]; omega
  have e' : (wang2 ++ g).length / 64 = 2 + g.length / 64 := by rw [List.length_append, l2]; omega
  rw [e, e', MD5.hashAt_append _ _ 2 l1, MD5.hashAt_append _ _ 2 l2, wang_hash]

/-- C132 is false: two different messages of 128 bytes have the same digest, and still do after the same bytes, whatever they are, are
appended to both. -/
theorem md5_collision_refuted (c c' : MD5.Ctx) (dst s extra extra' : List U8) (hc : c.buffer.length = 64) (hc' : c'.buffer.length = 64)
    (hd : 16 ≤ dst.length) (hs : s.length + 128 < 2 ^ 32) : wang1 ++ s ≠ wang2 ++ s ∧ ∃ d,
    MD5.processPacket c dst (wang1 ++ s ++ extra) (BitVec.ofNat 32 (wang1 ++ s).length) = .ok d ∧
    MD5.processPacket c' dst (wang2 ++ s ++ extra') (BitVec.ofNat 32 (wang2 ++ s).length) = .ok d := by
  have l1 : wang1.length = 128 := rfl
  have l2 : wang2.length = 128 := rfl
  refine ⟨?_, _, MD5.md5_one_shot c dst (wang1 ++ s) extra _ ?_ hc hd, ?_⟩
  · intro h
    exact absurd (List.append_inj h rfl).1 (by decide)
  · rw [BitVec.toNat_ofNat, List.length_append, l1, Nat.mod_eq_of_lt (by omega)]
  · rw [wang_digest]
    refine MD5.md5_one_shot c' dst (wang2 ++ s) extra' _ ?_ hc' hd
    rw [BitVec.toNat_ofNat, List.length_append, l2, Nat.mod_eq_of_lt (by omega)]

example : (MD5.wiped).buffer.length = 64 ∧ 16 ≤ (List.replicate 16 (0 : U8)).length ∧ ([1, 2, 3] : List U8).length + 128 < 2 ^ 32 := by
  decide

end CT.Props.Collision
