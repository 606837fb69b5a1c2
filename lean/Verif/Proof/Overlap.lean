import Verif.Model.Overlap
import Verif.Proof.ChaCha
import Verif.Proof.HC128
import Verif.Proof.Rabbit
import Verif.Proof.Sosemanuk
import Verif.Proof.AESCtr

/-!
# Buffers that overlap: the packet functions step by step

The loop lemmas are those of `Verif.Basic.Loops`, for the accesses of `Verif.Model.Overlap`.
-/

namespace CT

namespace Ov

/-- One byte step. -/
def put (v : Ov) (j : Nat) (k : U8) : Ov := { v with mem := v.mem.set (v.o + j) (v.mem.getD (v.i + j) 0 ^^^ k) }

/-- The byte steps for the keystream `ks`, from offset `j` on. -/
def xorFrom (v : Ov) (j : Nat) : List U8 → Ov
  | [] => v
  | k :: ks => xorFrom (v.put j k) (j + 1) ks

/-- The array after the byte steps for `ks`. -/
def xored (v : Ov) (ks : List U8) : Ov := v.xorFrom 0 ks

/-- Both buffers hold `n` bytes, and no byte written as part of a word is read as part of the same word. -/
def Fits (v : Ov) (n : Nat) : Prop :=
  v.i + n ≤ v.mem.length ∧ v.o + n ≤ v.mem.length ∧ (v.o ≤ v.i ∨ v.i + 4 ≤ v.o ∨ v.i + n ≤ v.o)

theorem Fits.mono {v : Ov} {m n : Nat} (h : v.Fits n) (hm : m ≤ n) : v.Fits m := by
  obtain ⟨h1, h2, h3⟩ := h
  exact ⟨by omega, by omega, by omega⟩

@[simp] theorem put_o (v : Ov) (j : Nat) (k : U8) : (v.put j k).o = v.o := rfl
@[simp] theorem put_i (v : Ov) (j : Nat) (k : U8) : (v.put j k).i = v.i := rfl
@[simp] theorem put_length (v : Ov) (j : Nat) (k : U8) : (v.put j k).mem.length = v.mem.length := List.length_set

theorem xorFrom_keep (ks : List U8) : ∀ (v : Ov) (j : Nat), (v.xorFrom j ks).o = v.o ∧ (v.xorFrom j ks).i = v.i ∧
    (v.xorFrom j ks).mem.length = v.mem.length := by
  induction ks with
  | nil => intro v j; exact ⟨rfl, rfl, rfl⟩
  | cons k ks ih => intro v j; rw [xorFrom]; simpa using ih (v.put j k) (j + 1)

theorem xorFrom_append (ks ls : List U8) : ∀ (v : Ov) (j : Nat), v.xorFrom j (ks ++ ls) =
    (v.xorFrom j ks).xorFrom (j + ks.length) ls := by
  induction ks with
  | nil => intro v j; rfl
  | cons k ks ih => intro v j; rw [List.cons_append, xorFrom, xorFrom, ih, List.length_cons]; congr 1; omega

theorem xored_nil (v : Ov) : v.xored [] = v := rfl

theorem xored_snoc (v : Ov) (ks : List U8) (k : U8) : v.xored (ks ++ [k]) = (v.xored ks).put ks.length k := by
  rw [xored, xorFrom_append, Nat.zero_add]; rfl

theorem xored_fits {v : Ov} {n : Nat} (ks : List U8) (h : v.Fits n) : (v.xored ks).Fits n := by
  obtain ⟨h1, h2, h3⟩ := xorFrom_keep ks v 0
  rw [Fits, xored, h1, h2, h3]; exact h

theorem rd8_eq {v : Ov} {j : Nat} (h : v.i + j < v.mem.length) : v.rd8 j = .ok (v.mem.getD (v.i + j) 0) := by
  rw [rd8, List.getD_eq_getElem?_getD, List.getElem?_eq_getElem h]; rfl

theorem xor8_put {v : Ov} {n j : Nat} {k : U8} (h : v.Fits n) (hj : j < n) : v.xor8 j k = .ok (v.put j k) := by
  obtain ⟨h1, h2, h3⟩ := h
  rw [xor8, rd8_eq (by omega), Res.ok_bind, wr8, if_pos (by omega)]
  rfl

theorem xor8_xored {v : Ov} {ks : List U8} {n : Nat} {k : U8} (hn : ks.length = n)
    (h : v.Fits (n + 1)) : (v.xored ks).xor8 n k = .ok (v.xored (ks ++ [k])) := by
  rw [xor8_put (xored_fits ks h) (Nat.lt_succ_self n), xored_snoc, hn]

theorem put_get {v : Ov} {j : Nat} {k : U8} {a : Nat} (h : v.o + j ≠ a) : (v.put j k).mem.getD a 0 = v.mem.getD a 0 := by
  rw [put, List.getD_eq_getElem?_getD, List.getElem?_set_ne h, List.getD_eq_getElem?_getD]

/-- A word step is four byte steps. -/
theorem xor32_put {v : Ov} {n j : Nat} {k : U32} (h : v.Fits n) (hj : j + 4 ≤ n) :
    v.xor32 j k = .ok ((((v.put j (byteN k 0)).put (j + 1) (byteN k 1)).put (j + 2) (byteN k 2)).put (j + 3) (byteN k 3)) := by
  obtain ⟨h1, h2, h3⟩ := h
  obtain ⟨k0, k1, k2, k3⟩ := byteN_le32 (v.mem.getD (v.i + j) 0) (v.mem.getD (v.i + (j + 1)) 0)
    (v.mem.getD (v.i + (j + 2)) 0) (v.mem.getD (v.i + (j + 3)) 0)
  have hw : ∀ (u : Ov) (t : Nat) (b : U8), u.o + t < u.mem.length → u.wr8 t b = .ok { u with mem := u.mem.set (u.o + t) b } :=
    fun u t b h => by rw [wr8, if_pos h]
  rw [xor32, rd32, rd8_eq (by omega), rd8_eq (by omega), rd8_eq (by omega), rd8_eq (by omega)]
  simp only [Res.ok_bind, Res.pure_eq]
  rw [wr32, byteN_xor, byteN_xor, byteN_xor, byteN_xor, k0, k1, k2, k3, hw _ _ _ (by omega), Res.ok_bind,
    hw _ _ _ (by simp only [List.length_set]; omega), Res.ok_bind, hw _ _ _ (by simp only [List.length_set]; omega),
    Res.ok_bind, hw _ _ _ (by simp only [List.length_set]; omega)]
  have g : ∀ (u : Ov) (t : Nat) (c : U8) (x : U8), u.mem.getD (u.i + t) 0 = x →
      u.put t c = { u with mem := u.mem.set (u.o + t) (x ^^^ c) } := fun u t c x e => by rw [put, e]
  rw [Res.ok_inj]
  have e1 : (v.put j (byteN k 0)).mem.getD (v.i + (j + 1)) 0 = v.mem.getD (v.i + (j + 1)) 0 := put_get (by omega)
  have e2 : ((v.put j (byteN k 0)).put (j + 1) (byteN k 1)).mem.getD (v.i + (j + 2)) 0 = v.mem.getD (v.i + (j + 2)) 0 := by
    rw [put_get (by simp only [put_o]; omega), put_get (by omega)]
  have e3 : (((v.put j (byteN k 0)).put (j + 1) (byteN k 1)).put (j + 2) (byteN k 2)).mem.getD (v.i + (j + 3)) 0 =
      v.mem.getD (v.i + (j + 3)) 0 := by
    rw [put_get (by simp only [put_o]; omega), put_get (by simp only [put_o]; omega), put_get (by omega)]
  rw [g _ (j + 3) _ _ e3, g _ (j + 2) _ _ e2, g _ (j + 1) _ _ e1, g _ j _ _ rfl]

/-- One word step of the encryption loop. -/
theorem xor32_xored {v : Ov} {ks : List U8} {n : Nat} {k : U32} (hn : ks.length = n)
    (h : v.Fits (n + 4)) : (v.xored ks).xor32 n k = .ok (v.xored (ks ++ bytesLE32 k)) := by
  subst hn
  rw [xor32_put (xored_fits ks h) (Nat.le_refl _), Res.ok_inj]
  have e : ks ++ bytesLE32 k = (((ks ++ [byteN k 0]) ++ [byteN k 1]) ++ [byteN k 2]) ++ [byteN k 3] := by
    simp [bytesLE32]
  rw [e, xored_snoc, xored_snoc, xored_snoc, xored_snoc]
  simp only [List.length_append, List.length_singleton]

end Ov

/-- The word loop encrypts with the bytes of the keystream words. -/
theorem Ov.wordLoop_xored (ks : List U32) {io : Ov} : ∀ (fuel n idx off : Nat) (pre : List U8),
    pre.length = off → n < fuel → idx + n / 4 ≤ ks.length → io.Fits (off + n) →
    Ov.wordLoop ks fuel n idx off (io.xored pre) =
      .ok (n % 4, idx + n / 4, off + 4 * (n / 4),
        io.xored (pre ++ ((wordsToBytesLE ks).drop (4 * idx)).take (4 * (n / 4)))) := by
  intro fuel
  induction fuel with
  | zero => intro n _ _ _ _ h; omega
  | succ fuel ih =>
    intro n idx off pre hp hn hk hf
    rw [wordLoop]
    split
    · rename_i h3
      have hidx : idx < ks.length := by omega
      simp only [ksGet, List.getElem?_eq_getElem hidx, Res.ok_bind]
      rw [xor32_xored hp (hf.mono (by omega))]
      simp only [Res.ok_bind]
      rw [ih (n - 4) (idx + 1) (off + 4) _ (by simp [hp, bytesLE32_length]) (by omega) (by omega)
        (hf.mono (by omega))]
      have e1 : n / 4 = (n - 4) / 4 + 1 := by omega
      simp only [Res.ok_inj, Prod.mk.injEq]
      refine ⟨by omega, by omega, by omega, ?_⟩
      congr 1
      rw [List.append_assoc]
      congr 1
      rw [← wordsToBytesLE_drop, ← wordsToBytesLE_drop, List.drop_eq_getElem_cons hidx,
        wordsToBytesLE_cons, e1, Nat.mul_add, Nat.mul_one, List.take_append, bytesLE32_length,
        List.take_of_length_le (l := bytesLE32 _) (by rw [bytesLE32_length]; omega)]
      simp
    · rename_i h3
      have e0 : n / 4 = 0 := by omega
      have e1 : n % 4 = n := by omega
      simp [e0, e1]

/-- The byte loop encrypts with the bytes of the keystream words. -/
theorem Ov.byteLoop_xored (ks : List U32) {io : Ov} : ∀ (n j off : Nat) (pre : List U8),
    pre.length = off → j + n ≤ 4 * ks.length → io.Fits (off + n) →
    Ov.byteLoop ks n j off (io.xored pre) =
      .ok (io.xored (pre ++ ((wordsToBytesLE ks).drop j).take n)) := by
  intro n
  induction n with
  | zero => intro j off pre _ _ _; simp [byteLoop]
  | succ n ih =>
    intro j off pre hp hk hf
    have hj : j / 4 < ks.length := by omega
    simp only [byteLoop, ksGet, List.getElem?_eq_getElem hj, Res.ok_bind]
    rw [xor8_xored hp (hf.mono (by omega))]
    simp only [Res.ok_bind]
    rw [ih (j + 1) (off + 1) _ (by simp [hp]) (by omega) (hf.mono (by omega))]
    have hlen : j < (wordsToBytesLE ks).length := by rw [wordsToBytesLE_length]; omega
    have hg := wordsToBytesLE_getElem ks j hj
    rw [List.getElem?_eq_getElem hlen] at hg
    simp only [Option.some.injEq] at hg
    simp only [Res.ok_inj]
    congr 1
    rw [List.append_assoc, List.drop_eq_getElem_cons hlen, List.take_succ_cons, hg]
    rfl

/-- Both loops together encrypt `n` bytes with the first `n` keystream bytes from word `idx` on. -/
theorem Ov.loops_xored (ks : List U32) {io : Ov} (fuel n idx off : Nat) (pre : List U8)
    (hp : pre.length = off) (hfuel : n < fuel) (hk : 4 * idx + n ≤ 4 * ks.length)
    (hf : io.Fits (off + n)) :
    (do
      let (rest, i, off, io) ← Ov.wordLoop ks fuel n idx off (io.xored pre)
      Ov.byteLoop ks rest (4 * i) off io) =
      .ok (io.xored (pre ++ ((wordsToBytesLE ks).drop (4 * idx)).take n)) := by
  rw [wordLoop_xored ks fuel n idx off pre hp hfuel (by omega) hf]
  simp only [Res.ok_bind]
  have hl : (pre ++ ((wordsToBytesLE ks).drop (4 * idx)).take (4 * (n / 4))).length
      = off + 4 * (n / 4) := by
    simp only [List.length_append, List.length_take, List.length_drop, wordsToBytesLE_length, hp]
    omega
  rw [byteLoop_xored ks _ _ _ _ hl (by omega) (hf.mono (by omega))]
  simp only [Res.ok_inj]
  congr 1
  rw [List.append_assoc]
  congr 1
  have e : n = 4 * (n / 4) + n % 4 := by omega
  conv => rhs; rw [e]
  rw [List.take_add, List.drop_drop]
  congr 3; omega

theorem Ov.blockLoop_xored {σ : Type} (blk : σ → σ × Quad) {io : Ov} :
    ∀ (fuel n off : Nat) (s : σ) (pre : List U8),
    pre.length = off → n < fuel → io.Fits (off + n) →
    Ov.blockLoop blk fuel n off s (io.xored pre) =
      .ok (n % 16, off + 16 * (n / 16), blkState blk (n / 16) s,
        io.xored (pre ++ blkBytes blk (n / 16) s)) := by
  intro fuel
  induction fuel with
  | zero => intro n _ _ _ _ h; omega
  | succ fuel ih =>
    intro n off s pre hp hn hf
    rw [blockLoop]
    split
    · rename_i h3
      simp only []
      rw [xor32_xored hp (hf.mono (by omega))]
      simp only [Res.ok_bind]
      rw [xor32_xored (by simp [hp, bytesLE32_length]) (hf.mono (by omega))]
      simp only [Res.ok_bind]
      rw [xor32_xored (by simp [hp, bytesLE32_length]) (hf.mono (by omega))]
      simp only [Res.ok_bind]
      rw [xor32_xored (by simp [hp, bytesLE32_length]) (hf.mono (by omega))]
      simp only [Res.ok_bind]
      rw [ih (n - 16) (off + 16) _ _ (by simp [hp, bytesLE32_length]) (by omega) (hf.mono (by omega))]
      have e1 : n / 16 = (n - 16) / 16 + 1 := by omega
      have e2 : (n - 16) % 16 = n % 16 := by omega
      rw [e2, e1]
      simp only [Res.ok_inj, Prod.mk.injEq, true_and]
      refine ⟨by omega, rfl, ?_⟩
      congr 1
      simp [blkBytes, Quad.bytes, Quad.toList, wordsToBytesLE_cons]
    · rename_i h3
      have e0 : n / 16 = 0 := by omega
      have e1 : n % 16 = n := by omega
      simp [e0, e1, blkBytes, blkState]


/-! ### Packet functions -/

theorem Ov.hc128_eq (cs : HC128.State) {io : Ov} {n : Nat} (hn : n ≤ 2 ^ 33 - 8) (hf : io.Fits n) :
    Ov.hc128 cs io n = .ok (HC128.pktNext cs n, io.xored (HC128.pktKs cs n)) := by
  rw [Ov.hc128]
  by_cases h0 : n < 1
  · have : n = 0 := by omega
    subst this
    simp [HC128.pktNext, HC128.pktKs, HC128.gen, Ov.xored_nil]
  · rw [if_neg h0, if_neg (by omega)]
    have e : (n - 1) / 4 + 1 = (n + 3) / 4 := by omega
    rw [e]
    have := Ov.loops_xored (HC128.gen ((n + 3) / 4) 0 cs).2 (io := io)
      (n + 1) n 0 0 [] rfl (by omega) (by rw [HC128.gen_length]; omega) (hf.mono (by omega))
    rw [Ov.xored_nil] at this
    simp only [List.nil_append, Nat.mul_zero, List.drop_zero] at this
    cases hw : Ov.wordLoop (HC128.gen ((n + 3) / 4) 0 cs).2 (n + 1) n 0 0 io with
    | ub w => rw [hw] at this; cases this
    | ok v =>
      rw [hw] at this
      simp only [hw, Res.ok_bind] at this ⊢
      rw [this]
      rfl

theorem Ov.rabbit_eq (cs : Rabbit.State) {io : Ov} {n : Nat} (hf : io.Fits n) :
    Ov.rabbit cs io n = .ok (Rabbit.pktNext cs n, io.xored (Rabbit.pktKs cs n)) := by
  have hb := Ov.blockLoop_xored Rabbit.extract (io := io) (n + 1) n 0 cs [] rfl (by omega) (hf.mono (by omega))
  rw [Ov.xored_nil] at hb
  simp only [Ov.rabbit, hb, Res.ok_bind, List.nil_append]
  have e : (n + 15) / 16 = if n % 16 > 0 then n / 16 + 1 else n / 16 := by split <;> omega
  split
  · rename_i h0
    rw [if_pos h0] at e
    rw [Ov.byteLoop_xored _ _ _ _ _ (by rw [blkBytes_length]; omega)
      (by rw [Quad.toList_length]; omega) (hf.mono (by omega))]
    simp only [Res.ok_bind, Res.pure_eq, Rabbit.pktNext, Rabbit.pktKs, e, blkState_succ, Res.ok_inj, Prod.mk.injEq, true_and]
    congr 1
    rw [blkBytes_add, List.take_append, blkBytes_length,
      List.take_of_length_le (l := blkBytes Rabbit.extract (n / 16) cs) (by rw [blkBytes_length]; omega)]
    congr 1
    have e2 : n - 16 * (n / 16) = n % 16 := by omega
    simp only [blkBytes, List.append_nil, List.drop_zero, Quad.bytes, e2]
  · rename_i h0
    rw [if_neg h0] at e
    simp only [Rabbit.pktNext, Rabbit.pktKs, e, Res.pure_eq, Res.ok_inj, Prod.mk.injEq, true_and]
    congr 1
    rw [List.take_of_length_le (by rw [blkBytes_length]; omega)]

theorem Ov.sosemanuk_eq (cs : Sosemanuk.State) (io : Ov) (n : Nat) (hf : io.Fits n) :
    Ov.sosemanuk cs io n =
      .ok (blkState Sosemanuk.block (n / 16 + 1) cs, io.xored ((blkBytes Sosemanuk.block (n / 16 + 1) cs).take n)) := by
  have hb := Ov.blockLoop_xored Sosemanuk.block (io := io) (n + 1) n 0 cs [] rfl (by omega) (hf.mono (by omega))
  rw [Ov.xored_nil] at hb
  simp only [Ov.sosemanuk, hb, Res.ok_bind, List.nil_append, Nat.zero_add]
  have hl := Ov.loops_xored (Sosemanuk.block (blkState Sosemanuk.block (n / 16) cs)).2.toList (io := io) (n % 16 + 1) (n % 16) 0 (16 * (n / 16))
    (blkBytes Sosemanuk.block (n / 16) cs) (blkBytes_length ..) (by omega) (by simp; omega) (hf.mono (by omega))
  obtain ⟨⟨rest, i, off, io'⟩, h1, h2⟩ := Res.bind_eq_ok hl
  simp only [] at h2
  rw [h1]
  simp only [Res.ok_bind]
  rw [h2]
  simp only [Res.ok_bind, Res.pure_eq, Res.ok_inj, Prod.mk.injEq]
  refine ⟨(blkState_succ _ _ _).symm, ?_⟩
  congr 1
  rw [blkBytes_add, List.take_append, blkBytes_length,
    List.take_of_length_le (l := blkBytes Sosemanuk.block (n / 16) cs) (by rw [blkBytes_length]; omega),
    show n - 16 * (n / 16) = n % 16 by omega]
  simp [blkBytes, Quad.bytes]

theorem Ov.tail_ok (ws : List U32) {io : Ov} (n off : Nat) (pre : List U8) (hp : pre.length = off)
    (hn : n < 16) (h4 : n % 4 ≤ 1) (hk : ws.length = 4) (hf : io.Fits (off + n)) :
    Ov.tailLoops ws n off (io.xored pre) = .ok (io.xored (pre ++ AES.tailKs ws n)) := by
  rw [Ov.tailLoops, Ov.wordLoop_xored ws 16 n 0 off pre hp hn (by omega) hf]
  simp only [Res.ok_bind, Nat.mul_zero, List.drop_zero, Nat.zero_add]
  have hl : (pre ++ (wordsToBytesLE ws).take (4 * (n / 4))).length = off + 4 * (n / 4) := by
    simp only [List.length_append, List.length_take, wordsToBytesLE_length, hp]; omega
  by_cases h0 : n % 4 = 0
  · rw [if_neg (by omega)]
    simp [AES.tailKs, h0]
  · rw [if_pos (by omega)]
    have h1 : n % 4 = 1 := by omega
    have hlt : n / 4 < ws.length := by omega
    simp only [ksGet, List.getElem?_eq_getElem hlt, Res.ok_bind, h1, Ov.tailBytes]
    rw [if_neg (by omega), Ov.xor8_xored hl (hf.mono (by omega))]
    simp only [Res.ok_bind, Nat.mul_zero, Nat.add_zero, AES.cut24, AES.tailKs, h1]
    rw [if_neg (by omega), List.append_assoc, List.getD_eq_getElem?_getD, List.getElem?_eq_getElem hlt]
    rfl

theorem Ov.aesCtr_eq {σ : Type} (blk : σ → σ × Quad) (cs : σ) {io : Ov} {n : Nat} (h4 : n % 4 ≤ 1) (hf : io.Fits n) :
    Ov.aesCtr blk cs io n = .ok (AES.ctrNext blk cs n, io.xored (AES.ctrKs blk cs n)) := by
  have hb := Ov.blockLoop_xored blk (io := io) (n + 1) n 0 cs [] rfl (by omega) (hf.mono (by omega))
  rw [Ov.xored_nil] at hb
  simp only [Ov.aesCtr, Int.toNat_natCast, hb, Res.ok_bind, List.nil_append, Nat.zero_add]
  by_cases h0 : n % 16 > 0
  · rw [if_pos h0]
    have ht := Ov.tail_ok (blk (blkState blk (n / 16) cs)).2.toList (io := io) (n % 16) (16 * (n / 16))
      (blkBytes blk (n / 16) cs) (blkBytes_length ..) (by omega) (by omega) rfl (hf.mono (by omega))
    have e : (n + 15) / 16 = n / 16 + 1 := by omega
    rw [ht]
    simp only [Res.ok_bind, Res.pure_eq, AES.ctrKs, if_pos h0, AES.ctrNext, e, blkState_succ]
  · rw [if_neg h0]
    have e : (n + 15) / 16 = n / 16 := by omega
    simp only [AES.ctrKs, if_neg h0, AES.ctrNext, e, List.append_nil, Res.pure_eq]

theorem Ov.chacha_general {cs : ChaCha.State} {key nonce : List U8} (h : ChaCha.Keyed cs key nonce) (r : Nat)
    {io : Ov} {size : U64} (hs : size.toNat ≤ 2 ^ 33 - 64) (hf : io.Fits (ChaCha.effective size)) :
    ∃ cs', ChaCha.Keyed cs' key nonce ∧ Ov.chacha r cs io size = .ok (cs', io.xored
      ((Spec.ChaCha.keystream r key 1 nonce ((size.toNat + 63) / 64)).take (ChaCha.effective size))) := by
  obtain ⟨k1, k2, k3⟩ := ChaCha.ksLoop_eq r ((size.toNat + 63) / 64) cs 1 [] h
  refine ⟨_, k1, ?_⟩
  have e : ((size.toNat + 3) / 4 + 15) / 16 = (size.toNat + 63) / 64 := by omega
  have hle := ChaCha.effective_le size
  simp only [Ov.chacha, e]
  rw [if_neg (by omega), if_neg (by omega)]
  change (Ov.wordLoop _ (ChaCha.effective size + 1) (ChaCha.effective size) 0 0 io >>= _) = _
  generalize ChaCha.effective size = n at *
  have := Ov.loops_xored (ChaCha.ksLoop r ((size.toNat + 63) / 64) cs 1 []).2 (io := io)
    (n + 1) n 0 0 [] rfl (by omega) (by rw [k2]; simp; omega) (hf.mono (by omega))
  rw [Ov.xored_nil] at this
  simp only [List.nil_append, Nat.mul_zero, List.drop_zero, k3, wordsToBytesLE_nil] at this
  cases hw : Ov.wordLoop (ChaCha.ksLoop r ((size.toNat + 63) / 64) cs 1 []).2 (n + 1) n 0 0 io with
  | ub w => rw [hw] at this; cases this
  | ok v =>
    rw [hw] at this
    simp only [Res.ok_bind] at this ⊢
    rw [this]
    rfl

theorem Ov.chacha_eq {cs : ChaCha.State} {key nonce : List U8} (h : ChaCha.Keyed cs key nonce) (r : Nat)
    {io : Ov} {size : U64} (hs : size.toNat < 2 ^ 31) (hf : io.Fits size.toNat) :
    ∃ cs', ChaCha.Keyed cs' key nonce ∧ Ov.chacha r cs io size = .ok (cs', io.xored
      ((Spec.ChaCha.keystream r key 1 nonce ((size.toNat + 63) / 64)).take size.toNat)) := by
  have := Ov.chacha_general h r (io := io) (size := size) (by omega) (by rw [ChaCha.effective_small hs]; exact hf)
  rwa [ChaCha.effective_small hs] at this


end CT
