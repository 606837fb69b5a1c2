import Verif.Model.AEGIS
import Verif.Spec.AEGIS
import Verif.Proof.AESCfb

/-!
# AEGIS: the code in closed form, and as AEGIS-128
-/

namespace CT.AEGIS
open CT.AES (quadOf ctRd32 fed fed_length listRd32 listRd32_lt ctRd32_xored xored_out_get quadOf_bytes quadOf_of_bytes
  bytes_inj bytes_toState quadOf_state round_state xor128_eq aesenc_eq arm_round)

/-! ### Variants -/

theorem rndX86_eq : rndX86 = rndPortable := by funext s k; exact aesenc_eq s k

theorem rndArm_eq : rndArm = rndPortable := by
  funext s k
  rw [rndArm, rndPortable, xor128_eq, arm_round, xor128_eq]
  congr 1
  obtain ⟨a, b, c, d⟩ := s
  obtain ⟨e, f, g, h⟩ := k
  simp [AES.initialRound, BitVec.xor_assoc]

/-! ### Message processing in closed form -/

/-- Keystream and final state of `m` whole blocks. -/
def blocksRun (rnd : Quad → Quad → Quad) (fb : Bool) : Nat → State → List U8 → List U8 × State
  | 0, cs, _ => ([], cs)
  | m + 1, cs, msg =>
    let q := (keyQuad cs).bytes
    let r := blocksRun rnd fb m (stateUpdate rnd cs (quadOf (fed fb (msg.take 16) q))) (msg.drop 16)
    (q ++ r.1, r.2)

/-- Keystream and final state of an incomplete block. -/
def tailRun (rnd : Quad → Quad → Quad) (fb : Bool) (cs : State) (msg : List U8) : List U8 × State :=
  if msg.length = 0 then ([], cs)
  else
    let q := (keyQuad cs).bytes.take msg.length
    (q, stateUpdate rnd cs (quadOf (fed fb msg q ++ List.replicate (16 - msg.length) 0)))

/-- Keystream and final state of a message. -/
def msgRun (rnd : Quad → Quad → Quad) (fb fbt : Bool) (cs : State) (msg : List U8) : List U8 × State :=
  let r := blocksRun rnd fb (msg.length / 16) cs msg
  let t := tailRun rnd fbt r.2 (msg.drop (16 * (msg.length / 16)))
  (r.1 ++ t.1, t.2)

theorem blocksRun_length (rnd : Quad → Quad → Quad) (fb : Bool) (m : Nat) (cs : State) (msg : List U8) :
    (blocksRun rnd fb m cs msg).1.length = 16 * m := by
  induction m generalizing cs msg with
  | zero => rfl
  | succ m ih => simp [blocksRun, ih]; omega

theorem tailRun_length (rnd : Quad → Quad → Quad) (fb : Bool) (cs : State) (msg : List U8) (h : msg.length < 16) :
    (tailRun rnd fb cs msg).1.length = msg.length := by
  rw [tailRun]
  split
  · simp [*]
  · simp; omega

theorem msgRun_length (rnd : Quad → Quad → Quad) (fb fbt : Bool) (cs : State) (msg : List U8) :
    (msgRun rnd fb fbt cs msg).1.length = msg.length := by
  rw [msgRun, List.length_append, blocksRun_length, tailRun_length _ _ _ _ (by simp; omega)]
  simp; omega

theorem rdQuad_list {rd : Nat → Res U32} {c : List U8} (hc : c.length = 16)
    (h : ∀ i, i + 4 ≤ 16 → rd i = listRd32 c i) : rdQuad rd = .ok (quadOf c) := by
  rw [rdQuad, h 0 (by omega), h 4 (by omega), h 8 (by omega), h 12 (by omega), listRd32_lt (by omega),
    listRd32_lt (by omega), listRd32_lt (by omega), listRd32_lt (by omega)]
  rfl

theorem blockLoop_eq (rnd : Quad → Quad → Quad) (dec : Bool) {io : Io} (bound : Nat) (m : Nat) :
    ∀ (fuel : Nat) (cs : State) (pre : List U8), m < fuel → io.Fits (pre.length + 16 * m) →
    bound ≤ pre.length + 16 * m → pre.length + 16 * m < bound + 16 →
    blockLoop rnd dec bound fuel pre.length cs (io.xored pre) =
      (let r := blocksRun rnd (dec || io.alias) m cs (io.src.drop pre.length)
       .ok (pre.length + 16 * m, r.2, io.xored (pre ++ r.1))) := by
  induction m with
  | zero =>
    intro fuel cs pre hfuel hf hb _
    obtain ⟨fuel, rfl⟩ : ∃ k, fuel = k + 1 := ⟨fuel - 1, by omega⟩
    rw [blockLoop, if_neg (by omega)]
    simp [blocksRun]
  | succ m ih =>
    intro fuel cs pre hfuel hf hb hb2
    obtain ⟨fuel, rfl⟩ : ∃ k, fuel = k + 1 := ⟨fuel - 1, by omega⟩
    have h1 := hf.1
    rw [blockLoop, if_pos (by omega)]
    simp only [blocksRun]
    generalize keyQuad cs = q
    rw [Io.xor32_xored rfl (hf.mono (by omega)), Res.ok_bind,
      Io.xor32_xored (by simp [bytesLE32_length]) (hf.mono (by omega)), Res.ok_bind,
      Io.xor32_xored (by simp [bytesLE32_length]) (hf.mono (by omega)), Res.ok_bind,
      Io.xor32_xored (by simp [bytesLE32_length]) (hf.mono (by omega)), Res.ok_bind]
    have e : pre ++ bytesLE32 q.w0 ++ bytesLE32 q.w1 ++ bytesLE32 q.w2 ++ bytesLE32 q.w3 = pre ++ q.bytes := by
      simp [Quad.bytes, Quad.toList]
    rw [e, rdQuad_list (c := fed (dec || io.alias) ((io.src.drop pre.length).take 16) q.bytes)
      (by rw [fed_length (by simp; omega)]; simp; omega)
      (fun i hi => by
        have := ctRd32_xored (!dec) pre q.bytes 16 i rfl hi (io := io) (hf.mono (by omega))
        rw [Bool.not_not] at this
        exact this), Res.ok_bind]
    have hl : (pre ++ q.bytes).length = pre.length + 16 := by simp
    rw [← hl, ih fuel _ (pre ++ q.bytes) (by omega) (by rw [hl]; exact hf.mono (by omega)) (by omega) (by omega), hl]
    simp only [List.append_assoc, List.drop_drop]
    rw [show pre.length + 16 + 16 * m = pre.length + 16 * (m + 1) by omega]

theorem copy_list (rd : Nat → Res U8) (l : List U8) : ∀ (off : Nat), (∀ i, i < l.length → rd (off + i) = .ok (l.getD i 0)) →
    copy rd l.length off = .ok l := by
  induction l with
  | nil => intro off _; rfl
  | cons b l ih =>
    intro off h
    rw [List.length_cons, copy, show rd off = .ok b from h 0 (by simp), Res.ok_bind,
      ih (off + 1) (fun i hi => by
        have := h (i + 1) (by simp; omega)
        rw [show off + 1 + i = off + (i + 1) by omega, this]
        rfl)]
    rfl

theorem copy_before {io : Io} (pre : List U8) (n : Nat) (hf : io.Fits (pre.length + n)) :
    copy (io.xored pre).rd8 n pre.length = .ok ((io.src.drop pre.length).take n) := by
  have h1 := hf.1
  have hl : ((io.src.drop pre.length).take n).length = n := by simp; omega
  have := copy_list (io.xored pre).rd8 ((io.src.drop pre.length).take n) pre.length (fun i hi => by
    rw [hl] at hi
    have hg := Io.xored_src_get (hf.mono (Nat.le_add_right _ _)) (i := pre.length + i) (by omega)
    rw [Io.rd8, hg, List.getD_eq_getElem?_getD, List.getElem?_take_of_lt hi, List.getElem?_drop,
      List.getElem?_eq_getElem (by omega)]
    rfl)
  rw [hl] at this
  exact this

theorem copy_after {io : Io} (pre ks : List U8) (n : Nat) (hk : ks.length = n) (hf : io.Fits (pre.length + n)) :
    copy (io.xored (pre ++ ks)).rdOut8 n pre.length = .ok (xorBytes ((io.src.drop pre.length).take n) ks) := by
  have h1 := hf.1
  have hl : (xorBytes ((io.src.drop pre.length).take n) ks).length = n := by simp; omega
  have := copy_list (io.xored (pre ++ ks)).rdOut8 (xorBytes ((io.src.drop pre.length).take n) ks) pre.length (fun i hi => by
    have h := AES.ctRd8_xored false pre ks n i hk (by omega) hf
    rw [AES.ctRd8, if_neg (by decide)] at h
    rw [h]
    simp only [Bool.not_false, Bool.true_or, fed, if_true]
    rw [AES.listRd8_lt hi])
  rw [hl] at this
  exact this

theorem lastBlock_eq (rnd : Quad → Quad → Quad) (dec : Bool) {io : Io} (n : Nat) (cs : State) (pre : List U8)
    (h0 : 0 < n) (hn : n < 16) (hf : io.Fits (pre.length + n)) :
    lastBlock rnd dec n pre.length cs (io.xored pre) =
      (let t := tailRun rnd dec cs ((io.src.drop pre.length).take n)
       .ok (t.2, io.xored (pre ++ t.1))) := by
  have h1 := hf.1
  have hl : ((io.src.drop pre.length).take n).length = n := by simp; omega
  have hloops := Io.loops_xored (keyQuad cs).toList (io := io) 16 n 0 pre.length pre rfl (by omega)
    (by rw [Quad.toList_length]; omega) hf
  rw [Nat.mul_zero, List.drop_zero] at hloops
  have hk : ((wordsToBytesLE (keyQuad cs).toList).take n).length = n := by
    simp [wordsToBytesLE_length]; omega
  have hw := Res.bind_eq_ok hloops
  obtain ⟨⟨rest, i, off', io'⟩, hw1, hw2⟩ := hw
  simp only [tailRun, hl]
  rw [if_neg (by omega), lastBlock]
  cases dec with
  | false =>
    simp only [Bool.false_eq_true, if_false]
    rw [copy_before pre n hf, Res.ok_bind, hw1, Res.ok_bind]
    simp only [] at hw2 ⊢
    rw [hw2, Res.ok_bind, Res.ok_bind]
    rfl
  | true =>
    simp only [if_true]
    rw [Res.ok_bind, hw1, Res.ok_bind]
    simp only [] at hw2 ⊢
    rw [hw2, Res.ok_bind, copy_after pre _ n hk hf, Res.ok_bind]
    rfl

theorem blocksRun_congr (rnd : Quad → Quad → Quad) (fb : Bool) (m : Nat) : ∀ (cs : State) (a b : List U8),
    a.take (16 * m) = b.take (16 * m) → blocksRun rnd fb m cs a = blocksRun rnd fb m cs b := by
  induction m with
  | zero => intro cs a b _; rfl
  | succ m ih =>
    intro cs a b h
    have h1 : a.take 16 = b.take 16 := by
      have := congrArg (List.take 16) h
      simpa [List.take_take, show min 16 (16 * (m + 1)) = 16 by omega] using this
    have h2 : (a.drop 16).take (16 * m) = (b.drop 16).take (16 * m) := by
      have := congrArg (List.drop 16) h
      rw [List.drop_take, List.drop_take] at this
      rw [show 16 * (m + 1) - 16 = 16 * m by omega] at this
      exact this
    simp only [blocksRun, h1]
    rw [ih _ _ _ h2]

/-- `aegis_encrypt` and `aegis_decrypt` in closed form. -/
theorem crypt_eq (rnd : Quad → Quad → Quad) (dec : Bool) (cs : State) {io : Io} {n : Nat} (h15 : n = 0 ∨ 15 ≤ n)
    (hn : n < 2 ^ 64) (hf : io.Fits n) :
    crypt rnd dec cs io n =
      (let r := msgRun rnd (dec || io.alias) dec cs (io.src.take n)
       .ok (r.2, io.xored r.1)) := by
  have h1 := hf.1
  have hl : (io.src.take n).length = n := by simp; omega
  rw [crypt]
  by_cases h0 : n = 0
  · subst h0
    simp [msgRun, blocksRun, tailRun, Io.xored_nil]
  · rw [if_neg h0]
    have hb : (n + (2 ^ 64 - 15)) % 2 ^ 64 = n - 15 := by omega
    have h := blockLoop_eq rnd dec (io := io) (n - 15) (n / 16) (2 ^ 60) cs [] (by omega)
      (by simp only [List.length_nil]; exact hf.mono (by omega)) (by simp only [List.length_nil]; omega)
      (by simp only [List.length_nil]; omega)
    rw [Io.xored_nil] at h
    simp only [List.length_nil, Nat.zero_add, List.nil_append, List.drop_zero] at h
    simp only [hb]
    rw [h, Res.ok_bind]
    simp only [msgRun, hl]
    have hbl := blocksRun_length rnd (dec || io.alias) (n / 16) cs io.src
    rw [← blocksRun_congr rnd (dec || io.alias) (n / 16) cs io.src (io.src.take n)
      (by rw [List.take_take, Nat.min_eq_left (by omega)])]
    generalize blocksRun rnd (dec || io.alias) (n / 16) cs io.src = r at hbl ⊢
    have e : (io.src.take n).drop (16 * (n / 16)) = (io.src.drop (16 * (n / 16))).take (n - 16 * (n / 16)) := by
      rw [List.drop_take]
    rw [e]
    by_cases hm : 16 * (n / 16) = n
    · rw [if_pos hm]
      simp [tailRun, hm]
    · rw [if_neg hm, ← hbl, lastBlock_eq rnd dec _ r.2 r.1 (by omega) (by omega)
        (by rw [hbl]; exact hf.mono (by omega))]

/-! ### Message lengths 1 to 14 -/

theorem wr8_ok {io io' : Io} {i : Nat} {b : U8} (h : io.wr8 i b = .ok io') :
    io'.out.length = io.out.length ∧ i < io.out.length := by
  by_cases hi : i < io.out.length
  · rw [Io.wr8_eq hi, Res.ok_inj] at h
    subst h
    simp [hi]
  · rw [Io.wr8, if_neg hi] at h; cases h

theorem xor32_ok {io io' : Io} {i : Nat} {k : U32} (h : io.xor32 i k = .ok io') :
    io'.out.length = io.out.length ∧ i + 4 ≤ io.out.length := by
  rw [Io.xor32] at h
  obtain ⟨w, _, h⟩ := Res.bind_eq_ok h
  rw [Io.wr32] at h
  obtain ⟨i1, e1, h⟩ := Res.bind_eq_ok h
  obtain ⟨i2, e2, h⟩ := Res.bind_eq_ok h
  obtain ⟨i3, e3, h⟩ := Res.bind_eq_ok h
  have a1 := wr8_ok e1
  have a2 := wr8_ok e2
  have a3 := wr8_ok e3
  have a4 := wr8_ok h
  omega

theorem blockLoop_ub (rnd : Quad → Quad → Quad) (dec : Bool) (bound : Nat) (fuel : Nat) : ∀ (tmp : Nat) (cs : State) (io : Io),
    tmp ≤ io.out.length → io.out.length < bound → (blockLoop rnd dec bound fuel tmp cs io).isUB := by
  induction fuel with
  | zero => intro tmp cs io _ _; rfl
  | succ fuel ih =>
    intro tmp cs io h1 h2
    rw [blockLoop, if_pos (by omega)]
    simp only []
    cases e1 : io.xor32 tmp (keyQuad cs).w0 with
    | ub => rfl
    | ok io1 =>
    cases e2 : io1.xor32 (tmp + 4) (keyQuad cs).w1 with
    | ub => rw [Res.ok_bind, e2]; rfl
    | ok io2 =>
    cases e3 : io2.xor32 (tmp + 8) (keyQuad cs).w2 with
    | ub => rw [Res.ok_bind, e2, Res.ok_bind, e3]; rfl
    | ok io3 =>
    cases e4 : io3.xor32 (tmp + 12) (keyQuad cs).w3 with
    | ub => rw [Res.ok_bind, e2, Res.ok_bind, e3, Res.ok_bind, e4]; rfl
    | ok io4 =>
    rw [Res.ok_bind, e2, Res.ok_bind, e3, Res.ok_bind, e4, Res.ok_bind]
    have a1 := xor32_ok e1
    have a2 := xor32_ok e2
    have a3 := xor32_ok e3
    have a4 := xor32_ok e4
    cases rdQuad (fun i => ctRd32 (!dec) io4 (tmp + i)) with
    | ub => rfl
    | ok m => exact ih _ _ _ (by omega) (by omega)

theorem crypt_ub (rnd : Quad → Quad → Quad) (dec : Bool) (cs : State) (io : Io) (n : Nat) (h1 : 1 ≤ n) (h14 : n ≤ 14)
    (hs : io.out.length < 2 ^ 64 - 15) : (crypt rnd dec cs io n).isUB := by
  rw [crypt, if_neg (by omega)]
  have h := blockLoop_ub rnd dec ((n + (2 ^ 64 - 15)) % 2 ^ 64) (2 ^ 60) 0 cs io (by omega) (by omega)
  simp only []
  cases e : blockLoop rnd dec ((n + (2 ^ 64 - 15)) % 2 ^ 64) (2 ^ 60) 0 cs io with
  | ub => rfl
  | ok r => rw [e] at h; cases h

/-! ### Decryption undoes encryption -/

theorem fed_not (fb : Bool) (msg ks : List U8) (h : msg.length ≤ ks.length) :
    fed (!fb) (xorBytes msg ks) ks = fed fb msg ks := by
  cases fb
  · simp only [Bool.not_false, fed, if_true, Bool.false_eq_true, if_false]; exact xorBytes_xorBytes msg ks h
  · simp [fed]

theorem blocksRun_swap (rnd : Quad → Quad → Quad) (fb : Bool) (m : Nat) : ∀ (cs : State) (a b : List U8),
    16 * m ≤ a.length → b.take (16 * m) = xorBytes (a.take (16 * m)) (blocksRun rnd fb m cs a).1 →
    blocksRun rnd (!fb) m cs b = blocksRun rnd fb m cs a := by
  induction m with
  | zero => intro cs a b _ _; rfl
  | succ m ih =>
    intro cs a b hl hb
    simp only [blocksRun] at hb ⊢
    generalize hq : (keyQuad cs).bytes = q at hb ⊢
    have hq16 : q.length = 16 := by rw [← hq]; rfl
    rw [show 16 * (m + 1) = 16 + 16 * m by omega, List.take_add, List.take_add,
      xorBytes_append (by simp; omega)] at hb
    have hbl : (b.take 16).length = (xorBytes (a.take 16) q).length := by
      have := congrArg List.length hb
      simp only [List.length_append, xorBytes_length, List.length_take, List.length_drop, blocksRun_length] at this ⊢
      omega
    obtain ⟨hb1, hb2⟩ := List.append_inj hb hbl
    have e : fed (!fb) (b.take 16) q = fed fb (a.take 16) q := by
      rw [hb1]; exact fed_not fb _ _ (by simp; omega)
    rw [e, ih _ (a.drop 16) (b.drop 16) (by simp; omega) hb2]

theorem tailRun_swap (rnd : Quad → Quad → Quad) (fb : Bool) (cs : State) (a : List U8) (h : a.length < 16) :
    tailRun rnd (!fb) cs (xorBytes a (tailRun rnd fb cs a).1) = tailRun rnd fb cs a := by
  by_cases h0 : a.length = 0
  · rw [List.length_eq_zero_iff] at h0
    subst h0
    simp [tailRun]
  · have hk : (tailRun rnd fb cs a).1 = (keyQuad cs).bytes.take a.length := by rw [tailRun, if_neg h0]
    rw [hk]
    have hl : ((keyQuad cs).bytes.take a.length).length = a.length := by simp; omega
    have hx : (xorBytes a ((keyQuad cs).bytes.take a.length)).length = a.length := by rw [xorBytes_length, hl]; omega
    simp only [tailRun, hx, if_neg h0]
    rw [fed_not fb _ _ (by omega)]

theorem msgRun_swap (rnd : Quad → Quad → Quad) (fb : Bool) (cs : State) (a : List U8) :
    msgRun rnd (!fb) (!fb) cs (xorBytes a (msgRun rnd fb fb cs a).1) = msgRun rnd fb fb cs a := by
  have hx : (xorBytes a (msgRun rnd fb fb cs a).1).length = a.length := by
    rw [xorBytes_length, msgRun_length]; omega
  generalize hb : xorBytes a (msgRun rnd fb fb cs a).1 = b at hx ⊢
  simp only [msgRun] at hb ⊢
  rw [hx]
  generalize hr : blocksRun rnd fb (a.length / 16) cs a = r at hb ⊢
  have hrl : r.1.length = 16 * (a.length / 16) := by rw [← hr]; exact blocksRun_length ..
  generalize ht : tailRun rnd fb r.2 (a.drop (16 * (a.length / 16))) = t at hb ⊢
  have ea : a = a.take (16 * (a.length / 16)) ++ a.drop (16 * (a.length / 16)) := (List.take_append_drop ..).symm
  have hb' : b = xorBytes (a.take (16 * (a.length / 16))) r.1 ++ xorBytes (a.drop (16 * (a.length / 16))) t.1 := by
    rw [← xorBytes_append (by rw [hrl]; simp; omega), ← ea, hb]
  have hlx : (xorBytes (a.take (16 * (a.length / 16))) r.1).length = 16 * (a.length / 16) := by
    rw [xorBytes_length, hrl]; simp; omega
  have hb1 : b.take (16 * (a.length / 16)) = xorBytes (a.take (16 * (a.length / 16))) r.1 := by
    rw [hb', List.take_left' hlx]
  have hb2 : b.drop (16 * (a.length / 16)) = xorBytes (a.drop (16 * (a.length / 16))) t.1 := by
    rw [hb', List.drop_left' hlx]
  rw [blocksRun_swap rnd fb (a.length / 16) cs a b (by omega) (by rw [hr]; exact hb1), hr, hb2, ← ht,
    tailRun_swap rnd fb r.2 _ (by simp; omega)]

/-! ### AEGIS-128 -/

/-- The state as blocks of bytes. -/
def toSpec (cs : State) : Spec.AEGIS.State :=
  ⟨cs.s0.bytes, cs.s1.bytes, cs.s2.bytes, cs.s3.bytes, cs.s4.bytes⟩

theorem qxor_bytes (a b : Quad) : (qxor a b).bytes = xorBytes a.bytes b.bytes := by
  obtain ⟨a0, a1, a2, a3⟩ := a
  obtain ⟨b0, b1, b2, b3⟩ := b
  simp [qxor, Quad.bytes, Quad.toList, bytesLE32]

theorem byteN_and (a b : U32) (n : Nat) : byteN (a &&& b) n = byteN a n &&& byteN b n := by
  apply BitVec.eq_of_getLsbD_eq
  intro i hi
  simp [byteN, hi]

theorem qand_bytes (a b : Quad) : (qand a b).bytes = Spec.AEGIS.andBytes a.bytes b.bytes := by
  obtain ⟨a0, a1, a2, a3⟩ := a
  obtain ⟨b0, b1, b2, b3⟩ := b
  simp [qand, Quad.bytes, Quad.toList, bytesLE32, Spec.AEGIS.andBytes, byteN_and]

theorem ofBytes_bytes (q : Quad) : Spec.AES.ofBytes q.bytes = AES.toState q := by
  rw [← quadOf_state, quadOf_of_bytes]

theorem rnd_bytes (s k : Quad) : (rndPortable s k).bytes = Spec.AEGIS.aesRound s.bytes k.bytes := by
  rw [rndPortable, bytes_toState, round_state, Spec.AEGIS.aesRound, ofBytes_bytes, ofBytes_bytes]

theorem stateUpdate_spec (cs : State) (m : Quad) :
    toSpec (stateUpdate rndPortable cs m) = Spec.AEGIS.update (toSpec cs) m.bytes := by
  simp only [toSpec, stateUpdate, Spec.AEGIS.update, rnd_bytes, qxor_bytes]

theorem initState_spec (cs : State) (key iv : List U8) (hk : key.length = 16) (hiv : iv.length = 16)
    (h : cs.key = quadOf key) : toSpec (initState rndPortable cs iv) = Spec.AEGIS.initial key iv := by
  have hc0 : (quadOf constant).bytes = Spec.AEGIS.const0 := by decide +kernel
  have hc1 : (quadOf (constant.drop 16)).bytes = Spec.AEGIS.const1 := by decide +kernel
  rw [initState]
  simp only [stateUpdate_spec]
  generalize hq0 : quadOf constant = q0 at hc0 ⊢
  generalize hq1 : quadOf (constant.drop 16) = q1 at hc1 ⊢
  have e1 : toSpec { cs with s0 := qxor cs.key (quadOf iv), s1 := q1, s2 := q0, s3 := qxor cs.key q0, s4 := qxor cs.key q1 } =
      { s0 := xorBytes key iv, s1 := Spec.AEGIS.const1, s2 := Spec.AEGIS.const0, s3 := xorBytes key Spec.AEGIS.const0, s4 := xorBytes key Spec.AEGIS.const1 } := by
    simp only [toSpec, qxor_bytes, h, quadOf_bytes hk, quadOf_bytes hiv, hc0, hc1]
  rw [e1]
  simp only [stateUpdate, h, qxor_bytes, quadOf_bytes hk, quadOf_bytes hiv, Spec.AEGIS.initial, Spec.AEGIS.initPairs]

theorem quadOf_take (l : List U8) : quadOf (l.take 16) = quadOf l := by
  simp only [quadOf, List.getD_eq_getElem?_getD]
  simp

theorem adLoop_spec (m : Nat) : ∀ (cs : State) (ad : List U8) (t : Nat), t < 16 → ad.length + t = 16 * m →
    toSpec (adLoop rndPortable m cs (ad ++ List.replicate t 0)) = Spec.AEGIS.absorb m (toSpec cs) ad := by
  induction m with
  | zero => intro cs ad t _ _; rfl
  | succ m ih =>
    intro cs ad t ht hl
    rw [adLoop, Spec.AEGIS.absorb]
    by_cases h16 : 16 ≤ ad.length
    · rw [List.drop_append_of_le_length h16, ih _ _ t ht (by simp; omega), stateUpdate_spec,
        ← quadOf_take, List.take_append_of_le_length h16, quadOf_bytes (by simp; omega)]
      congr 2
      simp [Spec.AEGIS.pad, h16]
    · have hm : m = 0 := by omega
      subst hm
      rw [adLoop, Spec.AEGIS.absorb, stateUpdate_spec, quadOf_bytes (by simp; omega), Spec.AEGIS.pad]
      congr 1
      rw [List.take_of_length_le (by omega)]
      congr 2
      omega

theorem processAd_spec (cs : State) (ad : List U8) (h : (ad.length + 15) / 16 ≤ 2 ^ 29) :
    ∃ cs', processAd rndPortable cs ad ad.length = .ok cs' ∧
      toSpec cs' = Spec.AEGIS.absorb (Spec.AEGIS.blocks ad) (toSpec cs) ad := by
  rw [processAd, Spec.AEGIS.blocks]
  by_cases h0 : ad.length = 0
  · rw [if_pos h0]
    exact ⟨cs, rfl, by simp [h0, Spec.AEGIS.absorb]⟩
  · rw [if_neg h0, if_neg (by omega), if_neg (by omega)]
    refine ⟨_, rfl, ?_⟩
    rw [List.take_length]
    by_cases h16 : ad.length % 16 = 0
    · rw [if_neg (by omega)]
      have := adLoop_spec ((ad.length + 15) / 16) cs ad 0 (by omega) (by omega)
      simpa using this
    · rw [if_pos h16]
      exact adLoop_spec _ cs ad _ (by omega) (by omega)

theorem keyQuad_bytes (cs : State) : (keyQuad cs).bytes = Spec.AEGIS.keyBlock (toSpec cs) := by
  simp only [keyQuad, qxor_bytes, qand_bytes, Spec.AEGIS.keyBlock, toSpec]

theorem msgRun_short (cs : State) (p : List U8) (h : p.length < 16) :
    msgRun rndPortable false false cs p = tailRun rndPortable false cs p := by
  have : p.length / 16 = 0 := by omega
  simp [msgRun, this, blocksRun]

theorem msgRun_long (cs : State) (p : List U8) (h : 16 ≤ p.length) :
    msgRun rndPortable false false cs p =
      (let r := msgRun rndPortable false false (stateUpdate rndPortable cs (quadOf (p.take 16))) (p.drop 16)
       ((keyQuad cs).bytes ++ r.1, r.2)) := by
  have : p.length / 16 = (p.drop 16).length / 16 + 1 := by simp; omega
  simp only [msgRun, this, blocksRun, fed, Bool.false_eq_true, if_false, List.drop_drop, List.append_assoc]
  rw [show 16 + 16 * ((p.drop 16).length / 16) = 16 * ((p.drop 16).length / 16 + 1) by omega]

theorem msgRun_spec (k : Nat) : ∀ (cs : State) (p : List U8), p.length ≤ k →
    Spec.AEGIS.encBlocks (Spec.AEGIS.blocks p) (toSpec cs) p =
      (xorBytes p (msgRun rndPortable false false cs p).1, toSpec (msgRun rndPortable false false cs p).2) := by
  induction k with
  | zero =>
    intro cs p h
    have : p = [] := List.length_eq_zero_iff.mp (by omega)
    subst this
    simp [Spec.AEGIS.blocks, Spec.AEGIS.encBlocks, msgRun, blocksRun, tailRun]
  | succ k ih =>
    intro cs p h
    by_cases h16 : 16 ≤ p.length
    · rw [msgRun_long cs p h16]
      simp only []
      have hb : Spec.AEGIS.blocks p = Spec.AEGIS.blocks (p.drop 16) + 1 := by simp [Spec.AEGIS.blocks]; omega
      have hq : Spec.AEGIS.pad (p.take 16) = (quadOf (p.take 16)).bytes := by
        rw [quadOf_bytes (by simp; omega)]; simp [Spec.AEGIS.pad, h16]
      rw [hb, Spec.AEGIS.encBlocks, hq, ← stateUpdate_spec, ih _ _ (by simp; omega)]
      simp only [keyQuad_bytes]
      have hkl : (Spec.AEGIS.keyBlock (toSpec cs)).length = 16 := by rw [← keyQuad_bytes]; rfl
      congr 1
      rw [← xorBytes_append (by rw [hkl]; simp; omega), List.take_append_drop]
    · rw [msgRun_short cs p (by omega)]
      by_cases h0 : p.length = 0
      · have : p = [] := List.length_eq_zero_iff.mp h0
        subst this
        simp [Spec.AEGIS.blocks, Spec.AEGIS.encBlocks, tailRun]
      · have hb : Spec.AEGIS.blocks p = 1 := by rw [Spec.AEGIS.blocks]; omega
        simp only [tailRun, if_neg h0]
        rw [hb, Spec.AEGIS.encBlocks, Spec.AEGIS.encBlocks, stateUpdate_spec, List.take_of_length_le (by omega),
          keyQuad_bytes, xorBytes_take_right]
        simp only [fed, Bool.false_eq_true, if_false, List.append_nil]
        rw [quadOf_bytes (by simp; omega)]
        rfl

theorem byteN_ofNat (n k : Nat) (h : k < 4) : byteN (BitVec.ofNat 32 n) k = BitVec.ofNat 8 (n / 256 ^ k) := by
  apply BitVec.eq_of_toNat_eq
  simp only [byteN, BitVec.extractLsb'_toNat, BitVec.toNat_ofNat, Nat.shiftRight_eq_div_pow]
  obtain rfl | rfl | rfl | rfl : k = 0 ∨ k = 1 ∨ k = 2 ∨ k = 3 := by omega
  all_goals simp only [Nat.reduceMul, Nat.reducePow]; omega

theorem bytes64_eq (n : Nat) : bytesLE32 (lo64 n) ++ bytesLE32 (hi64 n) = Spec.AEGIS.bytes64 n := by
  have hlo : ∀ k, k < 4 → byteN (lo64 n) k = BitVec.ofNat 8 (n / 256 ^ k) := by
    intro k hk
    rw [lo64, byteN_ofNat _ _ hk]
    apply BitVec.eq_of_toNat_eq
    simp only [BitVec.toNat_ofNat]
    obtain rfl | rfl | rfl | rfl : k = 0 ∨ k = 1 ∨ k = 2 ∨ k = 3 := by omega
    all_goals simp only [Nat.reducePow]; omega
  have hhi : ∀ k, k < 4 → byteN (hi64 n) k = BitVec.ofNat 8 (n / 256 ^ (4 + k)) := by
    intro k hk
    rw [hi64, byteN_ofNat _ _ hk]
    apply BitVec.eq_of_toNat_eq
    simp only [BitVec.toNat_ofNat]
    obtain rfl | rfl | rfl | rfl : k = 0 ∨ k = 1 ∨ k = 2 ∨ k = 3 := by omega
    all_goals simp only [Nat.reduceAdd, Nat.reducePow]; omega
  simp only [bytesLE32, hlo 0 (by decide), hlo 1 (by decide), hlo 2 (by decide), hlo 3 (by decide),
    hhi 0 (by decide), hhi 1 (by decide), hhi 2 (by decide), hhi 3 (by decide)]
  rfl

theorem finalize_spec (cs : State) (adlen msglen : Nat) :
    (finalize rndPortable cs adlen msglen).2.bytes = Spec.AEGIS.finish (toSpec cs) adlen msglen := by
  rw [finalize, Spec.AEGIS.finish]
  simp only [qxor_bytes]
  have e : (Quad.mk (lo64 (adlen * 8)) (hi64 (adlen * 8)) (lo64 (msglen * 8)) (hi64 (msglen * 8))).bytes =
      Spec.AEGIS.bytes64 (8 * adlen) ++ Spec.AEGIS.bytes64 (8 * msglen) := by
    rw [← bytes64_eq, ← bytes64_eq, Nat.mul_comm 8 adlen, Nat.mul_comm 8 msglen]
    simp [Quad.bytes, Quad.toList]
  generalize Quad.mk (lo64 (adlen * 8)) (hi64 (adlen * 8)) (lo64 (msglen * 8)) (hi64 (msglen * 8)) = q at e ⊢
  have e2 : (qxor q cs.s3).bytes = xorBytes (toSpec cs).s3 (Spec.AEGIS.bytes64 (8 * adlen) ++ Spec.AEGIS.bytes64 (8 * msglen)) := by
    rw [qxor_bytes, xorBytes_comm, e]; rfl
  rw [← e2]
  simp only [Spec.AEGIS.updates, ← stateUpdate_spec]
  rfl

/-! ### Packets -/

theorem stateUpdate_key (rnd : Quad → Quad → Quad) (cs : State) (m : Quad) : (stateUpdate rnd cs m).key = cs.key := rfl

theorem initState_key (rnd : Quad → Quad → Quad) (cs : State) (iv : List U8) : (initState rnd cs iv).key = cs.key := rfl

theorem initState_congr (rnd : Quad → Quad → Quad) {cs cs' : State} (iv : List U8) (h : cs.key = cs'.key) :
    initState rnd cs iv = initState rnd cs' iv := by
  obtain ⟨k, _, _, _, _, _⟩ := cs
  obtain ⟨k', _, _, _, _, _⟩ := cs'
  simp only at h
  subst h
  rfl

theorem adLoop_key (rnd : Quad → Quad → Quad) (m : Nat) (cs : State) (bs : List U8) : (adLoop rnd m cs bs).key = cs.key := by
  induction m generalizing cs bs with
  | zero => rfl
  | succ m ih => rw [adLoop, ih]; rfl

theorem processAd_key (rnd : Quad → Quad → Quad) {cs cs' : State} {ad : List U8} {adlen : Nat}
    (h : processAd rnd cs ad adlen = .ok cs') : cs'.key = cs.key := by
  rw [processAd] at h
  split at h
  · rw [Res.ok_inj] at h; rw [h]
  · split at h
    · cases h
    · split at h
      · cases h
      · simp only [Res.ok_inj] at h
        rw [← h, adLoop_key]

theorem blockLoop_key (rnd : Quad → Quad → Quad) (dec : Bool) (bound fuel : Nat) : ∀ (tmp : Nat) (cs : State) (io : Io)
    (r : Nat × State × Io), blockLoop rnd dec bound fuel tmp cs io = .ok r → r.2.1.key = cs.key := by
  induction fuel with
  | zero => intro tmp cs io r h; cases h
  | succ fuel ih =>
    intro tmp cs io r h
    rw [blockLoop] at h
    split at h
    · obtain ⟨_, _, h⟩ := Res.bind_eq_ok h
      obtain ⟨_, _, h⟩ := Res.bind_eq_ok h
      obtain ⟨_, _, h⟩ := Res.bind_eq_ok h
      obtain ⟨_, _, h⟩ := Res.bind_eq_ok h
      obtain ⟨_, _, h⟩ := Res.bind_eq_ok h
      rw [ih _ _ _ _ h]; rfl
    · rw [Res.ok_inj] at h; rw [← h]

theorem lastBlock_key (rnd : Quad → Quad → Quad) (dec : Bool) {n off : Nat} {cs : State} {io : Io} {r : State × Io}
    (h : lastBlock rnd dec n off cs io = .ok r) : r.1.key = cs.key := by
  rw [lastBlock] at h
  obtain ⟨_, _, h⟩ := Res.bind_eq_ok h
  obtain ⟨_, _, h⟩ := Res.bind_eq_ok h
  obtain ⟨_, _, h⟩ := Res.bind_eq_ok h
  obtain ⟨_, _, h⟩ := Res.bind_eq_ok h
  rw [Res.ok_inj] at h
  rw [← h]; rfl

theorem crypt_key (rnd : Quad → Quad → Quad) (dec : Bool) {cs : State} {io : Io} {n : Nat} {r : State × Io}
    (h : crypt rnd dec cs io n = .ok r) : r.1.key = cs.key := by
  rw [crypt] at h
  split at h
  · rw [Res.ok_inj] at h; rw [← h]
  · obtain ⟨x, hx, h⟩ := Res.bind_eq_ok h
    have hk := blockLoop_key rnd dec _ _ _ _ _ _ hx
    simp only [] at h
    split at h
    · rw [Res.ok_inj] at h; rw [← h]; exact hk
    · rw [lastBlock_key rnd dec h]; exact hk

theorem finalize_key (rnd : Quad → Quad → Quad) (cs : State) (a m : Nat) : (finalize rnd cs a m).1.key = cs.key := rfl

/-- State before the message is processed. -/
theorem header_spec (cs : State) (key iv ad : List U8) (hk : key.length = 16) (hiv : iv.length = 16)
    (h : cs.key = quadOf key) (had : ad.length ≤ 2 ^ 33) :
    ∃ cs', processAd rndPortable (initState rndPortable cs iv) ad ad.length = .ok cs' ∧ cs'.key = quadOf key ∧
      toSpec cs' = Spec.AEGIS.absorb (Spec.AEGIS.blocks ad) (Spec.AEGIS.initial key iv) ad := by
  obtain ⟨cs', h1, h2⟩ := processAd_spec (initState rndPortable cs iv) ad (by omega)
  refine ⟨cs', h1, ?_, ?_⟩
  · rw [processAd_key rndPortable h1, initState_key, h]
  · rw [h2, initState_spec cs key iv hk hiv h]

/-- The specification through the model's closed form. -/
theorem spec_encrypt {cs : State} {key iv ad : List U8}
    (h : toSpec cs = Spec.AEGIS.absorb (Spec.AEGIS.blocks ad) (Spec.AEGIS.initial key iv) ad) (p : List U8) :
    Spec.AEGIS.encrypt key iv ad p =
      (let r := msgRun rndPortable false false cs p
       (xorBytes p r.1, (finalize rndPortable r.2 ad.length p.length).2.bytes)) := by
  simp only [Spec.AEGIS.encrypt, ← h, msgRun_spec p.length cs p (Nat.le_refl _), finalize_spec]

theorem encryptPacket_spec (cs : State) (key iv ad : List U8) {io : Io} {n : Nat} (hk : key.length = 16) (hiv : iv.length = 16)
    (h : cs.key = quadOf key) (had : ad.length ≤ 2 ^ 33) (h15 : n = 0 ∨ 15 ≤ n) (hn : n < 2 ^ 64) (hf : io.Fits n)
    (ha : io.alias = false ∨ n ≤ 15) :
    ∃ cs', encryptPacket rndPortable cs io ad iv ad.length n = .ok (cs',
      { io with out := (Spec.AEGIS.encrypt key iv ad (io.src.take n)).1 ++ io.out.drop n },
      (Spec.AEGIS.encrypt key iv ad (io.src.take n)).2) ∧ cs'.key = quadOf key := by
  have h1 := hf.1
  have hl : (io.src.take n).length = n := by simp; omega
  obtain ⟨c1, e1, k1, s1⟩ := header_spec cs key iv ad hk hiv h had
  have hm : msgRun rndPortable (false || io.alias) false c1 (io.src.take n) = msgRun rndPortable false false c1 (io.src.take n) := by
    rcases ha with ha | ha
    · rw [ha]; rfl
    · have : (io.src.take n).length / 16 = 0 := by omega
      simp only [msgRun, this, blocksRun]
  have hc := crypt_eq rndPortable false c1 h15 hn hf
  simp only [hm] at hc
  have hkey := crypt_key rndPortable false hc
  refine ⟨(finalize rndPortable (msgRun rndPortable false false c1 (io.src.take n)).2 ad.length n).1, ?_, ?_⟩
  · rw [encryptPacket]
    simp only []
    rw [e1, Res.ok_bind, hc, Res.ok_bind, spec_encrypt s1]
    simp only [hl]
    have : io.xored (msgRun rndPortable false false c1 (io.src.take n)).1 =
        { io with out := xorBytes (io.src.take n) (msgRun rndPortable false false c1 (io.src.take n)).1 ++ io.out.drop n } := by
      rw [Io.xored, msgRun_length, hl]
    rw [this]
  · rw [finalize_key, hkey, k1]

theorem decryptPacket_spec (cs : State) (key iv ad tag : List U8) {io : Io} {n : Nat} (hk : key.length = 16) (hiv : iv.length = 16)
    (h : cs.key = quadOf key) (had : ad.length ≤ 2 ^ 33) (ht : tag.length = 16) (h15 : n = 0 ∨ 15 ≤ n) (hn : n < 2 ^ 64)
    (hf : io.Fits n) :
    ∃ cs' p, cs'.key = quadOf key ∧ p.length = n ∧ (Spec.AEGIS.encrypt key iv ad p).1 = io.src.take n ∧
      decryptPacket rndPortable cs io ad iv tag ad.length n =
        if (Spec.AEGIS.encrypt key iv ad p).2 = tag then
          .ok (cs', { io with out := p ++ io.out.drop n }, tag, 1)
        else
          .ok (cs', { io with out := List.replicate n 0 ++ io.out.drop n }, List.replicate 16 0, 0) := by
  have h1 := hf.1
  have h2 := hf.2
  have hl : (io.src.take n).length = n := by simp; omega
  obtain ⟨c1, e1, k1, s1⟩ := header_spec cs key iv ad hk hiv h had
  have hc := crypt_eq rndPortable true c1 h15 hn hf
  simp only [Bool.true_or] at hc
  have hkey := crypt_key rndPortable true hc
  have hsw := msgRun_swap rndPortable true c1 (io.src.take n)
  simp only [Bool.not_true] at hsw
  have hrl := msgRun_length rndPortable true true c1 (io.src.take n)
  rw [hl] at hrl
  have hxo : io.xored (msgRun rndPortable true true c1 (io.src.take n)).1 =
      { io with out := xorBytes (io.src.take n) (msgRun rndPortable true true c1 (io.src.take n)).1 ++ io.out.drop n } := by
    rw [Io.xored, hrl]
  generalize msgRun rndPortable true true c1 (io.src.take n) = r at *
  have hpl : (xorBytes (io.src.take n) r.1).length = n := by rw [xorBytes_length, hl, hrl]; omega
  refine ⟨(finalize rndPortable r.2 ad.length n).1, xorBytes (io.src.take n) r.1, ?_, hpl, ?_, ?_⟩
  · rw [finalize_key, hkey, k1]
  · rw [spec_encrypt s1, hsw]
    exact xorBytes_xorBytes _ _ (by omega)
  · rw [decryptPacket]
    simp only []
    rw [e1, Res.ok_bind, hc, Res.ok_bind, spec_encrypt s1, hsw]
    simp only [hpl, hxo]
    generalize finalize rndPortable r.2 ad.length n = f
    by_cases hq : f.2.bytes = tag
    · have : f.2 = quadOf tag := by rw [← hq, quadOf_of_bytes]
      rw [if_neg (by rw [this]; simp), if_pos hq]
    · have : f.2 ≠ quadOf tag := fun he => hq (by rw [he, quadOf_bytes ht])
      rw [if_pos this, if_neg hq]
      rw [Mem.wrs_eq 0 _ (by simp; omega), Res.ok_bind, Mem.wrs_eq 0 _ (by simp [ht]), Res.ok_bind]
      simp [hpl, ht]

/-- The ciphertext determines the plaintext. -/
theorem spec_inj {key iv ad p p' : List U8} (hk : key.length = 16) (hiv : iv.length = 16) (had : ad.length ≤ 2 ^ 33)
    (hp : (Spec.AEGIS.encrypt key iv ad p).1 = (Spec.AEGIS.encrypt key iv ad p').1) : p = p' := by
  obtain ⟨c1, _, _, s1⟩ := header_spec ⟨quadOf key, ⟨0, 0, 0, 0⟩, ⟨0, 0, 0, 0⟩, ⟨0, 0, 0, 0⟩, ⟨0, 0, 0, 0⟩, ⟨0, 0, 0, 0⟩⟩
    key iv ad hk hiv rfl had
  rw [spec_encrypt s1, spec_encrypt s1] at hp
  simp only [] at hp
  have a := msgRun_swap rndPortable false c1 p
  have b := msgRun_swap rndPortable false c1 p'
  rw [hp, b] at a
  have la := msgRun_length rndPortable false false c1 p
  have lb := msgRun_length rndPortable false false c1 p'
  rw [← a] at hp la
  rw [← xorBytes_xorBytes p _ (Nat.le_of_eq la.symm), hp, xorBytes_xorBytes p' _ (Nat.le_of_eq lb.symm)]

end CT.AEGIS
