import Verif.Props.AESCfb

/-!
# AES cipher feedback mode: the incomplete last block (C140)

SP 800-38A leaves an incomplete last block to the caller; what implementations do is to use the leading bytes of the
encrypted register, and, if the session goes on, to keep the last sixteen bytes of the ciphertext in the register.
-/

namespace CT.Props.AESCfbTail
open CT.AES CT.Props.AES

/-- The last sixteen bytes. -/
def last16 (l : List U8) : List U8 := l.drop (l.length - 16)

/-- Which byte of the encrypted register the code uses for byte `i` of an incomplete block of `t` bytes: the words from the
last to the first, and for a single remaining byte the last byte of its word. -/
def pos (t i : Nat) : Nat := if i < 4 * (t / 4) then 4 * (3 - i / 4) + i % 4 else 4 * (3 - t / 4) + 3

/-- Whole blocks in CFB-128 mode and the incomplete block of `t` bytes with the bytes `at i` of the encrypted register. -/
def cfbWith (position : Nat → Nat) (key iv p : List U8) : List U8 :=
  let c := Spec.AES.cfbEnc key (p.length / 16) iv p
  c ++ (List.range (p.length % 16)).map fun i =>
    p.getD (16 * (p.length / 16) + i) 0 ^^^ (Spec.AES.cipher key (last16 (iv ++ c))).getD (position i) 0

theorem last16_length (l : List U8) (h : 16 ≤ l.length) : (last16 l).length = 16 := by
  rw [last16, List.length_drop]; omega

theorem last16_append (a b : List U8) (h : 16 ≤ b.length) : last16 (a ++ b) = last16 b := by
  rw [last16, last16, List.length_append, List.drop_append, List.drop_of_length_le (by omega), List.nil_append]
  congr 1
  omega

theorem last16_short (a b : List U8) (ha : 16 ≤ a.length) (hb : b.length ≤ 16) :
    last16 (a ++ b) = (last16 a).drop b.length ++ b := by
  rw [last16, last16, List.length_append, List.drop_append_of_le_length (by omega), List.drop_drop]
  congr 2
  omega

/-! ### The state after the whole blocks -/

theorem blocks_state (v : CfbVariant) (m : Nat) : ∀ (prev : List U8) (rk : List U32) (msg : List U8), prev.length = 16 → 16 * m ≤ msg.length →
    (cfbBlocks v true m ⟨quadOf prev, rk⟩ msg).2 =
      ⟨quadOf (last16 (prev ++ xorBytes (msg.take (16 * m)) (cfbBlocks v true m ⟨quadOf prev, rk⟩ msg).1)), rk⟩ := by
  induction m with
  | zero =>
    intro prev rk msg hp _
    have : last16 (prev ++ xorBytes (msg.take (16 * 0)) []) = prev := by
      rw [Nat.mul_zero, List.take_zero, last16]
      simp [hp, xorBytes]
    simp only [cfbBlocks, this]
  | succ m ih =>
    intro prev rk msg hp hl
    have hq : (v.enc rk (quadOf prev)).bytes.length = 16 := rfl
    have hc : (xorBytes (msg.take 16) (v.enc rk (quadOf prev)).bytes).length = 16 := by
      rw [xorBytes_length, hq, List.length_take]; omega
    have hbl := cfbBlocks_length v true m ⟨quadOf (xorBytes (msg.take 16) (v.enc rk (quadOf prev)).bytes), rk⟩ (msg.drop 16)
    simp only [cfbBlocks, fed, if_true]
    rw [ih _ rk (msg.drop 16) hc (by simp; omega), show 16 * (m + 1) = 16 + 16 * m by omega, List.take_add,
      xorBytes_append (by rw [hq, List.length_take]; omega), ← List.append_assoc prev]
    generalize xorBytes (msg.take 16) (v.enc rk (quadOf prev)).bytes = c at hc ⊢
    rw [List.append_assoc prev, last16_append prev _ (by rw [List.length_append]; omega)]

theorem tail_bytes (q : Quad) (t : Nat) (ht : t < 16) (h4 : t % 4 ≤ 1) :
    tailKs (down q) t = (List.range t).map fun i => q.bytes.getD (pos t i) 0 := by
  have : t = 0 ∨ t = 1 ∨ t = 4 ∨ t = 5 ∨ t = 8 ∨ t = 9 ∨ t = 12 ∨ t = 13 := by omega
  rcases this with rfl | rfl | rfl | rfl | rfl | rfl | rfl | rfl <;> rfl

theorem xorBytes_map (a b : List U8) (h : a.length = b.length) :
    xorBytes a b = (List.range a.length).map fun i => a.getD i 0 ^^^ b.getD i 0 := by
  apply List.ext_getElem
  · rw [xorBytes_length, List.length_map, List.length_range]; omega
  · intro i h1 h2
    rw [xorBytes_length] at h1
    simp only [xorBytes, List.getElem_zipWith, List.getElem_map, List.getElem_range, List.getD_eq_getElem?_getD,
      List.getElem?_eq_getElem (show i < a.length by omega), List.getElem?_eq_getElem (show i < b.length by omega), Option.getD_some]

theorem range_map_getD {α : Type} (f : Nat → α) (d : α) (t i : Nat) (h : i < t) : ((List.range t).map f).getD i d = f i := by
  rw [List.getD_eq_getElem?_getD, List.getElem?_map, List.getElem?_range h]; rfl

/-- C140, exactly: the first packet of a session, in every build, is CFB-128 on the whole blocks, and the remaining bytes are
encrypted with the bytes `pos` of the encrypted register. -/
theorem aes_cfb_tail_exact (v : CfbVariant) (hv : v ∈ builds) (key iv : List U8) (hiv : iv.length = 16) (p : List U8)
    (h4 : p.length % 4 ≤ 1) :
    ∃ cs', enc v (cfbInit key iv) (separate p) p.length = .ok (cs', ⟨p, cfbWith (pos (p.length % 16)) key iv p, false⟩) := by
  have he : v.enc = portable.enc := builds_enc hv (by simp [builds])
  refine ⟨(cfbRun v true (cfbInit key iv) p).2, ?_⟩
  have h := cfb_single v false (cfbInit key iv) p h4
  rw [Bool.not_false] at h
  rw [enc, separate, h, Res.ok_inj, Prod.mk.injEq, Io.mk.injEq]
  refine ⟨rfl, rfl, ?_, rfl⟩
  have hbl := cfbBlocks_length portable true (p.length / 16) (cfbInit key iv) p
  have hbs := blocks_state portable (p.length / 16) iv (keyExpansion key) p hiv (by omega)
  have hsp := cfbBlocks_enc_spec key (p.length / 16) iv p hiv (by omega)
  have hci : cfbInit key iv = ⟨quadOf iv, keyExpansion key⟩ := rfl
  rw [hsp] at hbs
  rw [hci] at hbl ⊢
  have e : p = p.take (16 * (p.length / 16)) ++ p.drop (16 * (p.length / 16)) := (List.take_append_drop _ _).symm
  have hdl : (p.drop (16 * (p.length / 16))).length = p.length % 16 := by rw [List.length_drop]; omega
  simp only [cfbRun, cfbWith]
  rw [cfbBlocks_variant he, hbs]
  conv => lhs; arg 1; rw [e]
  rw [xorBytes_append (by rw [hbl, List.length_take]; omega), hsp]
  congr 1
  generalize hcc : Spec.AES.cfbEnc key (p.length / 16) iv p = c
  have hq : (v.enc (keyExpansion key) (quadOf (last16 (iv ++ c)))).bytes = Spec.AES.cipher key (last16 (iv ++ c)) := by
    have := encrypt_eq key (quadOf (last16 (iv ++ c)))
    rw [quadOf_bytes (last16_length _ (by rw [List.length_append]; omega))] at this
    rw [he]
    exact this
  have ht : (cfbTail v true ⟨quadOf (last16 (iv ++ c)), keyExpansion key⟩ (p.drop (16 * (p.length / 16)))).1 =
      (List.range (p.length % 16)).map fun i => (Spec.AES.cipher key (last16 (iv ++ c))).getD (pos (p.length % 16) i) 0 := by
    rw [cfbTail, hdl]
    by_cases h0 : p.length % 16 = 0
    · rw [if_pos h0, h0]; rfl
    · rw [if_neg h0]
      dsimp only [cfbEncrypt]
      rw [tail_bytes _ _ (by omega) (by omega), hq]
  rw [ht, xorBytes_map _ _ (by rw [hdl, List.length_map, List.length_range]), hdl]
  apply List.map_congr_left
  intro i hi
  rw [List.mem_range] at hi
  rw [range_map_getD _ _ _ _ hi, List.getD_eq_getElem?_getD, List.getElem?_drop, List.getD_eq_getElem?_getD]
  rfl

example := aes_cfb_tail_exact x86 (by simp [builds]) (List.replicate 16 1) (List.replicate 16 2) (by simp) (List.replicate 41 3) (by simp)

/-- C140, first part: the packet is what other implementations of CFB-128 give exactly if the bytes used coincide with the
leading ones. -/
theorem aes_cfb_tail_standard_iff (v : CfbVariant) (hv : v ∈ builds) (key iv : List U8) (hiv : iv.length = 16) (p : List U8)
    (h4 : p.length % 4 ≤ 1) :
    (∃ cs', enc v (cfbInit key iv) (separate p) p.length = .ok (cs', ⟨p, cfbWith id key iv p, false⟩)) ↔
      ∀ i, i < p.length % 16 →
        (Spec.AES.cipher key (last16 (iv ++ Spec.AES.cfbEnc key (p.length / 16) iv p))).getD (pos (p.length % 16) i) 0 =
        (Spec.AES.cipher key (last16 (iv ++ Spec.AES.cfbEnc key (p.length / 16) iv p))).getD i 0 := by
  obtain ⟨cs', h⟩ := aes_cfb_tail_exact v hv key iv hiv p h4
  constructor
  · intro ⟨cs'', h'⟩ i hi
    rw [h, Res.ok_inj, Prod.mk.injEq, Io.mk.injEq] at h'
    have e := List.append_cancel_left h'.2.2.1
    have e' := congrArg (fun l => l.getD i 0) e
    rw [range_map_getD _ _ _ _ hi, range_map_getD _ _ _ _ hi] at e'
    exact (BitVec.xor_right_inj _).mp e'
  · intro hall
    refine ⟨cs', ?_⟩
    rw [h]
    congr 3
    rw [cfbWith, cfbWith]
    congr 1
    apply List.map_congr_left
    intro i hi
    rw [List.mem_range] at hi
    rw [hall i hi]
    rfl

example := aes_cfb_tail_standard_iff portable (by simp [builds]) (List.replicate 16 1) (List.replicate 16 2) (by simp) (List.replicate 41 3) (by simp)

set_option maxRecDepth 10000 in
/-- AES-128 of the zero block under the zero key, used for one byte: 0x2e, the last byte, instead of 0x66, the first. -/
theorem aes_cfb_tail_refuted : ¬ ∀ (key iv p : List U8), key.length = 16 → iv.length = 16 → p.length % 4 ≤ 1 →
    ∃ cs', enc portable (cfbInit key iv) (separate p) p.length = .ok (cs', ⟨p, cfbWith id key iv p, false⟩) := by
  intro h
  have h1 := (aes_cfb_tail_standard_iff portable (by simp [builds]) (List.replicate 16 0) (List.replicate 16 0) (by decide) [0]
    (by decide)).mp (h (List.replicate 16 0) (List.replicate 16 0) [0] (by decide) (by decide) (by decide)) 0 (by decide)
  have hz : last16 (List.replicate 16 0 ++ Spec.AES.cfbEnc (List.replicate 16 0) (([0] : List U8).length / 16) (List.replicate 16 0) [0]) =
      List.replicate 16 0 := rfl
  have hq := encrypt_eq (List.replicate 16 0) (quadOf (List.replicate 16 0))
  rw [quadOf_bytes (by decide)] at hq
  rw [hz, ← hq] at h1
  exact absurd h1 (by decide +kernel)

/-! ### The register -/

/-- The register from which the incomplete block of `t` bytes is shifted: in the portable and in the ARM build the encrypted
register, not the register. -/
def before (v : CfbVariant) (rk : List U32) (r : List U8) : List U8 :=
  if v.writeBack then (v.enc rk (quadOf r)).bytes else r

theorem run_state (v : CfbVariant) (cs : State) (p : List U8) (h0 : p.length % 16 ≠ 0) :
    ∃ r ks, r = last16 (cs.reg.bytes ++ (xorBytes p (cfbRun v true cs p).1).take (16 * (p.length / 16))) ∧
      ks = tailKs (down (v.enc cs.rk (quadOf r))) (p.length % 16) ∧
      (xorBytes p (cfbRun v true cs p).1).drop (16 * (p.length / 16)) = xorBytes (p.drop (16 * (p.length / 16))) ks ∧
      (cfbRun v true cs p).2.reg = partUpd (quadOf (before v cs.rk r)) (xorBytes (p.drop (16 * (p.length / 16))) ks) := by
  obtain ⟨reg, rk⟩ := cs
  have hbl := cfbBlocks_length v true (p.length / 16) ⟨reg, rk⟩ p
  have hbs := blocks_state v (p.length / 16) reg.bytes rk p reg.bytes_length (by omega)
  rw [quadOf_of_bytes] at hbs
  have e : p = p.take (16 * (p.length / 16)) ++ p.drop (16 * (p.length / 16)) := (List.take_append_drop _ _).symm
  have hdl : (p.drop (16 * (p.length / 16))).length = p.length % 16 := by rw [List.length_drop]; omega
  have hx : xorBytes p (cfbRun v true ⟨reg, rk⟩ p).1 = xorBytes (p.take (16 * (p.length / 16))) (cfbBlocks v true (p.length / 16) ⟨reg, rk⟩ p).1 ++
      xorBytes (p.drop (16 * (p.length / 16))) (cfbTail v true (cfbBlocks v true (p.length / 16) ⟨reg, rk⟩ p).2 (p.drop (16 * (p.length / 16)))).1 := by
    conv => lhs; arg 1; rw [e]
    rw [cfbRun, xorBytes_append (by rw [hbl, List.length_take]; omega)]
  have hxl : (xorBytes (p.take (16 * (p.length / 16))) (cfbBlocks v true (p.length / 16) ⟨reg, rk⟩ p).1).length = 16 * (p.length / 16) := by
    rw [xorBytes_length, hbl, List.length_take]; omega
  rw [hx, List.take_left' hxl, List.drop_left' hxl]
  refine ⟨_, _, rfl, rfl, ?_, ?_⟩
  · rw [cfbTail, hdl, if_neg h0, hbs]
    rfl
  · rw [cfbRun]
    dsimp only
    rw [cfbTail, hdl, if_neg h0, hbs]
    dsimp only [cfbEncrypt, fed]
    rw [if_pos rfl]
    cases hw : v.writeBack
    · rw [if_neg (by decide), before, if_neg (by rw [hw]; decide)]
    · rw [if_pos rfl, before, if_pos hw, quadOf_of_bytes]

theorem run_rk (v : CfbVariant) (cs : State) (p : List U8) : (cfbRun v true cs p).2.rk = cs.rk := by
  have h (m : Nat) : ∀ (cs : State) (p : List U8), (cfbBlocks v true m cs p).2.rk = cs.rk := by
    induction m with
    | zero => intro cs p; rfl
    | succ m ih => intro cs p; rw [cfbBlocks]; exact ih _ _
  rw [cfbRun]
  dsimp only
  rw [cfbTail]
  split
  · exact h _ _ _
  · dsimp only [cfbEncrypt]
    split
    · exact h _ _ _
    · exact h _ _ _

theorem list4 (l : List U8) (h : l.length = 4) : ∃ a b c d, l = [a, b, c, d] := by
  match l, h with
  | [a, b, c, d], _ => exact ⟨a, b, c, d, rfl⟩

theorem le32_bytes (a b c d : U8) : bytesLE32 (le32 a b c d) = [a, b, c, d] := by
  obtain ⟨k0, k1, k2, k3⟩ := byteN_le32 a b c d
  rw [bytesLE32, k0, k1, k2, k3]

theorem part4 (r : List U8) (hr : r.length = 16) (c : List U8) (hc : c.length = 4) :
    (partUpd (quadOf r) c).bytes = r.drop 4 ++ c := by
  obtain ⟨c0, c1, c2, c3, rfl⟩ := list4 c hc
  have e := quadOf_bytes hr
  generalize quadOf r = q at e ⊢
  rw [← e]
  have h : partUpd q [c0, c1, c2, c3] = ⟨q.w1, q.w2, q.w3, le32 c0 c1 c2 c3⟩ := by simp [partUpd, partialStateUpdate]
  rw [h]
  have hq (a b c d : U32) : Quad.bytes ⟨a, b, c, d⟩ = bytesLE32 a ++ (bytesLE32 b ++ (bytesLE32 c ++ bytesLE32 d)) := rfl
  obtain ⟨w0, w1, w2, w3⟩ := q
  rw [hq, hq, le32_bytes, List.drop_left' (l₁ := bytesLE32 w0) (i := 4) rfl]
  simp only [List.append_assoc]

/-- C140, second part, what holds: in the x86 build, after packets of whole blocks or with an incomplete block of four bytes,
the register holds the last sixteen bytes of the register and the ciphertext.  Missing from the full statement: the other
sizes, and the incomplete block of four bytes in the other builds; see the two theorems below. -/
theorem aes_cfb_carry_partial (cs : State) (p : List U8) (h : p.length % 16 = 0 ∨ p.length % 16 = 4) :
    ∃ cs' c, enc x86 cs (separate p) p.length = .ok (cs', ⟨p, c, false⟩) ∧ cs'.reg.bytes = last16 (cs.reg.bytes ++ c) ∧ cs'.rk = cs.rk := by
  have hs := cfb_single x86 false cs p (by omega)
  rw [Bool.not_false] at hs
  refine ⟨_, _, hs, ?_, run_rk x86 cs p⟩
  by_cases h0 : p.length % 16 = 0
  · have := blocks_state x86 (p.length / 16) cs.reg.bytes cs.rk p cs.reg.bytes_length (by omega)
    rw [quadOf_of_bytes] at this
    rw [cfbRun_whole x86 true cs p h0, this, List.take_of_length_le (by omega), quadOf_bytes]
    exact last16_length _ (by rw [List.length_append, cs.reg.bytes_length]; omega)
  · have h4 : p.length % 16 = 4 := by omega
    obtain ⟨r, ks, hr, hk, hd, hreg⟩ := run_state x86 cs p h0
    have hrl : r.length = 16 := by rw [hr]; exact last16_length _ (by rw [List.length_append, cs.reg.bytes_length]; omega)
    have hkl : ks.length = 4 := by rw [hk, h4]; exact tailKs_length _ _ (by decide) (by decide) rfl
    have hbef : before x86 cs.rk r = r := if_neg (by decide)
    rw [hreg, hbef]
    have hdl : (xorBytes (p.drop (16 * (p.length / 16))) ks).length = 4 := by
      rw [xorBytes_length, hkl, List.length_drop]; omega
    rw [← List.take_append_drop (16 * (p.length / 16)) (xorBytes p (cfbRun x86 true cs p).1), ← List.append_assoc, hd,
      last16_short _ _ (by rw [List.length_append, cs.reg.bytes_length]; omega) (by omega), ← hr, hdl]
    exact part4 r hrl _ hdl

example := aes_cfb_carry_partial ⟨⟨1, 2, 3, 4⟩, keyExpansion (List.replicate 16 7)⟩ (List.replicate 36 1) (by simp)

/-- The other builds after an incomplete block of four bytes: twelve bytes of keystream are in front of the four bytes of
ciphertext, so the register is right exactly if they coincide with the last twelve bytes before. -/
theorem aes_cfb_carry_portable (v : CfbVariant) (hv : v = portable ∨ v = arm) (cs : State) (p : List U8) (h : p.length % 16 = 4) :
    ∃ cs' c r, enc v cs (separate p) p.length = .ok (cs', ⟨p, c, false⟩) ∧ c.length = p.length ∧
      r = last16 (cs.reg.bytes ++ c.take (p.length - 4)) ∧
      cs'.reg.bytes = (v.enc cs.rk (quadOf r)).bytes.drop 4 ++ c.drop (p.length - 4) ∧
      (cs'.reg.bytes = last16 (cs.reg.bytes ++ c) ↔ (v.enc cs.rk (quadOf r)).bytes.drop 4 = r.drop 4) := by
  have hs := cfb_single v false cs p (by omega)
  rw [Bool.not_false] at hs
  obtain ⟨r, ks, hr, hk, hd, hreg⟩ := run_state v cs p (by omega)
  have em : p.length - 4 = 16 * (p.length / 16) := by omega
  have hrl : r.length = 16 := by rw [hr]; exact last16_length _ (by rw [List.length_append, cs.reg.bytes_length]; omega)
  have hkl : ks.length = 4 := by rw [hk, h]; exact tailKs_length _ _ (by decide) (by decide) rfl
  have hbef : before v cs.rk r = (v.enc cs.rk (quadOf r)).bytes := if_pos (by rcases hv with rfl | rfl <;> rfl)
  have hdl : (xorBytes (p.drop (16 * (p.length / 16))) ks).length = 4 := by
    rw [xorBytes_length, hkl, List.length_drop]; omega
  have hb : (cfbRun v true cs p).2.reg.bytes = (v.enc cs.rk (quadOf r)).bytes.drop 4 ++
      (xorBytes p (cfbRun v true cs p).1).drop (16 * (p.length / 16)) := by
    rw [hreg, hbef, hd]
    exact part4 _ rfl _ hdl
  refine ⟨_, _, r, hs, enc_length v cs p (by omega), by rw [em]; exact hr, by rw [em]; exact hb, ?_⟩
  rw [hb]
  have hl : last16 (cs.reg.bytes ++ xorBytes p (cfbRun v true cs p).1) = r.drop 4 ++
      (xorBytes p (cfbRun v true cs p).1).drop (16 * (p.length / 16)) := by
    conv => lhs; rw [← List.take_append_drop (16 * (p.length / 16)) (xorBytes p (cfbRun v true cs p).1), ← List.append_assoc, hd,
      last16_short _ _ (by rw [List.length_append, cs.reg.bytes_length]; omega) (by omega), ← hr, hdl]
    rw [hd]
  rw [hl]
  exact ⟨fun h => List.append_cancel_right h, fun h => by rw [h]⟩

example := aes_cfb_carry_portable portable (Or.inl rfl) ⟨⟨1, 2, 3, 4⟩, keyExpansion (List.replicate 16 7)⟩ (List.replicate 36 1) (by simp)

/-! ### The other sizes -/

theorem one_top (w : U32) (x : U8) : byteN ((w <<< 8) ^^^ x.setWidth 32) 3 = byteN w 2 := by
  apply BitVec.eq_of_getLsbD_eq
  intro i hi
  have h1 : 24 + i < 32 := by omega
  have h2 : ¬ 24 + i < 8 := by omega
  simp only [byteN, BitVec.getLsbD_extractLsb', BitVec.getLsbD_xor, BitVec.getLsbD_shiftLeft, BitVec.getLsbD_setWidth, Nat.reduceMul, h1, h2, hi]
  rw [BitVec.getLsbD_of_ge x _ (by omega), show 24 + i - 8 = 16 + i by omega]
  simp

theorem flip_ne (x : U8) : x ^^^ 1 ≠ x := by
  intro h
  have := congrArg (fun y => x ^^^ y) h
  simp [← BitVec.xor_assoc] at this

/-- An incomplete block for which the register comes out wrong, whatever was in it. -/
theorem part_wrong (t : Nat) (ht : t < 16) (h4 : t % 4 ≤ 1) (h0 : t ≠ 0) (h4' : t ≠ 4) (q : Quad) (r : List U8) (hr : r.length = 16) :
    ∃ d : List U8, d.length = t ∧ (partUpd q d).bytes ≠ r.drop t ++ d := by
  have key (d : List U8) (j : Nat) (hj : j < t) (hd : d.length = t) (hne : (partUpd q d).bytes.getD (16 - t + j) 0 ≠ d.getD j 0) :
      (partUpd q d).bytes ≠ r.drop t ++ d := by
    intro h
    apply hne
    rw [h, List.getD_eq_getElem?_getD, List.getElem?_append_right (by rw [List.length_drop]; omega), List.length_drop, hr,
      Nat.add_sub_cancel_left, List.getD_eq_getElem?_getD]
  have hq (a b c d : U32) : Quad.bytes ⟨a, b, c, d⟩ = [byteN a 0, byteN a 1, byteN a 2, byteN a 3, byteN b 0, byteN b 1, byteN b 2, byteN b 3,
    byteN c 0, byteN c 1, byteN c 2, byteN c 3, byteN d 0, byteN d 1, byteN d 2, byteN d 3] := rfl
  have hf : byteN q.w3 2 ≠ byteN q.w3 2 ^^^ 1 := fun h => flip_ne _ h.symm
  have : t = 1 ∨ t = 5 ∨ t = 8 ∨ t = 9 ∨ t = 12 ∨ t = 13 := by omega
  rcases this with rfl | rfl | rfl | rfl | rfl | rfl
  · refine ⟨[byteN q.w3 2 ^^^ 1], rfl, key _ 0 (by omega) rfl ?_⟩
    have e : partUpd q [byteN q.w3 2 ^^^ 1] = ⟨(q.w0 <<< 8) ^^^ (q.w1 >>> 24), (q.w1 <<< 8) ^^^ (q.w2 >>> 24), (q.w2 <<< 8) ^^^ (q.w3 >>> 24),
      (q.w3 <<< 8) ^^^ (byteN q.w3 2 ^^^ 1).setWidth 32⟩ := by simp [partUpd, partialStateUpdate]
    rw [e, hq]
    change byteN ((q.w3 <<< 8) ^^^ (byteN q.w3 2 ^^^ 1).setWidth 32) 3 ≠ byteN q.w3 2 ^^^ 1
    rw [one_top]
    exact hf
  · refine ⟨[byteN q.w3 2 ^^^ 1, 0, 0, 0, 0], rfl, key _ 0 (by omega) rfl ?_⟩
    have e : partUpd q [byteN q.w3 2 ^^^ 1, 0, 0, 0, 0] = ⟨(q.w1 <<< 8) ^^^ (q.w2 >>> 24), (q.w2 <<< 8) ^^^ (q.w3 >>> 24),
      (q.w3 <<< 8) ^^^ (byteN q.w3 2 ^^^ 1).setWidth 32, le32 0 0 0 0⟩ := by simp [partUpd, partialStateUpdate]
    rw [e, hq]
    change byteN ((q.w3 <<< 8) ^^^ (byteN q.w3 2 ^^^ 1).setWidth 32) 3 ≠ byteN q.w3 2 ^^^ 1
    rw [one_top]
    exact hf
  · refine ⟨[0, 0, 0, 0, 1, 0, 0, 0], rfl, key _ 4 (by omega) rfl ?_⟩
    have e : partUpd q [0, 0, 0, 0, 1, 0, 0, 0] = ⟨q.w2, q.w3, le32 0 0 0 0, le32 0 0 0 1⟩ := by simp [partUpd, partialStateUpdate]
    rw [e, hq]
    change byteN (le32 0 0 0 1) 0 ≠ (1 : U8)
    decide
  · refine ⟨[byteN q.w3 2 ^^^ 1, 0, 0, 0, 0, 0, 0, 0, 0], rfl, key _ 0 (by omega) rfl ?_⟩
    have e : partUpd q [byteN q.w3 2 ^^^ 1, 0, 0, 0, 0, 0, 0, 0, 0] = ⟨(q.w2 <<< 8) ^^^ (q.w3 >>> 24),
      (q.w3 <<< 8) ^^^ (byteN q.w3 2 ^^^ 1).setWidth 32, le32 0 0 0 0, le32 0 0 0 0⟩ := by simp [partUpd, partialStateUpdate]
    rw [e, hq]
    change byteN ((q.w3 <<< 8) ^^^ (byteN q.w3 2 ^^^ 1).setWidth 32) 3 ≠ byteN q.w3 2 ^^^ 1
    rw [one_top]
    exact hf
  · refine ⟨[0, 0, 0, 0, 1, 0, 0, 0, 0, 0, 0, 0], rfl, key _ 4 (by omega) rfl ?_⟩
    have e : partUpd q [0, 0, 0, 0, 1, 0, 0, 0, 0, 0, 0, 0] = ⟨q.w3, le32 0 0 0 0, le32 0 0 0 1, le32 0 0 1 0⟩ := by simp [partUpd, partialStateUpdate]
    rw [e, hq]
    change byteN (le32 0 0 0 1) 0 ≠ (1 : U8)
    decide
  · refine ⟨[byteN q.w3 2 ^^^ 1, 0, 0, 0, 0, 0, 0, 0, 0, 0, 0, 0, 0], rfl, key _ 0 (by omega) rfl ?_⟩
    have e : partUpd q [byteN q.w3 2 ^^^ 1, 0, 0, 0, 0, 0, 0, 0, 0, 0, 0, 0, 0] =
      ⟨(q.w3 <<< 8) ^^^ (byteN q.w3 2 ^^^ 1).setWidth 32, le32 0 0 0 0, le32 0 0 0 0, le32 0 0 0 0⟩ := by simp [partUpd, partialStateUpdate]
    rw [e, hq]
    change byteN ((q.w3 <<< 8) ^^^ (byteN q.w3 2 ^^^ 1).setWidth 32) 3 ≠ byteN q.w3 2 ^^^ 1
    rw [one_top]
    exact hf

theorem run_take (v : CfbVariant) (cs : State) (p : List U8) : (xorBytes p (cfbRun v true cs p).1).take (16 * (p.length / 16)) =
    xorBytes (p.take (16 * (p.length / 16))) (cfbBlocks v true (p.length / 16) cs p).1 := by
  have hbl := cfbBlocks_length v true (p.length / 16) cs p
  have e : p = p.take (16 * (p.length / 16)) ++ p.drop (16 * (p.length / 16)) := (List.take_append_drop _ _).symm
  have hx : xorBytes p (cfbRun v true cs p).1 = xorBytes (p.take (16 * (p.length / 16))) (cfbBlocks v true (p.length / 16) cs p).1 ++
      xorBytes (p.drop (16 * (p.length / 16))) (cfbTail v true (cfbBlocks v true (p.length / 16) cs p).2 (p.drop (16 * (p.length / 16)))).1 := by
    conv => lhs; arg 1; rw [e]
    rw [cfbRun, xorBytes_append (by rw [hbl, List.length_take]; omega)]
  rw [hx, List.take_left' (by rw [xorBytes_length, hbl, List.length_take]; omega)]

/-- C140, second part, is false for every other size, in every build and from every state: for some packet of that size the
register afterwards is not the last sixteen bytes of the ciphertext. -/
theorem aes_cfb_carry_refuted (v : CfbVariant) (cs : State) (n : Nat) (h4 : n % 4 ≤ 1) (h0 : n % 16 ≠ 0) (h4' : n % 16 ≠ 4) :
    ∃ p cs' c, p.length = n ∧ enc v cs (separate p) n = .ok (cs', ⟨p, c, false⟩) ∧ cs'.reg.bytes ≠ last16 (cs.reg.bytes ++ c) := by
  generalize hp0 : List.replicate (16 * (n / 16)) (0 : U8) = p0
  have hl0 : p0.length = 16 * (n / 16) := by rw [← hp0, List.length_replicate]
  generalize hr0 : last16 (cs.reg.bytes ++ xorBytes p0 (cfbBlocks v true (n / 16) cs p0).1) = r0
  have hrl : r0.length = 16 := by rw [← hr0]; exact last16_length _ (by rw [List.length_append, cs.reg.bytes_length]; omega)
  generalize hk0 : tailKs (down (v.enc cs.rk (quadOf r0))) (n % 16) = k0
  have hkl : k0.length = n % 16 := by rw [← hk0]; exact tailKs_length _ _ (by omega) (by omega) rfl
  obtain ⟨d, hd, hw⟩ := part_wrong (n % 16) (by omega) (by omega) h0 h4' (quadOf (before v cs.rk r0)) r0 hrl
  have hul : (xorBytes d k0).length = n % 16 := by rw [xorBytes_length]; omega
  have hpl : (p0 ++ xorBytes d k0).length = n := by rw [List.length_append]; omega
  have hpt : (p0 ++ xorBytes d k0).take (16 * (n / 16)) = p0 := List.take_left' hl0
  have hpd : (p0 ++ xorBytes d k0).drop (16 * (n / 16)) = xorBytes d k0 := List.drop_left' hl0
  generalize p0 ++ xorBytes d k0 = p at hpl hpt hpd
  have hs := cfb_single v false cs p (by omega)
  rw [Bool.not_false] at hs
  obtain ⟨r, ks, hr, hk, hdd, hreg⟩ := run_state v cs p (by omega)
  have hrt := run_take v cs p
  rw [hpl, hpt, cfbBlocks_congr v true (n / 16) cs p p0 (by rw [hpt, List.take_of_length_le (by omega)])] at hrt
  rw [hpl] at hr hk hdd hreg
  rw [hrt, hr0] at hr
  subst hr
  rw [hk0] at hk
  subst hk
  have hx : xorBytes (xorBytes d ks) ks = d := xorBytes_xorBytes _ _ (by omega)
  rw [hpd, hx] at hreg hdd
  refine ⟨p, (cfbRun v true cs p).2, xorBytes p (cfbRun v true cs p).1, hpl, ?_, ?_⟩
  · rw [hpl] at hs
    rw [enc, separate, hpl]
    exact hs
  · rw [hreg]
    rw [← List.take_append_drop (16 * (n / 16)) (xorBytes p (cfbRun v true cs p).1), ← List.append_assoc, hdd, hrt,
      last16_short _ _ (by rw [List.length_append, cs.reg.bytes_length]; omega) (by omega), hr0, hd]
    exact hw

/-- Instances: sizes for which the register is right, and sizes for which it is not. -/
example : (List.replicate 36 (1 : U8)).length % 16 = 4 ∧ 41 % 4 ≤ 1 ∧ 41 % 16 ≠ 0 ∧ 41 % 16 ≠ 4 ∧ 8 % 16 ≠ 4 := by decide

/-- Five bytes are encrypted with the bytes 12, 13, 14, 15 and 11 of the encrypted register. -/
example : (List.range 5).map (pos 5) = [12, 13, 14, 15, 11] := by decide

end CT.Props.AESCfbTail
