import Verif.Proof.AESCtr
import Mathlib.Data.Finite.Prod
import Mathlib.Data.Fintype.EquivFin

/-!
# AES-128 is a permutation of the blocks
-/

namespace CT.AES
open CT.Spec.AES

/-- Inverse of the S-box. -/
def unsub (b : U8) : U8 := ginv (b.rotateLeft 1 ^^^ b.rotateLeft 3 ^^^ b.rotateLeft 6 ^^^ 0x05)

theorem unsub_sbox : ∀ b : U8, unsub (sbox b) = b := by decide +kernel

theorem sbox_inj {a b : U8} (h : sbox a = sbox b) : a = b := by
  rw [← unsub_sbox a, h, unsub_sbox]

theorem gmul2 : ∀ b : U8, gmul b 2 = xtime b := by decide +kernel
theorem gmul3 : ∀ b : U8, gmul b 3 = xtime b ^^^ b := by decide +kernel

/-- `xtime` without a condition. -/
theorem xtime_eq : ∀ b : U8, xtime b = (b <<< 1) ^^^ (b >>> 7) ^^^ ((b >>> 7) <<< 1) ^^^ ((b >>> 7) <<< 3) ^^^ ((b >>> 7) <<< 4) := by
  decide +kernel

theorem xtime_xor (a b : U8) : xtime (a ^^^ b) = xtime a ^^^ xtime b := by
  rw [xtime_eq, xtime_eq, xtime_eq]
  simp only [BitVec.shiftLeft_xor_distrib, BitVec.ushiftRight_xor_distrib]
  ac_rfl

/-- One column of MixColumns. -/
def mixc (v : Fin 4 → U8) : Fin 4 → U8 := fun r => gmul (v r) 2 ^^^ gmul (v (r + 1)) 3 ^^^ v (r + 2) ^^^ v (r + 3)

theorem mixc_two (v : Fin 4 → U8) (r : Fin 4) :
    mixc (mixc v) r = xtime (xtime (v r)) ^^^ v r ^^^ xtime (xtime (v (r + 2))) := by
  have e3 : r + 1 + 1 = r + 2 := by revert r; decide
  have e4 : r + 1 + 2 = r + 3 := by revert r; decide
  have e5 : r + 1 + 3 = r := by revert r; decide
  have e6 : r + 2 + 1 = r + 3 := by revert r; decide
  have e7 : r + 2 + 2 = r := by revert r; decide
  have e8 : r + 2 + 3 = r + 1 := by revert r; decide
  have e9 : r + 3 + 1 = r := by revert r; decide
  have e10 : r + 3 + 2 = r + 1 := by revert r; decide
  have e11 : r + 3 + 3 = r + 2 := by revert r; decide
  simp only [mixc, gmul2, gmul3, xtime_xor, e3, e4, e5, e6, e7, e8, e9, e10, e11]
  generalize v r = a, v (r + 1) = b, v (r + 2) = c, v (r + 3) = d
  generalize xtime (xtime a) = aa, xtime (xtime b) = bb, xtime (xtime c) = cc, xtime (xtime d) = dd
  generalize xtime a = a', xtime b = b', xtime c = c', xtime d = d'
  apply BitVec.eq_of_getLsbD_eq
  intro i hi
  simp only [BitVec.getLsbD_xor]
  generalize a.getLsbD i = x0, b.getLsbD i = x1, c.getLsbD i = x2, d.getLsbD i = x3
  generalize a'.getLsbD i = y0, b'.getLsbD i = y1, c'.getLsbD i = y2, d'.getLsbD i = y3
  generalize aa.getLsbD i = z0, bb.getLsbD i = z1, cc.getLsbD i = z2, dd.getLsbD i = z3
  revert x0 x1 x2 x3 y0 y1 y2 y3 z0 z1 z2 z3
  decide +kernel

theorem mixc_four (v : Fin 4 → U8) : mixc (mixc (mixc (mixc v))) = v := by
  funext r
  have e7 : r + 2 + 2 = r := by revert r; decide
  rw [mixc_two, mixc_two, mixc_two]
  simp only [xtime_xor, e7]
  generalize v r = a, v (r + 2) = c
  generalize xtime (xtime (xtime (xtime a))) = a4, xtime (xtime (xtime (xtime c))) = c4
  generalize xtime (xtime a) = aa, xtime (xtime c) = cc
  apply BitVec.eq_of_getLsbD_eq
  intro i hi
  simp only [BitVec.getLsbD_xor]
  generalize a.getLsbD i = x0, c.getLsbD i = x2
  generalize aa.getLsbD i = y0, cc.getLsbD i = y2
  generalize a4.getLsbD i = z0, c4.getLsbD i = z2
  revert x0 x2 y0 y2 z0 z2
  decide +kernel

theorem mixColumns_inj {s t : Spec.AES.State} (h : mixColumns s = mixColumns t) : s = t := by
  have hc : ∀ c, mixc (fun r => s r c) = mixc (fun r => t r c) := fun c =>
    funext fun r => congrFun (congrFun h r) c
  funext r c
  have := congrArg (fun v => mixc (mixc (mixc v))) (hc c)
  simp only [mixc_four] at this
  exact congrFun this r

theorem subBytes_inj {s t : Spec.AES.State} (h : subBytes s = subBytes t) : s = t := by
  funext r c
  exact sbox_inj (congrFun (congrFun h r) c)

theorem shiftRows_inj {s t : Spec.AES.State} (h : shiftRows s = shiftRows t) : s = t := by
  funext r c
  have := congrFun (congrFun h r) (c - r)
  have e : c - r + r = c := by clear this; revert r c; decide
  simpa only [shiftRows, e] using this

theorem addRoundKey_inj {s t k : Spec.AES.State} (h : addRoundKey s k = addRoundKey t k) : s = t := by
  funext r c
  have := congrFun (congrFun h r) c
  simp only [addRoundKey] at this
  have h2 := congrArg (· ^^^ k r c) this
  simpa only [BitVec.xor_assoc, BitVec.xor_self, BitVec.xor_zero] using h2

theorem rounds_inj {key : List U8} (n : Nat) : ∀ {s t : Spec.AES.State}, rounds key n s = rounds key n t → s = t := by
  induction n with
  | zero => intro s t h; exact h
  | succ n ih =>
    intro s t h
    simp only [rounds] at h
    exact ih (subBytes_inj (shiftRows_inj (mixColumns_inj (addRoundKey_inj h))))

theorem round_inj {s t k : Quad} (h : round s k = round t k) : s = t := by
  have h := congrArg toState h
  rw [round_state, round_state] at h
  exact toState_inj (subBytes_inj (shiftRows_inj (mixColumns_inj (addRoundKey_inj h))))

theorem finalRound_inj {s t k : Quad} (h : finalRound s k = finalRound t k) : s = t := by
  have h := congrArg toState h
  rw [finalRound_state, finalRound_state] at h
  exact toState_inj (subBytes_inj (shiftRows_inj (addRoundKey_inj h)))

theorem initialRound_inj {s t k : Quad} (h : initialRound s k = initialRound t k) : s = t := by
  have h := congrArg toState h
  rw [initialRound_state, initialRound_state] at h
  exact toState_inj (addRoundKey_inj h)

theorem encrypt_inj (reduced : Bool) (rk : List U32) {s t : Quad} (h : encrypt reduced rk s = encrypt reduced rk t) :
    s = t := by
  unfold encrypt at h
  cases reduced with
  | true =>
    simp only [if_true] at h
    exact initialRound_inj (round_inj (round_inj (round_inj (round_inj (round_inj (finalRound_inj h))))))
  | false =>
    simp only [Bool.false_eq_true, if_false] at h
    exact initialRound_inj (round_inj (round_inj (round_inj (round_inj (round_inj (round_inj (round_inj (round_inj
      (round_inj (finalRound_inj h))))))))))

instance : Finite U32 := Finite.of_injective (BitVec.toFin : U32 → Fin (2 ^ 32)) fun _ _ h => BitVec.eq_of_toFin_eq h

instance : Finite Quad :=
  Finite.of_injective (fun q : Quad => (q.w0, q.w1, q.w2, q.w3)) fun p q h => by
    obtain ⟨a, b, c, d⟩ := p
    obtain ⟨a', b', c', d'⟩ := q
    simp only [Prod.mk.injEq] at h
    obtain ⟨rfl, rfl, rfl, rfl⟩ := h
    rfl

theorem encrypt_surj (reduced : Bool) (rk : List U32) (t : Quad) : ∃ s, encrypt reduced rk s = t :=
  Finite.surjective_of_injective (fun _ _ h => encrypt_inj reduced rk h) t

theorem cipher_inj {key a b : List U8} (ha : a.length = 16) (hb : b.length = 16) (h : cipher key a = cipher key b) :
    a = b := by
  rw [← quadOf_bytes ha, ← quadOf_bytes hb, ← encrypt_eq, ← encrypt_eq] at h
  rw [← quadOf_bytes ha, ← quadOf_bytes hb, encrypt_inj _ _ (bytes_inj h)]

/-- Packets of whole blocks use the counter stream without gaps. -/
theorem ctrMany_flatten (key nonce : List U8) (ps : List (List U8)) : ∀ (c : Nat), (∀ p ∈ ps, p.length % 16 = 0) →
    (ctrMany key nonce c ps).flatten = xorBytes ps.flatten (ctrStream key nonce c (ps.flatten.length / 16)) := by
  induction ps with
  | nil => intro c _; simp [ctrMany]
  | cons p ps ih =>
    intro c h
    have hp := h p (by simp)
    have hps : ps.flatten.length % 16 = 0 := by
      have : ∀ q ∈ ps, q.length % 16 = 0 := fun q hq => h q (by simp [hq])
      clear ih h
      induction ps with
      | nil => rfl
      | cons q ps ih =>
        have h1 := this q (by simp)
        have h2 := ih (fun x hx => this x (by simp [hx]))
        simp only [List.flatten_cons, List.length_append]
        omega
    rw [ctrMany, List.flatten_cons, List.flatten_cons, ih _ (fun q hq => h q (by simp [hq])), ctr,
      show (p ++ ps.flatten).length / 16 = p.length / 16 + ps.flatten.length / 16 by
        rw [List.length_append]; omega,
      ctrStream_add, xorBytes_append (by rw [ctrStream_length]; omega), show (p.length + 15) / 16 = p.length / 16 by omega]

theorem ctrStream_block (key nonce : List U8) (c m i : Nat) (hi : i < m) :
    ((ctrStream key nonce c m).drop (16 * i)).take 16 = cipher key (nonce ++ ctrField (c + i)) := by
  obtain ⟨k, rfl⟩ : ∃ k, m = i + (k + 1) := ⟨m - i - 1, by omega⟩
  rw [ctrStream_add, List.drop_append, ctrStream_length, Nat.sub_self, List.drop_zero,
    List.drop_eq_nil_of_le (by rw [ctrStream_length]), List.nil_append, ctrStream]
  rfl

/-- Two counter blocks with the same ciphertext have the same counter. -/
theorem ctrBlock_inj {key nonce : List U8} (hn : nonce.length = 12) {a b : Nat}
    (h : cipher key (nonce ++ ctrField a) = cipher key (nonce ++ ctrField b)) : a % 2 ^ 32 = b % 2 ^ 32 := by
  have h := cipher_inj (by rw [List.length_append, hn]; rfl) (by rw [List.length_append, hn]; rfl) h
  rw [← ctrReg_bytes hn, ← ctrReg_bytes hn] at h
  exact ctrReg_inj (bytes_inj h)

end CT.AES
