import Verif.Props.AESCtr
import Verif.Props.AESCfb
import Verif.Model.AESFlags
import Verif.Spec.AESReduced

/-!
# The round-reduced builds of AES (C164)

The readme offers a variant of six rounds.  The portable code then computes six rounds of AES, with
round key 0 and the last six round keys; the builds with intrinsics ignore the flag and compute all
ten, so that two builds with the same flag do not understand each other.
-/

namespace CT.Props.AESReduced
open CT.AES
open CT.Props.AES (enc dec)

/-! ### The flags and the builds without `ROUND_REDUCED` -/

theorem cfbFor_full : cfbFor .none false = portable ∧ cfbFor .x86 false = x86 ∧ cfbFor .arm false = arm := by
  refine ⟨rfl, rfl, rfl⟩

/-! ### The block function -/

/-- C164: with the flag, the portable block function is AES with rounds 1 to 4 left out, for every key
and block. -/
theorem reduced_block (key block : List U8) :
    (encFor .none true (keyExpansion key) (quadOf block)).bytes = Spec.AESReduced.lastSix key block := by
  have k : ∀ i, i ≤ 10 → ∀ j, j = 4 * i → toState (rkAt (keyExpansion key) j) = Spec.AES.roundKey key i := by
    intro i hi j hj; subst hj; exact rk_state key i hi
  have hs : toState (quadOf block) = Spec.AES.ofBytes block := quadOf_state block
  rw [bytes_toState, Spec.AESReduced.lastSix, Spec.AESReduced.cipher, ← hs]
  simp only [encFor, encrypt, if_true, finalRound_state, round_state, initialRound_state,
    k 0 (by omega) 0 rfl, k 5 (by omega) 20 rfl, k 6 (by omega) 24 rfl, k 7 (by omega) 28 rfl, k 8 (by omega) 32 rfl,
    k 9 (by omega) 36 rfl, k 10 (by omega) 40 rfl, Spec.AESReduced.rounds, Nat.reduceAdd, if_false,
    show ∀ n : Nat, n + 1 ≠ 0 from fun n => by omega]

set_option maxRecDepth 10000 in
/-- A non-trivial case: the key and block of FIPS 197, appendix B. -/
example : Props.AES.fipsBlock.length = 16 ∧
    Spec.AESReduced.lastSix Props.AES.fipsKey Props.AES.fipsBlock ≠ Spec.AES.cipher Props.AES.fipsKey Props.AES.fipsBlock := by
  rw [← reduced_block, ← Props.AES.aes_block_fips _ _ (by decide)]
  decide +kernel

set_option maxRecDepth 10000 in
/-- It is not AES broken off after six rounds, the round-reduced AES of the literature: the round
keys are others. -/
theorem reduced_first_six_refuted : ¬ ∀ (key block : List U8), key.length = 16 → block.length = 16 →
    (encFor .none true (keyExpansion key) (quadOf block)).bytes = Spec.AESReduced.firstSix key block := by
  intro h
  exact absurd (h (List.replicate 16 0) (List.replicate 16 0) (by decide) (by decide)) (by decide +kernel)

/-- C164: the builds with intrinsics compute the full cipher, with the flag too. -/
theorem reduced_ignored (isa : Isa) (hi : isa ≠ .none) (reduced : Bool) (key block : List U8) (hb : block.length = 16) :
    (encFor isa reduced (keyExpansion key) (quadOf block)).bytes = Spec.AES.cipher key block := by
  rw [← Props.AES.aes_block_fips key block hb]
  match isa with
  | .none => exact absurd rfl hi
  | .x86 => exact congrArg Quad.bytes (Props.AES.aes_variants_agree _ _).1
  | .arm => exact congrArg Quad.bytes (Props.AES.aes_variants_agree _ _).2

example : Isa.arm ≠ .none ∧ (List.replicate 16 (3 : U8)).length = 16 := by decide

/-! ### Cipher feedback mode -/

section
variable {v : CfbVariant} {rk : List U32} {E : List U8 → List U8}
  (hE : ∀ b : List U8, b.length = 16 → (v.enc rk (quadOf b)).bytes = E b) (hl : ∀ b, (E b).length = 16)
include hE hl

theorem blocks_enc (m : Nat) : ∀ (prev msg : List U8), prev.length = 16 → 16 * m ≤ msg.length →
    xorBytes (msg.take (16 * m)) (cfbBlocks v true m ⟨quadOf prev, rk⟩ msg).1 = Spec.AESReduced.cfbEnc E m prev msg := by
  induction m with
  | zero => intro prev msg _ _; rfl
  | succ m ih =>
    intro prev msg hp hm
    have hc := hl prev
    simp only [cfbBlocks, hE prev hp, Spec.AESReduced.cfbEnc, fed, if_true]
    rw [show 16 * (m + 1) = 16 + 16 * m by omega, List.take_add, xorBytes_append (by simp [hc]; omega),
      ih _ (msg.drop 16) (by simp [hc]; omega) (by simp; omega)]

theorem blocks_dec (m : Nat) : ∀ (prev ct : List U8), prev.length = 16 → 16 * m ≤ ct.length →
    xorBytes (ct.take (16 * m)) (cfbBlocks v false m ⟨quadOf prev, rk⟩ ct).1 = Spec.AESReduced.cfbDec E m prev ct := by
  induction m with
  | zero => intro prev ct _ _; rfl
  | succ m ih =>
    intro prev ct hp hm
    have hc := hl prev
    simp only [cfbBlocks, hE prev hp, Spec.AESReduced.cfbDec, fed, Bool.false_eq_true, if_false]
    rw [show 16 * (m + 1) = 16 + 16 * m by omega, List.take_add, xorBytes_append (by simp [hc]; omega),
      ih _ (ct.drop 16) (by simp; omega) (by simp; omega)]
end

theorem flatten_whole (ps : List (List U8)) (h16 : ∀ p ∈ ps, p.length % 16 = 0) : ps.flatten.length % 16 = 0 := by
  induction ps with
  | nil => rfl
  | cons p ps ih =>
    have := h16 p (by simp)
    have := ih (fun q hq => h16 q (by simp [hq]))
    rw [List.flatten_cons, List.length_append]; omega

/-- C164, the part that holds: with the flag, the portable CFB code encrypts and decrypts packets of
whole blocks in CFB-128 mode over their concatenation, with the six-round block function.  Missing
from the full statement: packets that are not of whole blocks, and the builds with intrinsics, which
do not use that function (`reduced_ignored`). -/
theorem reduced_cfb_partial (key iv : List U8) (hiv : iv.length = 16) (ps : List (List U8))
    (h16 : ∀ p ∈ ps, p.length % 16 = 0) :
    (∃ cs' outs, runAll (enc (cfbFor .none true)) (cfbInit key iv) ps = .ok (cs', outs) ∧
      outs.map List.length = ps.map List.length ∧
      outs.flatten = Spec.AESReduced.cfbEnc (Spec.AESReduced.lastSix key) (ps.flatten.length / 16) iv ps.flatten) ∧
    (∃ cs' outs, runAll (dec (cfbFor .none true)) (cfbInit key iv) ps = .ok (cs', outs) ∧
      outs.map List.length = ps.map List.length ∧
      outs.flatten = Spec.AESReduced.cfbDec (Spec.AESReduced.lastSix key) (ps.flatten.length / 16) iv ps.flatten) := by
  have hlen := flatten_whole ps h16
  have ht : ps.flatten.take (16 * (ps.flatten.length / 16)) = ps.flatten := List.take_of_length_le (by omega)
  have hE := fun (b : List U8) (_ : b.length = 16) => reduced_block key b
  have hl : ∀ b, (Spec.AESReduced.lastSix key b).length = 16 := fun _ => rfl
  constructor
  · obtain ⟨cs', outs, h1, h2, _, h4⟩ := Props.AES.cfb_whole (cfbFor .none true) false ps (cfbInit key iv) h16
    refine ⟨cs', outs, h1, h2, ?_⟩
    rw [h4, ← blocks_enc (v := cfbFor .none true) hE hl _ iv _ hiv (by omega), ht]; rfl
  · obtain ⟨cs', outs, h1, h2, _, h4⟩ := Props.AES.cfb_whole (cfbFor .none true) true ps (cfbInit key iv) h16
    refine ⟨cs', outs, h1, h2, ?_⟩
    rw [h4, ← blocks_dec (v := cfbFor .none true) hE hl _ iv _ hiv (by omega), ht]; rfl

/-- Non-trivial instance. -/
example : (List.replicate 16 (9 : U8)).length = 16 ∧
    ∀ p ∈ [List.replicate 16 (1 : U8), [], List.replicate 48 2], p.length % 16 = 0 := by decide

/-- C164, the part that holds: two parties with the same flags, whatever they are, understand each
other, for packets of sizes 0 and 1 modulo 4.  Missing from the full statement: parties with the same
`ROUND_REDUCED` but another instruction set flag (`reduced_interoperate_refuted`), and the other sizes,
which are undefined behaviour (C36). -/
theorem reduced_same_build_partial (isa : Isa) (reduced : Bool) (cs : State) (ps : List (List U8))
    (h4 : ∀ p ∈ ps, p.length % 4 ≤ 1) :
    ∃ cs' outs, runAll (enc (cfbFor isa reduced)) cs ps = .ok (cs', outs) ∧ outs.map List.length = ps.map List.length ∧
      runAll (dec (cfbFor isa reduced)) cs outs = .ok (cs', ps) :=
  Props.AES.aes_cfb_lockstep_partial _ cs ps h4

example : ∀ p ∈ [List.replicate 21 (1 : U8), [], List.replicate 48 2], p.length % 4 ≤ 1 := by decide

theorem xor_assoc : ∀ (p a b : List U8), xorBytes (xorBytes p a) b = xorBytes p (xorBytes a b)
  | [], _, _ => by simp
  | _ :: _, [], _ => by simp
  | _ :: _, _ :: _, [] => by simp
  | x :: p, y :: a, z :: b => by simp [xor_assoc p a b, BitVec.xor_assoc]

/-- What the receiver sees when the sender's build is portable and the receiver's has intrinsics, both
with the flag: of a message of one block, the plaintext xor the difference of the two ciphers. -/
theorem reduced_mixed_block (isa : Isa) (hi : isa ≠ .none) (key iv p : List U8) (hiv : iv.length = 16) (hp : p.length = 16) :
    ∃ cs' cs'' outs, runAll (enc (cfbFor .none true)) (cfbInit key iv) [p] = .ok (cs', outs) ∧
      runAll (dec (cfbFor isa true)) (cfbInit key iv) outs = .ok (cs'',
        [xorBytes p (xorBytes (Spec.AESReduced.lastSix key iv) (Spec.AES.cipher key iv))]) := by
  have one : ∀ (v : CfbVariant) (fb : Bool) (q : List U8), q.length = 16 →
      (cfbRun v fb (cfbInit key iv) q).1 = (v.enc (keyExpansion key) (quadOf iv)).bytes := by
    intro v fb q hq
    rw [Props.AES.cfbRun_whole _ _ _ _ (by omega), hq]
    simp only [Nat.reduceDiv, cfbBlocks, List.append_nil]
    rfl
  have h1 := one (cfbFor .none true) true p hp
  rw [show (cfbFor .none true).enc = encFor .none true from rfl, reduced_block key iv] at h1
  generalize hc : xorBytes p (cfbRun (cfbFor .none true) true (cfbInit key iv) p).1 = c
  have hcl : c.length = 16 := by
    rw [← hc, Props.AES.enc_length _ _ _ (by omega), hp]
  have h2 := one (cfbFor isa true) false c hcl
  rw [show (cfbFor isa true).enc = encFor isa true from rfl, reduced_ignored isa hi true key iv hiv] at h2
  refine ⟨(cfbRun (cfbFor .none true) true (cfbInit key iv) p).2, (cfbRun (cfbFor isa true) false (cfbInit key iv) c).2,
    [c], ?_, ?_⟩
  · rw [Props.AES.enc_cons _ _ p [] (by omega), hc]; rfl
  · rw [Props.AES.dec_cons _ _ c [] (by omega), h2, ← hc, h1, xor_assoc]; rfl

example : Isa.x86 ≠ .none ∧ (List.replicate 16 (3 : U8)).length = 16 := by decide

/-- C164 is false in general: two parties that both built the six-round version, one of them with
intrinsics, do not understand each other. -/
theorem reduced_interoperate_refuted (isa : Isa) (hi : isa ≠ .none) : ¬ ∀ (key iv p : List U8), key.length = 16 →
    iv.length = 16 → p.length = 16 → ∃ cs' cs'' outs,
      runAll (enc (cfbFor .none true)) (cfbInit key iv) [p] = .ok (cs', outs) ∧
      runAll (dec (cfbFor isa true)) (cfbInit key iv) outs = .ok (cs'', [p]) := by
  intro h
  obtain ⟨c1, c2, o, h1, h2⟩ := h (List.replicate 16 0) (List.replicate 16 0) (List.replicate 16 0) (by decide) (by decide) (by decide)
  obtain ⟨c3, c4, o', h3, h4⟩ := reduced_mixed_block isa hi (List.replicate 16 0) (List.replicate 16 0) (List.replicate 16 0)
    (by decide) (by decide)
  rw [h1, Res.ok_inj, Prod.mk.injEq] at h3
  rw [← h3.2, h2, Res.ok_inj, Prod.mk.injEq] at h4
  have h5 := h4.2
  rw [← reduced_block, ← Props.AES.aes_block_fips _ _ (by decide)] at h5
  exact absurd h5 (by decide +kernel)

/-! ### Counter mode -/

theorem ctrKs_take {σ : Type} (blk : σ → σ × Quad) (cs : σ) (n : Nat) (h4 : n % 4 = 0) :
    ctrKs blk cs n = (blkBytes blk ((n + 15) / 16) cs).take n := by
  have hsplit : ∀ (m : Nat) (cs : σ), blkBytes blk (m + 1) cs = blkBytes blk m cs ++ (blk (blkState blk m cs)).2.bytes := by
    intro m
    induction m with
    | zero => intro cs; simp [blkBytes, blkState]
    | succ m ih => intro cs; rw [blkBytes, ih, blkBytes, blkState, List.append_assoc]
  rw [ctrKs]
  split
  · have e : (n + 15) / 16 = n / 16 + 1 := by omega
    rw [e, hsplit, List.take_append, blkBytes_length,
      List.take_of_length_le (l := blkBytes blk (n / 16) cs) (by rw [blkBytes_length]; omega), tailKs,
      if_pos (by omega), List.append_nil]
    congr 2
    omega
  · have e : (n + 15) / 16 = n / 16 := by omega
    rw [e, List.append_nil, List.take_of_length_le (by rw [blkBytes_length]; omega)]

theorem ctr_bytes {f : List U32 → Quad → Quad} {rk : List U32} {E : List U8 → List U8}
    (hE : ∀ b : List U8, b.length = 16 → (f rk (quadOf b)).bytes = E b) {nonce : List U8} (hn : nonce.length = 12) (m : Nat) :
    ∀ c, blkBytes (ctrBlk f) m (ctrSt rk nonce c) = Spec.AESReduced.ctrStream E nonce c m := by
  induction m with
  | zero => intro c; rfl
  | succ m ih =>
    intro c
    rw [blkBytes, Spec.AESReduced.ctrStream]
    have h1 : (ctrBlk f (ctrSt rk nonce c)).1 = ctrSt rk nonce (c + 1) := stateUpdate_eq ..
    have h2 : (ctrBlk f (ctrSt rk nonce c)).2.bytes = E (nonce ++ Spec.AES.ctrField c) := by
      have : (ctrBlk f (ctrSt rk nonce c)).2 = f rk (ctrReg nonce c) := rfl
      rw [this, ← quadOf_of_bytes (ctrReg nonce c), ctrReg_bytes hn, hE _ (by simp [hn, Spec.AES.ctrField, bytesBE32])]
    rw [h1, h2, ih]

theorem ctr_any {f : List U32 → Quad → Quad} {rk : List U32} {E : List U8 → List U8}
    (hE : ∀ b : List U8, b.length = 16 → (f rk (quadOf b)).bytes = E b) {nonce : List U8} (hn : nonce.length = 12)
    (ps : List (List U8)) : ∀ (c : Nat), (∀ p ∈ ps, p.length % 4 = 0) →
      ∃ cs', runAll (fun s io n => ctrWith (ctrBlk f) s io n) (ctrSt rk nonce c) ps =
        .ok (cs', Spec.AESReduced.ctrMany E nonce c ps) := by
  induction ps with
  | nil => intro c _; exact ⟨_, rfl⟩
  | cons p ps ih =>
    intro c h
    have hp := h p (by simp)
    obtain ⟨cs', h1⟩ := ih (c + (p.length + 15) / 16) (fun q hq => h q (by simp [hq]))
    refine ⟨cs', ?_⟩
    have hlen : (blkBytes (ctrBlk f) ((p.length + 15) / 16) (ctrSt rk nonce c)).length = 16 * ((p.length + 15) / 16) :=
      blkBytes_length ..
    rw [runAll, ctrWith_ok _ _ (by omega) ⟨by simp [Io.src], by simp⟩, ctrNext, blkState_ctr, ctrKs_take _ _ _ hp]
    rw [ctr_bytes hE hn] at hlen ⊢
    simp only [Res.ok_bind, h1, Res.pure_eq, Spec.AESReduced.ctrMany, Res.ok_inj, Prod.mk.injEq, true_and,
      List.cons.injEq, and_true]
    have hl : ((Spec.AESReduced.ctrStream E nonce c ((p.length + 15) / 16)).take p.length).length = p.length := by
      rw [List.length_take, hlen]; omega
    simp only [Io.xored, hl, Io.src, Bool.false_eq_true, if_false, List.take_length, List.drop_replicate, Nat.sub_self,
      List.replicate_zero, List.append_nil, xorBytes_take_right]

/-- C164, the part that holds: packets whose sizes are multiples of four are processed in counter mode
with the six-round block function by the portable code with the flag, and with the full block function
by the builds with intrinsics.  Missing from the full statement: that these do likewise, and the other
sizes (C33). -/
theorem reduced_ctr_partial (isa : Isa) (cs : State) (key nonce : List U8) (hn : nonce.length = 12)
    (ps : List (List U8)) (h4 : ∀ p ∈ ps, p.length % 4 = 0) :
    ∃ cs', runAll (fun s io n => ctrFor isa true s io n) (ctrLoadIv (loadKey cs key) nonce) ps =
      .ok (cs', Spec.AESReduced.ctrMany (if isa = .none then Spec.AESReduced.lastSix key else Spec.AES.cipher key) nonce 1 ps) := by
  rw [ctrLoadIv_eq]
  refine ctr_any (fun b hb => ?_) hn ps 1 h4
  split
  · rename_i h; subst h; exact reduced_block key b
  · rename_i h; exact reduced_ignored isa h true key b hb

/-- Non-trivial instance: two packets, the first ending inside a block. -/
example : (List.replicate 12 (7 : U8)).length = 12 ∧
    ∀ p ∈ [List.replicate 20 (1 : U8), List.replicate 32 2], p.length % 4 = 0 := by decide

set_option maxRecDepth 10000 in
/-- C164 is false for counter mode too: the two keystreams differ. -/
theorem reduced_ctr_refuted (isa : Isa) (hi : isa ≠ .none) : ¬ ∀ (cs : State) (key nonce p : List U8), key.length = 16 →
    nonce.length = 12 → p.length = 16 → ∃ cs' cs'' outs,
      runAll (fun s io n => ctrFor .none true s io n) (ctrLoadIv (loadKey cs key) nonce) [p] = .ok (cs', outs) ∧
      runAll (fun s io n => ctrFor isa true s io n) (ctrLoadIv (loadKey cs key) nonce) outs = .ok (cs'', [p]) := by
  intro h
  obtain ⟨c1, c2, o, h1, h2⟩ := h ⟨⟨0, 0, 0, 0⟩, []⟩ (List.replicate 16 0) (List.replicate 12 0) (List.replicate 16 0)
    (by decide) (by decide) (by decide)
  obtain ⟨c3, h3⟩ := reduced_ctr_partial .none ⟨⟨0, 0, 0, 0⟩, []⟩ (List.replicate 16 0) (List.replicate 12 0) (by decide)
    [List.replicate 16 0] (by decide)
  rw [h1, Res.ok_inj, Prod.mk.injEq] at h3
  have ho := h3.2
  rw [if_pos rfl] at ho
  simp only [Spec.AESReduced.ctrMany, List.length_replicate, Nat.reduceAdd, Nat.reduceDiv, Spec.AESReduced.ctrStream,
    List.append_nil] at ho
  rw [← reduced_block] at ho
  have hol : ∀ p ∈ o, p.length % 4 = 0 := by
    rw [ho]
    simp [Quad.bytes_length]
  obtain ⟨c4, h4⟩ := reduced_ctr_partial isa ⟨⟨0, 0, 0, 0⟩, []⟩ (List.replicate 16 0) (List.replicate 12 0) (by decide) o hol
  rw [h2, Res.ok_inj, Prod.mk.injEq, if_neg hi, ho] at h4
  have h5 := h4.2
  simp only [Spec.AESReduced.ctrMany, xorBytes_length, List.length_replicate, Quad.bytes_length, Nat.min_self, Nat.reduceAdd,
    Nat.reduceDiv, Spec.AESReduced.ctrStream, List.append_nil] at h5
  rw [← Props.AES.aes_block_fips _ _ (by decide)] at h5
  exact absurd h5 (by decide +kernel)

end CT.Props.AESReduced
