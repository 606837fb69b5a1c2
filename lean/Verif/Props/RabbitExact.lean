import Verif.Spec.RabbitCarry
import Verif.Props.Rabbit

/-! # C21: what the Rabbit code computes in every session, and when this is RFC 4503 -/

namespace CT.Props.Rabbit
open CT CT.Rabbit CT.Spec.Rabbit

/-! ### The code follows the rules `strict`, without hypotheses -/

theorem step_strict {cs : State} {s : St} (h : R cs s) (j : Fin 8) : R (counterStep cs j) (stepBy strict s j) := by
  have hA : Spec.Rabbit.A = CT.Rabbit.A := rfl
  obtain ⟨cMX, cMC, cX, cC, cc⟩ := cs
  obtain ⟨sX, sC, sb⟩ := s
  obtain ⟨hX, hC, hcb, hb1⟩ := h
  simp only at hX hC hcb hb1
  subst hX hC hcb
  have e : (cC[j].setWidth 64 + CT.Rabbit.A[j].setWidth 64 + cc.setWidth 64 : U64).toNat = temp ⟨cX, cC, cc.toNat⟩ j := by
    simp only [temp, hA]
    have h1 := cC[j].isLt
    have h2 := CT.Rabbit.A[j].isLt
    have h3 := cc.isLt
    rw [BitVec.toNat_add, BitVec.toNat_add, BitVec.toNat_setWidth, BitVec.toNat_setWidth, BitVec.toNat_setWidth]
    omega
  generalize hT : temp ⟨cX, cC, cc.toNat⟩ j = T at *
  refine ⟨rfl, ?_, ?_, ?_⟩
  · simp only [CT.Rabbit.counterStep, stepBy, hT]
    congr 1
    apply BitVec.eq_of_toNat_eq
    rw [BitVec.toNat_setWidth, BitVec.toNat_umod, e, BitVec.toNat_ofNat]
    exact Nat.mod_mod _ _
  · simp only [CT.Rabbit.counterStep, stepBy, strict, hT]
    by_cases hc : 0x100000000#64 < cC[j].setWidth 64 + CT.Rabbit.A[j].setWidth 64 + cc.setWidth 64
    · rw [if_pos hc]
      rw [BitVec.lt_def, e] at hc
      rw [if_pos (show 2 ^ 32 < T from hc)]; rfl
    · rw [if_neg hc]
      rw [BitVec.lt_def, e] at hc
      rw [if_neg (show ¬ 2 ^ 32 < T from hc)]; rfl
  · simp only [stepBy, strict, hT]; split <;> omega

theorem steps_strict (js : List (Fin 8)) {cs : State} {s : St} (h : R cs s) :
    R (js.foldl counterStep cs) (js.foldl (stepBy strict) s) := by
  induction js generalizing cs s with
  | nil => exact h
  | cons j js ih => exact ih (step_strict h j)

theorem update_strict {cs : State} {s : St} (h : R cs s) : R (update cs) (iterBy strict s) :=
  nextState_R (steps_strict _ h)

theorem update4_strict {cs : State} {s : St} (h : R cs s) : R (update4 cs) (itersBy strict 4 s) :=
  update_strict (update_strict (update_strict (update_strict h)))

theorem extract_strict {cs : State} {s : St} (h : R cs s) :
    R (extract cs).1 (iterBy strict s) ∧ (extract cs).2.bytes = out (iterBy strict s) := by
  have hr := update_strict h
  refine ⟨hr, ?_⟩
  have hw : ∀ (a b c d : U32), bytesLE32 ((CT.Rabbit.lo a ^^^ CT.Rabbit.hi b) ||| ((CT.Rabbit.hi c ^^^ CT.Rabbit.lo d) <<< 16)) =
      [BitVec.ofNat 8 (Spec.Rabbit.lo a ^^^ Spec.Rabbit.hi b), BitVec.ofNat 8 ((Spec.Rabbit.lo a ^^^ Spec.Rabbit.hi b) / 256),
       BitVec.ofNat 8 (Spec.Rabbit.hi c ^^^ Spec.Rabbit.lo d), BitVec.ofNat 8 ((Spec.Rabbit.hi c ^^^ Spec.Rabbit.lo d) / 256)] := by
    intro a b c d
    exact halves _ _ _ _ (lohi a b).1 (hilo c d).1 (lohi a b).2 (hilo c d).2
  simp only [extract, Quad.bytes, Quad.toList, wordsToBytesLE_cons, wordsToBytesLE_nil, hw, hr.X,
    out, pieces, List.flatMap_cons, List.flatMap_nil, List.cons_append, List.nil_append]

theorem blocks_strict (m : Nat) {cs : State} {s : St} (h : R cs s) :
    blkBytes extract m cs = blocksBy strict m s ∧ R (blkState extract m cs) (itersBy strict m s) := by
  induction m generalizing cs s with
  | zero => exact ⟨rfl, h⟩
  | succ m ih =>
    obtain ⟨h3, h4⟩ := extract_strict h
    obtain ⟨h5, h6⟩ := ih h3
    exact ⟨by rw [blkBytes, blocksBy, h4, h5], h6⟩

theorem loadKey_strict (key : List U8) : R (loadKey key) (keySetupBy strict (leNat key)) := by
  have hr := update4_strict (loadKeyExpand_R key)
  rw [loadKey, keySetupBy]
  exact fin_R hr

/-- The master state of the model is `m`. -/
structure Master (cs : State) (m : St) : Prop where
  X : cs.MX = m.X
  C : cs.MC = m.C

theorem loadKey_Master (key : List U8) : Master (loadKey key) (keySetupBy strict (leNat key)) :=
  ⟨(loadKey_strict key).X, (loadKey_strict key).C⟩

theorem loadIv_strict {cs : State} {s m : St} (h : R cs s) (hm : Master cs m) (iv : List U8) :
    R (loadIv cs iv) (ivSetupBy strict (leNat iv) m s) := by
  have h0 : R { cs with X := cs.MX, C := cs.MC } { m with b := s.b } := ⟨hm.X, hm.C, h.b, h.b1⟩
  exact update4_strict (ivMix_R h0 rfl rfl iv)

/-- C21, exactly: whatever the key and the commands after loading it (IV loads of any kind at any place, packets of any size, also
without any IV), the outputs are those of Rabbit with the rules `strict`: the carry bit is set by sums above 2^32 only, and an IV
load keeps the current carry bit. -/
theorem rabbit_exact (key : List U8) (ps : List Cmd) :
    ∃ s', runCmds processPacket loadIv (loadKey key) ps = .ok (s', keySession strict key ps) := by
  suffices h : ∀ (ps : List Cmd) (cs : State) (s m : St), R cs s → Master cs m →
      ∃ s', runCmds processPacket loadIv cs ps = .ok (s', session strict m s ps) from
    h ps _ _ _ (loadKey_strict key) (loadKey_Master key)
  intro ps
  induction ps with
  | nil => intro cs s m _ _; exact ⟨cs, rfl⟩
  | cons c ps ih =>
    intro cs s m h hm
    cases c with
    | load iv =>
      have hm' : Master (loadIv cs iv) m := by
        obtain ⟨a, b⟩ := update4_master (ivMix cs iv)
        exact ⟨a.trans hm.X, b.trans hm.C⟩
      obtain ⟨s', e⟩ := ih _ _ m (loadIv_strict h hm iv) hm'
      exact ⟨s', by simp only [runCmds, e, Res.ok_bind, Res.pure_eq, session]⟩
    | packet p =>
      obtain ⟨e1, h1⟩ := blocks_strict ((p.length + 15) / 16) h
      have hm' : Master (pktNext cs p.length) m := by
        obtain ⟨a, b⟩ := blkState_master ((p.length + 15) / 16) cs
        exact ⟨a.trans hm.X, b.trans hm.C⟩
      obtain ⟨s', e⟩ := ih (pktNext cs p.length) _ m h1 hm'
      refine ⟨s', ?_⟩
      simp only [runCmds, isStream.single (s := cs) p trivial trivial, Res.ok_bind, e, Res.pure_eq, session, pktKs,
        xorBytes_take_right, e1]

/-! ### RFC 4503 -/

theorem steps_rfc (js : List (Fin 8)) (s : St) : js.foldl (stepBy rfc) s = js.foldl Spec.Rabbit.counterStep s := rfl

theorem iter_rfc (s : St) : iterBy rfc s = iter s := rfl

theorem iters_rfc (n : Nat) (s : St) : itersBy rfc n s = iters n s := by
  induction n generalizing s with
  | zero => rfl
  | succ n ih => exact ih _

theorem blocks_rfc (n : Nat) (s : St) : blocksBy rfc n s = blocks n s := by
  induction n generalizing s with
  | zero => rfl
  | succ n ih => rw [blocksBy, blocks, ih, iter_rfc]

theorem keySetup_rfc (K : Nat) : keySetupBy rfc K = keySetup K := by
  rw [keySetupBy, keySetup, iters_rfc]

theorem ivSetup_rfc (IV : Nat) (m s : St) : ivSetupBy rfc IV m s = ivSetup IV m := by
  rw [ivSetupBy, iters_rfc]; rfl

/-- Sessions by the rules `rfc`: the packets after an IV load are encrypted with the RFC 4503 keystream of key and IV. -/
theorem rfc_session_first (key iv p : List U8) (cs : List Cmd) :
    (keySession rfc key (.load iv :: .packet p :: cs)).take 2 = [.load iv, .packet (xorBytes p (keystream key iv p.length))] := by
  simp only [keySession, session, ivSetup_rfc, keySetup_rfc, blocks_rfc, keystream, xorBytes_take_right, List.take_succ_cons,
    List.take_zero]

/-- The two rules give the same counter system while no sum is exactly 2^32. -/
theorem steps_agree (js : List (Fin 8)) (s : St) (hb : s.b ≤ 1) (h : hit js s = false) :
    js.foldl (stepBy strict) s = js.foldl Spec.Rabbit.counterStep s ∧ (js.foldl Spec.Rabbit.counterStep s).b ≤ 1 := by
  induction js generalizing s with
  | nil => exact ⟨rfl, hb⟩
  | cons j js ih =>
    simp only [hit, Bool.or_eq_false_iff, beq_eq_false_iff_ne] at h
    have ht : temp s j < 2 ^ 33 := by
      have h1 := s.C[j].isLt
      have h2 := (Spec.Rabbit.A[j]).isLt
      rw [temp]; omega
    have hs : stepBy strict s j = Spec.Rabbit.counterStep s j := by
      rw [stepBy, Spec.Rabbit.counterStep, strict]
      simp only
      congr 1
      split <;> omega
    have hb' : (Spec.Rabbit.counterStep s j).b ≤ 1 := by
      show temp s j / 2 ^ 32 ≤ 1
      omega
    rw [List.foldl_cons, List.foldl_cons, hs]
    exact ih _ hb' h.2

theorem iter_agree {s : St} (hb : s.b ≤ 1) (h : hit [0, 1, 2, 3, 4, 5, 6, 7] s = false) :
    iterBy strict s = iter s ∧ (iter s).b ≤ 1 := by
  obtain ⟨h1, h2⟩ := steps_agree _ s hb h
  exact ⟨congrArg next h1, h2⟩

theorem iters_agree (n : Nat) {s : St} (hb : s.b ≤ 1) (h : clean n s = true) :
    itersBy strict n s = iters n s ∧ blocksBy strict n s = blocks n s ∧ (iters n s).b ≤ 1 := by
  induction n generalizing s with
  | zero => exact ⟨rfl, rfl, hb⟩
  | succ n ih =>
    obtain ⟨h1, h2⟩ := clean_succ h
    obtain ⟨e, hb'⟩ := iter_agree hb h1
    obtain ⟨i1, i2, i3⟩ := ih hb' h2
    exact ⟨by rw [itersBy, iters, e, i1], by rw [blocksBy, blocks, e, i2], i3⟩

theorem session_agree (m : St) (hm : m.b ≤ 1) (cs : List Cmd) (s : St) (hb : s.b ≤ 1) (h : cleanSession m s cs = true) :
    session strict m s cs = session rfc m s cs := by
  induction cs generalizing s with
  | nil => rfl
  | cons c cs ih =>
    cases c with
    | load iv =>
      simp only [cleanSession, Bool.and_eq_true, beq_iff_eq] at h
      obtain ⟨h1, h2, h3⟩ := h
      have e0 : ({ m with b := s.b } : St) = m := by rw [h1]
      obtain ⟨e, _, e'⟩ := iters_agree 4 (s := ivMix (leNat iv) m) hm h2
      have e1 : ivSetupBy strict (leNat iv) m s = ivSetup (leNat iv) m := by
        rw [ivSetupBy, strict]; simp only [Bool.false_eq_true, if_false]; rw [e0]; exact e
      rw [session, session, e1, ivSetup_rfc, ih (ivSetup (leNat iv) m) e' h3]
    | packet p =>
      simp only [cleanSession, Bool.and_eq_true] at h
      obtain ⟨e1, e2, e3⟩ := iters_agree _ hb h.1
      simp only [session]
      rw [e1, e2, iters_rfc, blocks_rfc, ih _ e3 h.2]

theorem keyExpand_b (K : Nat) : (keyExpand K).b = 0 := by rw [keyExpand]

theorem keySetup_b (K : Nat) : (keySetup K).b = (iters 4 (keyExpand K)).b := by rw [keySetup]

theorem keySetup_agree (K : Nat) (hk : clean 4 (keyExpand K) = true) :
    keySetupBy strict K = keySetup K ∧ (keySetup K).b ≤ 1 := by
  obtain ⟨e1, _, e3⟩ := iters_agree 4 (s := keyExpand K) (by rw [keyExpand_b]; omega) hk
  exact ⟨by rw [keySetupBy, keySetup, e1], by rw [keySetup_b]; exact e3⟩

/-- C21, the part that holds, for sessions of any length and for packets before the first IV: the code follows RFC 4503 as long as
no sum is exactly 2^32 and no IV load finds a carry bit other than that of the master state.  Missing from the full statement: the
other sessions. -/
theorem rabbit_rfc4503_session_partial (key : List U8) (ps : List Cmd) (hk : clean 4 (keyExpand (leNat key)) = true)
    (h : cleanSession (keySetup (leNat key)) (keySetup (leNat key)) ps = true) :
    ∃ s', runCmds processPacket loadIv (loadKey key) ps = .ok (s', keySession rfc key ps) := by
  obtain ⟨s', e⟩ := rabbit_exact key ps
  obtain ⟨ek, eb⟩ := keySetup_agree (leNat key) hk
  refine ⟨s', ?_⟩
  rw [e, keySession, keySession, ek, keySetup_rfc, session_agree (keySetup (leNat key)) eb ps (keySetup (leNat key)) eb h]

set_option maxRecDepth 10000 in
/-- A session meeting the hypotheses: a packet under the key alone, an IV, two packets. -/
example : let key : List U8 := [0xAC, 0xC3, 0x51, 0xDC, 0xF1, 0x62, 0xFC, 0x3B, 0xFE, 0x36, 0x3D, 0x2E, 0x29, 0x13, 0x28, 0x91]
    clean 4 (keyExpand (leNat key)) = true ∧ cleanSession (keySetup (leNat key)) (keySetup (leNat key))
      [.load [0x59, 0x7E, 0x26, 0xC1, 0x75, 0xF5, 0x73, 0xC3], .packet [1, 2, 3], .packet (List.replicate 20 7)] = true := by
  decide +kernel

set_option maxRecDepth 10000 in
/-- The same without an IV. -/
example : let key : List U8 := [0xAC, 0xC3, 0x51, 0xDC, 0xF1, 0x62, 0xFC, 0x3B, 0xFE, 0x36, 0x3D, 0x2E, 0x29, 0x13, 0x28, 0x91]
    clean 4 (keyExpand (leNat key)) = true ∧ cleanSession (keySetup (leNat key)) (keySetup (leNat key))
      [.packet (List.replicate 20 7), .packet [1, 2, 3]] = true := by
  decide +kernel

end CT.Props.Rabbit
