import Verif.Proof.Sosemanuk

/-!
# Sosemanuk (C28 - C30, C68 - C70)
-/

namespace CT.Props.Sosemanuk
open CT.Sosemanuk
open CT.Spec.Serpent (pad)

/-- Some state, as left over by earlier operations. -/
def someState : State := ⟨[], 1, 2, 3, 4, 5, 6, 7, 8, 9, 10, 11, 12⟩

/-- Key schedule, IV and one packet, as a caller would run them. -/
def encrypt (cs : State) (key iv : List U8) (io : Io) (n : Nat) : Res (Option (State × Io)) := do
  match ← loadKey cs key key.length with
  | none => .ok none
  | some cs => do
    let cs ← loadIv cs iv
    let r ← processPacket cs io n
    return some r

/-! ### C28 -/

/-- C28, the part that holds: for keys of 32 bytes the packet is encrypted with the keystream of Sosemanuk in
which the update of the finite state machine is replaced by `codeFsm`; initial state, LFSR, output
transformation and byte order are those of the specification.  Missing: the state machine, and keys of
other lengths (C27). -/
theorem sosemanuk_conforms_partial (cs : State) (key iv : List U8) (io : Io) (n : Nat) (hk : key.length = 32)
    (hiv : iv.length = 16) (hf : io.Fits n) :
    ∃ cs', encrypt cs key iv io n = .ok (some (cs', ⟨io.inp,
      xorBytes (io.src.take n) ((Spec.Sosemanuk.keystream codeFsm (n / 16 + 1) (Spec.Sosemanuk.init key iv)).take n) ++
        io.out.drop n, io.alias⟩)) := by
  obtain ⟨c, h1, h2, h3⟩ := loadIv_eq { cs with rk := Serpent.schedule key } key iv (by omega) hiv rfl
  refine ⟨blkState block (n / 16 + 1) c, ?_⟩
  rw [encrypt, loadKey_eq cs key (by omega)]
  simp only [Res.ok_bind, h1, processPacket_eq c io n hf, Res.pure_eq]
  have e : Serpent.padKey key = key := by rw [Serpent.padKey, if_neg (by omega)]
  rw [e] at h3
  rw [← h3, keystream_eq]
  have hl : ((blkBytes block (n / 16 + 1) c).take n).length = n := by
    rw [List.length_take, blkBytes_length]; omega
  simp only [Io.xored, hl]

def key0 : List U8 := pad [0xA7, 0xC0, 0x83, 0xFE, 0xB7]
def iv0 : List U8 := (List.range 16).map fun i => BitVec.ofNat 8 (17 * i)

example : key0.length = 32 ∧ iv0.length = 16 ∧ (⟨[1, 2, 3], [0, 0, 0, 0], false⟩ : Io).Fits 3 := by decide

set_option maxRecDepth 10000 in
/-- The first bytes of the first official test vector (key of 40 bits), for the specification. -/
example : (Spec.Sosemanuk.cipher [0xA7, 0xC0, 0x83, 0xFE, 0xB7] iv0 1).getD 0 0 = 0xfe ∧
    (Spec.Sosemanuk.cipher [0xA7, 0xC0, 0x83, 0xFE, 0xB7] iv0 1).getD 1 0 = 0x81 := by decide +kernel

/-- C28, exactly when one update of the state machine is right: the new value of `R1` has to be the old one, and
if that is odd, `s_{t+9} = s_{t+1}`. -/
theorem sosemanuk_fsm_exact (cs : State) :
    ((fsmUpdate cs).1.R1, (fsmUpdate cs).1.R2) = Spec.Sosemanuk.fsm cs.toSpec ↔
      (cs.R1.getLsbD 0 = true → cs.s9 = cs.s1) ∧ (Spec.Sosemanuk.fsm cs.toSpec).1 = cs.R1 := by
  refine Iff.trans ?_ (codeFsm_eq_iff cs.toSpec)
  have : codeFsm cs.toSpec = ((fsmUpdate cs).1.R1, (fsmUpdate cs).1.R2) := by
    simp only [codeFsm, fsmUpdate, State.toSpec, mux_eq, Trans_eq, Spec.Sosemanuk.State.at, List.getD_cons_zero,
      List.getD_cons_succ]
  rw [this]

/-- A state for which one update is right. -/
example : ({ someState with R1 := 14, R2 := 12, s1 := 2 }.R1.getLsbD 0 = true →
    ({ someState with R1 := 14, R2 := 12, s1 := 2 } : State).s9 = 2) ∧
    (Spec.Sosemanuk.fsm ({ someState with R1 := 14, R2 := 12, s1 := 2 } : State).toSpec).1 = 14 := by decide

/-- C28: the LFSR runs through the states of the specification whatever the state machine does. -/
theorem sosemanuk_lfsr_conforms (cs : State) (n : Nat) :
    (blkState block n cs).toSpec.s = (Spec.Sosemanuk.stateAfter Spec.Sosemanuk.fsm n cs.toSpec).s := by
  rw [← stateAfter_eq]
  exact stateAfter_s _ _ n rfl

set_option maxRecDepth 10000 in
/-- C28 fails, also for keys of 32 bytes: the first byte of the keystream is wrong. -/
theorem sosemanuk_conforms_refuted :
    ¬ ∀ (cs : State) (key iv msg : List U8), key.length = 32 → iv.length = 16 →
      ∃ cs', encrypt cs key iv ⟨msg, msg, false⟩ msg.length =
        .ok (some (cs', ⟨msg, xorBytes msg (Spec.Sosemanuk.cipher key iv (msg.length / 16 + 1)), false⟩)) := by
  intro h
  obtain ⟨c1, h1⟩ := h someState key0 iv0 [0] (by decide) (by decide)
  obtain ⟨c2, h2⟩ := sosemanuk_conforms_partial someState key0 iv0 ⟨[0], [0], false⟩ 1 (by decide) (by decide) (by decide)
  rw [show ([0] : List U8).length = 1 from rfl] at h1
  rw [h1] at h2
  simp only [Res.ok_inj, Option.some.injEq, Prod.mk.injEq, Io.mk.injEq, true_and, and_true] at h2
  have h3 := congrArg (fun l => l.getD 0 0) h2.2
  have e1 : (xorBytes [0] (Spec.Sosemanuk.cipher key0 iv0 (1 / 16 + 1))).getD 0 0 = 0xfe := by decide +kernel
  have e2 : (xorBytes ((⟨[0], [0], false⟩ : Io).src.take 1)
    ((Spec.Sosemanuk.keystream codeFsm (1 / 16 + 1) (Spec.Sosemanuk.init key0 iv0)).take 1) ++ ([0] : List U8).drop 1).getD 0 0 = 0x59 := by
    decide +kernel
  simp only [e1, e2] at h3
  exact absurd h3 (by decide)

/-! ### C29 -/

/-- The packets are encrypted with a keystream that depends on state and size only. -/
theorem isStream : IsStream processPacket (fun _ => True) (fun _ => True)
    (fun cs n => (blkBytes block (n / 16 + 1) cs).take n) (fun cs n => blkState block (n / 16 + 1) cs) := by
  intro cs n _ _
  refine ⟨trivial, ?_, fun io hf => processPacket_eq cs io n hf⟩
  rw [List.length_take, blkBytes_length]
  omega

/-- A caller that loads IVs and processes packets; the result has the packets replaced by the outputs. -/
def session : State → List Cmd → Res (State × List Cmd)
  | cs, [] => .ok (cs, [])
  | cs, .load iv :: l => do
    let cs ← loadIv cs iv
    let q ← session cs l
    return (q.1, .load iv :: q.2)
  | cs, .packet p :: l => do
    let r ← processPacket cs ⟨p, List.replicate p.length 0, false⟩ p.length
    let q ← session r.1 l
    return (q.1, .packet r.2.out :: q.2)

theorem loadIv_ok (cs : State) (iv : List U8) (h : iv.length = 16) : ∃ cs', loadIv cs iv = .ok cs' ∧ cs'.rk = cs.rk := by
  rw [loadIv, Serpent.processPacket_eq cs.rk iv h]
  exact ⟨_, rfl, rfl⟩

/-- C29.  Any sequence of IV loads and packets is recovered by a receiver that starts in the same state (the
same key) and performs the same IV loads, and both end in the same state. -/
theorem sosemanuk_lockstep_round_trip (l : List Cmd) (cs : State) (h : ∀ iv, Cmd.load iv ∈ l → iv.length = 16) :
    ∃ cs' c, session cs l = .ok (cs', c) ∧ c.map Cmd.shape = l.map Cmd.shape ∧ session cs c = .ok (cs', l) := by
  induction l generalizing cs with
  | nil => exact ⟨cs, [], rfl, rfl, rfl⟩
  | cons x l ih =>
    cases x with
    | load iv =>
      obtain ⟨cs1, e1, _⟩ := loadIv_ok cs iv (h iv (by simp))
      obtain ⟨cs', c, a1, a2, a3⟩ := ih cs1 (fun v hv => h v (by simp [hv]))
      exact ⟨cs', .load iv :: c, by simp [session, e1, a1], by simp [a2], by simp [session, e1, a3]⟩
    | packet p =>
      obtain ⟨cs', c, a1, a2, a3⟩ := ih (blkState block (p.length / 16 + 1) cs) (fun v hv => h v (by simp [hv]))
      have s1 := isStream.single (s := cs) p trivial trivial
      have hl := (isStream cs p.length trivial trivial).2.1
      simp only [] at s1 hl
      have hc : (xorBytes p ((blkBytes block (p.length / 16 + 1) cs).take p.length)).length = p.length := by
        rw [xorBytes_length, hl, Nat.min_self]
      have s2 := isStream.single (s := cs) (xorBytes p ((blkBytes block (p.length / 16 + 1) cs).take p.length)) trivial trivial
      simp only [hc] at s2
      refine ⟨cs', .packet (xorBytes p ((blkBytes block (p.length / 16 + 1) cs).take p.length)) :: c, ?_, ?_, ?_⟩
      · simp only [session, s1, Res.ok_bind, a1, Res.pure_eq]
      · simp only [List.map_cons, a2, Cmd.shape, hc]
      · simp only [session, hc, s2, Res.ok_bind, a3, Res.pure_eq]
        rw [xorBytes_xorBytes _ _ (by omega)]

example : ∀ iv, Cmd.load iv ∈ [Cmd.load iv0, .packet [1, 2, 3], .packet [], .load iv0, .packet [4]] → iv.length = 16 := by
  simp [iv0]

/-! ### C30 -/

/-- C30, what the code does: the second packet is encrypted with the keystream that starts at the first
multiple of 16 bytes strictly behind the first packet: after a packet of whole blocks one block of the
keystream is thrown away. -/
theorem sosemanuk_continuation_exact (cs : State) (a b : List U8) :
    ∃ s' x y, runAll processPacket cs [a, b] = .ok (s', [x, y]) ∧
      x = xorBytes a (blkBytes block (a.length / 16 + 1) cs) ∧
      y = xorBytes b ((blkBytes block ((a.length / 16 + 1) + (b.length / 16 + 1)) cs).drop (16 * (a.length / 16 + 1))) := by
  have s1 := isStream.single (s := cs) a trivial trivial
  have s2 := isStream.single (s := blkState block (a.length / 16 + 1) cs) b trivial trivial
  refine ⟨blkState block (b.length / 16 + 1) (blkState block (a.length / 16 + 1) cs),
    xorBytes a ((blkBytes block (a.length / 16 + 1) cs).take a.length),
    xorBytes b ((blkBytes block (b.length / 16 + 1) (blkState block (a.length / 16 + 1) cs)).take b.length), ?_, ?_, ?_⟩
  · simp only [runAll, s1, s2, Res.ok_bind, Res.pure_eq]
  · rw [xorBytes_take_right]
  · rw [xorBytes_take_right, blkBytes_add block (a.length / 16 + 1) (b.length / 16 + 1), List.drop_append, blkBytes_length,
      List.drop_of_length_le (l := blkBytes block _ cs) (by rw [blkBytes_length]; omega)]
    simp

set_option maxRecDepth 10000 in
/-- C30 fails, for a first packet of one block. -/
theorem sosemanuk_continuation_refuted :
    ¬ ∀ (cs : State) (a b : List U8), a.length % 16 = 0 → ∃ s' s'' x y,
      runAll processPacket cs [a, b] = .ok (s', [x, y]) ∧ runAll processPacket cs [a ++ b] = .ok (s'', [x ++ y]) := by
  intro h
  obtain ⟨s', s'', x, y, h1, h2⟩ := h someState (List.replicate 16 0) [0] (by decide)
  obtain ⟨t, x1, y1, e1, e2, e3⟩ := sosemanuk_continuation_exact someState (List.replicate 16 0) [0]
  have s3 := isStream.single (s := someState) (List.replicate 16 0 ++ [0]) trivial trivial
  rw [e1] at h1
  simp only [Res.ok_inj, Prod.mk.injEq, List.cons.injEq, and_true] at h1
  obtain ⟨_, rfl, rfl⟩ := h1
  simp only [runAll, s3, Res.ok_bind, Res.pure_eq, Res.ok_inj, Prod.mk.injEq, List.cons.injEq, and_true] at h2
  have h3 := congrArg (fun l => l.getD 16 0) h2.2
  rw [e2, e3] at h3
  have f1 : (xorBytes (List.replicate 16 0 ++ [0]) ((blkBytes block ((List.replicate 16 (0 : U8) ++ [0]).length / 16 + 1) someState).take
    (List.replicate 16 (0 : U8) ++ [0]).length)).getD 16 0 = 0x90 := by decide +kernel
  have f2 : (xorBytes (List.replicate 16 0) (blkBytes block ((List.replicate 16 (0 : U8)).length / 16 + 1) someState) ++
    xorBytes [0] ((blkBytes block (((List.replicate 16 (0 : U8)).length / 16 + 1) + (([0] : List U8).length / 16 + 1)) someState).drop
      (16 * ((List.replicate 16 (0 : U8)).length / 16 + 1)))).getD 16 0 = 0x0e := by decide +kernel
  simp only [f1, f2] at h3
  exact absurd h3 (by decide)

/-- C30, the part that holds: a packet that is not a whole number of blocks does not lose a whole block; the rest
of its last block is skipped. -/
theorem sosemanuk_continuation_partial (cs : State) (a b : List U8) (ha : a.length % 16 ≠ 0) :
    ∃ s' x y, runAll processPacket cs [a, b] = .ok (s', [x, y]) ∧
      x = xorBytes a (blkBytes block ((a.length + 15) / 16) cs) ∧
      y = xorBytes b ((blkBytes block ((a.length + 15) / 16 + (b.length / 16 + 1)) cs).drop (16 * ((a.length + 15) / 16))) := by
  rw [show (a.length + 15) / 16 = a.length / 16 + 1 by omega]
  exact sosemanuk_continuation_exact cs a b

example (cs : State) := sosemanuk_continuation_partial cs [1, 2, 3] (List.replicate 20 4) (by decide)

/-! ### C68 -/

/-- C68: under one key two different IVs never give the same state. -/
theorem sosemanuk_iv_injective (cs : State) (a b : List U8) (ha : a.length = 16) (hb : b.length = 16)
    (h : loadIv cs a = loadIv cs b) : a = b := by
  have ea := Serpent.processPacket_eq cs.rk a ha
  have eb := Serpent.processPacket_eq cs.rk b hb
  rw [loadIv, loadIv, ea, eb] at h
  simp only [Res.ok_bind, Spec.Serpent.outWords, Res.ok_inj, State.mk.injEq, true_and] at h
  obtain ⟨h0, h1, h2, h3, _⟩ := h
  apply Serpent.ofBytes_inj ha hb
  apply Serpent.after_inj _ 24
  apply Serpent.mix_inj
  have q : ∀ x y : Quad, x.w0 = y.w0 → x.w1 = y.w1 → x.w2 = y.w2 → x.w3 = y.w3 → x = y := by
    intro x y h0 h1 h2 h3
    cases x
    cases y
    simp_all
  exact q _ _ h3 h2 h1 h0

example : iv0.length = 16 ∧ (iv0.set 0 1).length = 16 := by decide

/-! ### C69 -/

/-- C69 holds for the specification: different registers stay different. -/
theorem spec_fsm_injective (x y : Spec.Sosemanuk.State) (hs : x.s = y.s)
    (h : Spec.Sosemanuk.fsm x = Spec.Sosemanuk.fsm y) : x = y := by
  obtain ⟨s, r1, r2⟩ := x
  obtain ⟨s', r1', r2'⟩ := y
  simp only at hs
  subst hs
  simp only [Spec.Sosemanuk.fsm, Prod.mk.injEq, Spec.Sosemanuk.State.at] at h
  obtain ⟨h1, h2⟩ := h
  have := trans_inj h2
  subst this
  simp only [BitVec.add_left_inj] at h1
  rw [h1]

/-- C69 fails for the code: all but the lowest bit of `R1` are ignored, so that states that differ in `R1` only
are merged by the first block. -/
theorem sosemanuk_states_merge_refuted (cs : State) (r : U32) (h : r.getLsbD 0 = cs.R1.getLsbD 0) (io : Io) (n : Nat)
    (hf : io.Fits n) : processPacket { cs with R1 := r } io n = processPacket cs io n := by
  have e : fsmUpdate { cs with R1 := r } = fsmUpdate cs := by simp only [fsmUpdate, mux_eq, h]
  have e2 : block { cs with R1 := r } = block cs := by simp only [block, e]
  rw [processPacket_eq _ _ _ hf, processPacket_eq _ _ _ hf, blkState, blkState, blkBytes, blkBytes, e2]

example : (13 : U32).getLsbD 0 = someState.R1.getLsbD 0 ∧ (13 : U32) ≠ someState.R1 := by decide

/-! ### C70 -/

/-- States reachable after loading a key: any sequence of IV loads and packets. -/
inductive History (rk : List U32) : State → Prop
  | key {cs : State} : cs.rk = rk → History rk cs
  | iv {cs cs' : State} {iv : List U8} : History rk cs → loadIv cs iv = .ok cs' → History rk cs'
  | packet {cs cs' : State} {io io' : Io} {n : Nat} : History rk cs → io.Fits n →
      processPacket cs io n = .ok (cs', io') → History rk cs'

/-- C70: loading an IV puts the cipher into a state that depends on key and IV only. -/
theorem sosemanuk_iv_resync (rk : List U32) (c d : State) (hc : History rk c) (hd : History rk d) (iv : List U8) :
    loadIv c iv = loadIv d iv := by
  have key : ∀ c, History rk c → c.rk = rk := by
    intro c hc
    induction hc with
    | key h => exact h
    | iv _ h ih =>
      rw [loadIv] at h
      obtain ⟨l, h1, h2⟩ := Res.bind_eq_ok h
      split at h2
      · rw [← (Res.ok_inj).mp h2]; exact ih
      · cases h2
    | packet _ hf h ih =>
      rw [processPacket_eq _ _ _ hf] at h
      rw [← (Prod.mk.inj ((Res.ok_inj).mp h)).1, blkState_rk]
      exact ih
  rw [loadIv, loadIv, key c hc, key d hd]

example : History [] someState ∧ History [] (blkState block (1 / 16 + 1) someState) :=
  ⟨.key rfl, .packet (io := ⟨[1], [0], false⟩) (n := 1) (.key (cs := someState) rfl) (by decide) (processPacket_eq _ _ _ (by decide))⟩

end CT.Props.Sosemanuk
