import Verif.Proof.Rabbit

/-!
# Rabbit properties (C21 - C24, C64)
-/

namespace CT.Props.Rabbit
open CT.Rabbit

/-- C21, the part that holds: after loading key and IV the first packet is encrypted with the
RFC 4503 keystream, provided no addition of the counter system gives exactly 2^32 on the way (the
code then drops the carry bit, `rabbit_rfc4503_refuted`).  Missing from the full statement: runs in
which such a sum occurs. -/
theorem rabbit_rfc4503_partial (key iv : List U8) (io : Io) (size : Nat) (hf : io.Fits size)
    (hc : Spec.Rabbit.cleanRun key iv ((size + 15) / 16) = true) :
    ∃ cs', processPacket (loadIv (loadKey key) iv) io size = .ok (cs',
      { io with out := xorBytes (io.src.take size) (Spec.Rabbit.keystream key iv size) ++
          io.out.drop size }) := by
  obtain ⟨h1, h2⟩ := loadIv_R hc
  have e : pktKs (loadIv (loadKey key) iv) size = Spec.Rabbit.keystream key iv size := by
    rw [pktKs, blkBytes_eq _ h1 h2]; rfl
  refine ⟨pktNext (loadIv (loadKey key) iv) size, ?_⟩
  rw [processPacket_eq _ hf, Io.xored, pktKs_length, e]

set_option maxRecDepth 10000 in
/-- Non-trivial instance: a 20 byte packet (two blocks) under the RFC 4503 test key and an IV. -/
example : Spec.Rabbit.cleanRun
    [0xAC, 0xC3, 0x51, 0xDC, 0xF1, 0x62, 0xFC, 0x3B, 0xFE, 0x36, 0x3D, 0x2E, 0x29, 0x13, 0x28, 0x91]
    [0x59, 0x7E, 0x26, 0xC1, 0x75, 0xF5, 0x73, 0xC3] ((20 + 15) / 16) = true := by decide +kernel

/-- The key for which the very first counter addition gives exactly 2^32. -/
def badKey : List U8 := [0, 0, 0, 0, 0, 0, 0, 0, 0xcb, 0xb2, 0xb3, 0x2c, 0, 0, 0, 0]

set_option maxRecDepth 10000 in
/-- C21 is false: with `badKey` and the zero IV the first byte of the keystream differs from RFC 4503. -/
theorem rabbit_rfc4503_refuted :
    ¬ ∀ (key iv : List U8) (msg : List U8), key.length = 16 → iv.length = 8 →
      ∃ cs', processPacket (loadIv (loadKey key) iv) ⟨msg, msg, false⟩ msg.length = .ok (cs',
        ⟨msg, xorBytes msg (Spec.Rabbit.keystream key iv msg.length), false⟩) := by
  intro h
  obtain ⟨cs', h1⟩ := h badKey (List.replicate 8 0) [0] (by decide) (by decide)
  rw [processPacket_eq _ ⟨by simp [Io.src], by simp⟩] at h1
  have h2 : pktKs (loadIv (loadKey badKey) (List.replicate 8 0)) 1 = [0xab] := by decide +kernel
  have h3 : Spec.Rabbit.keystream badKey (List.replicate 8 0) 1 = [0xfa] := by decide +kernel
  simp only [List.length_singleton, h2, h3, Res.ok_inj, Prod.mk.injEq] at h1
  exact absurd h1.2 (by decide)

/-- States reachable after loading `key`: any sequence of IV loads and packets. -/
inductive History (key : List U8) : State → Prop
  | key : History key (loadKey key)
  | iv {cs : State} (iv : List U8) : History key cs → History key (loadIv cs iv)
  | packet {cs cs' : State} {io io' : Io} {size : Nat} : History key cs →
      processPacket cs io size = .ok (cs', io') → History key cs'

theorem counter_master (js : List (Fin 8)) (cs : State) :
    (js.foldl counterStep cs).MX = cs.MX ∧ (js.foldl counterStep cs).MC = cs.MC := by
  induction js generalizing cs with
  | nil => exact ⟨rfl, rfl⟩
  | cons j js ih => rw [List.foldl_cons, (ih _).1, (ih _).2]; simp only [counterStep, and_self]

theorem update_master (cs : State) : (update cs).MX = cs.MX ∧ (update cs).MC = cs.MC := by
  have h := counter_master [0, 1, 2, 3, 4, 5, 6, 7] cs
  rw [← counter] at h
  simp only [update, nextState]
  exact h

theorem ivMix_congr {c1 c2 : State} (h1 : c1.MX = c2.MX) (h2 : c1.MC = c2.MC) (h3 : c1.carry = c2.carry)
    (iv : List U8) : ivMix c1 iv = ivMix c2 iv := by
  obtain ⟨a, b, c, d, e⟩ := c1
  obtain ⟨a', b', c', d', e'⟩ := c2
  simp only at h1 h2 h3
  subst h1 h2 h3
  simp only [ivMix]

theorem update4_master (cs : State) : (update4 cs).MX = cs.MX ∧ (update4 cs).MC = cs.MC := by
  simp only [update4, update_master, and_self]

theorem blkState_master (m : Nat) (cs : State) :
    (blkState extract m cs).MX = cs.MX ∧ (blkState extract m cs).MC = cs.MC := by
  induction m generalizing cs with
  | zero => exact ⟨rfl, rfl⟩
  | succ m ih => rw [blkState, (ih _).1, (ih _).2]; exact update_master cs

theorem blockLoop_master (fuel n off : Nat) (cs : State) (io : Io) {r : Nat × Nat × State × Io}
    (h : Io.blockLoop extract fuel n off cs io = .ok r) : r.2.2.1.MX = cs.MX ∧ r.2.2.1.MC = cs.MC := by
  induction fuel generalizing n off cs io with
  | zero => cases h
  | succ fuel ih =>
    rw [Io.blockLoop] at h
    split at h
    · obtain ⟨_, _, h⟩ := Res.bind_eq_ok h
      obtain ⟨_, _, h⟩ := Res.bind_eq_ok h
      obtain ⟨_, _, h⟩ := Res.bind_eq_ok h
      obtain ⟨_, _, h⟩ := Res.bind_eq_ok h
      have := ih _ _ _ _ h
      rw [this.1, this.2]; exact update_master cs
    · cases h; exact ⟨rfl, rfl⟩

theorem History.master {key : List U8} {cs : State} (h : History key cs) :
    cs.MX = (loadKey key).MX ∧ cs.MC = (loadKey key).MC := by
  induction h with
  | key => exact ⟨rfl, rfl⟩
  | iv iv _ ih => rw [loadIv, (update4_master _).1, (update4_master _).2]; exact ih
  | packet _ hp ih =>
    rw [processPacket] at hp
    obtain ⟨⟨left, off, c, io⟩, h1, h2⟩ := Res.bind_eq_ok hp
    have hm := blockLoop_master _ _ _ _ _ h1
    simp only at h2 hm
    split at h2
    · obtain ⟨_, _, h3⟩ := Res.bind_eq_ok h2
      cases h3
      rw [show (extract c).1 = update c from rfl, (update_master c).1, (update_master c).2, hm.1, hm.2]
      exact ih
    · cases h2; rw [hm.1, hm.2]; exact ih

/-- C22, the part that holds: loading an IV puts the cipher into the same state whatever happened
before, provided the internal carry bit happens to have the value it had after the key was loaded.
Missing from the full statement: histories that leave the other carry bit, for which it is false
(`rabbit_iv_resync_refuted`). -/
theorem rabbit_iv_resync_partial (key : List U8) (cs : State) (h : History key cs)
    (hcarry : cs.carry = (loadKey key).carry) (iv : List U8) : loadIv cs iv = loadIv (loadKey key) iv := by
  obtain ⟨h1, h2⟩ := h.master
  rw [loadIv, loadIv, ivMix_congr h1 h2 hcarry]

example : loadIv (loadIv (loadKey (List.replicate 16 0)) (List.replicate 8 1)) [1, 2, 3, 4, 5, 6, 7, 8] =
    loadIv (loadKey (List.replicate 16 0)) [1, 2, 3, 4, 5, 6, 7, 8] ∨ (loadIv (loadKey (List.replicate 16 0)) (List.replicate 8 1)).carry ≠ (loadKey (List.replicate 16 0)).carry := by
  by_cases h : (loadIv (loadKey (List.replicate 16 0)) (List.replicate 8 1)).carry = (loadKey (List.replicate 16 0)).carry
  · exact .inl (rabbit_iv_resync_partial _ _ (.iv _ .key) h _)
  · exact .inr h

/-- In general the state after an IV load is one of at most two states. -/
theorem rabbit_iv_resync_two_states (key : List U8) (cs1 cs2 : State) (h1 : History key cs1)
    (h2 : History key cs2) (hcarry : cs1.carry = cs2.carry) (iv : List U8) : loadIv cs1 iv = loadIv cs2 iv := by
  obtain ⟨a1, a2⟩ := h1.master
  obtain ⟨b1, b2⟩ := h2.master
  rw [loadIv, loadIv, ivMix_congr (a1.trans b1.symm) (a2.trans b2.symm) hcarry]

set_option maxRecDepth 10000 in
/-- Non-trivial instance: with the zero key a 32 byte packet after a first IV load leaves the carry
bit as it was, and the state differs from the one after key loading. -/
example : ∃ cs, History (List.replicate 16 0) cs ∧ cs.carry = (loadKey (List.replicate 16 0)).carry ∧
    cs ≠ loadKey (List.replicate 16 0) := by
  refine ⟨_, .packet (io := ⟨List.replicate 32 0, List.replicate 32 0, false⟩) (size := 32)
    (.iv (List.replicate 8 0) .key) (processPacket_eq _ (by decide)), ?_, ?_⟩
  · decide +kernel
  · have : (pktNext (loadIv (loadKey (List.replicate 16 0)) (List.replicate 8 0)) 32).X ≠
        (loadKey (List.replicate 16 0)).X := by decide +kernel
    exact fun h => this (congrArg State.X h)

set_option maxRecDepth 10000 in
/-- C22 is false: with the zero key, loading the zero IV, processing one 16 byte packet and loading
the zero IV again does not give the keystream of the first load. -/
theorem rabbit_iv_resync_refuted :
    ¬ ∀ (key : List U8) (cs : State) (iv msg : List U8), History key cs →
      (do let r ← processPacket (loadIv cs iv) ⟨msg, msg, false⟩ msg.length; pure r.2.out : Res (List U8)) =
      (do let r ← processPacket (loadIv (loadKey key) iv) ⟨msg, msg, false⟩ msg.length; pure r.2.out) := by
  intro h
  have h1 := h (List.replicate 16 0)
    (pktNext (loadIv (loadKey (List.replicate 16 0)) (List.replicate 8 0)) 16) (List.replicate 8 0) [0]
    (.packet (io := ⟨List.replicate 16 0, List.replicate 16 0, false⟩) (size := 16)
      (.iv (List.replicate 8 0) .key) (processPacket_eq _ (by decide)))
  rw [processPacket_eq _ (by decide), processPacket_eq _ (by decide)] at h1
  have e1 : pktKs (loadIv (pktNext (loadIv (loadKey (List.replicate 16 0)) (List.replicate 8 0)) 16)
      (List.replicate 8 0)) 1 = [0x72] := by decide +kernel
  have e2 : pktKs (loadIv (loadKey (List.replicate 16 0)) (List.replicate 8 0)) 1 = [0xed] := by
    decide +kernel
  simp only [List.length_singleton, e1, e2, Res.ok_bind] at h1
  exact absurd h1 (by decide)

/-- C23.  Any sequence of IV loads and packets is recovered by a receiver that loads the same
key and performs the same IV loads, and both end in the same state. -/
theorem rabbit_lockstep_round_trip (key : List U8) (ps : List Cmd) :
    ∃ s' cs, runCmds processPacket loadIv (loadKey key) ps = .ok (s', cs) ∧
      cs.map Cmd.shape = ps.map Cmd.shape ∧
      runCmds processPacket loadIv (loadKey key) cs = .ok (s', ps) :=
  isStream.runCmds_round_trip (fun _ _ _ => trivial) ps (loadKey key) trivial
    (fun p _ => by cases p <;> trivial)

example : ([.load (List.replicate 8 1), .packet [1, 2, 3], .packet [], .load (List.replicate 8 1),
    .packet [4]] : List Cmd).map Cmd.shape = [none, some 3, some 0, none, some 1] := rfl

/-- C24.  The second packet is encrypted with the keystream that starts at the next multiple of 16 bytes
behind the first packet. -/
theorem rabbit_continuation (cs : State) (a b : List U8) :
    ∃ s' x y, runAll processPacket cs [a, b] = .ok (s', [x, y]) ∧
      x = xorBytes a (blkBytes extract ((a.length + 15) / 16) cs) ∧
      y = xorBytes b ((blkBytes extract ((a.length + 15) / 16 + (b.length + 15) / 16) cs).drop
        (16 * ((a.length + 15) / 16))) := by
  have s1 := isStream.single (s := cs) a trivial trivial
  have s2 := isStream.single (s := pktNext cs a.length) b trivial trivial
  refine ⟨pktNext (pktNext cs a.length) b.length, xorBytes a (pktKs cs a.length),
    xorBytes b (pktKs (pktNext cs a.length) b.length), ?_, ?_, ?_⟩
  · simp only [runAll, s1, s2, Res.ok_bind, Res.pure_eq]
  · rw [pktKs, xorBytes_take_right]
  · rw [pktKs, xorBytes_take_right, blkBytes_add, List.drop_append, blkBytes_length, pktNext,
      List.drop_of_length_le (l := blkBytes extract _ cs) (by rw [blkBytes_length]; omega)]
    simp

/-- C24.  When the first packet is a whole number of 16 byte blocks, two packets are the same as one. -/
theorem rabbit_continuation_blocks (cs : State) (a b : List U8) (ha : a.length % 16 = 0) :
    ∃ s' x y, runAll processPacket cs [a, b] = .ok (s', [x, y]) ∧ x.length = a.length ∧
      runAll processPacket cs [a ++ b] = .ok (s', [x ++ y]) := by
  have s1 := isStream.single (s := cs) a trivial trivial
  have s2 := isStream.single (s := pktNext cs a.length) b trivial trivial
  have s3 := isStream.single (s := cs) (a ++ b) trivial trivial
  have e1 : (a.length + b.length + 15) / 16 = a.length / 16 + (b.length + 15) / 16 := by omega
  have e2 : (a.length + 15) / 16 = a.length / 16 := by omega
  have k1 : pktKs cs (a.length + b.length) = pktKs cs a.length ++ pktKs (pktNext cs a.length) b.length := by
    have hl : (blkBytes extract (a.length / 16) cs).length = a.length := by rw [blkBytes_length]; omega
    simp only [pktKs, pktNext, e1, e2, blkBytes_add]
    generalize blkBytes extract (a.length / 16) cs = A at *
    rw [List.take_append, hl, List.take_of_length_le (l := A) (by omega),
      List.take_of_length_le (l := A) (by omega), Nat.add_sub_cancel_left]
  have k2 : pktNext cs (a.length + b.length) = pktNext (pktNext cs a.length) b.length := by
    simp only [pktNext, e1, e2, blkState_add]
  refine ⟨pktNext (pktNext cs a.length) b.length, xorBytes a (pktKs cs a.length),
    xorBytes b (pktKs (pktNext cs a.length) b.length), ?_, ?_, ?_⟩
  · simp only [runAll, s1, s2, Res.ok_bind, Res.pure_eq]
  · simp [pktKs_length]
  · simp only [List.length_append, k1, k2] at s3
    simp only [runAll, List.length_append, s3, Res.ok_bind, Res.pure_eq]
    rw [xorBytes_append (by simp [pktKs_length])]

example : (List.replicate 32 (1 : U8)).length % 16 = 0 := by decide

set_option maxRecDepth 10000 in
/-- The signed product in the g function overflows already in the first iteration of the key setup
with the zero key: formally undefined behaviour on an ordinary call. -/
theorem rabbit_signed_overflow_reachable :
    nextOverflows (counter (loadKeyExpand (List.replicate 16 0))) = true := by decide +kernel

/-- Exactly when the signed product in the g function overflows: the sum modulo 2^32 is at least
3037000500, the smallest number whose square does not fit a `long`. -/
theorem rabbit_overflow_iff (u v : U32) : overflows u v = true ↔ 3037000500 ≤ (u.toNat + v.toNat) % 2 ^ 32 := by
  rw [← BitVec.toNat_add, overflows, decide_eq_true_iff]
  generalize (u + v).toNat = n
  constructor
  · intro h
    refine Decidable.byContradiction fun hn => ?_
    have h1 : n ≤ 3037000499 := by omega
    have h2 : n * n ≤ 3037000499 * 3037000499 := Nat.mul_le_mul h1 h1
    omega
  · intro h
    have h2 : 3037000500 * 3037000500 ≤ n * n := Nat.mul_le_mul h h
    omega

/-- On both sides of the bound, and a sum that wraps. -/
example : overflows 3037000499 0 = false ∧ overflows 3037000499 1 = true ∧ overflows 0xffffffff 2 = false := by decide

/-- What holds of C64: a call of `rabbit_next_state` is free of signed overflow exactly when every sum
of a state and a counter word is below 3037000500 modulo 2^32. -/
theorem rabbit_next_defined_partial (cs : State) :
    nextOverflows cs = false ↔ ∀ j : Fin 8, (cs.X[j].toNat + cs.C[j].toNat) % 2 ^ 32 < 3037000500 := by
  have key : ∀ j : Fin 8, overflows cs.X[j] cs.C[j] = false ↔
      (cs.X[j].toNat + cs.C[j].toNat) % 2 ^ 32 < 3037000500 := by
    intro j
    rw [← Bool.not_eq_true, rabbit_overflow_iff, Nat.not_le]
  simp only [← key, nextOverflows, List.any_eq_false, List.mem_cons, List.not_mem_nil, or_false]
  constructor
  · intro h j
    have := h j (by revert j; decide)
    simpa using this
  · intro h j _; rw [h j]; decide

set_option maxRecDepth 10000 in
/-- A state in which the call is defined, and one in which it is not. -/
example : nextOverflows ⟨.replicate 8 0, .replicate 8 0, .replicate 8 7, .replicate 8 3037000492, 0⟩ = false ∧
    nextOverflows ⟨.replicate 8 0, .replicate 8 0, .replicate 8 7, .replicate 8 3037000493, 0⟩ = true := by
  decide +kernel

end CT.Props.Rabbit
