import Verif.Proof.RabbitMerge
import Verif.Props.Rabbit

/-!
# The state of Rabbit does not come back, and IVs stay apart (C133, C134)
-/

namespace CT.Props.RabbitPeriod
open CT.Rabbit CT.Props.Rabbit

/-- Keystream blocks that a list of packets uses. -/
def blocks (ps : List (List U8)) : Nat := (ps.map fun p => (p.length + 15) / 16).sum

theorem runAll_state (ps : List (List U8)) (cs cs' : State) (os : List (List U8))
    (h : runAll processPacket cs ps = .ok (cs', os)) : cs' = orb (blocks ps) cs := by
  induction ps generalizing cs os with
  | nil => simp only [runAll, Res.ok_inj, Prod.mk.injEq] at h; rw [← h.1]; rfl
  | cons p ps ih =>
    rw [runAll, isStream.single (s := cs) p trivial trivial] at h
    rw [Res.ok_bind] at h
    obtain ⟨⟨a, b⟩, h1, h2⟩ := Res.bind_eq_ok h
    simp only [Res.pure_eq, Res.ok_inj, Prod.mk.injEq] at h2
    have i := ih _ _ (h2.1 ▸ h1)
    have e : blocks (p :: ps) = (p.length + 15) / 16 + blocks ps := by
      rw [blocks, List.map_cons, List.sum_cons, ← blocks]
    rw [i, e, orb_add, pktNext, blkState_orb]

theorem update4_orb (s : State) : update4 s = orb 4 s := rfl

theorem loadKey_carry (key : List U8) : (loadKey key).carry.toNat ≤ 1 := by
  unfold loadKey
  dsimp only
  rw [update4]
  exact update_carry_le _

theorem history_carry {key : List U8} {cs : State} (h : History key cs) : cs.carry.toNat ≤ 1 := by
  induction h with
  | key => exact loadKey_carry key
  | iv iv _ _ => rw [loadIv, update4]; exact update_carry_le _
  | @packet cs cs' io io' size _ hp ih =>
    rw [processPacket] at hp
    obtain ⟨⟨left, off, c, io⟩, h1, h2⟩ := Res.bind_eq_ok hp
    have hb : ∀ (fuel n off : Nat) (cs : State) (io : Io) (r : Nat × Nat × State × Io), cs.carry.toNat ≤ 1 →
        Io.blockLoop extract fuel n off cs io = .ok r → r.2.2.1.carry.toNat ≤ 1 := by
      intro fuel
      induction fuel with
      | zero => intro n off cs io r hc h; cases h
      | succ fuel ih =>
        intro n off cs io r hc h
        rw [Io.blockLoop] at h
        split at h
        · obtain ⟨_, _, h⟩ := Res.bind_eq_ok h
          obtain ⟨_, _, h⟩ := Res.bind_eq_ok h
          obtain ⟨_, _, h⟩ := Res.bind_eq_ok h
          obtain ⟨_, _, h⟩ := Res.bind_eq_ok h
          rw [extract_fst] at h
          exact ih _ _ _ _ _ (update_carry_le cs) h
        · cases h; exact hc
    have hc := hb _ _ _ _ _ _ ih h1
    simp only at h2 hc
    split at h2
    · obtain ⟨_, _, h3⟩ := Res.bind_eq_ok h2
      cases h3
      exact update_carry_le c
    · cases h2; exact hc

/-- C133.  In whatever state of a session the caller starts: packets that use at least one and fewer than
`63 · 2^26` keystream blocks (63 GiB) never leave counters and carry bit as they were, so the state is a new
one.  No condition on the sums: this covers the runs in which the code drops a carry. -/
theorem rabbit_no_return (key : List U8) (cs : State) (h : History key cs) (ps : List (List U8))
    (h1 : 0 < blocks ps) (h2 : blocks ps < 63 * 2 ^ 26) (cs' : State) (os : List (List U8))
    (hr : runAll processPacket cs ps = .ok (cs', os)) : (cs'.C, cs'.carry) ≠ (cs.C, cs.carry) := by
  intro e
  rw [Prod.mk.injEq] at e
  have s := runAll_state ps cs cs' os hr
  have n := orb_ne (blocks ps) cs (history_carry h) h1 h2
  rw [← val_num, ← val_num, ← s] at n
  exact n (num_congr e.1 e.2)

example (cs' : State) (os : List (List U8)) (hr : runAll processPacket (loadKey (List.replicate 16 0)) [List.replicate 20 7, [1]] = .ok (cs', os)) :
    (cs'.C, cs'.carry) ≠ ((loadKey (List.replicate 16 0)).C, (loadKey (List.replicate 16 0)).carry) :=
  rabbit_no_return _ _ .key _ (by decide) (by decide) _ _ hr

/-- C133.  While no sum of the counter system is exactly `2^32`, counters and carry bit come back only after a
multiple of `2^256 - 1` blocks, as RFC 4503 intends. -/
theorem rabbit_period_clean (key iv : List U8) (ps : List (List U8))
    (hc : Spec.Rabbit.cleanRun key iv (blocks ps) = true) (cs' : State) (os : List (List U8))
    (hr : runAll processPacket (loadIv (loadKey key) iv) ps = .ok (cs', os))
    (e : (cs'.C, cs'.carry) = ((loadIv (loadKey key) iv).C, (loadIv (loadKey key) iv).carry)) :
    (2 ^ 256 - 1) ∣ blocks ps := by
  obtain ⟨r1, r2⟩ := loadIv_R hc
  rw [Prod.mk.injEq] at e
  have s := runAll_state ps _ cs' os hr
  exact orb_period _ r1 r2 (by rw [← s]; exact num_congr e.1 e.2)

/-- Non-trivial instance: two packets of 20 and 1 bytes use three blocks. -/
example : blocks [List.replicate 20 7, [1]] = 3 ∧ 0 < 3 ∧ 3 < 63 * 2 ^ 26 := by decide

example : History (List.replicate 16 0) (loadIv (loadKey (List.replicate 16 0)) (List.replicate 8 0)) :=
  .iv _ .key

set_option maxRecDepth 10000 in
/-- Non-trivial instance of the condition of `rabbit_period_clean`, three blocks. -/
example : Spec.Rabbit.cleanRun
    [0xAC, 0xC3, 0x51, 0xDC, 0xF1, 0x62, 0xFC, 0x3B, 0xFE, 0x36, 0x3D, 0x2E, 0x29, 0x13, 0x28, 0x91]
    [0x59, 0x7E, 0x26, 0xC1, 0x75, 0xF5, 0x73, 0xC3] (blocks [List.replicate 20 7, [1]]) = true := by decide +kernel

/-! ### IVs -/

theorem xor_left_cancel {n : Nat} {a x y : BitVec n} (h : a ^^^ x = a ^^^ y) : x = y := by
  have : a ^^^ (a ^^^ x) = a ^^^ (a ^^^ y) := by rw [h]
  simpa [← BitVec.xor_assoc] using this

theorem le32_inj {a b c d a' b' c' d' : U8} (h : le32 a b c d = le32 a' b' c' d') :
    a = a' ∧ b = b' ∧ c = c' ∧ d = d' := by
  have t := congrArg BitVec.toNat h
  rw [le32_toNat, le32_toNat] at t
  have := a.isLt; have := b.isLt; have := c.isLt; have := d.isLt
  have := a'.isLt; have := b'.isLt; have := c'.isLt; have := d'.isLt
  refine ⟨?_, ?_, ?_, ?_⟩ <;> apply BitVec.eq_of_toNat_eq <;> omega

theorem ivMix_inj (cs : State) (iv iv' : List U8) (h : iv.length = 8) (h' : iv'.length = 8)
    (e : (ivMix cs iv).C = (ivMix cs iv').C) : iv = iv' := by
  obtain ⟨a0, a1, a2, a3, a4, a5, a6, a7, rfl⟩ : ∃ a0 a1 a2 a3 a4 a5 a6 a7, iv = [a0, a1, a2, a3, a4, a5, a6, a7] := by
    match iv, h with
    | [a0, a1, a2, a3, a4, a5, a6, a7], _ => exact ⟨_, _, _, _, _, _, _, _, rfl⟩
  obtain ⟨b0, b1, b2, b3, b4, b5, b6, b7, rfl⟩ : ∃ a0 a1 a2 a3 a4 a5 a6 a7, iv' = [a0, a1, a2, a3, a4, a5, a6, a7] := by
    match iv', h' with
    | [a0, a1, a2, a3, a4, a5, a6, a7], _ => exact ⟨_, _, _, _, _, _, _, _, rfl⟩
  have e0 := congrArg (fun v : Vector U32 8 => v[0]) e
  have e2 := congrArg (fun v : Vector U32 8 => v[2]) e
  simp only [ivMix] at e0 e2
  obtain ⟨x0, x1, x2, x3⟩ := le32_inj (xor_left_cancel e0)
  obtain ⟨x4, x5, x6, x7⟩ := le32_inj (xor_left_cancel e2)
  simp only [List.getD_cons_zero, List.getD_cons_succ] at x0 x1 x2 x3 x4 x5 x6 x7
  rw [x0, x1, x2, x3, x4, x5, x6, x7]

/-- C134, the part that holds: two different IVs loaded in the same state of a session give, after the same
number of keystream blocks, different counters or carry bits, provided that on the way the counters are never a
`Clash`, one particular pattern in all of the counters 1 to 7.  Missing from the full statement: that pattern
(it is not known whether a key reaches it). -/
theorem rabbit_iv_apart_partial (key : List U8) (cs : State) (h : History key cs) (iv iv' : List U8)
    (hl : iv.length = 8) (hl' : iv'.length = 8) (hne : iv ≠ iv') (ps qs : List (List U8))
    (hb : blocks ps = blocks qs) (c1 c2 : State) (os1 os2 : List (List U8))
    (h1 : runAll processPacket (loadIv cs iv) ps = .ok (c1, os1))
    (h2 : runAll processPacket (loadIv cs iv') qs = .ok (c2, os2))
    (hn : ∀ i < 4 + blocks ps, ¬ Clash (orb i (ivMix cs iv)) (orb i (ivMix cs iv')) ∧
      ¬ Clash (orb i (ivMix cs iv')) (orb i (ivMix cs iv))) : (c1.C, c1.carry) ≠ (c2.C, c2.carry) := by
  intro e
  rw [Prod.mk.injEq] at e
  have s1 := runAll_state ps _ c1 os1 h1
  have s2 := runAll_state qs _ c2 os2 h2
  rw [loadIv, update4_orb, ← orb_add] at s1 s2
  rw [← hb] at s2
  have hk := history_carry h
  have hc : (ivMix cs iv).carry.toNat ≤ 1 := by unfold ivMix; exact hk
  have hc' : (ivMix cs iv').carry.toNat ≤ 1 := by unfold ivMix; exact hk
  have n := num_congr e.1 e.2
  rw [s1, s2] at n
  rcases orb_back (4 + blocks ps) _ _ hc hc' n with n | ⟨i, hi, n | n⟩
  · apply hne
    apply ivMix_inj cs iv iv' hl hl'
    rw [num, num] at n
    have cc : (ivMix cs iv).carry = (ivMix cs iv').carry := by unfold ivMix; rfl
    rw [cc] at n
    have d := dsum_inj _ _ 8 0 (by omega : dsum (ivMix cs iv) 8 0 = dsum (ivMix cs iv') 8 0)
    exact C_eq_of_dg (fun i hi => d i (Nat.zero_le i) (by omega))
  · exact (hn i hi).1 n
  · exact (hn i hi).2 n

instance (s t : State) : Decidable (Clash s t) :=
  decidable_of_iff (∀ j : Fin 8, 1 ≤ j.val →
    (dg s j = 0 ∧ dg t j = 2 ^ 32 - 1) ∨ (dg s j + aa j = 2 ^ 32 ∧ dg t j + aa j = 2 ^ 32 - 1))
    ⟨fun h j h1 h2 => h ⟨j, h2⟩ h1, fun h j h1 => h j.val h1 j.isLt⟩

set_option maxRecDepth 10000 in
/-- Non-trivial instance: the zero key, IVs that differ in one bit, three blocks. -/
example : ∀ i < 4 + 3, ¬ Clash (orb i (ivMix (loadKey (List.replicate 16 0)) (List.replicate 8 0)))
      (orb i (ivMix (loadKey (List.replicate 16 0)) [1, 0, 0, 0, 0, 0, 0, 0])) ∧
    ¬ Clash (orb i (ivMix (loadKey (List.replicate 16 0)) [1, 0, 0, 0, 0, 0, 0, 0]))
      (orb i (ivMix (loadKey (List.replicate 16 0)) (List.replicate 8 0))) := by decide +kernel

end CT.Props.RabbitPeriod
