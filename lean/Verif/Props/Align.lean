import Verif.Model.Align

/-!
# Addresses of the buffers given to the packet functions

A caller passes `uint8_t*` pointers, which may have any address, for instance behind a header of odd length.  With both
addresses multiples of four every packet function except AES-CFB makes aligned accesses only and does what the model without
addresses says; otherwise the first word access is undefined behaviour, and only packets that are too short for a word access
are processed.  AES-CFB reads misaligned words by itself: whenever the incomplete last block has more than four bytes.
-/

namespace CT.Props.Align

/-- Both buffers begin at multiples of four. -/
def Aligned (d : Ad) : Prop := d.o % 4 = 0 ∧ d.i % 4 = 0

instance (d : Ad) : Decidable (Aligned d) := inferInstanceAs (Decidable (_ ∧ _))

theorem xor32_al {d : Ad} (h : Aligned d) {io : Io} {j : Nat} (hj : j % 4 = 0) (k : U32) : d.xor32 io j k = io.xor32 j k := by
  have h1 := h.1
  have h2 := h.2
  unfold Ad.xor32
  rw [if_neg (by omega)]

theorem xor32_mis {d : Ad} (h : ¬ Aligned d) {io : Io} {j : Nat} (hj : j % 4 = 0) (k : U32) : d.xor32 io j k = .ub .misaligned := by
  unfold Ad.xor32
  unfold Aligned at h
  rw [if_pos (by omega)]

theorem ctRd32_al {d : Ad} (h : Aligned d) (mode : Bool) (io : Io) {j : Nat} (hj : j % 4 = 0) :
    d.ctRd32 mode io j = AES.ctRd32 mode io j := by
  have h1 := h.1
  have h2 := h.2
  unfold Ad.ctRd32
  cases mode
  · rw [if_neg (by simp; omega)]
  · rw [if_neg (by simp; omega)]

theorem ctRd32_odd {d : Ad} (h : Aligned d) (mode : Bool) (io : Io) {j : Nat} (hj : j % 4 ≠ 0) :
    d.ctRd32 mode io j = .ub .misaligned := by
  have h1 := h.1
  have h2 := h.2
  unfold Ad.ctRd32
  cases mode
  · rw [if_pos (by simp; omega)]
  · rw [if_pos (by simp; omega)]

theorem wordLoop_ok (d : Ad) (ks : List U32) (fuel n idx off : Nat) (io : Io) (r : Nat × Nat × Nat × Io) (ho : off % 4 = 0)
    (h : Io.wordLoop ks fuel n idx off io = .ok r) :
    d.wordLoop ks fuel n idx off io = if n < 4 ∨ Aligned d then .ok r else .ub .misaligned := by
  induction fuel generalizing n idx off io with
  | zero => cases h
  | succ fuel ih =>
    unfold Io.wordLoop at h
    unfold Ad.wordLoop
    by_cases hn : n > 3
    · rw [if_pos hn] at h ⊢
      obtain ⟨k, hk, h⟩ := Res.bind_eq_ok h
      obtain ⟨io', hx, h⟩ := Res.bind_eq_ok h
      rw [hk]
      simp only [Res.ok_bind]
      by_cases ha : Aligned d
      · rw [xor32_al ha ho, hx, Res.ok_bind, ih _ _ _ _ (by omega) h, if_pos (Or.inr ha), if_pos (Or.inr ha)]
      · rw [xor32_mis ha ho, Res.ub_bind, if_neg (fun hh => hh.elim (by omega) ha)]
    · rw [if_neg hn] at h ⊢
      rw [h, if_pos (Or.inl (by omega))]

theorem blockLoop_facts {σ : Type} (blk : σ → σ × Quad) (fuel n off : Nat) (s : σ) (io : Io) (r : Nat × Nat × σ × Io)
    (ho : off % 4 = 0) (h : Io.blockLoop blk fuel n off s io = .ok r) : r.2.1 % 4 = 0 ∧ r.1 = n % 16 := by
  induction fuel generalizing n off s io with
  | zero => cases h
  | succ fuel ih =>
    unfold Io.blockLoop at h
    by_cases hn : n > 15
    · rw [if_pos hn] at h
      dsimp only at h
      obtain ⟨_, _, h⟩ := Res.bind_eq_ok h
      obtain ⟨_, _, h⟩ := Res.bind_eq_ok h
      obtain ⟨_, _, h⟩ := Res.bind_eq_ok h
      obtain ⟨_, _, h⟩ := Res.bind_eq_ok h
      have := ih _ _ _ _ (by omega) h
      omega
    · rw [if_neg hn, Res.ok_inj] at h
      subst h
      exact ⟨ho, by dsimp only; omega⟩

theorem blockLoop_ok {σ : Type} (d : Ad) (blk : σ → σ × Quad) (fuel n off : Nat) (s : σ) (io : Io) (r : Nat × Nat × σ × Io)
    (ho : off % 4 = 0) (h : Io.blockLoop blk fuel n off s io = .ok r) :
    d.blockLoop blk fuel n off s io = if n < 16 ∨ Aligned d then .ok r else .ub .misaligned := by
  induction fuel generalizing n off s io with
  | zero => cases h
  | succ fuel ih =>
    unfold Io.blockLoop at h
    unfold Ad.blockLoop
    by_cases hn : n > 15
    · rw [if_pos hn] at h ⊢
      dsimp only at h ⊢
      by_cases ha : Aligned d
      · obtain ⟨_, h0, h⟩ := Res.bind_eq_ok h
        obtain ⟨_, h1, h⟩ := Res.bind_eq_ok h
        obtain ⟨_, h2, h⟩ := Res.bind_eq_ok h
        obtain ⟨_, h3, h⟩ := Res.bind_eq_ok h
        rw [xor32_al ha ho, h0, Res.ok_bind, xor32_al ha (by omega), h1, Res.ok_bind, xor32_al ha (by omega), h2, Res.ok_bind,
          xor32_al ha (by omega), h3, Res.ok_bind, ih _ _ _ _ (by omega) h, if_pos (Or.inr ha), if_pos (Or.inr ha)]
      · rw [xor32_mis ha ho, Res.ub_bind, if_neg (fun hh => hh.elim (by omega) ha)]
    · rw [if_neg hn] at h ⊢
      rw [h, if_pos (Or.inl (by omega))]

theorem tailLoops_ok (d : Ad) (ws : List U32) (n off : Nat) (io r : Io) (ho : off % 4 = 0)
    (h : AES.tailLoops ws n off io = .ok r) :
    d.tailLoops ws n off io = if n < 4 ∨ Aligned d then .ok r else .ub .misaligned := by
  unfold AES.tailLoops at h
  unfold Ad.tailLoops
  obtain ⟨⟨m, k, off', io'⟩, h1, h2⟩ := Res.bind_eq_ok h
  rw [wordLoop_ok d _ _ _ _ _ _ _ ho h1]
  by_cases hc : n < 4 ∨ Aligned d
  · rw [if_pos hc, if_pos hc, Res.ok_bind]
    exact h2
  · rw [if_neg hc, if_neg hc, Res.ub_bind]

/-! ### The stream ciphers -/

/-- The rest of a packet function whose word accesses all precede `f`. -/
theorem bind_ite {α β : Type} {c : Prop} [Decidable c] {a : α} {f : α → Res β} {r : β} {x : Res α}
    (hx : x = if c then .ok a else .ub .misaligned) (h : f a = .ok r) :
    (x >>= f) = if c then .ok r else .ub .misaligned := by
  by_cases hc : c
  · rw [hx, if_pos hc, if_pos hc, Res.ok_bind, h]
  · rw [hx, if_neg hc, if_neg hc, Res.ub_bind]

/-- **C138** for ChaCha. -/
theorem align_chacha (d : Ad) (rounds : Nat) (cs : ChaCha.State) (io : Io) (size : U64) (hs : size.toNat < 2 ^ 31)
    (r : ChaCha.State × Io) (h : ChaCha.processPacket rounds cs io size = .ok r) :
    d.chacha rounds cs io size = if size.toNat < 4 ∨ Aligned d then .ok r else .ub .misaligned := by
  unfold ChaCha.processPacket at h
  unfold Ad.chacha
  dsimp only at h ⊢
  have e : ((size.setWidth 32).toInt).toNat = size.toNat := by
    rw [BitVec.toInt_eq_toNat_of_lt (by rw [BitVec.toNat_setWidth]; omega), BitVec.toNat_setWidth]
    omega
  rw [if_neg (by omega)] at h ⊢
  by_cases h2 : 2 ^ 31 ≤ ((size.toNat + 3) / 4 + 15) / 16 * 16
  · omega
  rw [if_neg h2] at h ⊢
  rw [e] at h ⊢
  obtain ⟨⟨rest, idx, off, io'⟩, h1, h⟩ := Res.bind_eq_ok h
  exact bind_ite (wordLoop_ok d _ _ _ _ _ _ _ rfl h1) h

example : ∃ r, ChaCha.processPacket 20 ⟨Vector.replicate 16 3⟩ ⟨[1, 2, 3, 4, 5], [0, 0, 0, 0, 0], false⟩ 5 = .ok r ∧
    Ad.chacha ⟨0x1000, 0x2004⟩ 20 ⟨Vector.replicate 16 3⟩ ⟨[1, 2, 3, 4, 5], [0, 0, 0, 0, 0], false⟩ 5 = .ok r := by
  have h : (ChaCha.processPacket 20 ⟨Vector.replicate 16 3⟩ ⟨[1, 2, 3, 4, 5], [0, 0, 0, 0, 0], false⟩ 5).isUB = false := by decide +kernel
  cases e : ChaCha.processPacket 20 ⟨Vector.replicate 16 3⟩ ⟨[1, 2, 3, 4, 5], [0, 0, 0, 0, 0], false⟩ 5 with
  | ub u => rw [e] at h; exact absurd h (by simp [Res.isUB])
  | ok r => exact ⟨r, rfl, by rw [align_chacha _ _ _ _ _ (by decide) r e, if_pos (by decide)]⟩

/-- **C138** for HC-128. -/
theorem align_hc128 (d : Ad) (cs : HC128.State) (io : Io) (size : Nat) (r : HC128.State × Io)
    (h : HC128.processPacket cs io size = .ok r) :
    d.hc128 cs io size = if size < 4 ∨ Aligned d then .ok r else .ub .misaligned := by
  unfold HC128.processPacket at h
  unfold Ad.hc128
  by_cases h0 : size < 1
  · rw [if_pos h0] at h ⊢
    rw [h, if_pos (Or.inl (by omega))]
  rw [if_neg h0] at h ⊢
  by_cases h2 : 2 ^ 31 - 1 ≤ (size - 1) / 4
  · rw [if_pos h2] at h; cases h
  rw [if_neg h2] at h ⊢
  dsimp only at h ⊢
  obtain ⟨⟨rest, idx, off, io'⟩, h1, h⟩ := Res.bind_eq_ok h
  exact bind_ite (wordLoop_ok d _ _ _ _ _ _ _ rfl h1) h

example : (HC128.processPacket (HC128.init (List.replicate 16 1) (List.replicate 16 2)) ⟨[1, 2, 3, 4, 5], [0, 0, 0, 0, 0], false⟩ 5).isUB = false := by
  decide +kernel

/-- **C138** for Rabbit, which uses words in whole blocks only. -/
theorem align_rabbit (d : Ad) (cs : Rabbit.State) (io : Io) (size : Nat) (r : Rabbit.State × Io)
    (h : Rabbit.processPacket cs io size = .ok r) :
    d.rabbit cs io size = if size < 16 ∨ Aligned d then .ok r else .ub .misaligned := by
  unfold Rabbit.processPacket at h
  unfold Ad.rabbit
  obtain ⟨⟨left, off, cs', io'⟩, h1, h⟩ := Res.bind_eq_ok h
  exact bind_ite (blockLoop_ok d _ _ _ _ _ _ _ rfl h1) h

example : (Rabbit.processPacket (Rabbit.loadKey (List.replicate 16 0)) ⟨List.replicate 20 1, List.replicate 20 2, false⟩ 20).isUB = false := by
  decide +kernel

/-- **C138** for Sosemanuk. -/
theorem align_sosemanuk (d : Ad) (cs : Sosemanuk.State) (io : Io) (size : Nat) (r : Sosemanuk.State × Io)
    (h : Sosemanuk.processPacket cs io size = .ok r) :
    d.sosemanuk cs io size = if size < 4 ∨ Aligned d then .ok r else .ub .misaligned := by
  unfold Sosemanuk.processPacket at h
  unfold Ad.sosemanuk
  obtain ⟨⟨n, off, cs', io'⟩, h1, h⟩ := Res.bind_eq_ok h
  have hf := blockLoop_facts _ _ _ _ _ _ _ rfl h1
  dsimp only at hf
  rw [blockLoop_ok d _ _ _ _ _ _ _ rfl h1]
  by_cases hc : size < 16 ∨ Aligned d
  · rw [if_pos hc, Res.ok_bind]
    dsimp only at h ⊢
    obtain ⟨⟨rest, idx, off', io''⟩, h2, h⟩ := Res.bind_eq_ok h
    have hw := wordLoop_ok d _ _ _ _ _ _ _ hf.1 h2
    by_cases ha : Aligned d
    · rw [if_pos (Or.inr ha)] at hw ⊢
      rw [hw]; exact h
    · have hs : size < 16 := hc.resolve_right ha
      rw [show n = size by omega] at hw h2 ⊢
      exact bind_ite hw h
  · rw [if_neg hc, Res.ub_bind, if_neg (fun hh => hh.elim (fun _ => hc (Or.inl (by omega))) (fun ha => hc (Or.inr ha)))]

example : (Sosemanuk.processPacket ⟨[], 1, 2, 3, 4, 5, 6, 7, 8, 9, 10, 11, 12⟩ ⟨List.replicate 85 1, List.replicate 85 2, true⟩ 85).isUB = false := by
  decide +kernel

/-- **C138** for AES-CTR in all three builds. -/
theorem align_aesCtr {σ : Type} (d : Ad) (blk : σ → σ × Quad) (cs : σ) (io : Io) (size : Int) (r : σ × Io)
    (h : AES.ctrWith blk cs io size = .ok r) :
    d.aesCtr blk cs io size = if size < 4 ∨ Aligned d then .ok r else .ub .misaligned := by
  unfold AES.ctrWith at h
  unfold Ad.aesCtr
  obtain ⟨⟨n, off, cs', io'⟩, h1, h⟩ := Res.bind_eq_ok h
  have hf := blockLoop_facts _ _ _ _ _ _ _ rfl h1
  dsimp only at hf
  rw [blockLoop_ok d _ _ _ _ _ _ _ rfl h1]
  by_cases hc : size.toNat < 16 ∨ Aligned d
  · rw [if_pos hc, Res.ok_bind]
    dsimp only at h ⊢
    by_cases hn : n > 0
    · rw [if_pos hn] at h ⊢
      obtain ⟨io'', h2, h⟩ := Res.bind_eq_ok h
      have hw := tailLoops_ok d _ _ _ _ _ hf.1 h2
      by_cases ha : Aligned d
      · rw [if_pos (Or.inr ha)] at hw ⊢
        rw [hw]; exact h
      · have hs := hc.resolve_right ha
        refine (bind_ite hw h).trans ?_
        by_cases h4 : size < 4
        · rw [if_pos (Or.inl (by omega)), if_pos (Or.inl h4)]
        · rw [if_neg (fun hh => hh.elim (by omega) ha), if_neg (fun hh => hh.elim (by omega) ha)]
    · rw [if_neg hn] at h ⊢
      rw [h]
      by_cases ha : Aligned d
      · rw [if_pos (Or.inr ha)]
      · have hs := hc.resolve_right ha
        rw [if_pos (Or.inl (by omega))]
  · rw [if_neg hc, Res.ub_bind, if_neg (fun hh => hh.elim (fun _ => hc (Or.inl (by omega))) (fun ha => hc (Or.inr ha)))]

example : (AES.ctrPacket ⟨⟨1, 2, 3, 4⟩, AES.keyExpansion (List.replicate 16 7)⟩ ⟨[1, 2, 3, 4, 5], [0, 0, 0, 0, 0], true⟩ 5).isUB = false := by
  decide +kernel

/-! ### Cipher feedback -/

theorem full_al {d : Ad} (ha : Aligned d) (mode : Bool) (io : Io) {off : Nat} (ho : off % 4 = 0) :
    AES.fullStateUpdate (fun i => d.ctRd32 mode io (off + i)) = AES.fullStateUpdate (fun i => AES.ctRd32 mode io (off + i)) := by
  unfold AES.fullStateUpdate
  dsimp only
  rw [ctRd32_al ha mode io (j := off + 0) (by omega), ctRd32_al ha mode io (j := off + 4) (by omega),
    ctRd32_al ha mode io (j := off + 8) (by omega), ctRd32_al ha mode io (j := off + 12) (by omega)]

/-- One to three bytes are read one by one. -/
theorem partial_small (rd8 : Nat → Res U8) (rd rd' : Nat → Res U32) (q : Quad) (n : Nat) (h0 : 0 < n) (hn : n < 4) :
    AES.partialStateUpdate rd8 rd q n = AES.partialStateUpdate rd8 rd' q n := by
  match n, h0, hn with
  | 1, _, _ => rfl
  | 2, _, _ => rfl
  | 3, _, _ => rfl

theorem partial_four (rd8 : Nat → Res U8) (rd rd' : Nat → Res U32) (q : Quad) (h : rd' 0 = rd 0) :
    AES.partialStateUpdate rd8 rd' q 4 = AES.partialStateUpdate rd8 rd q 4 := by
  have e (f : Nat → Res U32) : AES.partialStateUpdate rd8 f q 4 = (f 0 >>= fun w => .ok ⟨q.w1, q.w2, q.w3, w⟩) := rfl
  rw [e, e, h]

/-- With five to fifteen bytes there is a word read at an offset that is no multiple of four. -/
theorem partial_odd (rd8 : Nat → Res U8) (rd rd' : Nat → Res U32) (q q' : Quad) (n : Nat) (h4 : 4 < n) (hn : n < 16)
    (h0 : rd' 0 = rd 0) (h' : ∀ i, i % 4 ≠ 0 → rd' i = .ub .misaligned)
    (h : AES.partialStateUpdate rd8 rd q n = .ok q') : AES.partialStateUpdate rd8 rd' q n = .ub .misaligned := by
  have h1 := h' 1 (by decide)
  have h2 := h' 2 (by decide)
  have h3 := h' 3 (by decide)
  have hx : n = 5 ∨ n = 6 ∨ n = 7 ∨ n = 8 ∨ n = 9 ∨ n = 10 ∨ n = 11 ∨ n = 12 ∨ n = 13 ∨ n = 14 ∨ n = 15 := by omega
  clear h' h4 hn
  rcases hx with e | e | e | e | e | e | e | e | e | e | e <;> subst e <;>
    cases e0 : rd8 0 <;> cases e1 : rd8 1 <;> cases e2 : rd8 2 <;> cases f0 : rd 0 <;>
    simp [AES.partialStateUpdate, h0, h1, h2, h3, e0, e1, e2, f0] at h ⊢

theorem cfbLoop_ok (d : Ad) (va : AES.CfbVariant) (mode : Bool) (fuel n off : Nat) (cs : AES.State) (io : Io)
    (r : AES.State × Io) (ho : off % 4 = 0) (h : AES.cfbLoop va mode fuel n off cs io = .ok r) :
    d.cfbLoop va mode fuel n off cs io = if n < 4 ∨ (Aligned d ∧ n % 16 ≤ 4) then .ok r else .ub .misaligned := by
  induction fuel generalizing n off cs io with
  | zero => cases h
  | succ fuel ih =>
    unfold AES.cfbLoop at h
    unfold Ad.cfbLoop
    by_cases hn : n > 0
    · rw [if_pos hn] at h ⊢
      dsimp only at h ⊢
      by_cases h16 : n ≥ 16
      · rw [if_pos h16] at h ⊢
        by_cases ha : Aligned d
        · obtain ⟨_, h0, h⟩ := Res.bind_eq_ok h
          obtain ⟨_, h1, h⟩ := Res.bind_eq_ok h
          obtain ⟨_, h2, h⟩ := Res.bind_eq_ok h
          obtain ⟨_, h3, h⟩ := Res.bind_eq_ok h
          obtain ⟨_, h5, h⟩ := Res.bind_eq_ok h
          rw [xor32_al ha ho, h0, Res.ok_bind, xor32_al ha (by omega), h1, Res.ok_bind, xor32_al ha (by omega), h2, Res.ok_bind,
            xor32_al ha (by omega), h3, Res.ok_bind, full_al ha mode _ ho, h5, Res.ok_bind, ih _ _ _ _ (by omega) h]
          by_cases hc : n % 16 ≤ 4
          · rw [if_pos (Or.inr ⟨ha, by omega⟩), if_pos (Or.inr ⟨ha, hc⟩)]
          · rw [if_neg (fun hh => hh.elim (by omega) (fun x => by omega)), if_neg (fun hh => hh.elim (by omega) (fun x => hc x.2))]
        · rw [xor32_mis ha ho, Res.ub_bind, if_neg (fun hh => hh.elim (by omega) (fun x => ha x.1))]
      · rw [if_neg h16] at h ⊢
        obtain ⟨io1, h1, h⟩ := Res.bind_eq_ok h
        obtain ⟨reg, h2, h3⟩ := Res.bind_eq_ok h
        rw [tailLoops_ok d _ _ _ _ _ ho h1]
        by_cases hs : n < 4
        · rw [if_pos (Or.inl hs), if_pos (Or.inl hs), Res.ok_bind,
            partial_small _ _ (fun i => AES.ctRd32 mode io1 (off + i)) _ _ hn hs, h2, Res.ok_bind, h3]
        · by_cases ha : Aligned d
          · rw [if_pos (Or.inr ha), Res.ok_bind]
            by_cases h4 : n = 4
            · subst h4
              rw [partial_four _ (fun i => AES.ctRd32 mode io1 (off + i)) _ _ (ctRd32_al ha mode io1 (j := off + 0) (by omega)),
                h2, Res.ok_bind, h3, if_pos (Or.inr ⟨ha, by decide⟩)]
            · rw [partial_odd _ (fun i => AES.ctRd32 mode io1 (off + i)) _ _ _ _ (by omega) (by omega)
                (ctRd32_al ha mode io1 (j := off + 0) (by omega)) (fun i hi => ctRd32_odd ha mode io1 (j := off + i) (by omega)) h2,
                Res.ub_bind, if_neg (fun hh => hh.elim hs (fun x => by omega))]
          · rw [if_neg (fun hh => hh.elim hs ha), Res.ub_bind, if_neg (fun hh => hh.elim hs (fun x => ha x.1))]
    · rw [if_neg hn] at h ⊢
      rw [h, if_pos (Or.inl (by omega))]

/-- **C138** for AES-CFB in all builds and both directions. -/
theorem align_cfb_partial (d : Ad) (va : AES.CfbVariant) (mode : Bool) (cs : AES.State) (io : Io) (size : Int) (r : AES.State × Io)
    (h : AES.cfbPacket va mode cs io size = .ok r) :
    d.cfb va mode cs io size = if size < 4 ∨ (Aligned d ∧ size % 16 ≤ 4) then .ok r else .ub .misaligned := by
  unfold AES.cfbPacket at h
  unfold Ad.cfb
  rw [cfbLoop_ok d va mode _ _ _ _ _ _ rfl h]
  by_cases h4 : size < 4
  · rw [if_pos (Or.inl (by omega)), if_pos (Or.inl h4)]
  by_cases ha : Aligned d
  · by_cases hm : size % 16 ≤ 4
    · rw [if_pos (Or.inr ⟨ha, by omega⟩), if_pos (Or.inr ⟨ha, hm⟩)]
    · rw [if_neg (fun hh => hh.elim (by omega) (fun x => by omega)), if_neg (fun hh => hh.elim h4 (fun x => hm x.2))]
  · rw [if_neg (fun hh => hh.elim (by omega) (fun x => ha x.1)), if_neg (fun hh => hh.elim h4 (fun x => ha x.1))]

example : (AES.cfbPacket AES.x86 false ⟨⟨1, 2, 3, 4⟩, AES.keyExpansion (List.replicate 16 7)⟩ ⟨List.replicate 20 1, List.replicate 20 2, false⟩ 20).isUB =
    false := by
  decide +kernel

/-! ### AEGIS -/

theorem aegisLoop_ok (d : Ad) (rnd : Quad → Quad → Quad) (dec : Bool) (bound fuel tmp : Nat) (cs : AEGIS.State) (io : Io)
    (r : Nat × AEGIS.State × Io) (ho : tmp % 4 = 0) (h : AEGIS.blockLoop rnd dec bound fuel tmp cs io = .ok r) :
    r.1 % 4 = 0 ∧ d.aegisLoop rnd dec bound fuel tmp cs io = if bound ≤ tmp ∨ Aligned d then .ok r else .ub .misaligned := by
  induction fuel generalizing tmp cs io with
  | zero => cases h
  | succ fuel ih =>
    unfold AEGIS.blockLoop at h
    unfold Ad.aegisLoop
    by_cases hn : tmp < bound
    · rw [if_pos hn] at h ⊢
      dsimp only at h ⊢
      obtain ⟨_, h0, h⟩ := Res.bind_eq_ok h
      obtain ⟨_, h1, h⟩ := Res.bind_eq_ok h
      obtain ⟨_, h2, h⟩ := Res.bind_eq_ok h
      obtain ⟨_, h3, h⟩ := Res.bind_eq_ok h
      obtain ⟨_, h5, h⟩ := Res.bind_eq_ok h
      have ih' := ih _ _ _ (by omega) h
      refine ⟨ih'.1, ?_⟩
      by_cases ha : Aligned d
      · have e : AEGIS.rdQuad = AES.fullStateUpdate := rfl
        rw [e] at h5 ⊢
        rw [xor32_al ha ho, h0, Res.ok_bind, xor32_al ha (by omega), h1, Res.ok_bind, xor32_al ha (by omega), h2, Res.ok_bind,
          xor32_al ha (by omega), h3, Res.ok_bind, full_al ha _ _ ho, h5, Res.ok_bind, ih'.2, if_pos (Or.inr ha), if_pos (Or.inr ha)]
      · rw [xor32_mis ha ho, Res.ub_bind, if_neg (fun hh => hh.elim (by omega) ha)]
    · rw [if_neg hn] at h ⊢
      rw [h, if_pos (Or.inl (by omega))]
      rw [Res.ok_inj] at h
      subst h
      exact ⟨ho, rfl⟩

theorem aegisLast_ok (d : Ad) (rnd : Quad → Quad → Quad) (dec : Bool) (n off : Nat) (cs : AEGIS.State) (io : Io)
    (r : AEGIS.State × Io) (ho : off % 4 = 0) (h : AEGIS.lastBlock rnd dec n off cs io = .ok r) :
    d.aegisLast rnd dec n off cs io = if n < 4 ∨ Aligned d then .ok r else .ub .misaligned := by
  unfold AEGIS.lastBlock at h
  unfold Ad.aegisLast
  obtain ⟨b, h1, h⟩ := Res.bind_eq_ok h
  rw [h1, Res.ok_bind]
  dsimp only at h ⊢
  obtain ⟨⟨rest, i, off', io'⟩, h2, h⟩ := Res.bind_eq_ok h
  exact bind_ite (wordLoop_ok d _ _ _ _ _ _ _ ho h2) h

theorem crypt_ok (d : Ad) (rnd : Quad → Quad → Quad) (dec : Bool) (cs : AEGIS.State) (io : Io) (n : Nat) (r : AEGIS.State × Io)
    (hn : n = 0 ∨ 15 ≤ n) (hb : n < 2 ^ 64) (h : AEGIS.crypt rnd dec cs io n = .ok r) :
    d.aegisCrypt rnd dec cs io n = if n = 0 ∨ Aligned d then .ok r else .ub .misaligned := by
  unfold AEGIS.crypt at h
  unfold Ad.aegisCrypt
  by_cases h0 : n = 0
  · rw [if_pos h0] at h ⊢
    rw [h, if_pos (Or.inl h0)]
  rw [if_neg h0] at h ⊢
  have hb' : (n + (2 ^ 64 - 15)) % 2 ^ 64 = n - 15 := by omega
  rw [hb'] at h ⊢
  generalize 2 ^ 60 = F at h ⊢
  dsimp only at h ⊢
  obtain ⟨⟨tmp, cs', io'⟩, h1, h⟩ := Res.bind_eq_ok h
  have hl := aegisLoop_ok d rnd dec _ _ _ _ _ _ rfl h1
  dsimp only at hl h
  rw [hl.2]
  by_cases ha : Aligned d
  · rw [if_pos (Or.inr ha), if_pos (Or.inr ha), Res.ok_bind]
    dsimp only
    by_cases ht : tmp = n
    · rw [if_pos ht] at h ⊢
      exact h
    · rw [if_neg ht] at h ⊢
      rw [aegisLast_ok d rnd dec _ _ _ _ _ hl.1 h, if_pos (Or.inr ha)]
  · rw [if_neg (c := n = 0 ∨ Aligned d) (fun hh => hh.elim h0 ha)]
    by_cases h15 : n = 15
    · subst h15
      rw [if_pos (Or.inl (by decide)), Res.ok_bind]
      dsimp only
      cases F with
      | zero => cases h1
      | succ F =>
        unfold AEGIS.blockLoop at h1
        rw [if_neg (by decide), Res.ok_inj] at h1
        injection h1 with e1 e2
        subst e1
        rw [if_neg (by decide)] at h ⊢
        rw [aegisLast_ok d rnd dec _ _ _ _ _ rfl h, if_neg (fun hh => hh.elim (by decide) ha)]
    · rw [if_neg (fun hh => hh.elim (by omega) ha), Res.ub_bind]

/-- **C138** for AEGIS-128 encryption in all builds (shorter messages: `C13`). -/
theorem align_aegis_encrypt (d : Ad) (rnd : Quad → Quad → Quad) (cs : AEGIS.State) (io : Io) (ad iv : List U8) (adlen n : Nat)
    (r : AEGIS.State × Io × List U8) (hn : n = 0 ∨ 15 ≤ n) (hb : n < 2 ^ 64)
    (h : AEGIS.encryptPacket rnd cs io ad iv adlen n = .ok r) :
    d.aegisEncrypt rnd cs io ad iv adlen n = if n = 0 ∨ Aligned d then .ok r else .ub .misaligned := by
  unfold AEGIS.encryptPacket at h
  unfold Ad.aegisEncrypt
  dsimp only at h ⊢
  obtain ⟨cs1, h1, h⟩ := Res.bind_eq_ok h
  rw [h1, Res.ok_bind]
  obtain ⟨⟨cs2, io2⟩, h2, h⟩ := Res.bind_eq_ok h
  exact bind_ite (crypt_ok d rnd false _ _ _ _ hn hb h2) h

example : (AEGIS.encryptPacket AEGIS.rndPortable ⟨⟨1, 2, 3, 4⟩, ⟨1, 2, 3, 4⟩, ⟨1, 2, 3, 4⟩, ⟨1, 2, 3, 4⟩, ⟨1, 2, 3, 4⟩, ⟨1, 2, 3, 4⟩⟩
      ⟨List.replicate 16 1, List.replicate 16 2, false⟩ [3] (List.replicate 16 9) 1 16).isUB = false := by
  decide +kernel

/-- **C138** for AEGIS-128 decryption. -/
theorem align_aegis_decrypt (d : Ad) (rnd : Quad → Quad → Quad) (cs : AEGIS.State) (io : Io) (ad iv tag : List U8) (adlen n : Nat)
    (r : AEGIS.State × Io × List U8 × Int) (hn : n = 0 ∨ 15 ≤ n) (hb : n < 2 ^ 64)
    (h : AEGIS.decryptPacket rnd cs io ad iv tag adlen n = .ok r) :
    d.aegisDecrypt rnd cs io ad iv tag adlen n = if n = 0 ∨ Aligned d then .ok r else .ub .misaligned := by
  unfold AEGIS.decryptPacket at h
  unfold Ad.aegisDecrypt
  dsimp only at h ⊢
  obtain ⟨cs1, h1, h⟩ := Res.bind_eq_ok h
  rw [h1, Res.ok_bind]
  obtain ⟨⟨cs2, io2⟩, h2, h⟩ := Res.bind_eq_ok h
  exact bind_ite (crypt_ok d rnd true _ _ _ _ hn hb h2) h

example : (AEGIS.decryptPacket AEGIS.rndPortable ⟨⟨1, 2, 3, 4⟩, ⟨1, 2, 3, 4⟩, ⟨1, 2, 3, 4⟩, ⟨1, 2, 3, 4⟩, ⟨1, 2, 3, 4⟩, ⟨1, 2, 3, 4⟩⟩
      ⟨List.replicate 16 1, List.replicate 16 2, false⟩ [3] (List.replicate 16 9) (List.replicate 16 8) 1 16).isUB = false := by
  decide +kernel

/-! ### Wrong addresses, and AES-CFB with right ones -/

set_option maxRecDepth 100000 in
/-- **C138**, refuted for AES-CFB: both buffers at multiples of sixteen, eight bytes, and a word is read at offset 1. -/
theorem align_cfb_refuted : ¬ ∀ (d : Ad) (mode : Bool) (cs : AES.State) (io : Io) (size : Int) (r : AES.State × Io),
    Aligned d → AES.cfbPacket AES.portable mode cs io size = .ok r → d.cfb AES.portable mode cs io size = .ok r := by
  intro h
  have h1 : (AES.cfbPacket AES.portable false (AES.cfbInit (List.replicate 16 7) (List.replicate 16 9))
      ⟨List.replicate 8 1, List.replicate 8 2, false⟩ 8).isUB = false := by decide +kernel
  cases e : AES.cfbPacket AES.portable false (AES.cfbInit (List.replicate 16 7) (List.replicate 16 9))
      ⟨List.replicate 8 1, List.replicate 8 2, false⟩ 8 with
  | ub w => rw [e] at h1; cases h1
  | ok r =>
    have h2 := h ⟨0x1000, 0x2000⟩ false _ _ _ r (by decide) e
    rw [align_cfb_partial _ _ _ _ _ _ _ e, if_neg (by decide)] at h2
    cases h2

set_option maxRecDepth 100000 in
/-- The hypotheses are met: five bytes with every cipher, fifteen with AEGIS. -/
example : (ChaCha.processPacket 20 ⟨Vector.replicate 16 3⟩ ⟨[1, 2, 3, 4, 5], [0, 0, 0, 0, 0], false⟩ 5).isUB = false ∧
    (Rabbit.processPacket (Rabbit.loadKey (List.replicate 16 0)) ⟨List.replicate 20 1, List.replicate 20 2, false⟩ 20).isUB = false ∧
    (AES.ctrPacket ⟨⟨1, 2, 3, 4⟩, AES.keyExpansion (List.replicate 16 7)⟩ ⟨[1, 2, 3, 4, 5], [0, 0, 0, 0, 0], true⟩ 5).isUB = false ∧
    (AEGIS.encryptPacket AEGIS.rndPortable ⟨⟨1, 2, 3, 4⟩, ⟨1, 2, 3, 4⟩, ⟨1, 2, 3, 4⟩, ⟨1, 2, 3, 4⟩, ⟨1, 2, 3, 4⟩, ⟨1, 2, 3, 4⟩⟩
      ⟨List.replicate 15 1, List.replicate 15 2, false⟩ [] (List.replicate 16 9) 0 15).isUB = false := by
  decide +kernel

set_option maxRecDepth 100000 in
/-- ChaCha with the input behind a header of five bytes: undefined with four bytes, defined with three. -/
example : Ad.chacha ⟨0x1000, 0x2005⟩ 20 ⟨Vector.replicate 16 3⟩ ⟨[1, 2, 3, 4], [0, 0, 0, 0], false⟩ 4 = .ub .misaligned ∧
    Ad.chacha ⟨0x1000, 0x2005⟩ 20 ⟨Vector.replicate 16 3⟩ ⟨[1, 2, 3, 4], [0, 0, 0, 0], false⟩ 3 =
      ChaCha.processPacket 20 ⟨Vector.replicate 16 3⟩ ⟨[1, 2, 3, 4], [0, 0, 0, 0], false⟩ 3 := by
  decide +kernel

end CT.Props.Align
