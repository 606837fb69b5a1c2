import Verif.Proof.AESCfb

/-!
# AES cipher feedback mode (C36 - C40)
-/

namespace CT.Props.AES
open CT.AES

/-- Encryption and decryption of packets by one build. -/
def enc (v : CfbVariant) : PacketFn State := fun s io n => cfbPacket v false s io n
def dec (v : CfbVariant) : PacketFn State := fun s io n => cfbPacket v true s io n

theorem cfb_single (v : CfbVariant) (mode : Bool) (cs : State) (p : List U8) (h4 : p.length % 4 ≤ 1) :
    cfbPacket v mode cs ⟨p, List.replicate p.length 0, false⟩ p.length =
      .ok ((cfbRun v (!mode) cs p).2, ⟨p, xorBytes p (cfbRun v (!mode) cs p).1, false⟩) := by
  rw [cfbPacket_eq v mode cs h4 ⟨by simp [Io.src], by simp⟩]
  have hl := cfbRun_length v (!mode) cs p h4
  simp [Io.xored, Io.src, hl]

theorem enc_cons (v : CfbVariant) (cs : State) (p : List U8) (ps : List (List U8)) (h4 : p.length % 4 ≤ 1) :
    runAll (enc v) cs (p :: ps) = (do
      let q ← runAll (enc v) (cfbRun v true cs p).2 ps
      return (q.1, xorBytes p (cfbRun v true cs p).1 :: q.2)) := by
  rw [runAll, enc, cfb_single v false cs p h4]; rfl

theorem dec_cons (v : CfbVariant) (cs : State) (p : List U8) (ps : List (List U8)) (h4 : p.length % 4 ≤ 1) :
    runAll (dec v) cs (p :: ps) = (do
      let q ← runAll (dec v) (cfbRun v false cs p).2 ps
      return (q.1, xorBytes p (cfbRun v false cs p).1 :: q.2)) := by
  rw [runAll, dec, cfb_single v true cs p h4]; rfl

theorem enc_length (v : CfbVariant) (cs : State) (p : List U8) (h4 : p.length % 4 ≤ 1) :
    (xorBytes p (cfbRun v true cs p).1).length = p.length := by
  rw [xorBytes_length, cfbRun_length v true cs p h4]; omega

theorem dec_enc (v : CfbVariant) (cs : State) (p : List U8) (h4 : p.length % 4 ≤ 1) :
    xorBytes (xorBytes p (cfbRun v true cs p).1) (cfbRun v true cs p).1 = p :=
  xorBytes_xorBytes _ _ (by rw [cfbRun_length v true cs p h4]; omega)

/-! ### C36 -/

/-- C36, the part that holds: in every build, a receiver in the sender's state decrypts the sender's
packets one by one, the register being carried over, for packets of sizes 0 and 1 modulo 4.
Missing from the full statement: the other sizes, which are undefined behaviour (`aes_cfb_ub_iff`). -/
theorem aes_cfb_lockstep_partial (v : CfbVariant) (cs : State) (ps : List (List U8)) (h4 : ∀ p ∈ ps, p.length % 4 ≤ 1) :
    ∃ cs' outs, runAll (enc v) cs ps = .ok (cs', outs) ∧ outs.map List.length = ps.map List.length ∧
      runAll (dec v) cs outs = .ok (cs', ps) := by
  induction ps generalizing cs with
  | nil => exact ⟨cs, [], rfl, rfl, rfl⟩
  | cons p ps ih =>
    have hp := h4 p (by simp)
    obtain ⟨cs', outs, h1, h2, h3⟩ := ih (cfbRun v true cs p).2 (fun q hq => h4 q (by simp [hq]))
    have hl := enc_length v cs p hp
    refine ⟨cs', xorBytes p (cfbRun v true cs p).1 :: outs, ?_, ?_, ?_⟩
    · rw [enc_cons v cs p ps hp, h1]; rfl
    · simp only [List.map_cons, hl, h2]
    · rw [dec_cons v cs _ outs (by rw [hl]; exact hp), cfbRun_dec v cs p hp, h3, dec_enc v cs p hp]; rfl

/-- Non-trivial instance: packets ending inside a block. -/
example : ∀ p ∈ [List.replicate 37 (1 : U8), [], List.replicate 4 2, List.replicate 29 3], p.length % 4 ≤ 1 := by decide

/-- C36: with room in both buffers a packet is undefined behaviour exactly when two or three bytes
are left after the last whole word. -/
theorem aes_cfb_ub_iff (v : CfbVariant) (mode : Bool) (cs : State) (io : Io) (n : Nat) (hf : io.Fits n) :
    (cfbPacket v mode cs io n).isUB = true ↔ 2 ≤ n % 4 := by
  by_cases h : n % 4 ≤ 1
  · rw [cfbPacket_eq v mode cs h hf]; simp; omega
  · rw [cfbPacket_ub v mode cs (by omega) hf]; simp; omega

/-- C36 is false in general: a six-byte packet is undefined behaviour under every key. -/
theorem aes_cfb_lockstep_refuted : ¬ ∀ (key iv : List U8) (ps : List (List U8)), key.length = 16 → iv.length = 16 →
    ∃ cs' outs, runAll (enc portable) (cfbInit key iv) ps = .ok (cs', outs) := by
  intro h
  obtain ⟨_, _, h1⟩ := h (List.replicate 16 0) (List.replicate 16 0) [List.replicate 6 0] (by decide) (by decide)
  rw [runAll] at h1
  obtain ⟨r, h2, _⟩ := Res.bind_eq_ok h1
  have hub := cfbPacket_ub portable false (cfbInit (List.replicate 16 0) (List.replicate 16 0))
    (io := ⟨List.replicate 6 0, List.replicate (List.replicate 6 (0 : U8)).length 0, false⟩) (n := 6) (by decide) (by decide)
  have h3 : cfbPacket portable false (cfbInit (List.replicate 16 0) (List.replicate 16 0))
    ⟨List.replicate 6 0, List.replicate (List.replicate 6 (0 : U8)).length 0, false⟩ (6 : Nat) = .ok r := h2
  rw [hub] at h3
  cases h3

/-! ### C37 -/

theorem cfbRun_whole (v : CfbVariant) (fb : Bool) (cs : State) (p : List U8) (h : p.length % 16 = 0) :
    cfbRun v fb cs p = cfbBlocks v fb (p.length / 16) cs p := by
  have hl : (p.drop (16 * (p.length / 16))).length = 0 := by simp; omega
  simp only [cfbRun, cfbTail, hl, if_true, List.append_nil]

theorem cfbBlocks_append (v : CfbVariant) (fb : Bool) (b : Nat) (q : List U8) (a : Nat) : ∀ (cs : State) (p : List U8),
    p.length = 16 * a → cfbBlocks v fb (a + b) cs (p ++ q) =
      ((cfbBlocks v fb a cs p).1 ++ (cfbBlocks v fb b (cfbBlocks v fb a cs p).2 q).1,
        (cfbBlocks v fb b (cfbBlocks v fb a cs p).2 q).2) := by
  induction a with
  | zero =>
    intro cs p hp
    have : p = [] := List.length_eq_zero_iff.mp (by omega)
    subst this
    rw [Nat.zero_add]; rfl
  | succ a ih =>
    intro cs p hp
    rw [show a + 1 + b = (a + b) + 1 by omega]
    simp only [cfbBlocks]
    rw [List.take_append_of_le_length (by omega), List.drop_append_of_le_length (by omega), ih _ _ (by simp; omega)]
    simp only [List.append_assoc]

/-- A sequence of whole-block packets is one run over the concatenation. -/
theorem cfb_whole (v : CfbVariant) (mode : Bool) (ps : List (List U8)) : ∀ (cs : State), (∀ p ∈ ps, p.length % 16 = 0) →
    ∃ cs' outs, runAll (fun s io n => cfbPacket v mode s io n) cs ps = .ok (cs', outs) ∧
      outs.map List.length = ps.map List.length ∧
      cs' = (cfbBlocks v (!mode) (ps.flatten.length / 16) cs ps.flatten).2 ∧
      outs.flatten = xorBytes ps.flatten (cfbBlocks v (!mode) (ps.flatten.length / 16) cs ps.flatten).1 := by
  induction ps with
  | nil => intro cs _; exact ⟨cs, [], rfl, rfl, rfl, rfl⟩
  | cons p ps ih =>
    intro cs h
    have hp := h p (by simp)
    have hp4 : p.length % 4 ≤ 1 := by omega
    obtain ⟨cs', outs, h1, h2, h3, h4⟩ := ih (cfbRun v (!mode) cs p).2 (fun q hq => h q (by simp [hq]))
    have hl : (xorBytes p (cfbRun v (!mode) cs p).1).length = p.length := by
      rw [xorBytes_length, cfbRun_length v (!mode) cs p hp4]; omega
    refine ⟨cs', xorBytes p (cfbRun v (!mode) cs p).1 :: outs, ?_, ?_, ?_, ?_⟩
    · rw [runAll, cfb_single v mode cs p hp4]
      simp only [Res.ok_bind]
      rw [h1]
      rfl
    · simp only [List.map_cons, hl, h2]
    all_goals
      rw [List.flatten_cons (l := p), List.length_append,
        show (p.length + ps.flatten.length) / 16 = p.length / 16 + ps.flatten.length / 16 by omega,
        cfbBlocks_append v (!mode) _ _ _ cs p (by omega), ← cfbRun_whole v (!mode) cs p hp]
    · exact h3
    · rw [List.flatten_cons, h4, xorBytes_append (by rw [cfbRun_length v (!mode) cs p hp4])]

/-- C37: packets of whole blocks are encrypted, and decrypted, in CFB-128 mode over their
concatenation, by every build. -/
theorem aes_cfb_sp800_38a (key iv : List U8) (hiv : iv.length = 16) (ps : List (List U8))
    (h16 : ∀ p ∈ ps, p.length % 16 = 0) (v : CfbVariant) (hv : v = portable ∨ v = arm ∨ v = x86) :
    (∃ cs' outs, runAll (enc v) (cfbInit key iv) ps = .ok (cs', outs) ∧ outs.map List.length = ps.map List.length ∧
      outs.flatten = Spec.AES.cfbEnc key (ps.flatten.length / 16) iv ps.flatten) ∧
    (∃ cs' outs, runAll (dec v) (cfbInit key iv) ps = .ok (cs', outs) ∧ outs.map List.length = ps.map List.length ∧
      outs.flatten = Spec.AES.cfbDec key (ps.flatten.length / 16) iv ps.flatten) := by
  have hvar : ∀ fb cs msg m, cfbBlocks v fb m cs msg = cfbBlocks portable fb m cs msg := by
    intro fb cs msg m
    rcases hv with rfl | rfl | rfl
    · rfl
    · rw [arm_eq]
    · exact cfbBlocks_variant x86_enc fb m cs msg
  have hlen : ps.flatten.length % 16 = 0 := by
    clear hvar
    induction ps with
    | nil => rfl
    | cons p ps ih =>
      have := h16 p (by simp)
      have := ih (fun q hq => h16 q (by simp [hq]))
      rw [List.flatten_cons, List.length_append]; omega
  have ht : ps.flatten.take (16 * (ps.flatten.length / 16)) = ps.flatten := List.take_of_length_le (by omega)
  constructor
  · obtain ⟨cs', outs, h1, h2, _, h4⟩ := cfb_whole v false ps (cfbInit key iv) h16
    refine ⟨cs', outs, h1, h2, ?_⟩
    rw [h4, hvar, ← cfbBlocks_enc_spec key _ iv _ hiv (by omega), ht]; rfl
  · obtain ⟨cs', outs, h1, h2, _, h4⟩ := cfb_whole v true ps (cfbInit key iv) h16
    refine ⟨cs', outs, h1, h2, ?_⟩
    rw [h4, hvar, ← cfbBlocks_dec_spec key _ iv _ hiv (by omega), ht]; rfl

/-- Non-trivial instance. -/
example : ∀ p ∈ [List.replicate 16 (1 : U8), [], List.replicate 48 2], p.length % 16 = 0 := by decide

/-! ### C38 -/

/-- C38: portable and ARM build have the same packet function. -/
theorem aes_cfb_arm_is_portable (mode : Bool) (cs : State) (io : Io) (size : Int) :
    cfbPacket arm mode cs io size = cfbPacket portable mode cs io size := by
  rw [arm_eq]

/-- C38: one packet of any defined size is processed alike by every pair of builds, up to the state
left behind. -/
theorem aes_cfb_variants_one_packet (mode : Bool) (cs : State) (io : Io) (n : Nat) (hf : io.Fits n) (h4 : n % 4 ≤ 1) :
    ∃ s s' io', cfbPacket x86 mode cs io n = .ok (s, io') ∧ cfbPacket portable mode cs io n = .ok (s', io') ∧
      (n % 16 = 0 → s = s') := by
  refine ⟨_, (cfbRun portable (!mode || io.alias) cs (io.src.take n)).2, _, cfbPacket_eq x86 mode cs h4 hf, ?_, ?_⟩
  · rw [cfbPacket_eq portable mode cs h4 hf, cfbRun_variant x86_enc]
  · intro h
    have := hf.1
    rw [cfbRun_variant_state x86_enc _ _ _ (by simp; omega)]

example := aes_cfb_variants_one_packet false ⟨⟨1, 2, 3, 4⟩, keyExpansion (List.replicate 16 7)⟩ ⟨List.replicate 37 1, List.replicate 40 0, false⟩ 37
  (by decide) (by decide)

/-- The builds of C38. -/
def builds : List CfbVariant := [portable, x86, arm]

theorem builds_enc {v w : CfbVariant} (hv : v ∈ builds) (hw : w ∈ builds) : v.enc = w.enc := by
  have h : ∀ v ∈ builds, v.enc = portable.enc := by
    intro v hv
    simp only [builds, List.mem_cons, List.not_mem_nil, or_false] at hv
    rcases hv with rfl | rfl | rfl
    · rfl
    · exact x86_enc
    · rw [arm_eq]
  rw [h v hv, h w hw]

/-- C38, the part that holds for every pair of builds: packets of whole blocks and then at most one
packet of another size.  Missing from the full statement: packets after an incomplete block, where the
x86 build is in another state than the two others. -/
theorem aes_cfb_interoperate_partial {v w : CfbVariant} (hv : v ∈ builds) (hw : w ∈ builds) (cs : State)
    (ps : List (List U8)) (h16 : ∀ p ∈ ps, p.length % 16 = 0) (last : List U8) (h4 : last.length % 4 ≤ 1) :
    ∃ cs' cs'' outs, runAll (enc v) cs (ps ++ [last]) = .ok (cs', outs) ∧
      runAll (dec w) cs outs = .ok (cs'', ps ++ [last]) := by
  have he := builds_enc hv hw
  induction ps generalizing cs with
  | nil =>
    have hl := enc_length v cs last h4
    refine ⟨(cfbRun v true cs last).2, (cfbRun w true cs last).2, [xorBytes last (cfbRun v true cs last).1], ?_, ?_⟩
    · rw [List.nil_append, enc_cons v cs last [] h4]; rfl
    · rw [dec_cons w cs _ [] (by rw [hl]; exact h4), cfbRun_variant he true cs last, cfbRun_dec w cs last h4, dec_enc w cs last h4]
      rfl
  | cons p ps ih =>
    have hp := h16 p (by simp)
    have hp4 : p.length % 4 ≤ 1 := by omega
    obtain ⟨cs', cs'', outs, h1, h2⟩ := ih (cfbRun v true cs p).2 (fun q hq => h16 q (by simp [hq]))
    have hl := enc_length v cs p hp4
    refine ⟨cs', cs'', xorBytes p (cfbRun v true cs p).1 :: outs, ?_, ?_⟩
    · rw [List.cons_append, enc_cons v cs p _ hp4, h1]; rfl
    · rw [dec_cons w cs _ outs (by rw [hl]; exact hp4)]
      rw [cfbRun_variant_state he true cs p hp] at h2 ⊢
      rw [cfbRun_dec w cs p hp4, h2, dec_enc w cs p hp4]
      rfl

/-- C38 for the portable and the ARM build: any sequence of packets of defined sizes. -/
theorem aes_cfb_interoperate_arm_partial (cs : State) (ps : List (List U8)) (h4 : ∀ p ∈ ps, p.length % 4 ≤ 1) :
    ∃ cs' outs, (runAll (enc portable) cs ps = .ok (cs', outs) ∧ runAll (dec arm) cs outs = .ok (cs', ps)) ∧
      (runAll (enc arm) cs ps = .ok (cs', outs) ∧ runAll (dec portable) cs outs = .ok (cs', ps)) := by
  obtain ⟨cs', outs, h1, _, h2⟩ := aes_cfb_lockstep_partial portable cs ps h4
  rw [arm_eq]
  exact ⟨cs', outs, ⟨h1, h2⟩, ⟨h1, h2⟩⟩

/-- Non-trivial instance. -/
example : x86 ∈ builds ∧ portable ∈ builds ∧ (∀ p ∈ [List.replicate 32 (7 : U8)], p.length % 16 = 0) ∧
    (List.replicate 21 (7 : U8)).length % 4 ≤ 1 := by simp [builds]

/-- Output packets of a run. -/
def outsOf {σ : Type} : Res (σ × List (List U8)) → List (List U8)
  | .ok r => r.2
  | .ub _ => []

set_option maxRecDepth 10000 in
/-- C38 is false in general: after a four-byte packet the x86 and the portable build no longer agree. -/
theorem aes_cfb_interoperate_refuted : ¬ ∀ (key iv : List U8) (ps : List (List U8)), key.length = 16 → iv.length = 16 →
    (∀ p ∈ ps, p.length % 4 = 0) →
    ∃ cs' cs'' outs, runAll (enc x86) (cfbInit key iv) ps = .ok (cs', outs) ∧
      runAll (dec portable) (cfbInit key iv) outs = .ok (cs'', ps) := by
  intro h
  obtain ⟨cs', cs'', outs, h1, h2⟩ := h (List.replicate 16 0) (List.replicate 16 0)
    [List.replicate 4 0, List.replicate 16 0] (by decide) (by decide) (by decide)
  have hx : x86 = ⟨encrypt false, false⟩ := by
    have := x86_enc
    simp only [x86, portable] at this ⊢
    rw [this]
  rw [hx] at h1
  have e1 := congrArg outsOf h1
  have e2 := congrArg outsOf h2
  simp only [outsOf] at e1 e2
  rw [← e1] at e2
  have e3 := congrArg (fun l => (l.getD 1 []).getD 0 0) e2
  exact absurd e3 (by decide +kernel)

/-! ### C39 -/

/-- C39, the part that holds: a receiver with the sender's key schedule but any register receives a
packet of at least one block and then further packets.  Everything after the first block of that
packet, and all later packets, come out right, and the receiver is again in the sender's state.
Missing from the full statement: packets of sizes 2 and 3 modulo 4 (`aes_cfb_ub_iff`). -/
theorem aes_cfb_self_sync_partial (v : CfbVariant) (cs : State) (q : Quad) (p : List U8) (ps : List (List U8))
    (hp : 16 ≤ p.length) (h4 : ∀ r ∈ p :: ps, r.length % 4 ≤ 1) :
    ∃ cs' outs p', runAll (enc v) cs (p :: ps) = .ok (cs', outs) ∧
      runAll (dec v) { cs with reg := q } outs = .ok (cs', p' :: ps) ∧
      p'.length = p.length ∧ p'.drop 16 = p.drop 16 := by
  have hp4 := h4 p (by simp)
  obtain ⟨cs', outs, h1, _, h3⟩ := aes_cfb_lockstep_partial v (cfbRun v true cs p).2 ps (fun r hr => h4 r (by simp [hr]))
  have hl := enc_length v cs p hp4
  obtain ⟨s1, s2⟩ := cfbRun_sync v { cs with reg := q } cs rfl (xorBytes p (cfbRun v true cs p).1) (by omega)
  have hd := dec_enc v cs p hp4
  refine ⟨cs', xorBytes p (cfbRun v true cs p).1 :: outs, xorBytes (xorBytes p (cfbRun v true cs p).1)
    (cfbRun v false { cs with reg := q } (xorBytes p (cfbRun v true cs p).1)).1, ?_, ?_, ?_, ?_⟩
  · rw [enc_cons v cs p ps hp4, h1]; rfl
  · rw [dec_cons v _ _ outs (by rw [hl]; exact hp4), s2, cfbRun_dec v cs p hp4, h3]; rfl
  · rw [xorBytes_length, hl, cfbRun_length v false _ _ (by rw [hl]; exact hp4), hl]; omega
  · rw [xorBytes_drop, s1, cfbRun_dec v cs p hp4, ← xorBytes_drop, hd]

/-- Non-trivial instance. -/
example : 16 ≤ (List.replicate 37 (1 : U8)).length ∧
    ∀ r ∈ [List.replicate 37 (1 : U8), List.replicate 4 2, List.replicate 32 3], r.length % 4 ≤ 1 := by decide

set_option maxRecDepth 10000 in
/-- One whole block is necessary: after a packet of 12 bytes a wrong register still spoils the next
packet. -/
theorem aes_cfb_self_sync_needs_block : ¬ ∀ (cs : State) (q : Quad) (p r : List U8), p.length = 12 → r.length = 16 →
    ∃ cs' outs p', runAll (enc portable) cs [p, r] = .ok (cs', outs) ∧
      runAll (dec portable) { cs with reg := q } outs = .ok (cs', [p', r]) := by
  intro h
  obtain ⟨cs', outs, p', h1, h2⟩ := h (cfbInit (List.replicate 16 0) (List.replicate 16 0)) ⟨1, 0, 0, 0⟩
    (List.replicate 12 0) (List.replicate 16 0) (by decide) (by decide)
  have e1 := congrArg outsOf h1
  have e2 := congrArg outsOf h2
  simp only [outsOf] at e1 e2
  rw [← e1] at e2
  have e3 : _ = (0 : U8) := congrArg (fun l => (l.getD 1 []).getD 0 0) e2
  exact absurd e3 (by decide +kernel)

/-! ### C40 -/

/-- What a caller sees: state and output. -/
def seen (r : Res (State × Io)) : Res (State × List U8) :=
  match r with
  | .ok (s, io) => .ok (s, io.out)
  | .ub u => .ub u

/-- In place on a buffer of the packet's size, and with separate buffers of that size. -/
def inPlace (p : List U8) : Io := ⟨[], p, true⟩
def separate (p : List U8) : Io := ⟨p, List.replicate p.length 0, false⟩

theorem seen_run (v : CfbVariant) (mode : Bool) (cs : State) (p : List U8) (h4 : p.length % 4 ≤ 1) :
    seen (cfbPacket v mode cs (inPlace p) p.length) =
        .ok ((cfbRun v true cs p).2, xorBytes p (cfbRun v true cs p).1) ∧
      seen (cfbPacket v mode cs (separate p) p.length) =
        .ok ((cfbRun v (!mode) cs p).2, xorBytes p (cfbRun v (!mode) cs p).1) := by
  constructor
  · rw [cfbPacket_eq v mode cs h4 ⟨by simp [Io.src, inPlace], by simp [inPlace]⟩]
    have hl := cfbRun_length v true cs p h4
    simp [seen, Io.xored, Io.src, inPlace, hl]
  · rw [separate, cfb_single v mode cs p h4]; rfl

/-- C40, encryption: in place is the same as separate buffers, for every packet (undefined behaviour
included). -/
theorem aes_cfb_in_place_encrypt (v : CfbVariant) (cs : State) (p : List U8) :
    seen (cfbPacket v false cs (inPlace p) p.length) = seen (cfbPacket v false cs (separate p) p.length) := by
  by_cases h4 : p.length % 4 ≤ 1
  · obtain ⟨h1, h2⟩ := seen_run v false cs p h4
    rw [h1, h2]; rfl
  · rw [cfbPacket_ub v false cs (by omega) ⟨by simp [Io.src, inPlace], by simp [inPlace]⟩,
      cfbPacket_ub v false cs (by omega) ⟨by simp [Io.src, separate], by simp [separate]⟩]

/-- C40, decryption, the part that holds: the output of a packet of at most one block.  Missing from
the full statement: the state left behind, and longer packets. -/
theorem aes_cfb_in_place_decrypt_partial (v : CfbVariant) (cs : State) (p : List U8) (h4 : p.length % 4 ≤ 1)
    (hp : p.length ≤ 16) :
    ∃ s s' out, seen (cfbPacket v true cs (inPlace p) p.length) = .ok (s, out) ∧
      seen (cfbPacket v true cs (separate p) p.length) = .ok (s', out) := by
  obtain ⟨h1, h2⟩ := seen_run v true cs p h4
  refine ⟨_, (cfbRun v false cs p).2, _, h1, ?_⟩
  · rw [h2]
    have : (cfbRun v false cs p).1 = (cfbRun v true cs p).1 := by
      by_cases h : p.length < 16
      · have e : p.length / 16 = 0 := by omega
        simp only [cfbRun, e, cfbBlocks, cfbTail, List.nil_append, Nat.mul_zero, List.drop_zero]
        split <;> rfl
      · have e : p.length / 16 = 1 := by omega
        have hl : (p.drop (16 * (p.length / 16))).length = 0 := by simp; omega
        simp only [cfbRun, cfbTail, hl, if_true]
        simp only [e, cfbBlocks]
    rw [Bool.not_true, this]

example := aes_cfb_in_place_decrypt_partial portable ⟨⟨1, 2, 3, 4⟩, keyExpansion (List.replicate 16 7)⟩ (List.replicate 13 1) (by decide) (by decide)

/-- C40: in place, `mode` makes no difference at all: decryption is encryption. -/
theorem aes_cfb_in_place_mode_ignored (v : CfbVariant) (cs : State) (p : List U8) :
    seen (cfbPacket v true cs (inPlace p) p.length) = seen (cfbPacket v false cs (inPlace p) p.length) := by
  by_cases h4 : p.length % 4 ≤ 1
  · rw [(seen_run v true cs p h4).1, (seen_run v false cs p h4).1]
  · rw [cfbPacket_ub v true cs (by omega) ⟨by simp [Io.src, inPlace], by simp [inPlace]⟩,
      cfbPacket_ub v false cs (by omega) ⟨by simp [Io.src, inPlace], by simp [inPlace]⟩]

set_option maxRecDepth 10000 in
/-- C40 is false for decryption: two blocks. -/
theorem aes_cfb_in_place_decrypt_refuted : ¬ ∀ (key iv p : List U8), key.length = 16 → iv.length = 16 → p.length % 16 = 0 →
    seen (cfbPacket portable true (cfbInit key iv) (inPlace p) p.length) =
      seen (cfbPacket portable true (cfbInit key iv) (separate p) p.length) := by
  intro h
  have h1 := h (List.replicate 16 0) (List.replicate 16 0) (List.replicate 32 0) (by decide) (by decide) (by decide)
  have h2 := congrArg (fun r => match r with | .ok (_, o) => List.getD o 16 0 | .ub _ => (0 : U8)) h1
  exact absurd h2 (by decide +kernel)

end CT.Props.AES
