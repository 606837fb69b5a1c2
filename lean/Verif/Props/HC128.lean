import Verif.Basic.Lockstep
import Verif.Proof.HC128
import Verif.Proof.HC128Fast
import Verif.Proof.HC128Inj

/-!
# HC-128 properties (C18 - C20, C77, C78)
-/

namespace CT.Props.HC128
open CT.HC128

theorem keystream_eq (key iv : List U8) (hk : key.length = 16) (hi : iv.length = 16) (n : Nat) :
    pktKs (init key iv) n = Spec.HC128.keystream key iv n := by
  have h := (gen_eq (Spec.HC128.initial key iv) ((n + 3) / 4) 0 (init key iv) (init_eq hk hi)).2
  simp only [Nat.zero_add] at h
  rw [pktKs, h]; rfl

/-- C18.  The first packet after initialisation is encrypted with the keystream of the HC-128
specification for that key and IV; the rest of the output buffer is untouched; separate buffers or
in place. -/
theorem hc128_first_packet_is_spec (key iv : List U8) (hk : key.length = 16) (hi : iv.length = 16)
    (io : Io) (size : Nat) (hs : size ≤ 2 ^ 33 - 8) (hf : io.Fits size) :
    ∃ cs', processPacket (init key iv) io size = .ok (cs',
      { io with out := xorBytes (io.src.take size) (Spec.HC128.keystream key iv size) ++
          io.out.drop size }) := by
  refine ⟨pktNext (init key iv) size, ?_⟩
  rw [processPacket_eq _ hs hf, Io.xored, pktKs_length, keystream_eq key iv hk hi]

/-- Non-trivial instance of the hypotheses of C18: five bytes in place in a longer buffer. -/
example : (List.replicate 16 (7 : U8)).length = 16 ∧ 5 ≤ 2 ^ 33 - 8 ∧
    (⟨[], [1, 2, 3, 4, 5, 6], true⟩ : Io).Fits 5 := by decide

/-- C19.  Any sequence of packets encrypted on a freshly initialised state is recovered, packet by
packet, by a receiver initialised with the same key and IV, and both end in the same state. -/
theorem hc128_lockstep_round_trip (key iv : List U8) (ps : List (List U8))
    (hp : ∀ p ∈ ps, p.length ≤ 2 ^ 33 - 8) :
    ∃ s' cs, runAll processPacket (init key iv) ps = .ok (s', cs) ∧
      cs.map List.length = ps.map List.length ∧
      runAll processPacket (init key iv) cs = .ok (s', ps) :=
  isStream.runAll_round_trip ps (init key iv) trivial hp

example : ∀ p ∈ ([[1, 2, 3, 4, 5], [], [6]] : List (List U8)), p.length ≤ 2 ^ 33 - 8 := by decide

theorem take_gen {m : Nat} (n : Nat) (cs : State) (hm : m % 4096 = 0) :
    pktKs cs (m + n) = pktKs cs m ++ pktKs (pktNext cs m) n ∧
      pktNext cs (m + n) = pktNext (pktNext cs m) n := by
  have e1 : (m + n + 3) / 4 = m / 4 + (n + 3) / 4 := by omega
  have e2 : (m + 3) / 4 = m / 4 := by omega
  have e3 : 0 + m / 4 = 0 + 1024 * (m / 4096) := by omega
  have hl : (wordsToBytesLE (gen (m / 4) 0 cs).2).length = m := by
    rw [wordsToBytesLE_length, gen_length]; omega
  simp only [pktKs, pktNext, e1, e2, gen_add, e3, gen_mod, wordsToBytesLE_append, and_true]
  generalize wordsToBytesLE (gen (m / 4) 0 cs).2 = A at *
  rw [List.take_append, hl, List.take_of_length_le (l := A) (by omega),
    List.take_of_length_le (l := A) (by omega), Nat.add_sub_cancel_left]

/-- C20, the part that holds: when the first packet is a multiple of 4096 bytes, sending two packets
is the same as sending their concatenation in one packet.  Missing from the full statement: all
other lengths of the first packet, for which it is false (`hc128_continuation_refuted`). -/
theorem hc128_continuation_partial (cs : State) (a b : List U8) (ha : a.length % 4096 = 0)
    (hs : (a ++ b).length ≤ 2 ^ 33 - 8) :
    ∃ s' x y, runAll processPacket cs [a, b] = .ok (s', [x, y]) ∧ x.length = a.length ∧
      runAll processPacket cs [a ++ b] = .ok (s', [x ++ y]) := by
  rw [List.length_append] at hs
  have s1 := isStream.single (s := cs) a trivial (by omega)
  have s2 := isStream.single (s := pktNext cs a.length) b trivial (by omega)
  have s3 := isStream.single (s := cs) (a ++ b) trivial (by rw [List.length_append]; omega)
  obtain ⟨k1, k2⟩ := take_gen b.length cs ha
  refine ⟨pktNext (pktNext cs a.length) b.length, xorBytes a (pktKs cs a.length),
    xorBytes b (pktKs (pktNext cs a.length) b.length), ?_, ?_, ?_⟩
  · simp only [runAll, s1, s2, Res.ok_bind, Res.pure_eq]
  · simp [pktKs_length]
  · simp only [List.length_append, k1, k2] at s3 ⊢
    simp only [runAll, List.length_append, s3, Res.ok_bind, Res.pure_eq]
    rw [xorBytes_append (by simp [pktKs_length])]

example : (List.replicate 4096 (1 : U8)).length % 4096 = 0 ∧
    (List.replicate 4096 (1 : U8) ++ [1, 2, 3]).length ≤ 2 ^ 33 - 8 := by
  rw [List.length_append, List.length_replicate]; decide

/-- C20 is false: with the all-zero key and IV, two packets of four zero bytes are not encrypted
like one packet of eight zero bytes (the second packet starts with 0x8054b52c instead of the
second keystream word 0x3bfd03a0). -/
theorem hc128_continuation_refuted :
    ¬ ∀ (key iv a b : List U8), key.length = 16 → iv.length = 16 →
      ∃ s1 s2 x y, runAll processPacket (init key iv) [a, b] = .ok (s1, [x, y]) ∧
        runAll processPacket (init key iv) [a ++ b] = .ok (s2, [x ++ y]) := by
  intro h
  obtain ⟨s1, s2, x, y, h1, h2⟩ := h (List.replicate 16 0) (List.replicate 16 0) [0, 0, 0, 0] [0, 0, 0, 0]
    (by decide) (by decide)
  have e1 := isStream.single (s := init (List.replicate 16 0) (List.replicate 16 0)) [0, 0, 0, 0] trivial (by simp)
  have e2 := isStream.single (s := pktNext (init (List.replicate 16 0) (List.replicate 16 0)) 4) [0, 0, 0, 0]
    trivial (by simp)
  have e3 := isStream.single (s := init (List.replicate 16 0) (List.replicate 16 0)) [0, 0, 0, 0, 0, 0, 0, 0]
    trivial (by simp)
  obtain ⟨w1, w2, w3⟩ := Fast.firstWords_spec Fast.zero_key_words
  generalize init (List.replicate 16 0) (List.replicate 16 0) = cs at *
  simp only [runAll, List.cons_append, List.nil_append, e1, e3, Res.ok_bind, Res.pure_eq, Res.ok_inj] at h1 h2
  simp only [List.length_cons, List.length_nil, Nat.zero_add, Nat.reduceAdd] at h1 h2 e2
  simp only [e2, Res.ok_bind, Res.ok_inj, Prod.mk.injEq, List.cons.injEq, and_true] at h1 h2
  obtain ⟨_, rfl, rfl⟩ := h1
  obtain ⟨_, h2⟩ := h2
  simp only [pktKs, pktNext, Nat.reduceAdd, Nat.reduceDiv, w1, w2, w3] at h2
  revert h2
  decide

/-- C77.  Different states stay different: two states that packets of the same sizes, with any
contents, bring to the same state were the same state. -/
theorem hc128_states_never_merge (a b s : State) (ps qs cs ds : List (List U8))
    (hl : ps.map List.length = qs.map List.length) (hp : ∀ p ∈ ps, p.length ≤ 2 ^ 33 - 8)
    (ha : runAll processPacket a ps = .ok (s, cs)) (hb : runAll processPacket b qs = .ok (s, ds)) : a = b :=
  runAll_inj ps qs hl hp s cs ds ha hb

/-- Instance of the hypotheses of C77: two histories with different contents and a common end. -/
example (a : State) : ([[1, 2, 3]] : List (List U8)).map List.length = ([[5, 6, 7]] : List (List U8)).map List.length ∧
    ∃ s cs ds, runAll processPacket a [[1, 2, 3]] = .ok (s, cs) ∧
      runAll processPacket a [[5, 6, 7]] = .ok (s, ds) := by
  refine ⟨rfl, pktNext a 3, [xorBytes [1, 2, 3] (pktKs a 3)], [xorBytes [5, 6, 7] (pktKs a 3)], ?_, ?_⟩
  · have h := isStream.single (s := a) [1, 2, 3] trivial (by decide)
    simp only [runAll, h, Res.ok_bind, Res.pure_eq]; rfl
  · have h := isStream.single (s := a) [5, 6, 7] trivial (by decide)
    simp only [runAll, h, Res.ok_bind, Res.pure_eq]; rfl

/-- C78.  Two sessions set up with different keys or different IVs start in different states, and
after packets of the same sizes they are still in different states. -/
theorem hc128_sessions_differ (k v k' v' : List U8) (hk : k.length = 16) (hv : v.length = 16)
    (hk' : k'.length = 16) (hv' : v'.length = 16) (hne : (k, v) ≠ (k', v')) :
    init k v ≠ init k' v' ∧ ∀ (ps qs cs ds : List (List U8)) (s t : State),
      ps.map List.length = qs.map List.length → (∀ p ∈ ps, p.length ≤ 2 ^ 33 - 8) →
      runAll processPacket (init k v) ps = .ok (s, cs) →
      runAll processPacket (init k' v') qs = .ok (t, ds) → s ≠ t := by
  have h0 : init k v ≠ init k' v' := fun h => by
    obtain ⟨rfl, rfl⟩ := init_inj hk hv hk' hv' h
    exact hne rfl
  exact ⟨h0, fun ps qs cs ds s t hl hp ha hb e => h0 (runAll_inj ps qs hl hp s cs ds ha (e ▸ hb))⟩

/-- Instance of the hypotheses of C78: key and IV exchanged. -/
example : (List.replicate 16 (1 : U8), List.replicate 16 (2 : U8)) ≠ (List.replicate 16 2, List.replicate 16 1) ∧
    (List.replicate 16 (1 : U8)).length = 16 ∧ (List.replicate 16 (2 : U8)).length = 16 := by decide

end CT.Props.HC128
