import Verif.Basic.Stream
import Verif.Proof.ChaCha
import Verif.Props.ChaCha
import Verif.Props.HC128
import Verif.Proof.Rabbit
import Verif.Props.Sosemanuk
import Verif.Props.AESCtr

/-!
# Truncation and transmission errors of the stream ciphers (C81, C82)
-/

namespace CT.Props.Stream

/-- The packet function of ChaCha for sizes that are lengths of lists. -/
abbrev chacha (rounds : Nat) : PacketFn ChaCha.State :=
  fun s io n => ChaCha.processPacket rounds s io (BitVec.ofNat 64 n)

theorem chacha_state {r : Nat} {cs cs' : ChaCha.State} {io io' : Io} {size : U64}
    (h : ChaCha.processPacket r cs io size = .ok (cs', io')) :
    cs' = (ChaCha.ksLoop r (((size.toNat + 3) / 4 + 15) / 16) cs 1 []).1 := by
  simp only [ChaCha.processPacket] at h
  split at h
  · cases h
  split at h
  · cases h
  obtain ⟨x, _, hx⟩ := Res.bind_eq_ok h
  obtain ⟨y, _, hy⟩ := Res.bind_eq_ok hx
  exact (congrArg Prod.fst (Res.ok_inj.mp hy)).symm

theorem chacha_isStream (r : Nat) (key nonce : List U8) :
    IsStream (chacha r) (fun s => ChaCha.Keyed s key nonce) (fun n => n < 2 ^ 31)
      (fun _ n => (Spec.ChaCha.keystream r key 1 nonce ((n + 63) / 64)).take n)
      (fun s n => (ChaCha.ksLoop r (((n + 3) / 4 + 15) / 16) s 1 []).1) := by
  intro s n hs hn
  have hn64 : (BitVec.ofNat 64 n).toNat = n := by rw [BitVec.toNat_ofNat, Nat.mod_eq_of_lt (by omega)]
  have key1 : ∀ io : Io, io.Fits n → ∃ cs', ChaCha.Keyed cs' key nonce ∧ chacha r s io n = .ok (cs', io.xored
      ((Spec.ChaCha.keystream r key 1 nonce ((n + 63) / 64)).take n)) ∧
      cs' = (ChaCha.ksLoop r (((n + 3) / 4 + 15) / 16) s 1 []).1 := by
    intro io hf
    obtain ⟨cs', h1, h2⟩ := ChaCha.processPacket_eq hs r (io := io) (size := BitVec.ofNat 64 n) (by omega)
      (by rw [hn64]; exact hf)
    have h3 := chacha_state h2
    rw [hn64] at h2 h3
    exact ⟨cs', h1, h2, h3⟩
  refine ⟨?_, ?_, fun io hf => ?_⟩
  · obtain ⟨cs', h1, -, h3⟩ := key1 ⟨List.replicate n 0, List.replicate n 0, false⟩ ⟨by simp [Io.src], by simp⟩
    rw [h3] at h1; exact h1
  · rw [List.length_take, ChaCha.keystream_length]; omega
  · obtain ⟨cs', -, h2, h3⟩ := key1 io hf
    rw [h2, h3]

/-! ### C81 -/

/-- C81, ChaCha. -/
theorem chacha_cut_off (rounds : Nat) (key nonce : List U8) (hk : key.length = 32) (hn : nonce.length = 12)
    (cs : ChaCha.State) (hcs : ChaCha.History rounds key nonce cs) (p : List U8) (m : Nat) (hm : m ≤ p.length)
    (hp : p.length < 2 ^ 31) : CutsOff (chacha rounds) cs p m := by
  refine (chacha_isStream rounds key nonce).cutsOff p m hm (hcs.keyed hk hn) hp (by omega) ?_
  rw [List.take_take, Nat.min_eq_left hm]
  exact (ChaCha.keystream_take rounds key nonce 1 _ _ m (by omega) (by omega)).symm

example : CutsOff (chacha 20) (ChaCha.init (List.replicate 32 7) (List.replicate 12 9)) (List.replicate 70 1) 33 :=
  chacha_cut_off 20 _ _ (by decide) (by decide) _ .init _ 33 (by decide) (by decide)

/-- C81, HC-128. -/
theorem hc128_cut_off (cs : HC128.State) (p : List U8) (m : Nat) (hm : m ≤ p.length) (hp : p.length ≤ 2 ^ 33 - 8) :
    CutsOff HC128.processPacket cs p m := by
  refine HC128.isStream.cutsOff p m hm trivial hp (by omega) ?_
  rw [HC128.pktKs, HC128.pktKs, List.take_take, Nat.min_eq_left hm]
  obtain ⟨k, hk⟩ := Nat.exists_eq_add_of_le (show (m + 3) / 4 ≤ (p.length + 3) / 4 by omega)
  rw [hk, HC128.gen_add, wordsToBytesLE_append, List.take_append_of_le_length]
  rw [wordsToBytesLE_length, HC128.gen_length]; omega

example (cs : HC128.State) : CutsOff HC128.processPacket cs (List.replicate 70 1) 33 := hc128_cut_off cs _ 33 (by decide) (by decide)

/-- C81, Rabbit. -/
theorem rabbit_cut_off (cs : Rabbit.State) (p : List U8) (m : Nat) (hm : m ≤ p.length) :
    CutsOff Rabbit.processPacket cs p m := by
  refine Rabbit.isStream.cutsOff p m hm trivial trivial trivial ?_
  rw [Rabbit.pktKs, Rabbit.pktKs, List.take_take, Nat.min_eq_left hm]
  exact (take_blkBytes _ _ _ _ _ (by omega) (by omega)).symm

example (cs : Rabbit.State) : CutsOff Rabbit.processPacket cs (List.replicate 70 1) 33 := rabbit_cut_off cs _ 33 (by decide)

/-- C81, Sosemanuk. -/
theorem sosemanuk_cut_off (cs : Sosemanuk.State) (p : List U8) (m : Nat) (hm : m ≤ p.length) :
    CutsOff Sosemanuk.processPacket cs p m := by
  refine Sosemanuk.isStream.cutsOff p m hm trivial trivial trivial ?_
  rw [List.take_take, Nat.min_eq_left hm]
  exact (take_blkBytes _ _ _ _ _ (by omega) (by omega)).symm

example (cs : Sosemanuk.State) : CutsOff Sosemanuk.processPacket cs (List.replicate 70 1) 33 := sosemanuk_cut_off cs _ 33 (by decide)

theorem ctrKs_four (cs : AES.State) (n : Nat) : ∃ last : List U8, AES.ctrKs AES.pblk cs n =
    (blkBytes AES.pblk (n / 16 + 1) cs).take (4 * (n / 4)) ++ last := by
  rw [blkBytes_add, AES.ctrKs, List.take_append, blkBytes_length,
    List.take_of_length_le (by rw [blkBytes_length]; omega)]
  by_cases h : n % 16 > 0
  · rw [if_pos h, AES.tailKs, show blkBytes AES.pblk 1 (blkState AES.pblk (n / 16) cs) =
      wordsToBytesLE (AES.pblk (blkState AES.pblk (n / 16) cs)).2.toList from List.append_nil _]
    exact ⟨_, by rw [List.append_assoc, show 4 * (n / 4) - 16 * (n / 16) = 4 * (n % 16 / 4) by omega]⟩
  · rw [if_neg h, show 4 * (n / 4) - 16 * (n / 16) = 0 by omega, List.take_zero]
    exact ⟨[], by simp⟩

/-- C81, AES counter mode, the part that holds: cuts at multiples of four.  Missing: other cuts, for
which it is false (next theorem) or undefined (`aes_ctr_ub_iff`). -/
theorem aes_ctr_cut_off_partial (cs : AES.State) (p : List U8) (m : Nat) (hm : m ≤ p.length) (hp : p.length % 4 ≤ 1)
    (h4 : m % 4 = 0) : CutsOff (fun s io n => AES.ctrPacket s io n) cs p m := by
  refine (AES.isStream AES.pblk).cutsOff p m hm trivial hp (by omega) ?_
  have hlm := AES.ctrKs_length AES.pblk cs m (by omega)
  obtain ⟨l1, e1⟩ := ctrKs_four cs m
  obtain ⟨l2, e2⟩ := ctrKs_four cs p.length
  have h1 : 4 * (m / 4) = m := by omega
  rw [h1] at e1
  have hl1 : l1 = [] := by
    have := congrArg List.length e1
    rw [hlm, List.length_append, List.length_take, blkBytes_length] at this
    exact List.eq_nil_of_length_eq_zero (by omega)
  rw [e2, e1, hl1, List.append_nil, List.take_append_of_le_length (by
    rw [List.length_take, blkBytes_length]; omega), List.take_take, Nat.min_eq_left (by omega)]
  exact (take_blkBytes _ _ _ _ _ (by omega) (by omega)).symm

example (cs : AES.State) := aes_ctr_cut_off_partial cs (List.replicate 69 1) 32 (by decide) (by decide) (by decide)

set_option maxRecDepth 10000 in
/-- C81 is false for AES counter mode: one byte is not encrypted like the first byte of four. -/
theorem aes_ctr_cut_off_refuted : ∃ (cs : AES.State), ∃ key nonce : List U8, key.length = 16 ∧ nonce.length = 12 ∧
    cs = AES.ctrLoadIv (AES.loadKey ⟨⟨0, 0, 0, 0⟩, []⟩ key) nonce ∧
    ¬ CutsOff (fun s io n => AES.ctrPacket s io n) cs [0, 0, 0, 0] 1 := by
  refine ⟨_, List.replicate 16 0, List.replicate 12 0, by decide, by decide, rfl, ?_⟩
  rintro ⟨s1, s2, c, h1, h2⟩
  have hst : IsStream (fun s io n => AES.ctrPacket s io n) (fun _ => True) (fun n => n % 4 ≤ 1)
    (AES.ctrKs AES.pblk) (AES.ctrNext AES.pblk) := AES.isStream AES.pblk
  rw [hst.one _ trivial (by decide), Res.ok_inj, Prod.mk.injEq] at h1
  have e : ([0, 0, 0, 0] : List U8).take 1 = [0] := rfl
  rw [e, hst.one _ trivial (by decide), Res.ok_inj, Prod.mk.injEq] at h2
  have h3 := h2.2
  rw [← (List.cons.inj h1.2).1] at h3
  exact absurd h3 (by decide +kernel)

/-- Instance of the hypotheses of C81: 70 bytes cut off after 33, and after 32 for AES. -/
example : 33 ≤ (List.replicate 70 (1 : U8)).length ∧ (List.replicate 70 (1 : U8)).length < 2 ^ 31 ∧
    32 ≤ (List.replicate 69 (1 : U8)).length ∧ (List.replicate 69 (1 : U8)).length % 4 ≤ 1 ∧ 32 % 4 = 0 := by decide

/-! ### C82 -/

/-- C82, ChaCha. -/
theorem chacha_flips_only (rounds : Nat) (key nonce : List U8) (hk : key.length = 32) (hn : nonce.length = 12)
    (cs : ChaCha.State) (hcs : ChaCha.History rounds key nonce cs) (ps : List (List U8))
    (hp : ∀ p ∈ ps, p.length < 2 ^ 31) : FlipsOnly (chacha rounds) cs ps :=
  (chacha_isStream rounds key nonce).flipsOnly ps cs (hcs.keyed hk hn) hp

/-- C82, HC-128. -/
theorem hc128_flips_only (cs : HC128.State) (ps : List (List U8)) (hp : ∀ p ∈ ps, p.length ≤ 2 ^ 33 - 8) :
    FlipsOnly HC128.processPacket cs ps := HC128.isStream.flipsOnly ps cs trivial hp

example (cs : HC128.State) := hc128_flips_only cs [List.replicate 33 1, [], [2]] (by decide)

/-- C82, Rabbit. -/
theorem rabbit_flips_only (cs : Rabbit.State) (ps : List (List U8)) : FlipsOnly Rabbit.processPacket cs ps :=
  Rabbit.isStream.flipsOnly ps cs trivial fun _ _ => trivial

/-- C82, Sosemanuk. -/
theorem sosemanuk_flips_only (cs : Sosemanuk.State) (ps : List (List U8)) : FlipsOnly Sosemanuk.processPacket cs ps :=
  Sosemanuk.isStream.flipsOnly ps cs trivial fun _ _ => trivial

/-- C82, AES counter mode, for the sizes that are defined (`aes_ctr_ub_iff`). -/
theorem aes_ctr_flips_only (cs : AES.State) (ps : List (List U8)) (hp : ∀ p ∈ ps, p.length % 4 ≤ 1) :
    FlipsOnly (fun s io n => AES.ctrPacket s io n) cs ps := (AES.isStream AES.pblk).flipsOnly ps cs trivial hp

/-- Instance of the hypotheses of C82. -/
example : (∀ p ∈ [List.replicate 33 (1 : U8), [], [2]], p.length < 2 ^ 31) ∧
    ∀ p ∈ [List.replicate 33 (1 : U8), [], [2]], p.length % 4 ≤ 1 := by decide

end CT.Props.Stream
