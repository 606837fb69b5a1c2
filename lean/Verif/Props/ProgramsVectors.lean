import Verif.Model.ProgramsMore
import Verif.Props.Programs
import Verif.Props.DES
import Verif.Props.AESCtr
import Verif.Props.AEGIS

/-!
# The example programs of DES and AEGIS, and the programs with test vectors (C95 - C99)
-/

namespace CT.Props.Programs
open CT.Programs
open CT.Spec.Hex (denotes noLower)

/-! ### C95, C96: DES -/

theorem toWords_length : ∀ (n : Nat) (bs : List U8), bs.length = 4 * n → (bytesToWordsLE bs).length = n
  | 0, [], _ => rfl
  | n + 1, _ :: _ :: _ :: _ :: bs, h => by
    rw [bytesToWordsLE, List.length_cons, toWords_length n bs (by simp at h; omega)]

theorem des_main_run (junk : Nat → Nat → U8) (keyString : List U8) (k0 k1 k2 k3 k4 k5 k6 k7 : U8) (rk : List U32) (message : List U8)
    (hk : denotes keyString = some [k0, k1, k2, k3, k4, k5, k6, k7]) (hu : noLower keyString)
    (hs : DES.keyScheduleEncrypt [k0, k1, k2, k3, k4, k5, k6, k7] = .ok rk) (hm : message.length = 16) :
    desMain junk keyString message = .ok [("Hex CT: ",
      Spec.Hex.encode (wordsToBytesLE (DES.mapPairs (DES.ecbBlock rk) (bytesToWordsLE message))))] := by
  have d1 := decode_arr junk 0 8 keyString _ hk hu rfl (by omega)
  rw [denotes_length _ _ hk] at d1
  have d1' : Hex.decode (arr junk 0 8) keyString 16 = .ok [k0, k1, k2, k3, k4, k5, k6, k7] := d1
  have hw : (bytesToWordsLE message).length = 4 := toWords_length 4 _ hm
  have hb : (bytesToWordsLE (arr junk 1 16)).length = 4 := toWords_length 4 _ (by simp)
  have e := (Props.DES.ecb_packet_both rk (bytesToWordsLE message) (bytesToWordsLE (arr junk 1 16)) 2 (by omega) hw hb).1
  have hl : (wordsToBytesLE (DES.mapPairs (DES.ecbBlock rk) (bytesToWordsLE message))).length = 16 := by
    rw [wordsToBytesLE_length, DES.mapPairs_length, hw]
  generalize DES.mapPairs (DES.ecbBlock rk) (bytesToWordsLE message) = w at *
  obtain ⟨t, p1, -, p2, -⟩ := print_zero junk 2 16 _ hl (by omega)
  have p1' : Hex.encode (arr junk 2 33) (wordsToBytesLE w) 16 = .ok t := p1
  have e' : DES.processPacketEcb rk ⟨bytesToWordsLE message, bytesToWordsLE (arr junk 1 16), false⟩ 16 =
    .ok ⟨bytesToWordsLE message, w, false⟩ := e
  rw [desMain, d1', Res.ok_bind, hs, Res.ok_bind, e', Res.ok_bind]
  simp only [p1', Res.ok_bind, p2, Res.pure_eq]

/-- C95, the part that holds: for a key whose sixteen round keys coincide, such as the zero key of the program, the
program prints the FIPS 46-3 encryption of both blocks with the bytes of each word of key, message and result in
reverse order.  Missing: other keys, and the byte order (`des_main_refuted`). -/
theorem des_main_partial (junk : Nat → Nat → U8) (keyString : List U8) (k0 k1 k2 k3 k4 k5 k6 k7 : U8) (K : Spec.DES.Bits)
    (a0 a1 a2 a3 a4 a5 a6 a7 b0 b1 b2 b3 b4 b5 b6 b7 : U8)
    (hk : denotes keyString = some [k0, k1, k2, k3, k4, k5, k6, k7]) (hu : noLower keyString)
    (hw : Spec.DES.keySchedule (Spec.DES.ofBytes (Props.DES.rev4 [k0, k1, k2, k3, k4, k5, k6, k7])) = List.replicate 16 K) :
    ∃ c1 c2 : List U8, desMain junk keyString [a0, a1, a2, a3, a4, a5, a6, a7, b0, b1, b2, b3, b4, b5, b6, b7] =
        .ok [("Hex CT: ", Spec.Hex.encode (c1 ++ c2))] ∧ c1.length = 8 ∧ c2.length = 8 ∧
      Spec.DES.ofBytes (Props.DES.rev4 c1) = Spec.DES.encrypt (Spec.DES.ofBytes (Props.DES.rev4 [k0, k1, k2, k3, k4, k5, k6, k7]))
        (Spec.DES.ofBytes (Props.DES.rev4 [a0, a1, a2, a3, a4, a5, a6, a7])) ∧
      Spec.DES.ofBytes (Props.DES.rev4 c2) = Spec.DES.encrypt (Spec.DES.ofBytes (Props.DES.rev4 [k0, k1, k2, k3, k4, k5, k6, k7]))
        (Spec.DES.ofBytes (Props.DES.rev4 [b0, b1, b2, b3, b4, b5, b6, b7])) := by
  obtain ⟨rk, h1, h2⟩ := Props.DES.des_weak_keys_fips_partial k0 k1 k2 k3 k4 k5 k6 k7 a0 a1 a2 a3 a4 a5 a6 a7 K hw
  obtain ⟨rk', h1', h3⟩ := Props.DES.des_weak_keys_fips_partial k0 k1 k2 k3 k4 k5 k6 k7 b0 b1 b2 b3 b4 b5 b6 b7 K hw
  rw [h1, Res.ok_inj] at h1'
  subst h1'
  exact ⟨Props.DES.blockBytes rk a0 a1 a2 a3 a4 a5 a6 a7, Props.DES.blockBytes rk b0 b1 b2 b3 b4 b5 b6 b7, des_main_run junk keyString _ _ _ _ _ _ _ _ rk _ hk hu h1 rfl, rfl, rfl, h2, h3⟩

def zeroKeyText : List U8 := ascii "0000000000000000"
def starfall : List U8 := ascii "STARFALL"

set_option maxRecDepth 10000 in
example : denotes zeroKeyText = some [0, 0, 0, 0, 0, 0, 0, 0] ∧ noLower zeroKeyText ∧
    Spec.DES.keySchedule (Spec.DES.ofBytes (Props.DES.rev4 [0, 0, 0, 0, 0, 0, 0, 0])) =
      List.replicate 16 (List.replicate 48 false) := by
  refine ⟨by decide +kernel, by unfold noLower; decide +kernel, by decide +kernel⟩

set_option maxRecDepth 10000 in
/-- C95 is false: the shipped program does not print the FIPS 46-3 encryption of its message. -/
theorem des_main_refuted (junk : Nat → Nat → U8) : ∃ c : List U8, c.length = 8 ∧
    Spec.DES.ofBytes c = Spec.DES.encrypt (Spec.DES.ofBytes (List.replicate 8 0)) (Spec.DES.ofBytes starfall) ∧
    desMain junk zeroKeyText (starfall ++ starfall) ≠ .ok [("Hex CT: ", Spec.Hex.encode (c ++ c))] := by
  refine ⟨[0x4b, 0x7c, 0xa5, 0xd7, 0x39, 0xbd, 0x1b, 0x3b], rfl, by decide +kernel, ?_⟩
  have hk : denotes zeroKeyText = some [0, 0, 0, 0, 0, 0, 0, 0] := by decide +kernel
  obtain ⟨rk, h1, -⟩ := Props.DES.scheduleE 0 0 0 0 0 0 0 0
  have e := fun junk => des_main_run junk zeroKeyText _ _ _ _ _ _ _ _ rk (starfall ++ starfall) hk
    (by unfold noLower; decide +kernel) h1 (by decide +kernel)
  rw [e junk, ← e (fun _ _ => 0)]
  decide +kernel

/-- C96 is false for every key: a message of four equal blocks, like the one of the program, gives four equal blocks
of ciphertext, which counter mode never does with distinct counter blocks. -/
theorem des_ctr_main_refuted (junk : Nat → Nat → U8) (keyString key block : List U8)
    (hk : denotes keyString = some key) (hu : noLower keyString) (hkl : key.length = 8) (hb : block.length = 8) :
    ∃ c : List U8, c.length = 8 ∧ desCtrMain junk keyString (block ++ block ++ block ++ block) =
      .ok [("Hex CT: ", Spec.Hex.encode (c ++ c ++ c ++ c))] := by
  match key, hkl with
  | [k0, k1, k2, k3, k4, k5, k6, k7], _ =>
  match block, hb with
  | [b0, b1, b2, b3, b4, b5, b6, b7], _ =>
  obtain ⟨rk, hs, -⟩ := Props.DES.scheduleE k0 k1 k2 k3 k4 k5 k6 k7
  have d1 := decode_arr junk 0 8 keyString _ hk hu rfl (by omega)
  rw [denotes_length _ _ hk] at d1
  have d1' : Hex.decode (arr junk 0 8) keyString 16 = .ok [k0, k1, k2, k3, k4, k5, k6, k7] := d1
  have hb : (bytesToWordsLE (arr junk 1 32)).length = 8 := toWords_length 8 _ (by simp)
  have e := DES.ctr_packet rk ⟨[le32 b0 b1 b2 b3, le32 b4 b5 b6 b7, le32 b0 b1 b2 b3, le32 b4 b5 b6 b7,
    le32 b0 b1 b2 b3, le32 b4 b5 b6 b7, le32 b0 b1 b2 b3, le32 b4 b5 b6 b7], bytesToWordsLE (arr junk 1 32), false⟩ 0 0 0 [] 4
    (by omega) (by simp [hb]) (by simp [DES.Arrs.srcLen])
  generalize DES.ecbBlock rk (0, 0) = k at e
  have hd : (bytesToWordsLE (arr junk 1 32)).drop (2 * 4) = [] := List.drop_of_length_le (by omega)
  simp only [Bool.false_eq_true, if_false, hd, List.append_nil] at e
  let c := wordsToBytesLE [le32 b0 b1 b2 b3 ^^^ k.1, le32 b4 b5 b6 b7 ^^^ k.2]
  obtain ⟨t, p1, -, p2, -⟩ := print_zero junk 2 32 (c ++ c ++ c ++ c) rfl (by omega)
  refine ⟨c, rfl, ?_⟩
  have p1' : Hex.encode (arr junk 2 65) (wordsToBytesLE (DES.mapPairs (fun p => (p.1 ^^^ k.1, p.2 ^^^ k.2))
    (List.take (2 * 4) [le32 b0 b1 b2 b3, le32 b4 b5 b6 b7, le32 b0 b1 b2 b3, le32 b4 b5 b6 b7,
    le32 b0 b1 b2 b3, le32 b4 b5 b6 b7, le32 b0 b1 b2 b3, le32 b4 b5 b6 b7]))) 32 = .ok t := p1
  have e' : DES.processPacketCtr rk ⟨bytesToWordsLE ([b0, b1, b2, b3, b4, b5, b6, b7] ++ [b0, b1, b2, b3, b4, b5, b6, b7] ++
    [b0, b1, b2, b3, b4, b5, b6, b7] ++ [b0, b1, b2, b3, b4, b5, b6, b7]), bytesToWordsLE (arr junk 1 32), false⟩ [0, 0, 0] 32 = _ := e
  rw [desCtrMain, d1', Res.ok_bind, hs, Res.ok_bind, e', Res.ok_bind]
  simp only [p1', Res.ok_bind, p2, Res.pure_eq]

/-- The shipped key and block. -/
example : (denotes zeroKeyText).isSome ∧ noLower zeroKeyText ∧ starfall.length = 8 := by
  refine ⟨by decide +kernel, by unfold noLower; decide +kernel, by decide +kernel⟩

/-! ### C97: test vectors of AES in counter mode -/

theorem differs_eq : ∀ (n : Nat) (p q a b : List U8), p.length = q.length → a.length = n → n ≤ b.length →
    differs (p ++ a) (q ++ b) n p.length = .ok (decide (a ≠ b.take n)) := by
  intro n
  induction n with
  | zero =>
    intro p q a b _ ha _
    rw [List.length_eq_zero_iff] at ha
    subst ha
    simp [differs]
  | succ n ih =>
    intro p q a b hq ha hb
    match a, b with
    | x :: a, y :: b =>
      have r1 := Mem.rd_append_right p (x :: a) 0
      have r2 := Mem.rd_append_right q (y :: b) 0
      rw [Nat.add_zero] at r1 r2
      have := ih (p ++ [x]) (q ++ [y]) a b (by simp [hq]) (by simpa using ha) (by simpa using hb)
      rw [List.append_assoc, List.append_assoc, List.length_append] at this
      rw [differs, r1, show Mem.rd (x :: a) 0 = .ok x from rfl, Res.ok_bind, hq, r2,
        show Mem.rd (y :: b) 0 = .ok y from rfl, Res.ok_bind, ← hq]
      by_cases hxy : x = y
      · subst hxy
        simp only [ne_eq, not_true_eq_false, if_false]
        refine this.trans ?_
        simp
      · simp [hxy]

/-- The texts printed for test vectors from number `k + 1` on. -/
def ctrLines : Nat → List CtrVector → Printout
  | _, [] => []
  | k, v :: vs => (s!"Output {k + 1}: ", Spec.Hex.encode (Spec.AES.ctr v.key v.nonce 1 v.input) ++ [0]) :: ctrLines (k + 1) vs

/-- C97, counter mode: for test vectors whose sizes are multiples of four the program prints the SP 800-38A
encryptions (with a zero character at the end) and counts exactly the vectors with another expected result.
Missing: other sizes. -/
theorem ctr_vectors_partial (junk : Nat → Nat → U8) (vs : List CtrVector) (k : Nat) (cs : AES.State)
    (h : ∀ v ∈ vs, v.nonce.length = 12 ∧ v.input.length % 4 = 0 ∧ v.input.length < 2 ^ 30 ∧
      v.expected.length = v.input.length) :
    ctrVectors AES.ctrPacket junk k cs vs = .ok (ctrLines k vs,
      (vs.filter fun v => Spec.AES.ctr v.key v.nonce 1 v.input ≠ v.expected).length) := by
  induction vs generalizing k cs with
  | nil => rfl
  | cons v vs ih =>
    obtain ⟨h1, h2, h3, h4⟩ := h v (by simp)
    have e := Props.AES.ctr_packet v.key v.nonce 1 ⟨v.input, arr junk (2 * k) v.input.length, false⟩ v.input.length
      ⟨by simp [Io.src], by simp⟩ (by omega)
    rw [Props.AES.ctrKs_aligned v.key h1 1 _ h2] at e
    have hx : (⟨v.input, arr junk (2 * k) v.input.length, false⟩ : Io).xored
      ((Spec.AES.ctrStream v.key v.nonce 1 ((v.input.length + 15) / 16)).take v.input.length) =
        ⟨v.input, Spec.AES.ctr v.key v.nonce 1 v.input, false⟩ := by
      have hl : ((Spec.AES.ctrStream v.key v.nonce 1 ((v.input.length + 15) / 16)).take v.input.length).length = v.input.length := by
        rw [List.length_take, AES.ctrStream_length]; omega
      simp only [Io.xored, hl, Io.src, Bool.false_eq_true, if_false, List.take_length, xorBytes_take_right, Spec.AES.ctr]
      rw [List.drop_of_length_le (by simp), List.append_nil]
    have hl : (Spec.AES.ctr v.key v.nonce 1 v.input).length = v.input.length := by
      rw [Spec.AES.ctr, xorBytes_length, AES.ctrStream_length]; omega
    rw [hx] at e
    obtain ⟨t, p1, -, -, -, p2⟩ := print_zero junk (2 * k + 1) v.input.length _ hl h3
    have hd := differs_eq v.input.length [] [] (Spec.AES.ctr v.key v.nonce 1 v.input) v.expected rfl hl (by omega)
    simp only [List.nil_append, List.length_nil] at hd
    rw [List.take_of_length_le (by omega)] at hd
    have ih' := ih (k + 1) (AES.ctrSt (AES.keyExpansion v.key) v.nonce (1 + (v.input.length + 15) / 16)) fun w hw => h w (by simp [hw])
    rw [ctrVectors, AES.ctrLoadIv_eq, e, Res.ok_bind]
    simp only [p1, p2, hd, ih', Res.ok_bind, Res.pure_eq, ctrLines, List.filter_cons]
    by_cases hw : Spec.AES.ctr v.key v.nonce 1 v.input = v.expected
    · simp [hw]
    · simp [hw, Nat.add_comm]

example (junk : Nat → Nat → U8) (cs : AES.State) (key : List U8) :=
  ctr_vectors_partial junk [{ key := key, nonce := List.replicate 12 1, input := [1, 2, 3, 4], expected := [5, 6, 7, 8] }] 0 cs (by simp)

/-- The vectors of AES_CTR/test_vectors.cpp (36-91). -/
def ctrShipped : List CtrVector := [
  ⟨[0xae, 0x68, 0x52, 0xf8, 0x12, 0x10, 0x67, 0xcc, 0x4b, 0xf7, 0xa5, 0x76, 0x55, 0x77, 0xf3, 0x9e],
    [0x00, 0x00, 0x00, 0x30, 0x00, 0x00, 0x00, 0x00, 0x00, 0x00, 0x00, 0x00],
    [0x53, 0x69, 0x6e, 0x67, 0x6c, 0x65, 0x20, 0x62, 0x6c, 0x6f, 0x63, 0x6b, 0x20, 0x6d, 0x73, 0x67],
    [0xe4, 0x09, 0x5d, 0x4f, 0xb7, 0xa7, 0xb3, 0x79, 0x2d, 0x61, 0x75, 0xa3, 0x26, 0x13, 0x11, 0xb8]⟩,
  ⟨[0x7e, 0x24, 0x06, 0x78, 0x17, 0xfa, 0xe0, 0xd7, 0x43, 0xd6, 0xce, 0x1f, 0x32, 0x53, 0x91, 0x63],
    [0x00, 0x6c, 0xb6, 0xdb, 0xc0, 0x54, 0x3b, 0x59, 0xda, 0x48, 0xd9, 0x0b],
    [0x00, 0x01, 0x02, 0x03, 0x04, 0x05, 0x06, 0x07, 0x08, 0x09, 0x0a, 0x0b, 0x0c, 0x0d, 0x0e, 0x0f, 0x10, 0x11, 0x12,
    0x13, 0x14, 0x15, 0x16, 0x17, 0x18, 0x19, 0x1a, 0x1b, 0x1c, 0x1d, 0x1e, 0x1f],
    [0x51, 0x04, 0xa1, 0x06, 0x16, 0x8a, 0x72, 0xd9, 0x79, 0x0d, 0x41, 0xee, 0x8e, 0xda, 0xd3, 0x88, 0xeb, 0x2e, 0x1e,
    0xfc, 0x46, 0xda, 0x57, 0xc8, 0xfc, 0xe6, 0x30, 0xdf, 0x91, 0x41, 0xbe, 0x28]⟩,
  ⟨[0x76, 0x91, 0xbe, 0x03, 0x5e, 0x50, 0x20, 0xa8, 0xac, 0x6e, 0x61, 0x85, 0x29, 0xf9, 0xa0, 0xdc],
    [0x00, 0xe0, 0x01, 0x7b, 0x27, 0x77, 0x7f, 0x3f, 0x4a, 0x17, 0x86, 0xf0],
    [0x00, 0x01, 0x02, 0x03, 0x04, 0x05, 0x06, 0x07, 0x08, 0x09, 0x0a, 0x0b, 0x0c, 0x0d, 0x0e, 0x0f, 0x10, 0x11, 0x12,
    0x13, 0x14, 0x15, 0x16, 0x17, 0x18, 0x19, 0x1a, 0x1b, 0x1c, 0x1d, 0x1e, 0x1f, 0x20, 0x21, 0x22, 0x23],
    [0xc1, 0xcf, 0x48, 0xa8, 0x9f, 0x2f, 0xfd, 0xd9, 0xcf, 0x46, 0x52, 0xe9, 0xef, 0xdb, 0x72, 0xd7, 0x45, 0x40, 0xa4,
    0x2b, 0xde, 0x6d, 0x78, 0x36, 0xd5, 0x9a, 0x5c, 0xea, 0xae, 0xf3, 0x10, 0x53, 0x25, 0xb2, 0x07, 0x2f]⟩]

/-- The count of an outcome. -/
def wrongOf : Res (Printout × Nat) → Nat
  | .ok r => r.2
  | .ub _ => 1000

theorem wrongOf_eq {X : Res (Printout × Nat)} {a : Printout} {n m : Nat} (h : X = .ok (a, n)) (hm : wrongOf X = m) : n = m := by
  rw [h] at hm
  exact hm

set_option maxRecDepth 10000 in
/-- C97 with the shipped vectors: all three are found correct, in all builds. -/
theorem ctr_vectors_shipped (junk : Nat → Nat → U8) (cs : AES.State) :
    (∃ lines, ctrVectors AES.ctrPacket junk 0 cs ctrShipped = .ok (lines, 0)) ∧
    (∃ lines, ctrVectors AES.ctrPacketX86 junk 0 cs ctrShipped = .ok (lines, 0)) ∧
    (∃ lines, ctrVectors AES.ctrPacketArm junk 0 cs ctrShipped = .ok (lines, 0)) := by
  have h : ∀ v ∈ ctrShipped, v.nonce.length = 12 ∧ v.input.length % 4 = 0 ∧ v.input.length < 2 ^ 30 ∧
      v.expected.length = v.input.length := by decide +kernel
  have hx : AES.ctrPacketX86 = AES.ctrPacket := by funext a b c; exact (Props.AES.aes_ctr_variants_agree a b c).1
  have ha : AES.ctrPacketArm = AES.ctrPacket := by funext a b c; exact (Props.AES.aes_ctr_variants_agree a b c).2
  rw [hx, ha]
  have e := fun junk cs => ctr_vectors_partial junk ctrShipped 0 cs h
  have e1 : wrongOf (ctrVectors AES.ctrPacket (fun _ _ => 0) 0 ⟨⟨0, 0, 0, 0⟩, []⟩ ctrShipped) = 0 := by decide +kernel
  have e2 := wrongOf_eq (e (fun _ _ => 0) ⟨⟨0, 0, 0, 0⟩, []⟩) e1
  rw [e junk cs]
  rw [e2]
  exact ⟨⟨_, rfl⟩, ⟨_, rfl⟩, ⟨_, rfl⟩⟩

/-! ### C98: AEGIS -/

theorem aegis_pair {rnd : Quad → Quad → Quad} (hv : Props.AEGIS.IsVariant rnd) (cs : AEGIS.State) (key iv ad p o1 o2 : List U8)
    (hk : key.length = 16) (hi : iv.length = 16) (ha : ad.length ≤ 2 ^ 33) (h15 : p.length = 0 ∨ 15 ≤ p.length)
    (hn : p.length < 2 ^ 64) (h1 : o1.length = p.length) (h2 : o2.length = p.length) :
    ∃ c1 c2, AEGIS.encryptPacket rnd (AEGIS.loadKey cs key) ⟨p, o1, false⟩ ad iv ad.length p.length =
        .ok (c1, ⟨p, (Spec.AEGIS.encrypt key iv ad p).1, false⟩, (Spec.AEGIS.encrypt key iv ad p).2) ∧
      AEGIS.decryptPacket rnd c1 ⟨(Spec.AEGIS.encrypt key iv ad p).1, o2, false⟩ ad iv (Spec.AEGIS.encrypt key iv ad p).2
        ad.length p.length = .ok (c2, ⟨(Spec.AEGIS.encrypt key iv ad p).1, p, false⟩, (Spec.AEGIS.encrypt key iv ad p).2, 1) := by
  obtain ⟨c1, e1⟩ := Props.AEGIS.aegis_conforms_partial hv cs key iv ad ⟨p, o1, false⟩ p.length hk hi ha h15 hn
    ⟨by simp [Io.src], by simp [h1]⟩ rfl
  simp only [List.take_length] at e1
  rw [List.drop_of_length_le (by omega), List.append_nil] at e1
  obtain ⟨c1', ct, tag, e2, c2, e3⟩ := Props.AEGIS.aegis_round_trip_partial hv hv cs cs key iv ad p o1 o2 false hk hi ha h15 hn h1 h2
  rw [e1, Res.ok_inj] at e2
  obtain ⟨-, e4⟩ := Prod.mk.inj e2
  obtain ⟨e5, e6⟩ := Prod.mk.inj e4
  have e7 : (Spec.AEGIS.encrypt key iv ad p).1 = ct := congrArg Io.out e5
  refine ⟨c1, c2, e1, ?_⟩
  rw [e6, e7]
  refine Eq.trans ?_ e3
  have hkey := Props.AEGIS.aegis_encrypt_keeps_key rnd e1
  exact (Props.AEGIS.aegis_key_only rnd hkey _ _ _ _ _ _).2

theorem aegis_lengths (key iv ad p : List U8) (hk : key.length = 16) (hi : iv.length = 16) (ha : ad.length ≤ 2 ^ 33) :
    (Spec.AEGIS.encrypt key iv ad p).1.length = p.length ∧ (Spec.AEGIS.encrypt key iv ad p).2.length = 16 := by
  rw [Props.AEGIS.spec_header key iv ad p hk hi ha]
  simp [AEGIS.msgRun_length]

/-- C98, the part that holds: a plaintext that is empty or has at least 15 bytes is encrypted as in AEGIS-128 and
recovered; the text of the ciphertext ends with a zero character.  Missing: the sizes 1 to 14
(`aegis_main_refuted`). -/
theorem aegis_main_partial {rnd : Quad → Quad → Quad} (hv : Props.AEGIS.IsVariant rnd) (junk : Nat → Nat → U8) (cs : AEGIS.State)
    (key iv p : List U8) (hk : key.length = 16) (hi : iv.length = 16) (h15 : p.length = 0 ∨ 15 ≤ p.length)
    (hn : p.length < 2 ^ 30) :
    aegisMain rnd junk cs key iv p = .ok (some [("Hex CT: ", Spec.Hex.encode (Spec.AEGIS.encrypt key iv iv p).1 ++ [0]),
      ("Plaintext: ", p), ("Recovered: ", p)]) := by
  obtain ⟨c1, c2, e1, e2⟩ := aegis_pair hv cs key iv iv p (List.replicate p.length 0) (List.replicate p.length 0) hk hi
    (by omega) h15 (by omega) (by simp) (by simp)
  have hl := (aegis_lengths key iv iv p hk hi (by omega)).1
  rw [hi] at e1 e2
  obtain ⟨t, p1, -, -, -, p2⟩ := print_zero junk 0 p.length _ hl hn
  simp only [aegisMain, e1, Res.ok_bind, e2, Int.reduceEq, if_false, asInt_eq (show p.length < 2 ^ 31 by omega), p1, p2,
    stringN_all p _ rfl, Res.pure_eq]

/-- Key, IV and text of main.cpp. -/
example : ([0x10, 0x01] ++ List.replicate 14 0 : List U8).length = 16 ∧ ([0x10, 0x00, 0x02] ++ List.replicate 13 0 : List U8).length = 16 ∧
    15 ≤ (ascii "Hello world! This is the sample program for AEGIS").length ∧
    (ascii "Hello world! This is the sample program for AEGIS").length < 2 ^ 30 := by decide +kernel

/-- C98 is false: plaintexts of 1 to 14 bytes run out of the buffer. -/
theorem aegis_main_refuted {rnd : Quad → Quad → Quad} (hv : Props.AEGIS.IsVariant rnd) (junk : Nat → Nat → U8) (cs : AEGIS.State)
    (key iv p : List U8) (hk : key.length = 16) (hi : iv.length = 16) (h1 : 1 ≤ p.length) (h14 : p.length ≤ 14) :
    (aegisMain rnd junk cs key iv p).isUB := by
  have h := (Props.AEGIS.aegis_encrypt_ub_iff hv cs key iv iv ⟨p, List.replicate p.length 0, false⟩ p.length hk hi (by omega)
    (by omega) ⟨by simp [Io.src], by simp⟩ (by simp; omega)).mpr ⟨h1, h14⟩
  rw [hi] at h
  rw [aegisMain]
  dsimp only
  cases e : AEGIS.encryptPacket rnd (AEGIS.loadKey cs key) ⟨p, List.replicate p.length 0, false⟩ iv iv 16 p.length with
  | ok r => rw [e] at h; cases h
  | ub w => trivial

/-! ### C99: test vectors of AEGIS -/

theorem sameText_eq : ∀ (n : Nat) (p q a b : List U8) (r : Bool), p.length = q.length → a.length = n → n ≤ b.length →
    sameText (p ++ a) (q ++ b) n p.length r = .ok (r && decide (a = b.take n)) := by
  intro n
  induction n with
  | zero =>
    intro p q a b r _ ha _
    rw [List.length_eq_zero_iff] at ha
    subst ha
    simp [sameText]
  | succ n ih =>
    intro p q a b r hq ha hb
    match a, b with
    | x :: a, y :: b =>
      have r1 := Mem.rd_append_right p (x :: a) 0
      have r2 := Mem.rd_append_right q (y :: b) 0
      rw [Nat.add_zero] at r1 r2
      have := ih (p ++ [x]) (q ++ [y]) a b (if x ≠ y then false else r) (by simp [hq]) (by simpa using ha) (by simpa using hb)
      rw [List.append_assoc, List.append_assoc, List.length_append] at this
      rw [sameText, r1, show Mem.rd (x :: a) 0 = .ok x from rfl, Res.ok_bind, hq, r2,
        show Mem.rd (y :: b) 0 = .ok y from rfl, Res.ok_bind, ← hq]
      refine this.trans ?_
      by_cases hxy : x = y
      · subst hxy; simp
      · simp [hxy]

/-- The texts printed for the test vectors. -/
def aegisLines : List AegisVector → Printout
  | [] => []
  | v :: vs =>
    ("PT: ", Spec.Hex.encode v.pt ++ [0]) :: ("Expected CT: ", v.expectedCt) ::
      ("Computed CT: ", Spec.Hex.encode (Spec.AEGIS.encrypt v.key v.iv v.ad v.pt).1 ++ [0]) :: ("Expected TAG: ", v.expectedTag) ::
      ("Computed TAG: ", Spec.Hex.encode (Spec.AEGIS.encrypt v.key v.iv v.ad v.pt).2 ++ [0]) ::
      ("RECOVERED PT: ", Spec.Hex.encode v.pt) :: aegisLines vs

/-- A vector is right if its texts are those of the AEGIS-128 ciphertext and tag. -/
def aegisRight (v : AegisVector) : Bool :=
  v.expectedCt = Spec.Hex.encode (Spec.AEGIS.encrypt v.key v.iv v.ad v.pt).1 &&
  v.expectedTag = Spec.Hex.encode (Spec.AEGIS.encrypt v.key v.iv v.ad v.pt).2

/-- C99, the part that holds: for test vectors whose plaintext is empty or has at least 15 bytes, the program prints
the AEGIS-128 results and counts exactly the right vectors.  Missing: plaintexts of 1 to 14 bytes. -/
theorem aegis_vectors_partial {rnd : Quad → Quad → Quad} (hv : Props.AEGIS.IsVariant rnd) (junk : Nat → Nat → U8)
    (cs : Nat → AEGIS.State) (vs : List AegisVector) (k : Nat)
    (h : ∀ v ∈ vs, v.key.length = 16 ∧ v.iv.length = 16 ∧ v.ad.length ≤ 2 ^ 33 ∧ (v.pt.length = 0 ∨ 15 ≤ v.pt.length) ∧
      v.pt.length < 2 ^ 30 ∧ v.expectedCt.length = 2 * v.pt.length ∧ v.expectedTag.length = 32) :
    aegisVectors rnd junk cs k vs = .ok (some (aegisLines vs, (vs.filter aegisRight).length)) := by
  induction vs generalizing k with
  | nil => rfl
  | cons v vs ih =>
    obtain ⟨h1, h2, h3, h4, h5, h6, h7⟩ := h v (by simp)
    have ih' := ih (k + 1) fun w hw => h w (by simp [hw])
    obtain ⟨c1, c2, e1, e2⟩ := aegis_pair hv (cs k) v.key v.iv v.ad v.pt (List.replicate v.pt.length 0) (arr junk (6 * k) v.pt.length)
      h1 h2 h3 h4 (by omega) (by simp) (by simp)
    obtain ⟨l1, l2⟩ := aegis_lengths v.key v.iv v.ad v.pt h1 h2 h3
    rw [aegisVectors, aegisLines, List.filter_cons, aegisRight]
    generalize (Spec.AEGIS.encrypt v.key v.iv v.ad v.pt).1 = ct at *
    generalize (Spec.AEGIS.encrypt v.key v.iv v.ad v.pt).2 = tag at *
    obtain ⟨t1, p1, -, -, -, s1⟩ := print_zero junk (6 * k + 1) v.pt.length v.pt rfl h5
    obtain ⟨t2, p2, -, -, -, s2⟩ := print_zero junk (6 * k + 2) v.pt.length ct l1 h5
    obtain ⟨t3, p3, q3, -, -, s3⟩ := print_zero junk (6 * k + 3) 16 tag l2 (by omega)
    obtain ⟨t4, p4, -, s4, -⟩ := print_zero junk (6 * k + 4) v.pt.length v.pt rfl h5
    have p3' : Hex.encode (arr junk (6 * k + 3) 33) tag 16 = .ok t3 := p3
    have s3' : stringN t3 33 = .ok (Spec.Hex.encode tag ++ [0]) := s3
    have m1 := sameText_eq (2 * v.pt.length) [] [] v.expectedCt (Spec.Hex.encode ct ++ [0]) true rfl h6
      (by simp [Props.Hex.encode_length, l1])
    rw [List.take_left' (by rw [Props.Hex.encode_length, l1])] at m1
    have m2 := fun r => sameText_eq 32 [] [] v.expectedTag t3 r rfl h7 (by simp [q3, Props.Hex.encode_length, l2])
    have q4 : t3.take 32 = Spec.Hex.encode tag := by rw [q3, List.take_left' (by rw [Props.Hex.encode_length, l2])]
    simp only [q4, List.nil_append, List.length_nil, Bool.true_and] at m1 m2
    simp only [e1, e2, Res.ok_bind, p1, s1, p2, s2, p3', s3', p4, s4, m1, m2, ih', Res.pure_eq, Int.reduceEq, if_false]
    split <;> simp_all [Nat.add_comm]

example (junk : Nat → Nat → U8) (cs : Nat → AEGIS.State) := aegis_vectors_partial (Or.inl rfl : Props.AEGIS.IsVariant AEGIS.rndPortable) junk cs
  [{ key := List.replicate 16 1, iv := List.replicate 16 2, ad := [3], pt := [], expectedCt := [], expectedTag := List.replicate 32 48 }] 0 (by simp)

/-- The vectors of AEGIS/test_vectors.cpp (19-27, 90-98, 162-170, 236-248). -/
def aegisShipped : List AegisVector := [
  ⟨List.replicate 16 0,
    List.replicate 16 0,
    [],
    List.replicate 16 0,
    ascii "951B050FA72B1A2FC16D2E1F01B07D7E",
    ascii "A7D2A99773249542F422217EE888D5F1"⟩,
  ⟨List.replicate 16 0,
    List.replicate 16 0,
    List.replicate 16 0,
    List.replicate 16 0,
    ascii "10B0DEE65A97D751205C128A992473A1",
    ascii "46DCB9EE93C46CF13731D41B9646C131"⟩,
  ⟨[0x00, 0x01, 0x00, 0x00, 0x00, 0x00, 0x00, 0x00, 0x00, 0x00, 0x00, 0x00, 0x00, 0x00, 0x00, 0x00],
    [0x00, 0x00, 0x02, 0x00, 0x00, 0x00, 0x00, 0x00, 0x00, 0x00, 0x00, 0x00, 0x00, 0x00, 0x00, 0x00],
    [0x00, 0x01, 0x02, 0x03],
    List.replicate 16 0,
    ascii "2B78F5C1618DA39AFBB2920F5DAE02B0",
    ascii "74759CD0E19314650D6C635B563D80FD"⟩,
  ⟨[0x10, 0x01, 0x00, 0x00, 0x00, 0x00, 0x00, 0x00, 0x00, 0x00, 0x00, 0x00, 0x00, 0x00, 0x00, 0x00],
    [0x10, 0x00, 0x02, 0x00, 0x00, 0x00, 0x00, 0x00, 0x00, 0x00, 0x00, 0x00, 0x00, 0x00, 0x00, 0x00],
    [0x00, 0x01, 0x02, 0x03, 0x04, 0x05, 0x06, 0x07],
    [0x00, 0x01, 0x02, 0x03, 0x04, 0x05, 0x06, 0x07, 0x08, 0x09, 0x0a, 0x0b, 0x0c, 0x0d, 0x0e, 0x0f, 0x10, 0x11, 0x12,
    0x13, 0x14, 0x15, 0x16, 0x17, 0x18, 0x19, 0x1a, 0x1b, 0x1c, 0x1d, 0x1e, 0x1f],
    ascii "E08EC10685D63C7364ECA78FF6E1A1DDFDFC15D5311A7F2988A0471A13973FD7",
    ascii "27E84B6C4CC46CB6ECE8F1F3E4AA0E78"⟩]

/-- The count of an outcome. -/
def rightOf : Res (Option (Printout × Nat)) → Nat
  | .ok (some r) => r.2
  | _ => 1000

theorem rightOf_eq {X : Res (Option (Printout × Nat))} {a : Printout} {n m : Nat} (h : X = .ok (some (a, n)))
    (hm : rightOf X = m) : n = m := by
  rw [h] at hm
  exact hm

set_option maxRecDepth 10000 in
/-- C99 with the shipped vectors: all four tests are successful, in all builds. -/
theorem aegis_vectors_shipped {rnd : Quad → Quad → Quad} (hv : Props.AEGIS.IsVariant rnd) (junk : Nat → Nat → U8)
    (cs : Nat → AEGIS.State) : ∃ lines, aegisVectors rnd junk cs 0 aegisShipped = .ok (some (lines, 4)) := by
  have h : ∀ v ∈ aegisShipped, v.key.length = 16 ∧ v.iv.length = 16 ∧ v.ad.length ≤ 2 ^ 33 ∧ (v.pt.length = 0 ∨ 15 ≤ v.pt.length) ∧
      v.pt.length < 2 ^ 30 ∧ v.expectedCt.length = 2 * v.pt.length ∧ v.expectedTag.length = 32 := by decide +kernel
  have e1 : rightOf (aegisVectors AEGIS.rndPortable (fun _ _ => 0) (fun _ => Props.AEGIS.someState) 0 aegisShipped) = 4 := by
    decide +kernel
  have e2 := rightOf_eq (aegis_vectors_partial (Or.inl rfl) (fun _ _ => 0) (fun _ => Props.AEGIS.someState) aegisShipped 0 h) e1
  rw [aegis_vectors_partial hv junk cs aegisShipped 0 h, e2]
  exact ⟨_, rfl⟩

example (junk : Nat → Nat → U8) (cs : Nat → AEGIS.State) := aegis_vectors_shipped (Or.inl rfl : Props.AEGIS.IsVariant AEGIS.rndPortable) junk cs

end CT.Props.Programs
