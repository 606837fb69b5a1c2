import Verif.Props.ProgramsVectors

/-!
# C97, C99: what the test programs do with vectors of any size
-/

namespace CT.Props.Programs
open CT CT.Programs

/-- What one packet in counter mode gives for sizes 0 and 1 modulo 4: the SP 800-38A encryption, except that the
last byte of a size 1 modulo 4 uses the keystream byte three positions later. -/
def ctrBuilt (key nonce msg : List U8) : List U8 :=
  let ks := Spec.AES.ctrStream key nonce 1 ((msg.length + 15) / 16)
  if msg.length % 4 = 0 then Spec.AES.ctr key nonce 1 msg
  else xorBytes msg (ks.take (msg.length - 1) ++ [ks.getD (msg.length + 2) 0])

/-- The texts printed for test vectors from number `k + 1` on. -/
def ctrBuiltLines : Nat → List CtrVector → Printout
  | _, [] => []
  | k, v :: vs => (s!"Output {k + 1}: ", Spec.Hex.encode (ctrBuilt v.key v.nonce v.input) ++ [0]) :: ctrBuiltLines (k + 1) vs

theorem ctrBuilt_length (key nonce msg : List U8) : (ctrBuilt key nonce msg).length = msg.length := by
  rw [ctrBuilt]
  split
  · rw [Spec.AES.ctr, xorBytes_length, AES.ctrStream_length]; omega
  · simp only [xorBytes_length, List.length_append, List.length_take, AES.ctrStream_length, List.length_cons, List.length_nil]
    omega

theorem ctr_vector_packet (v : CtrVector) (cs : AES.State) (o : List U8) (h1 : v.nonce.length = 12) (h4 : v.input.length % 4 ≤ 1)
    (ho : o.length = v.input.length) : ∃ cs', AES.ctrPacket (AES.ctrLoadIv (AES.loadKey cs v.key) v.nonce) ⟨v.input, o, false⟩
      v.input.length = .ok (cs', ⟨v.input, ctrBuilt v.key v.nonce v.input, false⟩) := by
  have e := Props.AES.ctr_packet v.key v.nonce 1 ⟨v.input, o, false⟩ v.input.length ⟨by simp [Io.src], by simp [ho]⟩ h4
  rw [AES.ctrLoadIv_eq, e]
  refine ⟨_, congrArg Res.ok (congrArg (Prod.mk _) ?_)⟩
  have hl : (AES.ctrKs AES.pblk (AES.ctrSt (AES.keyExpansion v.key) v.nonce 1) v.input.length).length = v.input.length := by
    rw [AES.ctrKs_spec v.key h1]
    split
    · simp only [List.append_nil, List.length_take, AES.ctrStream_length]; omega
    · simp only [List.length_append, List.length_take, AES.ctrStream_length, List.length_cons, List.length_nil]; omega
  simp only [Io.xored, hl, Io.src, Bool.false_eq_true, if_false, List.take_length]
  rw [List.drop_of_length_le (by omega), List.append_nil]
  congr 1
  rw [AES.ctrKs_spec v.key h1, ctrBuilt]
  split
  · rw [List.append_nil, show 4 * (v.input.length / 4) = v.input.length by omega, xorBytes_take_right, Spec.AES.ctr]
  · rw [show 4 * (v.input.length / 4) = v.input.length - 1 by omega,
      show v.input.length - 1 + 3 = v.input.length + 2 by omega]

/-- C97, exact for sizes 0 and 1 modulo 4. -/
theorem ctr_vectors_exact (junk : Nat → Nat → U8) (vs : List CtrVector) (k : Nat) (cs : AES.State)
    (h : ∀ v ∈ vs, v.nonce.length = 12 ∧ v.input.length % 4 ≤ 1 ∧ v.input.length < 2 ^ 30 ∧
      v.expected.length = v.input.length) :
    ctrVectors AES.ctrPacket junk k cs vs = .ok (ctrBuiltLines k vs,
      (vs.filter fun v => ctrBuilt v.key v.nonce v.input ≠ v.expected).length) := by
  induction vs generalizing k cs with
  | nil => rfl
  | cons v vs ih =>
    obtain ⟨h1, h2, h3, h4⟩ := h v (by simp)
    obtain ⟨cs', e⟩ := ctr_vector_packet v cs (arr junk (2 * k) v.input.length) h1 h2 (by simp)
    have hl := ctrBuilt_length v.key v.nonce v.input
    obtain ⟨t, p1, -, -, -, p2⟩ := print_zero junk (2 * k + 1) v.input.length _ hl h3
    have hd := differs_eq v.input.length [] [] (ctrBuilt v.key v.nonce v.input) v.expected rfl hl (by omega)
    simp only [List.nil_append, List.length_nil] at hd
    rw [List.take_of_length_le (by omega)] at hd
    have ih' := ih (k + 1) cs' fun w hw => h w (by simp [hw])
    rw [ctrVectors, e, Res.ok_bind]
    simp only [p1, p2, hd, ih', Res.ok_bind, Res.pure_eq, ctrBuiltLines, List.filter_cons]
    by_cases hw : ctrBuilt v.key v.nonce v.input = v.expected
    · simp [hw]
    · simp [hw, Nat.add_comm]

/-- Non-trivial instance: sizes 16, 1 and 5. -/
example : ∀ v ∈ ([⟨List.replicate 16 0, List.replicate 12 0, List.replicate 16 1, List.replicate 16 2⟩,
    ⟨List.replicate 16 0, List.replicate 12 0, [1], [2]⟩,
    ⟨List.replicate 16 0, List.replicate 12 0, List.replicate 5 1, List.replicate 5 2⟩] : List CtrVector),
    v.nonce.length = 12 ∧ v.input.length % 4 ≤ 1 ∧ v.input.length < 2 ^ 30 ∧ v.expected.length = v.input.length := by decide

/-- C97, the rest: the program's behaviour is undefined exactly if a vector has a size 2 or 3 modulo 4. -/
theorem ctr_vectors_ub_iff (junk : Nat → Nat → U8) (vs : List CtrVector) (k : Nat) (cs : AES.State)
    (h : ∀ v ∈ vs, v.nonce.length = 12 ∧ v.input.length < 2 ^ 30 ∧ v.expected.length = v.input.length) :
    (ctrVectors AES.ctrPacket junk k cs vs).isUB = true ↔ ∃ v ∈ vs, 2 ≤ v.input.length % 4 := by
  constructor
  · intro hu
    false_or_by_contra
    rename_i hn
    have := ctr_vectors_exact junk vs k cs fun v hv => by
      obtain ⟨h1, h2, h3⟩ := h v hv
      refine ⟨h1, ?_, h2, h3⟩
      false_or_by_contra
      exact hn ⟨v, hv, by omega⟩
    rw [this] at hu
    cases hu
  · intro hv
    induction vs generalizing k cs with
    | nil => obtain ⟨v, hv, -⟩ := hv; cases hv
    | cons v vs ih =>
      obtain ⟨h1, h3, h4⟩ := h v (by simp)
      rcases Nat.lt_or_ge 1 (v.input.length % 4) with h2 | h2
      · have := (Props.AES.aes_ctr_ub_iff (AES.ctrLoadIv (AES.loadKey cs v.key) v.nonce)
          ⟨v.input, arr junk (2 * k) v.input.length, false⟩ v.input.length ⟨by simp [Io.src], by simp⟩).mpr h2
        rw [ctrVectors]
        dsimp only
        cases e : AES.ctrPacket (AES.ctrLoadIv (AES.loadKey cs v.key) v.nonce)
            ⟨v.input, arr junk (2 * k) v.input.length, false⟩ v.input.length with
        | ok r => rw [e] at this; cases this
        | ub w => rfl
      · obtain ⟨cs', e⟩ := ctr_vector_packet v cs (arr junk (2 * k) v.input.length) h1 h2 (by simp)
        have hl := ctrBuilt_length v.key v.nonce v.input
        obtain ⟨t, p1, -, -, -, p2⟩ := print_zero junk (2 * k + 1) v.input.length _ hl h3
        have hd := differs_eq v.input.length [] [] (ctrBuilt v.key v.nonce v.input) v.expected rfl hl (by omega)
        simp only [List.nil_append, List.length_nil] at hd
        have hr : ∃ w ∈ vs, 2 ≤ w.input.length % 4 := by
          obtain ⟨w, hw, hw2⟩ := hv
          rcases List.mem_cons.mp hw with rfl | hw
          · omega
          · exact ⟨w, hw, hw2⟩
        have ih' := ih (k + 1) cs' (fun w hw => h w (by simp [hw])) hr
        rw [ctrVectors, e, Res.ok_bind]
        simp only [p1, p2, hd, Res.ok_bind]
        cases e2 : ctrVectors AES.ctrPacket junk (k + 1) cs' vs with
        | ok r => rw [e2] at ih'; cases ih'
        | ub w => rfl

set_option maxRecDepth 10000 in
/-- C97 is false: with the zero key and nonce the one-byte message 0 and its SP 800-38A encryption are counted as
wrong, in all builds. -/
theorem ctr_vectors_refuted : ¬ ∀ (junk : Nat → Nat → U8) (cs : AES.State) (v : CtrVector),
    v.key.length = 16 → v.nonce.length = 12 → v.expected = Spec.AES.ctr v.key v.nonce 1 v.input →
    ∃ lines, ctrVectors AES.ctrPacket junk 0 cs [v] = .ok (lines, 0) := by
  intro h
  let c : List U8 := Spec.AES.ctr (List.replicate 16 0) (List.replicate 12 0) 1 [0]
  obtain ⟨lines, h1⟩ := h (fun _ _ => 0) ⟨⟨0, 0, 0, 0⟩, []⟩ ⟨List.replicate 16 0, List.replicate 12 0, [0], c⟩ rfl rfl rfl
  have hc : c.length = 1 := rfl
  have h2 := ctr_vectors_exact (fun _ _ => 0) [⟨List.replicate 16 0, List.replicate 12 0, [0], c⟩] 0 ⟨⟨0, 0, 0, 0⟩, []⟩
    (by intro v hv; rw [List.mem_singleton] at hv; subst hv; exact ⟨rfl, by decide, by simp, hc⟩)
  rw [h1] at h2
  have h3 := congrArg Prod.snd (Res.ok_inj.mp h2)
  have hne : ctrBuilt (List.replicate 16 0) (List.replicate 12 0) [0] ≠ c := by
    intro e
    have hs : Spec.AES.ctrStream (List.replicate 16 0) (List.replicate 12 0) 1 1 =
        blkBytes AES.pblk 1 (AES.ctrSt (AES.keyExpansion (List.replicate 16 0)) (List.replicate 12 0) 1) :=
      (AES.blkBytes_ctr _ (by decide) _ _).symm
    have e' : xorBytes [0] ((Spec.AES.ctrStream (List.replicate 16 0) (List.replicate 12 0) 1 1).take 0 ++
        [(Spec.AES.ctrStream (List.replicate 16 0) (List.replicate 12 0) 1 1).getD 3 0]) =
      xorBytes [0] (Spec.AES.ctrStream (List.replicate 16 0) (List.replicate 12 0) 1 1) := e
    rw [hs] at e'
    revert e'
    decide +kernel
  rw [List.filter_cons, if_pos (by simpa using hne)] at h3
  simp at h3

/-- C99, the rest: the program's behaviour is undefined exactly if a vector has a plaintext of 1 to 14 bytes. -/
theorem aegis_vectors_ub_iff {rnd : Quad → Quad → Quad} (hv : Props.AEGIS.IsVariant rnd) (junk : Nat → Nat → U8)
    (cs : Nat → AEGIS.State) (vs : List AegisVector) (k : Nat)
    (h : ∀ v ∈ vs, v.key.length = 16 ∧ v.iv.length = 16 ∧ v.ad.length ≤ 2 ^ 33 ∧
      v.pt.length < 2 ^ 30 ∧ v.expectedCt.length = 2 * v.pt.length ∧ v.expectedTag.length = 32) :
    (aegisVectors rnd junk cs k vs).isUB = true ↔ ∃ v ∈ vs, 1 ≤ v.pt.length ∧ v.pt.length ≤ 14 := by
  constructor
  · intro hu
    false_or_by_contra
    rename_i hn
    have := aegis_vectors_partial hv junk cs vs k fun v hw => by
      obtain ⟨h1, h2, h3, h4, h5⟩ := h v hw
      refine ⟨h1, h2, h3, ?_, h4, h5⟩
      false_or_by_contra
      exact hn ⟨v, hw, by omega, by omega⟩
    rw [this] at hu
    cases hu
  · intro hex
    induction vs generalizing k with
    | nil => obtain ⟨v, hv, -⟩ := hex; cases hv
    | cons v vs ih =>
      obtain ⟨h1, h2, h3, h5, h6, h7⟩ := h v (by simp)
      by_cases h4 : v.pt.length = 0 ∨ 15 ≤ v.pt.length
      · have hr : ∃ w ∈ vs, 1 ≤ w.pt.length ∧ w.pt.length ≤ 14 := by
          obtain ⟨w, hw, hw2⟩ := hex
          rcases List.mem_cons.mp hw with rfl | hw
          · omega
          · exact ⟨w, hw, hw2⟩
        have ih' := ih (k + 1) (fun w hw => h w (by simp [hw])) hr
        obtain ⟨c1, c2, e1, e2⟩ := aegis_pair hv (cs k) v.key v.iv v.ad v.pt (List.replicate v.pt.length 0)
          (arr junk (6 * k) v.pt.length) h1 h2 h3 h4 (by omega) (by simp) (by simp)
        obtain ⟨l1, l2⟩ := aegis_lengths v.key v.iv v.ad v.pt h1 h2 h3
        rw [aegisVectors]
        generalize (Spec.AEGIS.encrypt v.key v.iv v.ad v.pt).1 = ct at *
        generalize (Spec.AEGIS.encrypt v.key v.iv v.ad v.pt).2 = tag at *
        obtain ⟨t1, p1, -, -, -, s1⟩ := print_zero junk (6 * k + 1) v.pt.length v.pt rfl h5
        obtain ⟨t2, p2, -, -, -, s2⟩ := print_zero junk (6 * k + 2) v.pt.length ct l1 h5
        obtain ⟨t3, p3, q3, -, -, s3⟩ := print_zero junk (6 * k + 3) 16 tag l2 (by omega)
        obtain ⟨t4, p4, -, s4, -⟩ := print_zero junk (6 * k + 4) v.pt.length v.pt rfl h5
        have p3' : Hex.encode (arr junk (6 * k + 3) 33) tag 16 = .ok t3 := p3
        have s3' : stringN t3 33 = .ok (Spec.Hex.encode tag ++ [0]) := s3
        have m1 := sameText_eq (2 * v.pt.length) [] [] v.expectedCt (Spec.Hex.encode ct ++ [0]) true rfl h6
          (by simp [Props.Hex.encode_length, l1])
        have m2 := fun r => sameText_eq 32 [] [] v.expectedTag t3 r rfl h7 (by simp [q3, Props.Hex.encode_length, l2])
        simp only [List.nil_append, List.length_nil] at m1 m2
        simp only [e1, Res.ok_bind, e2, Int.reduceEq, if_false, p1, s1, p2, s2, p3', s3', p4, s4, m1, m2]
        cases e : aegisVectors rnd junk cs (k + 1) vs with
        | ok r => rw [e] at ih'; cases ih'
        | ub w => rfl
      · have hu := (Props.AEGIS.aegis_encrypt_ub_iff hv (cs k) v.key v.iv v.ad ⟨v.pt, List.replicate v.pt.length 0, false⟩
          v.pt.length h1 h2 h3 (by omega) ⟨by simp [Io.src], by simp⟩ (by simp; omega)).mpr ⟨by omega, by omega⟩
        rw [aegisVectors]
        dsimp only
        cases e : AEGIS.encryptPacket rnd (AEGIS.loadKey (cs k) v.key) ⟨v.pt, List.replicate v.pt.length 0, false⟩ v.ad v.iv
            v.ad.length v.pt.length with
        | ok r => rw [e] at hu; cases hu
        | ub w => rfl

/-- Non-trivial instance: a plaintext of one byte. -/
example : ∀ v ∈ ([⟨List.replicate 16 0, List.replicate 16 0, [], [1], [0x30, 0x30], List.replicate 32 0x30⟩] : List AegisVector),
    v.key.length = 16 ∧ v.iv.length = 16 ∧ v.ad.length ≤ 2 ^ 33 ∧
      v.pt.length < 2 ^ 30 ∧ v.expectedCt.length = 2 * v.pt.length ∧ v.expectedTag.length = 32 := by decide

end CT.Props.Programs
