import Verif.Props.DESKeyBits

/-!
# DES: blocks that are their own ciphertext (C120) and complementation (C121)
-/

namespace CT.Props.DES
open CT.DES CT.Spec.DES

/-! ## C120 -/

theorem rounds_add (rk : List U32) (m n : Nat) (p : U32 × U32) :
    DES.rounds rk (m + n) p = DES.rounds rk n (DES.rounds rk m p) := by
  induction m generalizing p with
  | zero => rw [Nat.zero_add]; rfl
  | succ m ih => rw [Nat.succ_add, rounds_succ, ih, ← rounds_succ]

theorem sw_sw (p : U32 × U32) : sw (sw p) = p := rfl

theorem rounds_inj {rk : List U32} {n : Nat} {p q : U32 × U32} (h : DES.rounds rk n p = DES.rounds rk n q) : p = q := by
  have := rounds_sw rk n p
  rw [h, rounds_sw] at this
  exact (congrArg sw this).symm

/-- The block that has equal halves `w` after eight of the sixteen rounds. -/
def middle (rk : List U32) (w : U32) : U32 × U32 := fp (sw (DES.rounds rk 4 (w, w)))

theorem middle_inj (rk : List U32) {v w : U32} (h : middle rk v = middle rk w) : v = w := by
  have h1 := congrArg ip h
  rw [middle, middle, ip_fp, ip_fp] at h1
  have h2 := rounds_inj (congrArg sw h1)
  exact (Prod.mk.inj h2).1

theorem fixed_iff (rk : List U32) (x : U32 × U32) : ecbBlock rk x = x ↔ ∃ w, middle rk w = x := by
  have e : ∀ q, ecbBlock rk q = fp (sw (DES.rounds rk 8 (ip q))) := fun _ => rfl
  constructor
  · intro h
    have h1 : sw (DES.rounds rk 4 (DES.rounds rk 4 (ip x))) = ip x := by
      rw [← rounds_add, ← ip_fp (sw _), ← e, h]
    have h2 := rounds_sw rk 4 (sw (DES.rounds rk 4 (ip x)))
    -- ip x = sw (R4 (sw z)) with z = R4 (ip x)
    have h3 : ip x = sw (DES.rounds rk 4 (sw (DES.rounds rk 4 (ip x)))) := by
      rw [rounds_sw]; rfl
    have h4 : DES.rounds rk 4 (DES.rounds rk 4 (ip x)) = DES.rounds rk 4 (sw (DES.rounds rk 4 (ip x))) :=
      congrArg sw (h1.trans h3)
    have h5 := rounds_inj h4
    refine ⟨(DES.rounds rk 4 (ip x)).1, ?_⟩
    have h6 : ((DES.rounds rk 4 (ip x)).1, (DES.rounds rk 4 (ip x)).1) = DES.rounds rk 4 (ip x) :=
      Prod.ext rfl (congrArg Prod.fst h5)
    rw [middle, h6, h1, fp_ip]
  · rintro ⟨w, rfl⟩
    rw [e]
    have : ip (middle rk w) = sw (DES.rounds rk 4 (w, w)) := ip_fp _
    rw [this, show (8 : Nat) = 4 + 4 from rfl, rounds_add, rounds_sw]
    rfl

/-- C120 is false for every key: encrypting twice gives back every packet (`des_ecb_encrypt_twice`), and there are
exactly 2^32 blocks that are their own ciphertext. -/
theorem des_fixed_blocks (k0 k1 k2 k3 k4 k5 k6 k7 : U8) :
    ∃ rk, keyScheduleEncrypt [k0, k1, k2, k3, k4, k5, k6, k7] = .ok rk ∧
      ∃ own : U32 → U32 × U32, (∀ v w, own v = own w → v = w) ∧
        ∀ x y u v : U32, processPacketEcb rk ⟨[x, y], [u, v], false⟩ 8 = .ok ⟨[x, y], [x, y], false⟩ ↔ ∃ w, own w = (x, y) := by
  obtain ⟨rk, h1, _, _⟩ := scheduleE k0 k1 k2 k3 k4 k5 k6 k7
  refine ⟨rk, h1, middle rk, fun _ _ => middle_inj rk, fun x y u v => ?_⟩
  rw [(ecb_packet_both rk [x, y] [u, v] 1 (by decide) rfl rfl).1, ← fixed_iff, Res.ok_inj]
  simp only [mapPairs, Arrs.mk.injEq, List.cons.injEq, and_true, true_and]
  rw [Prod.ext_iff]

/-- A key whose sixteen round keys are one and the same: the weak keys of FIPS 46-3. -/
def Weak (key : List U8) : Prop := ∃ K, keySchedule (ofBytes (rev4 key)) = List.replicate 16 K

set_option maxRecDepth 10000 in
/-- C120 is false, as a negation: a key that is not weak, under which encrypting twice gives back every block. -/
theorem des_weak_refuted : ¬ ∀ (key : List U8) (rk : List U32), key.length = 8 → ¬ Weak key →
    keyScheduleEncrypt key = .ok rk → ∃ x y ct, processPacketEcb rk ⟨[x, y], [0, 0], false⟩ 8 = .ok ⟨[x, y], ct, false⟩ ∧
      processPacketEcb rk ⟨ct, [0, 0], false⟩ 8 ≠ .ok ⟨ct, [x, y], false⟩ := by
  intro h
  obtain ⟨rk, h1, _, _⟩ := scheduleE 0x13 0x34 0x57 0x79 0x9b 0xbc 0xdf 0xf1
  have hw : ¬ Weak [0x13, 0x34, 0x57, 0x79, 0x9b, 0xbc, 0xdf, 0xf1] := by
    rintro ⟨K, hK⟩
    have h0 := congrArg (fun l => l.getD 0 []) hK
    have h15 := congrArg (fun l => l.getD 15 []) hK
    have : (keySchedule (ofBytes (rev4 [0x13, 0x34, 0x57, 0x79, 0x9b, 0xbc, 0xdf, 0xf1]))).getD 0 [] =
        (keySchedule (ofBytes (rev4 [0x13, 0x34, 0x57, 0x79, 0x9b, 0xbc, 0xdf, 0xf1]))).getD 15 [] :=
      h0.trans (Eq.trans rfl h15.symm)
    revert this
    decide +kernel
  obtain ⟨x, y, ct, e1, e2⟩ := h _ rk rfl hw h1
  obtain ⟨rk', ct', t0, t1, t2, -⟩ := des_ecb_encrypt_twice 0x13 0x34 0x57 0x79 0x9b 0xbc 0xdf 0xf1 [x, y] [0, 0] [0, 0] 1
    (by decide) rfl rfl rfl
  rw [h1, Res.ok_inj] at t0
  subst t0
  rw [show 8 * 1 = 8 from rfl, e1, Res.ok_inj] at t1
  have : ct = ct' := by injection t1
  subst this
  exact e2 t2

/-! ## C121 -/

/-- Complement of a bit string, of a packet and of a key. -/
def notBits (b : Bits) : Bits := b.map not

theorem perm_not (t : List Nat) (b : Bits) (h : ∀ i ∈ t, i - 1 < b.length) : perm t (notBits b) = notBits (perm t b) := by
  rw [perm, notBits, notBits, perm, List.map_map]
  apply List.map_congr_left
  intro i hi
  have hl := h i hi
  simp only [Function.comp]
  rw [List.getD_eq_getElem?_getD, List.getD_eq_getElem?_getD, List.getElem?_map, List.getElem?_eq_getElem hl]
  rfl

theorem perm_length (t : List Nat) (b : Bits) : (perm t b).length = t.length := by rw [perm, List.length_map]

theorem xor_not_not (a b : Bits) : Spec.DES.xor (notBits a) (notBits b) = Spec.DES.xor a b := by
  rw [notBits, notBits, Spec.DES.xor, Spec.DES.xor, List.zipWith_map]
  congr 1
  funext x y
  cases x <;> cases y <;> rfl

theorem xor_not_left (a b : Bits) : Spec.DES.xor (notBits a) b = notBits (Spec.DES.xor a b) := by
  rw [notBits, notBits, Spec.DES.xor, Spec.DES.xor, List.map_zipWith, List.zipWith_map_left]
  congr 1
  funext x y
  cases x <;> cases y <;> rfl

theorem f_not (R K : Bits) (hR : R.length = 32) : Spec.DES.f (notBits R) (notBits K) = Spec.DES.f R K := by
  rw [Spec.DES.f, Spec.DES.f, perm_not _ _ (by rw [hR]; decide), xor_not_not]

theorem f_length (R K : Bits) : (Spec.DES.f R K).length = 32 := by rw [Spec.DES.f, perm_length]; rfl

theorem rounds_not (ks : List Bits) : ∀ p : Bits × Bits, p.1.length = 32 → p.2.length = 32 →
    Spec.DES.rounds (ks.map notBits) (notBits p.1, notBits p.2) =
      (notBits (Spec.DES.rounds ks p).1, notBits (Spec.DES.rounds ks p).2) ∧
      (Spec.DES.rounds ks p).1.length = 32 ∧ (Spec.DES.rounds ks p).2.length = 32 := by
  induction ks with
  | nil => intro p h1 h2; exact ⟨rfl, h1, h2⟩
  | cons k ks ih =>
    intro p h1 h2
    have := ih (p.2, Spec.DES.xor p.1 (Spec.DES.f p.2 k)) h2 (by
      rw [Spec.DES.xor, List.length_zipWith, h1, f_length]; rfl)
    rw [List.map_cons, Spec.DES.rounds, Spec.DES.rounds]
    simp only [f_not _ _ h2, xor_not_left]
    exact this

theorem cipher_not (ks : List Bits) (b : Bits) (hb : b.length = 64) :
    cipher (ks.map notBits) (notBits b) = notBits (cipher ks b) := by
  have hl : (perm IP b).length = 64 := perm_length _ _
  obtain ⟨h1, h2, h3⟩ := rounds_not ks ((perm IP b).take 32, (perm IP b).drop 32) (by rw [List.length_take, hl]; rfl)
    (by rw [List.length_drop, hl])
  rw [cipher, cipher, perm_not _ _ (by rw [hb]; decide), notBits, ← List.map_take, ← List.map_drop]
  rw [show (List.map not ((perm IP b).take 32), List.map not ((perm IP b).drop 32)) =
    (notBits ((perm IP b).take 32), notBits ((perm IP b).drop 32)) from rfl, h1]
  simp only []
  rw [← perm_not _ _ (by rw [List.length_append, h2, h3]; decide)]
  congr 1
  rw [notBits, notBits, notBits, List.map_append]

theorem subkeys_not (ns : List Nat) : ∀ C D : Bits, C.length = 28 → D.length = 28 → (∀ n ∈ ns, n ≤ 28) →
    subkeys (notBits C) (notBits D) ns = (subkeys C D ns).map notBits := by
  induction ns with
  | nil => intros; rfl
  | cons n ns ih =>
    intro C D hC hD hn
    have r : ∀ b : Bits, rotl n (notBits b) = notBits (rotl n b) := fun b => by
      rw [rotl, rotl, notBits, notBits, List.map_append, List.map_drop, List.map_take]
    have rl : ∀ b : Bits, b.length = 28 → (rotl n b).length = 28 := fun b hb => by
      have := hn n (List.mem_cons_self)
      rw [rotl, List.length_append, List.length_drop, List.length_take, hb]
      omega
    rw [subkeys, subkeys, List.map_cons, r, r, ih _ _ (rl C hC) (rl D hD) (fun m hm => hn m (List.mem_cons_of_mem _ hm))]
    congr 1
    rw [← perm_not _ _ (by rw [List.length_append, rl C hC, rl D hD]; decide)]
    congr 1
    rw [notBits, notBits, notBits, List.map_append]

theorem keySchedule_not (key : Bits) (h : key.length = 64) : keySchedule (notBits key) = (keySchedule key).map notBits := by
  have hl : (perm PC1 key).length = 56 := perm_length _ _
  rw [keySchedule, keySchedule, perm_not _ _ (by rw [h]; decide)]
  rw [show (notBits (perm PC1 key)).take 28 = notBits ((perm PC1 key).take 28) from List.map_take.symm,
    show (notBits (perm PC1 key)).drop 28 = notBits ((perm PC1 key).drop 28) from List.map_drop.symm]
  exact subkeys_not _ _ _ (by rw [List.length_take, hl]; rfl) (by rw [List.length_drop, hl]) (by decide)

/-- The standard's own cipher has the property. -/
theorem fips_complement (key block : Bits) (hk : key.length = 64) (hb : block.length = 64) :
    encrypt (notBits key) (notBits block) = notBits (encrypt key block) := by
  rw [encrypt, encrypt, keySchedule_not key hk, cipher_not _ _ hb]

example := fips_complement (List.replicate 64 true) (List.replicate 32 true ++ List.replicate 32 false) (by decide) (by decide)

theorem ofWord_not (w : U32) : ofWord (~~~ w) = notBits (ofWord w) := by
  rw [ofWord, ofWord, notBits, List.map_map]
  apply List.map_congr_left
  intro i hi
  have := List.mem_range.mp hi
  simp only [Function.comp, BitVec.getLsbD_not, show 31 - i < 32 by omega, decide_true, Bool.true_and]

theorem ofBytes_not (bs : List U8) : ofBytes (bs.map (~~~ ·)) = notBits (ofBytes bs) := by
  induction bs with
  | nil => rfl
  | cons b bs ih =>
    have hc : ∀ (c : U8) (cs : List U8), ofBytes (c :: cs) = ofBytes [c] ++ ofBytes cs := fun c cs => by
      simp only [ofBytes, List.flatMap_cons, List.flatMap_nil, List.append_nil]
    rw [List.map_cons, hc, ih, hc b, notBits, notBits, List.map_append]
    congr 1
    simp [ofBytes]

theorem mapPairs_not {f g : U32 × U32 → U32 × U32} (h : ∀ x y : U32, g (~~~ x, ~~~ y) = (~~~ (f (x, y)).1, ~~~ (f (x, y)).2)) :
    ∀ (n : Nat) (l : List U32), l.length = 2 * n → mapPairs g (l.map (~~~ ·)) = (mapPairs f l).map (~~~ ·)
  | 0, l, hl => by rw [List.eq_nil_of_length_eq_zero hl]; rfl
  | n + 1, x :: y :: l, hl => by
    have := mapPairs_not h n l (by simp only [List.length_cons] at hl; omega)
    rw [List.map_cons, List.map_cons, mapPairs, mapPairs, h, this]
    rfl
  | n + 1, [], hl => by simp at hl
  | n + 1, [_], hl => by simp only [List.length_cons, List.length_nil] at hl; omega

/-- C121: the complement of a packet, encrypted under the complement of the key, is the complement of the packet's
ciphertext. -/
theorem des_complement (k0 k1 k2 k3 k4 k5 k6 k7 : U8) (msg buf : List U32) (n : Nat) (hn : 8 * n < 2 ^ 64)
    (hm : msg.length = 2 * n) (hb : buf.length = 2 * n) :
    ∃ rk rk' ct, keyScheduleEncrypt [k0, k1, k2, k3, k4, k5, k6, k7] = .ok rk ∧
      keyScheduleEncrypt ([k0, k1, k2, k3, k4, k5, k6, k7].map (~~~ ·)) = .ok rk' ∧
      processPacketEcb rk ⟨msg, buf, false⟩ (8 * n) = .ok ⟨msg, ct, false⟩ ∧
      processPacketEcb rk' ⟨msg.map (~~~ ·), buf, false⟩ (8 * n) = .ok ⟨msg.map (~~~ ·), ct.map (~~~ ·), false⟩ := by
  obtain ⟨rk, h1, _, h3⟩ := scheduleE k0 k1 k2 k3 k4 k5 k6 k7
  obtain ⟨rk', h1', _, h3'⟩ := scheduleE (~~~ k0) (~~~ k1) (~~~ k2) (~~~ k3) (~~~ k4) (~~~ k5) (~~~ k6) (~~~ k7)
  have e := h3 0 (by decide)
  have e' := h3' 0 (by decide)
  rw [Nat.mul_zero, Nat.zero_add] at e e'
  have ek : kOf (rk'.getD 0 0) (rk'.getD 1 0) = notBits (kOf (rk.getD 0 0) (rk.getD 1 0)) := by
    rw [e, e', show ofBytes [~~~ k3, ~~~ k2, ~~~ k1, ~~~ k0, ~~~ k7, ~~~ k6, ~~~ k5, ~~~ k4] =
      notBits (ofBytes [k3, k2, k1, k0, k7, k6, k5, k4]) from ofBytes_not [k3, k2, k1, k0, k7, k6, k5, k4],
      first_round_key, first_round_key]
    exact perm_not firstRoundBits (ofBytes [k3, k2, k1, k0, k7, k6, k5, k4])
      (by rw [show (ofBytes [k3, k2, k1, k0, k7, k6, k5, k4]).length = 64 from rfl]; decide)
  have hblock : ∀ x y : U32, ecbBlock rk' (~~~ x, ~~~ y) = (~~~ (ecbBlock rk (x, y)).1, ~~~ (ecbBlock rk (x, y)).2) := by
    intro x y
    have hbits : ∀ a b : U32, bits (~~~ a, ~~~ b) = notBits (bits (a, b)) := fun a b => by
      rw [bits, bits, ofWord_not, ofWord_not, notBits, notBits, notBits, List.map_append]
    apply bits_inj
    rw [hbits, ecbBlock_spec, ek, hbits, show ((ecbBlock rk (x, y)).1, (ecbBlock rk (x, y)).2) = ecbBlock rk (x, y) from rfl,
      ecbBlock_spec, ← cipher_not _ _ (by rw [bits, List.length_append, ofWord_length, ofWord_length]),
      List.map_replicate]
  refine ⟨rk, rk', mapPairs (ecbBlock rk) msg, h1, h1', (ecb_packet_both rk msg buf n hn hm hb).1, ?_⟩
  rw [(ecb_packet_both rk' (msg.map (~~~ ·)) buf n hn (by rw [List.length_map, hm]) hb).1, mapPairs_not hblock n msg hm]

/-- Non-trivial instance of the hypotheses. -/
example : 8 * 2 < 2 ^ 64 ∧ [1, 2, 3, (4 : U32)].length = 2 * 2 := by decide

end CT.Props.DES
