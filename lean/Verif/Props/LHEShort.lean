import Verif.Props.LHEKnown
import Verif.Props.HC128Short

/-!
# Labeled homomorphic encryption: sessions with messages of 32, 64 or 96 bits (C153)

An encryption takes `msgsize / 8` bytes of the HC-128 stream as a packet of its own.  With messages of 32 bits, the size in both example
programs, and with 64 and 96, these are the short packets of C152.  The last word of the packet is the lowest word of the label value.
-/

namespace CT.Props.LHEShort
open CT.JL CT.Gmp CT.Spec.JL CT.Props.JoyeLibert CT.Props.HC128Short

/-! ## Sessions and the observer (specification) -/

/-- An encryption as the observer sees it: the message, the label and the first component of the ciphertext. -/
structure Entry where
  m : ℤ
  label : ℤ
  a : ℤ

/-- A session: encryptions one after the other, each from the cipher state that the one before left. -/
inductive Session (Enc : HC128.State → Entry → HC128.State → Prop) : HC128.State → List Entry → Prop
  | nil (hc) : Session Enc hc []
  | cons {hc e hc' l} : Enc hc e hc' → Session Enc hc' l → Session Enc hc (e :: l)

/-- `he_encrypt` of messages of `n` words for some random numbers and uninitialised memory. -/
def LheEnc (n : ℕ) (y N : ℤ) (hc : HC128.State) (e : Entry) (hc' : HC128.State) : Prop :=
  ∃ (g : Env) (fuel : ℕ) (s s' : g.State) (junk : List U8) (ct : LHE.HeCt) (b : ℤ), 4 * n ≤ junk.length ∧
    LHE.heEncrypt g fuel s hc junk e.m y N e.label (32 * n) = .ok (ct, b, hc', s') ∧ ct.a = e.a

/-- `mu_he_encrypt` of messages of `n` words for some random numbers and uninitialised memory. -/
def MuLheEnc (n : ℕ) (y N : ℤ) (hc : HC128.State) (e : Entry) (hc' : HC128.State) : Prop :=
  ∃ (g : Env) (fuel : ℕ) (s s' : g.State) (junk : List U8) (ct : MuLHE.HeCt) (b : ℤ), 4 * n ≤ junk.length ∧
    MuLHE.heEncrypt g fuel s hc junk e.m y N e.label (32 * n) = .ok (ct, b, hc', s') ∧ ct.a = e.a

/-- The bytes of a label, most significant first, without leading zeros. -/
def bytesOf (label : ℤ) : List U8 := ((Nat.digits 256 label.natAbs).reverse).map (BitVec.ofNat 8)

/-- The first four bytes of a list as a little-endian word. -/
def wordOf (bs : List U8) : U32 := le32 (bs.getD 0 0) (bs.getD 1 0) (bs.getD 2 0) (bs.getD 3 0)

/-- What the observer computes from two labels, a known message and the first components of the ciphertexts. -/
def guess (n j : ℕ) (label1 label2 m1 a1 a2 : ℤ) : ℤ :=
  (a2 + ((((m1 - a1) % 2 ^ 32).toNat ^^^ (wordOf ((bytesOf label1).drop (4 * (n - 1)))).toNat ^^^
    (wordOf ((bytesOf label2).drop (4 * (n - 1)))).toNat : ℕ) : ℤ)) % 2 ^ j

/-! ## One encryption -/

theorem le32_bytes (w : U32) : le32 (byteN w 0) (byteN w 1) (byteN w 2) (byteN w 3) = w := by
  apply BitVec.eq_of_getLsbD_eq
  intro i hi
  simp only [le32, byteN, BitVec.getLsbD_append, BitVec.getLsbD_extractLsb']
  split
  · simp only [*, decide_true, Bool.true_and]; congr 1; omega
  · split
    · simp only [*, decide_true, Bool.true_and]; congr 1; omega
    · split
      · simp only [*, decide_true, Bool.true_and]; congr 1; omega
      · have : i - 8 - 8 - 8 < 8 := by omega
        simp only [this, decide_true, Bool.true_and]; congr 1; omega

theorem wordOf_xor (bs : List U8) (hb : bs.length = 4) (w : U32) : wordOf (xorBytes bs (bytesLE32 w)) = wordOf bs ^^^ w := by
  match bs, hb with
  | [b0, b1, b2, b3], _ =>
    show le32 (b0 ^^^ byteN w 0) (b1 ^^^ byteN w 1) (b2 ^^^ byteN w 2) (b3 ^^^ byteN w 3) = _
    rw [LHEKnown.le32_xor, le32_bytes]
    rfl

theorem import_last : ∀ (n : ℕ) (bs : List U8) (x : ℕ), LHE.importWords (n + 1) bs x % 2 ^ 32 = (wordOf (bs.drop (4 * n))).toNat
  | 0, bs, x => by
    rw [LHE.importWords, LHE.importWords, Nat.mul_add_mod_self_right, Nat.mod_eq_of_lt (BitVec.isLt _)]
    rfl
  | n + 1, bs, x => by
    rw [LHE.importWords, import_last n, List.drop_drop, show 4 + 4 * n = 4 * (n + 1) by ring]

/-- The lowest word of the label value. -/
theorem label_low (n : ℕ) (h1 : 1 ≤ n) (h3 : n ≤ 3) (bs : List U8) (hb : bs.length = 4 * n) (hc : HC128.State) :
    LHE.importWords n (xorBytes bs (HC128.pktKs hc (4 * n))) 0 % 2 ^ 32 =
      (wordOf (bs.drop (4 * (n - 1))) ^^^ lastWord n hc 0).toNat := by
  obtain ⟨m, rfl⟩ : ∃ m, n = m + 1 := ⟨n - 1, by omega⟩
  have hk := (pktKs_last hc (m + 1) (4 * (m + 1)) h1 h3 (by omega) (Nat.le_refl _)).2
  rw [import_last]
  unfold xorBytes
  rw [List.drop_zipWith, show 4 * m = 4 * (m + 1 - 1) by omega, hk,
    show (bytesLE32 (lastWord (m + 1) hc 0)).take (4 * (m + 1) - 4 * (m + 1 - 1)) = bytesLE32 (lastWord (m + 1) hc 0) by
      rw [show 4 * (m + 1) - 4 * (m + 1 - 1) = 4 by omega]; rfl]
  exact congrArg BitVec.toNat (wordOf_xor _ (by rw [List.length_drop]; omega) _)

/-- What one encryption does: the label, followed by something, is encrypted as a packet of `n` words; and any other state would do. -/
def Good (n : ℕ) (Enc : HC128.State → Entry → HC128.State → Prop) : Prop := ∀ hc e hc', Enc hc e hc' →
  ∃ bs : List U8, bs.length = 4 * n ∧ bytesOf e.label <+: bs ∧
    (∃ b : ℕ, b % 2 ^ 32 = (wordOf (bs.drop (4 * (n - 1))) ^^^ lastWord n hc 0).toNat ∧ e.a = (e.m - b) % 2 ^ (32 * n)) ∧
    hc' = (HC128.gen n 0 hc).1 ∧
    ∀ hc2 : HC128.State, ∃ b : ℕ, b % 2 ^ 32 = (wordOf (bs.drop (4 * (n - 1))) ^^^ lastWord n hc2 0).toNat ∧
      Enc hc2 ⟨e.a + b, e.label, e.a⟩ (HC128.gen n 0 hc2).1

theorem encrypt_other {g : Env} {fuel : ℕ} {s s' : g.State} {b c y N : ℤ} {k : ℕ} (h : JL.encrypt g fuel s b y N k = .ok (c, s'))
    (b2 : ℕ) : ∃ c2, JL.encrypt g fuel s (b2 : ℤ) y N k = .ok (c2, s') := by
  rw [JL.encrypt] at h
  obtain ⟨⟨x, s1⟩, e1, h⟩ := Res.bind_eq_ok h
  obtain ⟨t1, e2, h⟩ := Res.bind_eq_ok h
  obtain ⟨t2, e3, h⟩ := Res.bind_eq_ok h
  obtain ⟨c1, e4, h⟩ := Res.bind_eq_ok h
  rw [Res.pure_eq, Res.ok_inj, Prod.mk.injEq] at h
  obtain ⟨rfl, rfl⟩ := h
  have hN : N ≠ 0 := by
    intro h0
    rw [powm, if_pos h0] at e2
    cases e2
  refine ⟨(y ^ ((b2 : ℤ)).toNat % N * t2) % N, ?_⟩
  rw [JL.encrypt, e1, Res.ok_bind]
  dsimp only
  rw [powm, if_neg hN, if_pos (Int.natCast_nonneg _), Res.ok_bind, e3, Res.ok_bind, mod_ok hN, Res.ok_bind, Res.pure_eq]

theorem sub_mod_self (a : ℤ) (b : ℤ) (n : ℕ) (m : ℤ) (h : a = (m - b) % 2 ^ n) (c : ℤ) : (a + c - c) % 2 ^ n = a := by
  rw [Int.add_sub_cancel, h, Int.emod_emod_of_dvd _ (dvd_refl _)]

theorem lhe_good (n : ℕ) (h1 : 1 ≤ n) (h3 : n ≤ 3) (y N : ℤ) : Good n (LheEnc n y N) := by
  intro hc e hc' h
  obtain ⟨g, fuel, s, s', junk, ct, b, hj, h, ha⟩ := h
  obtain ⟨e1, e2, e3⟩ := LHE.heEncrypt_split g h
  have hlen : (LHE.exportBytes e.label).length ≤ 32 * n / 8 := by
    by_contra hc
    rw [LHE.labelValue, if_pos (by omega)] at e1
    cases e1
  have hv := fun hc => LHE.labelValue_eq hc junk e.label (32 * n) hlen (by omega) (by omega)
  have hl : (LHE.exportBytes e.label ++ (junk.take (32 * n / 8)).drop (LHE.exportBytes e.label).length).length = 4 * n := by
    rw [List.length_append, List.length_drop, List.length_take]; omega
  have hpre : bytesOf e.label <+: LHE.exportBytes e.label ++ (junk.take (32 * n / 8)).drop (LHE.exportBytes e.label).length := List.prefix_append _ _
  generalize LHE.exportBytes e.label ++ (junk.take (32 * n / 8)).drop (LHE.exportBytes e.label).length = B at *
  simp only [show 32 * n / 8 = 4 * n by omega, show 32 * n / 32 = n by omega,
    fun hc => (pktKs_last hc n (4 * n) h1 h3 (by omega) (Nat.le_refl _)).1] at hv
  rw [hv, Res.ok_inj, Prod.mk.injEq] at e1
  refine ⟨B, hl, hpre, ⟨_, label_low n h1 h3 B hl hc, ?_⟩, e1.2.symm, fun hc2 => ⟨_, label_low n h1 h3 B hl hc2, ?_⟩⟩
  · rw [← ha, e3, ← e1.1]
  · obtain ⟨c2, hc2e⟩ := encrypt_other e2 (LHE.importWords n (xorBytes B (HC128.pktKs hc2 (4 * n))) 0)
    refine ⟨g, fuel, s, s', junk, ⟨e.a, c2⟩, ((LHE.importWords n (xorBytes B (HC128.pktKs hc2 (4 * n))) 0 : ℕ) : ℤ), hj, ?_, rfl⟩
    rw [LHE.heEncrypt, hv hc2, Res.ok_bind]
    dsimp only
    rw [hc2e, Res.ok_bind]
    dsimp only
    rw [mod_ok (pow_ne_zero _ (by decide)), Res.ok_bind, Res.pure_eq, sub_mod_self e.a b (32 * n) e.m (by rw [← ha, e3])]

theorem mu_importWords : ∀ (n : ℕ) (bs : List U8) (x : ℕ), MuLHE.importWords n bs x = LHE.importWords n bs x
  | 0, _, _ => rfl
  | n + 1, bs, x => by rw [MuLHE.importWords, LHE.importWords, mu_importWords n]

theorem mulhe_good (n : ℕ) (h1 : 1 ≤ n) (h3 : n ≤ 3) (y N : ℤ) : Good n (MuLheEnc n y N) := by
  intro hc e hc' h
  obtain ⟨g, fuel, s, s', junk, ct, b, hj, h, ha⟩ := h
  obtain ⟨e1, e2, e3⟩ := MuLHE.heEncrypt_split g h
  have hlen : (MuLHE.exportBytes e.label).length ≤ 32 * n / 8 := by
    by_contra hc
    rw [MuLHE.labelValue, if_pos (by omega)] at e1
    cases e1
  have hv := fun hc => MuLHE.labelValue_eq hc junk e.label (32 * n) hlen (by omega) (by omega)
  have hl : (MuLHE.exportBytes e.label ++ (junk.take (32 * n / 8)).drop (MuLHE.exportBytes e.label).length).length = 4 * n := by
    rw [List.length_append, List.length_drop, List.length_take]; omega
  have hpre : bytesOf e.label <+: MuLHE.exportBytes e.label ++ (junk.take (32 * n / 8)).drop (MuLHE.exportBytes e.label).length := List.prefix_append _ _
  generalize MuLHE.exportBytes e.label ++ (junk.take (32 * n / 8)).drop (MuLHE.exportBytes e.label).length = B at *
  simp only [mu_importWords, show 32 * n / 8 = 4 * n by omega, show 32 * n / 32 = n by omega,
    fun hc => (pktKs_last hc n (4 * n) h1 h3 (by omega) (Nat.le_refl _)).1] at hv
  rw [hv, Res.ok_inj, Prod.mk.injEq] at e1
  refine ⟨B, hl, hpre, ⟨_, label_low n h1 h3 B hl hc, ?_⟩, e1.2.symm, fun hc2 => ⟨_, label_low n h1 h3 B hl hc2, ?_⟩⟩
  · rw [← ha, e3, ← e1.1]
  · obtain ⟨c2, hc2e⟩ := encrypt_other e2 (LHE.importWords n (xorBytes B (HC128.pktKs hc2 (4 * n))) 0)
    refine ⟨g, fuel, s, s', junk, ⟨e.a, c2⟩, ((LHE.importWords n (xorBytes B (HC128.pktKs hc2 (4 * n))) 0 : ℕ) : ℤ), hj, ?_, rfl⟩
    rw [MuLHE.heEncrypt, hv hc2, Res.ok_bind]
    dsimp only
    rw [hc2e, Res.ok_bind]
    dsimp only
    rw [mod_ok (pow_ne_zero _ (by decide)), Res.ok_bind, Res.pure_eq, sub_mod_self e.a b (32 * n) e.m (by rw [← ha, e3])]

/-! ## Sessions -/

theorem session_at {n : ℕ} (h1 : 1 ≤ n) (h3 : n ≤ 3) {Enc : HC128.State → Entry → HC128.State → Prop} (hg : Good n Enc)
    {hc : HC128.State} {l : List Entry} (h : Session Enc hc l) : ∀ (t : ℕ) (e : Entry), l[t]? = some e →
      ∃ bs : List U8, bs.length = 4 * n ∧ bytesOf e.label <+: bs ∧
      ∃ b : ℕ, b % 2 ^ 32 = (wordOf (bs.drop (4 * (n - 1))) ^^^ lastWord n hc t).toNat ∧ e.a = (e.m - b) % 2 ^ (32 * n) := by
  induction h with
  | nil hc => intro t e h; simp at h
  | @cons hc e0 hc' l h0 _ ih =>
    intro t e he
    obtain ⟨bs, g1, g2, g3, g4, -⟩ := hg _ _ _ h0
    cases t with
    | zero =>
      simp only [List.getElem?_cons_zero, Option.some.injEq] at he
      subst he
      exact ⟨bs, g1, g2, g3⟩
    | succ t =>
      obtain ⟨bs, i1, i2, i3⟩ := ih t e (by simpa using he)
      rw [g4, lastWord_next _ n h1 h3] at i3
      exact ⟨bs, i1, i2, i3⟩

theorem wordOf_low (p bs : List U8) (hp : p <+: bs) (j : ℕ) (hj : j ≤ 8 * p.length) (h32 : j ≤ 32) :
    (wordOf bs).setWidth j = (wordOf p).setWidth j := by
  obtain ⟨r, rfl⟩ := hp
  have hb : ∀ i, i < p.length → (p ++ r).getD i 0 = p.getD i 0 := by
    intro i hi
    rw [List.getD_eq_getElem?_getD, List.getD_eq_getElem?_getD, List.getElem?_append_left hi]
  apply BitVec.eq_of_getLsbD_eq
  intro i hi
  simp only [BitVec.getLsbD_setWidth, hi, decide_true, Bool.true_and, wordOf, le32, BitVec.getLsbD_append]
  split
  · rw [hb 0 (by omega)]
  · split
    · rw [hb 1 (by omega)]
    · split
      · rw [hb 2 (by omega)]
      · rw [hb 3 (by omega)]

/-- The arithmetic of the attack. -/
theorem guess_right (n j : ℕ) (h1 : 1 ≤ n) (hj : j ≤ 32) (m1 m2 : ℤ) (v1 v2 : ℕ) (b1 b2 l1 l2 w1 w2 : U32)
    (hv1 : v1 % 2 ^ 32 = (b1 ^^^ w1).toNat) (hv2 : v2 % 2 ^ 32 = (b2 ^^^ w2).toNat) (hw : w1.setWidth j = w2.setWidth j)
    (hl1 : b1.setWidth j = l1.setWidth j) (hl2 : b2.setWidth j = l2.setWidth j) :
    ((m2 - v2) % 2 ^ (32 * n) + ((((m1 - (m1 - v1) % 2 ^ (32 * n)) % 2 ^ 32).toNat ^^^ l1.toNat ^^^
      l2.toNat : ℕ) : ℤ)) % 2 ^ j = m2 % 2 ^ j := by
  have hd : (2 ^ 32 : ℤ) ∣ 2 ^ (32 * n) := pow_dvd_pow 2 (by omega)
  have e1 : ((m1 - (m1 - v1) % 2 ^ (32 * n)) % 2 ^ 32).toNat = (b1 ^^^ w1).toNat := by
    rw [Int.sub_emod, Int.emod_emod_of_dvd _ hd, ← Int.sub_emod, Int.sub_sub_self, ← hv1]
    exact_mod_cast Int.toNat_natCast (v1 % 2 ^ 32)
  rw [e1, ← BitVec.toNat_xor, ← BitVec.toNat_xor]
  have hx : (b1 ^^^ w1 ^^^ l1 ^^^ l2).setWidth j = (b2 ^^^ w2).setWidth j := by
    rw [BitVec.setWidth_xor, BitVec.setWidth_xor, BitVec.setWidth_xor, BitVec.setWidth_xor, hw, hl1, hl2]
    generalize l1.setWidth j = a
    generalize l2.setWidth j = b
    generalize w2.setWidth j = c
    rw [BitVec.xor_comm a c, BitVec.xor_assoc c a a, BitVec.xor_self, BitVec.xor_zero, BitVec.xor_comm]
  have hn : (b1 ^^^ w1 ^^^ l1 ^^^ l2).toNat % 2 ^ j = v2 % 2 ^ j := by
    have := congrArg BitVec.toNat hx
    rw [BitVec.toNat_setWidth, BitVec.toNat_setWidth, ← hv2, Nat.mod_mod_of_dvd _ (pow_dvd_pow 2 hj)] at this
    exact this
  generalize (b1 ^^^ w1 ^^^ l1 ^^^ l2).toNat = x at *
  have hz : ((x : ℕ) : ℤ) % 2 ^ j = ((v2 : ℕ) : ℤ) % 2 ^ j := by exact_mod_cast hn
  rw [Int.add_emod, Int.emod_emod_of_dvd _ ((pow_dvd_pow 2 hj).trans hd), hz, ← Int.add_emod, Int.sub_add_cancel]

theorem session_reveals {n : ℕ} (h1 : 1 ≤ n) (h3 : n ≤ 3) {Enc : HC128.State → Entry → HC128.State → Prop} (hg : Good n Enc)
    {hc : HC128.State} {l : List Entry} (h : Session Enc hc l) {s t j : ℕ} {e e' : Entry} (hs : l[s]? = some e) (ht : l[t]? = some e')
    (hst : s % 2 ^ j = t % 2 ^ j) (hj : 32 * (n - 1) + j ≤ 8 * (bytesOf e.label).length)
    (hj' : 32 * (n - 1) + j ≤ 8 * (bytesOf e'.label).length) :
    guess n j e.label e'.label e.m e.a e'.a = e'.m % 2 ^ j := by
  obtain ⟨b1, l1, p1, v1, q1, a1⟩ := session_at h1 h3 hg h s e hs
  obtain ⟨b2, l2, p2, v2, q2, a2⟩ := session_at h1 h3 hg h t e' ht
  have h32 : j ≤ 32 := by have := p1.length_le; omega
  have dr : ∀ {p b : List U8}, p <+: b → p.drop (4 * (n - 1)) <+: b.drop (4 * (n - 1)) := fun h => h.drop _
  unfold guess
  rw [a1, a2]
  exact guess_right n j h1 h32 _ _ _ _ _ _ _ _ _ _ q1 q2 (lastWord_low n hc s t j h32 hst)
    (wordOf_low _ _ (dr p1) j (by rw [List.length_drop]; omega) h32) (wordOf_low _ _ (dr p2) j (by rw [List.length_drop]; omega) h32)

/-- **C153 is false:** in every session with messages of `n` words, `n` at most three, one known message gives the lowest `j` bits of every
message whose number in the session differs by a multiple of `2 ^ j`: the parity of every other message, the lowest byte of every 256-th.
The labels need to have `4 * (n - 1) + j / 8` bytes; what the memory behind them held does not matter.  For all keys, messages, labels and
random numbers. -/
theorem lhe_short_reveals (n : ℕ) (h1 : 1 ≤ n) (h3 : n ≤ 3) (y N : ℤ) {hc : HC128.State} {l : List Entry}
    (h : Session (LheEnc n y N) hc l) {s t j : ℕ} {e e' : Entry} (hs : l[s]? = some e) (ht : l[t]? = some e')
    (hst : s % 2 ^ j = t % 2 ^ j) (hj : 32 * (n - 1) + j ≤ 8 * (bytesOf e.label).length)
    (hj' : 32 * (n - 1) + j ≤ 8 * (bytesOf e'.label).length) :
    guess n j e.label e'.label e.m e.a e'.a = e'.m % 2 ^ j := session_reveals h1 h3 (lhe_good n h1 h3 y N) h hs ht hst hj hj'

/-- **C153 is false** for the multi-user variant as well. -/
theorem mulhe_short_reveals (n : ℕ) (h1 : 1 ≤ n) (h3 : n ≤ 3) (y N : ℤ) {hc : HC128.State} {l : List Entry}
    (h : Session (MuLheEnc n y N) hc l) {s t j : ℕ} {e e' : Entry} (hs : l[s]? = some e) (ht : l[t]? = some e')
    (hst : s % 2 ^ j = t % 2 ^ j) (hj : 32 * (n - 1) + j ≤ 8 * (bytesOf e.label).length)
    (hj' : 32 * (n - 1) + j ≤ 8 * (bytesOf e'.label).length) :
    guess n j e.label e'.label e.m e.a e'.a = e'.m % 2 ^ j := session_reveals h1 h3 (mulhe_good n h1 h3 y N) h hs ht hst hj hj'

/-! ## Without a known message -/

/-- The state with another word in `Q`, so that the mask changes by `d`. -/
theorem other_mask (n : ℕ) (hc : HC128.State) (d : U32) : ∃ hc2 : HC128.State, hc2.P = hc.P ∧ lastMask n hc2 = lastMask n hc ^^^ d := by
  refine ⟨⟨hc.P, hc.Q.set (HC128.lowIdx (hc.P.get (HC128.back (n - 1) 12))).val
    ((lastMask n hc ^^^ d) - hc.Q.get (HC128.highIdx (hc.P.get (HC128.back (n - 1) 12))))
    (HC128.lowIdx (hc.P.get (HC128.back (n - 1) 12))).isLt⟩, rfl, ?_⟩
  generalize lastMask n hc ^^^ d = v
  generalize hx : hc.P.get (HC128.back (n - 1) 12) = x
  unfold lastMask HC128.h
  simp only [hx]
  have hne : (HC128.lowIdx x).val ≠ (HC128.highIdx x).val := by
    have := (x.setWidth 8).isLt
    show (x.setWidth 8).toNat ≠ 256 + ((x >>> 16).setWidth 8).toNat
    omega
  show (hc.Q.set _ _ _)[(HC128.lowIdx x).val] + (hc.Q.set _ _ _)[(HC128.highIdx x).val] = v
  rw [Vector.getElem_set_self, Vector.getElem_set_ne _ _ hne]
  exact BitVec.sub_add_cancel _ _

theorem gen_P : ∀ (m i : ℕ) (a b : HC128.State), i + m ≤ 512 → a.P = b.P → (HC128.gen m i a).1.P = (HC128.gen m i b).1.P
  | 0, _, _, _, _, h => h
  | m + 1, i, a, b, hi, h => by
    refine gen_P m (i + 1) (HC128.step a i).1 (HC128.step b i).1 (by omega) ?_
    unfold HC128.step
    simp only [if_pos (show i % 1024 < 512 by omega), h]

theorem session_hides {n : ℕ} (h1 : 1 ≤ n) (h3 : n ≤ 3) {Enc : HC128.State → Entry → HC128.State → Prop} (hg : Good n Enc)
    {hc : HC128.State} {l : List Entry} (h : Session Enc hc l) :
    ∃ b : ℕ → U32, ∀ (d : U32) (hc2 : HC128.State), hc2.P = hc.P → lastMask n hc2 = lastMask n hc ^^^ d →
    ∃ l2, Session Enc hc2 l2 ∧ l2.map (fun e => (e.label, e.a)) = l.map (fun e => (e.label, e.a)) ∧
      ∀ t e, l[t]? = some e → ∃ e2, l2[t]? = some e2 ∧ e2.m % 2 ^ 32 = (e.a + ((b t ^^^ d).toNat : ℤ)) % 2 ^ 32 := by
  induction h with
  | nil hc => exact ⟨fun _ => 0, fun d hc2 _ _ => ⟨[], .nil _, rfl, fun t e h => by simp at h⟩⟩
  | @cons hc e0 hc' l h0 _ ih =>
    obtain ⟨bs, -, -, -, g4, g5⟩ := hg _ _ _ h0
    obtain ⟨b, ih⟩ := ih
    refine ⟨fun t => match t with | 0 => wordOf (bs.drop (4 * (n - 1))) ^^^ lastWord n hc 0 | t + 1 => b t, fun d hc2 hP hm => ?_⟩
    have hi : lastIncr n hc2 = lastIncr n hc := by unfold lastIncr; rw [hP]
    have hk : lastWord n hc2 0 = lastWord n hc 0 ^^^ d := by
      unfold lastWord last
      rw [hm, hi, hP, BitVec.xor_assoc, BitVec.xor_assoc, BitVec.xor_comm d]
    obtain ⟨l2, s2, m2, i2⟩ := ih d (HC128.gen n 0 hc2).1 (by rw [g4]; exact gen_P n 0 hc2 hc (by omega) hP)
      (by rw [g4, (last_packet hc2 n h1 h3).2.1, (last_packet hc n h1 h3).2.1, hm])
    obtain ⟨v, hv, he2⟩ := g5 hc2
    refine ⟨_, .cons he2 s2, by simp [m2], fun t e he => ?_⟩
    cases t with
    | zero =>
      simp only [List.getElem?_cons_zero, Option.some.injEq] at he
      subst he
      refine ⟨_, rfl, ?_⟩
      show (e0.a + (v : ℤ)) % 2 ^ 32 = _
      rw [BitVec.xor_assoc, ← hk, ← hv, Int.natCast_mod]
      exact (Int.add_emod_emod _ _ _).symm
    | succ t =>
      obtain ⟨e2, j1, j2⟩ := i2 t e (by simpa using he)
      exact ⟨e2, by simpa using j1, j2⟩

theorem session_hides_any {n : ℕ} (h1 : 1 ≤ n) (h3 : n ≤ 3) {Enc : HC128.State → Entry → HC128.State → Prop} (hg : Good n Enc)
    {hc : HC128.State} {l : List Entry} (h : Session Enc hc l) {t : ℕ} (ht : t < l.length) (m : ℤ) :
    ∃ hc2 l2, Session Enc hc2 l2 ∧ l2.map (fun e => (e.label, e.a)) = l.map (fun e => (e.label, e.a)) ∧
      ∃ e2, l2[t]? = some e2 ∧ e2.m % 2 ^ 32 = m % 2 ^ 32 := by
  have he := List.getElem?_eq_getElem ht
  generalize l[t] = e at he
  obtain ⟨b, hb⟩ := session_hides h1 h3 hg h
  obtain ⟨hc2, hP, hm⟩ := other_mask n hc (b t ^^^ BitVec.ofInt 32 (m - e.a))
  obtain ⟨l2, g1, g2, g3⟩ := hb _ hc2 hP hm
  obtain ⟨e2, g4, g5⟩ := g3 t e he
  refine ⟨hc2, l2, g1, g2, e2, g4, ?_⟩
  have hx : (b t ^^^ (b t ^^^ BitVec.ofInt 32 (m - e.a))).toNat = ((m - e.a) % 2 ^ 32).toNat := by
    rw [← BitVec.xor_assoc, BitVec.xor_self, BitVec.zero_xor, BitVec.toNat_ofInt]
    rfl
  rw [g5, hx, Int.toNat_of_nonneg (Int.emod_nonneg _ (by decide)), Int.add_emod_emod]
  congr 1
  ring

/-- C153, the part that holds: without a known message the labels and first components tell nothing about the lowest word of any one
message of the session.  Every value of it is possible, for another content of the tables of the cipher.  Missing: that a known message
does not help, which is false (`lhe_short_reveals`). -/
theorem lhe_short_hides_partial (n : ℕ) (h1 : 1 ≤ n) (h3 : n ≤ 3) (y N : ℤ) {hc : HC128.State} {l : List Entry}
    (h : Session (LheEnc n y N) hc l) {t : ℕ} (ht : t < l.length) (m : ℤ) :
    ∃ hc2 l2, Session (LheEnc n y N) hc2 l2 ∧ l2.map (fun e => (e.label, e.a)) = l.map (fun e => (e.label, e.a)) ∧
      ∃ e2, l2[t]? = some e2 ∧ e2.m % 2 ^ 32 = m % 2 ^ 32 := session_hides_any h1 h3 (lhe_good n h1 h3 y N) h ht m

/-- The same for the multi-user variant. -/
theorem mulhe_short_hides_partial (n : ℕ) (h1 : 1 ≤ n) (h3 : n ≤ 3) (y N : ℤ) {hc : HC128.State} {l : List Entry}
    (h : Session (MuLheEnc n y N) hc l) {t : ℕ} (ht : t < l.length) (m : ℤ) :
    ∃ hc2 l2, Session (MuLheEnc n y N) hc2 l2 ∧ l2.map (fun e => (e.label, e.a)) = l.map (fun e => (e.label, e.a)) ∧
      ∃ e2, l2[t]? = some e2 ∧ e2.m % 2 ^ 32 = m % 2 ^ 32 := session_hides_any h1 h3 (mulhe_good n h1 h3 y N) h ht m

/-! ## The negation, and a session -/

/-- **C153 is false**, as a negation: not every observer who knows one message, the labels and the first components fails on the parity of
the second message after it. -/
theorem lhe_short_refuted :
    ¬ ∀ observer : ℤ → ℤ → ℤ → ℤ → ℤ → ℤ, ∃ (p q : ℕ) (y : ℤ) (_ : Key 32 p q y) (key iv : List U8) (l : List Entry) (t : ℕ)
      (e e' : Entry), Session (LheEnc 1 y (p * q)) (HC128.init key iv) l ∧ l[t]? = some e ∧ l[t + 2]? = some e' ∧ e.label ≠ 0 ∧
      e'.label ≠ 0 ∧ observer e.label e'.label e.m e.a e'.a ≠ e'.m % 2 := by
  intro h
  obtain ⟨p, q, y, -, key, iv, l, t, e, e', hs, h1, h2, l1, l2, hne⟩ := h (guess 1 1)
  have pos : ∀ label : ℤ, label ≠ 0 → 1 ≤ 8 * (bytesOf label).length := by
    intro label hl
    have : 0 < (bytesOf label).length := by
      rw [bytesOf, List.length_map, List.length_reverse, List.length_pos_iff]
      exact Nat.digits_ne_nil_iff_ne_zero.mpr (by omega)
    omega
  refine hne ?_
  have := lhe_short_reveals 1 (by decide) (by decide) y (p * q) hs h1 h2 (j := 1) (by omega) (by have := pos _ l1; omega)
    (by have := pos _ l2; omega)
  rwa [pow_one] at this

/-- Sessions of every length under a valid key, from every state, with labels of four bytes: the hypotheses are met. -/
example (hc : HC128.State) (m : ℕ → ℤ) (n : ℕ) : ∃ l, Session (LheEnc 1 3 ((184683593729 : ℕ) * (7 : ℕ))) hc l ∧ l.length = n ∧
    Key 32 184683593729 7 3 ∧ ∀ t e, l[t]? = some e → e.m = m t ∧ (bytesOf e.label).length = 4 := by
  induction n generalizing hc m with
  | zero => exact ⟨[], .nil _, rfl, key32, fun t e h => by simp at h⟩
  | succ n ih =>
    obtain ⟨ct, b, h1⟩ := LHEKnown.lhe_enc_exists hc (m 0) 16777217 (by simp [LHE.exportBytes])
    obtain ⟨l, h2, h3, h4, h5⟩ := ih (HC128.pktNext hc (32 / 8)) (fun t => m (t + 1))
    refine ⟨⟨m 0, 16777217, ct.a⟩ :: l, .cons ⟨_, _, _, _, _, ct, b, by decide, h1, rfl⟩ h2, by simp [h3], h4, fun t e he => ?_⟩
    cases t with
    | zero =>
      simp only [List.getElem?_cons_zero, Option.some.injEq] at he
      subst he
      exact ⟨rfl, by simp [bytesOf]⟩
    | succ t => exact h5 t e (by simpa using he)

/-- Messages of 64 and 96 bits can be encrypted from every state, with labels of all bytes. -/
example (hc : HC128.State) (m : ℤ) : (∃ e hc', LheEnc 2 3 35 hc e hc' ∧ e.m = m ∧ (bytesOf e.label).length = 8) ∧
    ∃ e hc', LheEnc 3 3 35 hc e hc' ∧ e.m = m ∧ (bytesOf e.label).length = 12 := by
  have enc : ∀ (n : ℕ) (junk : List U8) (label : ℤ), n ≤ 3 → junk.length = 4 * n → (LHE.exportBytes label).length ≤ 32 * n / 8 →
      ∃ e hc', LheEnc n 3 35 hc e hc' ∧ e.m = m ∧ e.label = label := by
    intro n junk label hn hj hl
    have hv := LHE.labelValue_eq hc junk label (32 * n) hl (by omega) (by omega)
    generalize LHE.importWords _ _ 0 = b at hv
    have h0 : JL.encrypt (constEnv 1) 1 () 0 3 35 (32 * n) = .ok (1, ()) := by
      simp only [JL.encrypt]; rw [show pickX (constEnv 1) 35 1 () = .ok (1, ()) from rfl, Res.ok_bind]
      dsimp only
      rw [powm, if_neg (by decide), if_pos (by decide), Res.ok_bind, powm, if_neg (by decide), if_pos (by positivity), one_pow]
      rfl
    obtain ⟨c, he⟩ := encrypt_other h0 b
    refine ⟨⟨m, label, (m - b) % 2 ^ (32 * n)⟩, HC128.pktNext hc (32 * n / 8),
      ⟨constEnv 1, 1, (), (), junk, ⟨(m - b) % 2 ^ (32 * n), c⟩, (b : ℤ), by omega, ?_, rfl⟩, rfl, rfl⟩
    simp only [LHE.heEncrypt, hv, he, Res.ok_bind, mod_ok (pow_ne_zero (32 * n) (by decide : (2 : ℤ) ≠ 0)), Res.pure_eq]
  obtain ⟨e, hc', h1, h2, h3⟩ := enc 2 (List.replicate 8 0) (2 ^ 64 - 1) (by decide) rfl (by simp [LHE.exportBytes])
  obtain ⟨f, hc'', g1, g2, g3⟩ := enc 3 (List.replicate 12 0) (2 ^ 96 - 1) (by decide) rfl (by simp [LHE.exportBytes])
  exact ⟨⟨e, hc', h1, h2, by rw [h3]; simp [bytesOf]⟩, f, hc'', g1, g2, by rw [g3]; simp [bytesOf]⟩

end CT.Props.LHEShort
