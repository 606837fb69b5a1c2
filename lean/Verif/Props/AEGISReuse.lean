import Verif.Props.AEGIS
import Verif.Proof.AESPerm
import Verif.Props.AESCfbReuse

/-!
# AEGIS: two messages under one key, IV and associated data (C137)
-/

namespace CT.Props.AEGISReuse
open CT.AEGIS CT.Props.AEGIS CT.Spec.AEGIS
open CT.AES (quadOf quadOf_bytes quadOf_state toState_inj shiftRows_inj subBytes_inj mixColumns_inj addRoundKey_inj)

theorem toBytes_inj {s t : Spec.AES.State} (h : Spec.AES.toBytes s = Spec.AES.toBytes t) : s = t := by
  simp only [Spec.AES.toBytes, List.cons.injEq, and_true] at h
  obtain ⟨h0, h1, h2, h3, h4, h5, h6, h7, h8, h9, h10, h11, h12, h13, h14, h15⟩ := h
  funext r c
  match c with
  | 0 => match r with | 0 => exact h0 | 1 => exact h1 | 2 => exact h2 | 3 => exact h3
  | 1 => match r with | 0 => exact h4 | 1 => exact h5 | 2 => exact h6 | 3 => exact h7
  | 2 => match r with | 0 => exact h8 | 1 => exact h9 | 2 => exact h10 | 3 => exact h11
  | 3 => match r with | 0 => exact h12 | 1 => exact h13 | 2 => exact h14 | 3 => exact h15

theorem ofBytes_inj {x y : List U8} (hx : x.length = 16) (hy : y.length = 16) (h : Spec.AES.ofBytes x = Spec.AES.ofBytes y) : x = y := by
  rw [← quadOf_state, ← quadOf_state] at h
  rw [← quadOf_bytes hx, ← quadOf_bytes hy, toState_inj h]

theorem aesRound_left {x y k : List U8} (hx : x.length = 16) (hy : y.length = 16) (h : aesRound x k = aesRound y k) : x = y :=
  ofBytes_inj hx hy (subBytes_inj (shiftRows_inj (mixColumns_inj (addRoundKey_inj (toBytes_inj h)))))

theorem aesRound_right {x y k : List U8} (hx : x.length = 16) (hy : y.length = 16) (h : aesRound k x = aesRound k y) : x = y := by
  refine ofBytes_inj hx hy ?_
  have h := toBytes_inj h
  funext r c
  have := congrFun (congrFun h r) c
  simp only [Spec.AES.addRoundKey] at this
  exact (BitVec.xor_right_inj _).mp this

theorem aesRound_length (x k : List U8) : (aesRound x k).length = 16 := rfl

theorem xor_left_inj {x y k : List U8} (hx : x.length ≤ k.length) (hy : y.length ≤ k.length) (h : xorBytes x k = xorBytes y k) : x = y := by
  rw [← xorBytes_xorBytes x k hx, h, xorBytes_xorBytes y k hy]

/-- Leading blocks. -/
theorem encBlocks_append (n : Nat) (d : List U8) : ∀ (m : Nat) (s : Spec.AEGIS.State) (a : List U8), a.length = 16 * m →
    encBlocks (m + n) s (a ++ d) = ((encBlocks m s a).1 ++ (encBlocks n (encBlocks m s a).2 d).1, (encBlocks n (encBlocks m s a).2 d).2) := by
  intro m
  induction m with
  | zero =>
    intro s a ha
    have : a = [] := List.eq_nil_of_length_eq_zero (by omega)
    subst this
    rw [Nat.zero_add]; rfl
  | succ m ih =>
    intro s a ha
    rw [show m + 1 + n = (m + n) + 1 by omega, encBlocks, List.take_append_of_le_length (by omega),
      List.drop_append_of_le_length (by omega), ih _ _ (by rw [List.length_drop]; omega)]
    conv => rhs; rw [encBlocks]
    simp only [List.append_assoc]

theorem encBlocks_length : ∀ (m : Nat) (s : Spec.AEGIS.State) (a : List U8), s.s1.length = 16 → s.s2.length = 16 →
    s.s3.length = 16 → s.s4.length = 16 → a.length ≤ 16 * m → (encBlocks m s a).1.length = a.length := by
  intro m
  induction m with
  | zero => intro s a _ _ _ _ h; rw [encBlocks, List.length_nil]; omega
  | succ m ih =>
    intro s a h1 h2 h3 h4 h
    rw [encBlocks]
    dsimp only
    rw [List.length_append, ih _ _ rfl rfl rfl rfl (by rw [List.length_drop]; omega), xorBytes_length, keyBlock,
      xorBytes_length, xorBytes_length, andBytes, List.length_zipWith, h1, h2, h3, h4, List.length_take, List.length_drop]
    omega

/-- All parts of the state have 16 bytes. -/
def Len (s : Spec.AEGIS.State) : Prop :=
  s.s0.length = 16 ∧ s.s1.length = 16 ∧ s.s2.length = 16 ∧ s.s3.length = 16 ∧ s.s4.length = 16

theorem update_len (s : Spec.AEGIS.State) (m : List U8) : Len (update s m) := ⟨rfl, rfl, rfl, rfl, rfl⟩

theorem absorb_len : ∀ (n : Nat) (s : Spec.AEGIS.State) (ad : List U8), Len s → Len (absorb n s ad) := by
  intro n
  induction n with
  | zero => intro s ad h; exact h
  | succ n ih => intro s ad _; exact ih _ _ (update_len _ _)

theorem encBlocks_len : ∀ (n : Nat) (s : Spec.AEGIS.State) (p : List U8), Len s → Len (encBlocks n s p).2 := by
  intro n
  induction n with
  | zero => intro s p h; exact h
  | succ n ih => intro s p _; rw [encBlocks]; exact ih _ _ (update_len _ _)

/-- Two further blocks and the rest. -/
theorem encBlocks_two (n : Nat) (s : Spec.AEGIS.State) (b c d : List U8) (hb : b.length = 16) (hc : c.length = 16) :
    (encBlocks (n + 1 + 1) s (b ++ c ++ d)).1 = xorBytes b (keyBlock s) ++ (xorBytes c (keyBlock (update s b)) ++
      (encBlocks n (update (update s b) c) d).1) := by
  have hp : ∀ x : List U8, x.length = 16 → pad x = x := fun x hx => by
    rw [pad, hx]; simp
  rw [List.append_assoc, encBlocks]
  dsimp only
  rw [List.take_left' hb, List.drop_left' hb, encBlocks]
  dsimp only
  rw [List.take_left' hc, List.drop_left' hc, hp b hb, hp c hc]

/-- The keystream block after a changed block is the same. -/
theorem key_next (s : Spec.AEGIS.State) (b b' : List U8) : keyBlock (update s b) = keyBlock (update s b') := rfl

/-- The one after that is different. -/
theorem key_second (s : Spec.AEGIS.State) (hs : Len s) (b b' c c' : List U8) (hb : b.length = 16) (hb' : b'.length = 16)
    (h : keyBlock (update (update s b) c) = keyBlock (update (update s b') c')) : b = b' := by
  have l0 : ∀ x : List U8, x.length = 16 → (xorBytes s.s0 x).length = 16 := fun x hx => by
    rw [xorBytes_length, hs.1, hx]; rfl
  have g : ∀ (x c : List U8), keyBlock (update (update s x) c) =
      xorBytes (xorBytes (aesRound (aesRound s.s4 (xorBytes s.s0 x)) (aesRound s.s0 s.s1))
        (aesRound (aesRound s.s2 s.s3) (aesRound s.s3 s.s4)))
        (andBytes (aesRound (aesRound s.s0 s.s1) (aesRound s.s1 s.s2)) (aesRound (aesRound s.s1 s.s2) (aesRound s.s2 s.s3))) :=
    fun _ _ => rfl
  rw [g, g] at h
  have h1 := xor_left_inj (by rw [xorBytes_length, andBytes, List.length_zipWith]; simp only [aesRound_length]; decide)
    (by rw [xorBytes_length, andBytes, List.length_zipWith]; simp only [aesRound_length]; decide) h
  have h2 := xor_left_inj (by simp only [aesRound_length]; decide) (by simp only [aesRound_length]; decide) h1
  have h3 := aesRound_left (aesRound_length _ _) (aesRound_length _ _) h2
  have h4 := aesRound_right (l0 b hb) (l0 b' hb') h3
  rw [xorBytes_comm s.s0, xorBytes_comm s.s0] at h4
  exact xor_left_inj (by rw [hb, hs.1]) (by rw [hb', hs.1]) h4

theorem first_block (n : Nat) (s : Spec.AEGIS.State) (d : List U8) (hs : Len s) (hd : 16 ≤ d.length) (hn : 0 < n) :
    (encBlocks n s d).1.take 16 = xorBytes (d.take 16) (keyBlock s) := by
  obtain ⟨m, rfl⟩ : ∃ m, n = m + 1 := ⟨n - 1, by omega⟩
  rw [encBlocks]
  refine List.take_left' ?_
  rw [xorBytes_length, keyBlock, xorBytes_length, xorBytes_length, andBytes, List.length_zipWith, hs.2.1, hs.2.2.1, hs.2.2.2.1,
    hs.2.2.2.2, List.length_take]
  omega

/-- C137.  Two messages encrypted under one key, IV and associated data, by any of the three builds, that agree in the leading
blocks `a`, differ in the next block (`b` and `b'`) and go on with blocks `c` and `c'`.  The ciphertexts agree in the leading
blocks and show the differences of `b` and `b'` and of `c` and `c'`.  The block after these is encrypted with different
keystreams: the difference of the ciphertexts is not that of the messages. -/
theorem aegis_reuse {rnd rnd' : Quad → Quad → Quad} (hv : IsVariant rnd) (hv' : IsVariant rnd') (cs cs' : CT.AEGIS.State)
    (key iv ad a b b' c c' d d' out out' : List U8) (hk : key.length = 16) (hiv : iv.length = 16) (had : ad.length ≤ 2 ^ 33)
    (ha : a.length % 16 = 0) (hb : b.length = 16) (hb' : b'.length = 16) (hc : c.length = 16) (hc' : c'.length = 16) (hne : b ≠ b')
    (p p' : List U8) (hp : p = a ++ (b ++ c ++ d)) (hp' : p' = a ++ (b' ++ c' ++ d')) (hn : p.length < 2 ^ 64)
    (hn' : p'.length < 2 ^ 64) (ho : out.length = p.length) (ho' : out'.length = p'.length) :
    ∃ s s' t t' ca cb cb' cc cc' cd cd',
      encryptPacket rnd (loadKey cs key) ⟨p, out, false⟩ ad iv ad.length p.length =
        .ok (s, ⟨p, ca ++ (cb ++ (cc ++ cd)), false⟩, t) ∧
      encryptPacket rnd' (loadKey cs' key) ⟨p', out', false⟩ ad iv ad.length p'.length =
        .ok (s', ⟨p', ca ++ (cb' ++ (cc' ++ cd')), false⟩, t') ∧
      ca.length = a.length ∧ cb.length = 16 ∧ cb'.length = 16 ∧ cc.length = 16 ∧ cc'.length = 16 ∧
      xorBytes cb cb' = xorBytes b b' ∧ xorBytes cc cc' = xorBytes c c' ∧
      (16 ≤ d.length → 16 ≤ d'.length → xorBytes (cd.take 16) (cd'.take 16) ≠ xorBytes (d.take 16) (d'.take 16)) := by
  have lp : p.length = a.length + (32 + d.length) := by
    rw [hp]; simp only [List.length_append]; omega
  have lp' : p'.length = a.length + (32 + d'.length) := by
    rw [hp']; simp only [List.length_append]; omega
  obtain ⟨s, e1⟩ := aegis_conforms_partial hv cs key iv ad ⟨p, out, false⟩ p.length hk hiv had (by omega) hn
    (by simp [Io.Fits, Io.src, ho]) rfl
  obtain ⟨s', e2⟩ := aegis_conforms_partial hv' cs' key iv ad ⟨p', out', false⟩ p'.length hk hiv had (by omega) hn'
    (by simp [Io.Fits, Io.src, ho']) rfl
  simp only [List.take_length] at e1 e2
  rw [← ho, List.drop_length, List.append_nil, ho] at e1
  rw [← ho', List.drop_length, List.append_nil, ho'] at e2
  have hS0 : Len (absorb (Spec.AEGIS.blocks ad) (initial key iv) ad) := absorb_len _ _ _ ⟨rfl, rfl, rfl, rfl, rfl⟩
  generalize hS : absorb (Spec.AEGIS.blocks ad) (initial key iv) ad = S0 at hS0
  have ct : ∀ (x y z q : List U8), x.length = 16 → y.length = 16 → q = a ++ (x ++ y ++ z) →
      (Spec.AEGIS.encrypt key iv ad q).1 = (encBlocks (a.length / 16) S0 a).1 ++
        (xorBytes x (keyBlock (encBlocks (a.length / 16) S0 a).2) ++
          (xorBytes y (keyBlock (update (encBlocks (a.length / 16) S0 a).2 x)) ++
            (encBlocks (Spec.AEGIS.blocks z) (update (update (encBlocks (a.length / 16) S0 a).2 x) y) z).1)) := by
    intro x y z q hx hy hq
    have hbk : Spec.AEGIS.blocks q = a.length / 16 + (Spec.AEGIS.blocks z + 1 + 1) := by
      rw [hq, Spec.AEGIS.blocks, Spec.AEGIS.blocks]; simp only [List.length_append, hx, hy]; omega
    rw [Spec.AEGIS.encrypt]
    dsimp only
    rw [hS, hbk, hq, encBlocks_append _ _ _ _ _ (by omega), encBlocks_two _ _ _ _ _ hx hy]
  rw [ct b c d p hb hc hp] at e1
  rw [ct b' c' d' p' hb' hc' hp'] at e2
  have hT : Len (encBlocks (a.length / 16) S0 a).2 := encBlocks_len _ _ _ hS0
  have hca : (encBlocks (a.length / 16) S0 a).1.length = a.length :=
    encBlocks_length _ _ _ hS0.2.1 hS0.2.2.1 hS0.2.2.2.1 hS0.2.2.2.2 (by omega)
  generalize (encBlocks (a.length / 16) S0 a).1 = ca at *
  generalize (encBlocks (a.length / 16) S0 a).2 = T at *
  have kl : ∀ t : Spec.AEGIS.State, Len t → (keyBlock t).length = 16 := fun t ht => by
    rw [keyBlock, xorBytes_length, xorBytes_length, andBytes, List.length_zipWith, ht.2.1, ht.2.2.1, ht.2.2.2.1, ht.2.2.2.2]; rfl
  have xl : ∀ (x : List U8) (t : Spec.AEGIS.State), x.length = 16 → Len t → (xorBytes x (keyBlock t)).length = 16 :=
    fun x t hx ht => by rw [xorBytes_length, kl t ht, hx]; rfl
  refine ⟨s, s', _, _, ca, _, _, _, _, _, _, e1, e2, hca, xl _ _ hb hT, xl _ _ hb' hT, xl _ _ hc (update_len _ _),
    xl _ _ hc' (update_len _ _), xorBytes_cancel _ _ _ (by rw [hb, kl T hT]) (by rw [hb', kl T hT]), ?_, ?_⟩
  · rw [key_next T b b']
    exact xorBytes_cancel _ _ _ (by rw [hc, kl _ (update_len _ _)]) (by rw [hc', kl _ (update_len _ _)])
  · intro hd hd' he
    rw [first_block _ _ _ (update_len _ _) hd (by rw [Spec.AEGIS.blocks]; omega),
      first_block _ _ _ (update_len _ _) hd' (by rw [Spec.AEGIS.blocks]; omega)] at he
    exact hne (key_second T hT b b' c c' hb hb' (Props.AES.xorBytes_swap _ _ _ _ (by rw [List.length_take]; omega)
      (by rw [List.length_take]; omega) (kl _ (update_len _ _)) (kl _ (update_len _ _)) he))

/-- Non-trivial instance of the hypotheses: the second of four blocks differs. -/
example : List.replicate 64 (1 : U8) = List.replicate 16 1 ++ (List.replicate 16 1 ++ List.replicate 16 1 ++ List.replicate 16 1) ∧
    List.replicate 16 (1 : U8) ++ (List.replicate 16 2 ++ List.replicate 16 1 ++ List.replicate 16 1) ≠ List.replicate 64 1 ∧
    IsVariant rndX86 := ⟨by decide, by decide, Or.inr (Or.inl rfl)⟩

end CT.Props.AEGISReuse
