import Verif.Spec.SHA256
import Verif.Model.SHA256

/-!
# SHA-256: the model refines FIPS 180-4 whenever the padded message fits
-/

namespace CT.SHA256
open CT.Spec (SHA256.pad SHA256.zeros)

set_option maxRecDepth 100000 in
theorem K_all : (List.range 64).map Spec.SHA256.K = K := by decide +kernel

set_option maxRecDepth 100000 in
theorem H0_all : (List.range 8).map Spec.SHA256.H0 = H0.toList := by decide +kernel

theorem K_eq (t : Nat) (h : t < 64) : K.getD t 0 = Spec.SHA256.K t := by
  rw [← K_all]
  simp [List.getD_eq_getElem?_getD, h]

/-! ### Padding -/

theorem zeroLoop_ok (size : Nat) (r fuel k : Nat) (p l : List U8)
    (hk : k + r = Spec.SHA256.zeros size) (hf : r < fuel) (hl : r ≤ l.length) :
    zeroLoop size fuel k p.length (p ++ l) =
      .ok (p.length + r, p ++ List.replicate r 0 ++ l.drop r) := by
  induction r generalizing fuel k p l with
  | zero =>
    cases fuel with
    | zero => omega
    | succ fuel =>
      rw [zeroLoop, if_neg]
      · simp
      · simp only [Spec.SHA256.zeros] at hk; omega
  | succ r ih =>
    cases fuel with
    | zero => omega
    | succ fuel =>
      rw [zeroLoop, if_pos (by simp only [Spec.SHA256.zeros] at hk; omega)]
      cases l with
      | nil => simp at hl
      | cons a l =>
        rw [Mem.wr_append_cons]
        have := ih fuel (k + 1) (p ++ [0]) l (by omega) (by omega) (by simpa using hl)
        simp only [Res.ok_bind]
        simp only [List.length_append, List.length_singleton, List.append_assoc, List.singleton_append] at this
        rw [this]
        simp [List.replicate_succ]
        omega

theorem zeroLoop_oob (size : Nat) (r fuel k : Nat) (p l : List U8)
    (hk : k + r = Spec.SHA256.zeros size) (hf : r < fuel) (hl : l.length < r) :
    zeroLoop size fuel k p.length (p ++ l) = .ub .outOfBounds := by
  induction r generalizing fuel k p l with
  | zero => omega
  | succ r ih =>
    cases fuel with
    | zero => omega
    | succ fuel =>
      rw [zeroLoop, if_pos (by simp only [Spec.SHA256.zeros] at hk; omega)]
      cases l with
      | nil => simp [Mem.wr]
      | cons a l =>
        rw [Mem.wr_append_cons]
        have := ih fuel (k + 1) (p ++ [0]) l (by omega) (by omega) (by simpa using hl)
        simp only [Res.ok_bind]
        simp only [List.length_append, List.length_singleton, List.append_assoc, List.singleton_append] at this
        rw [this]

theorem zeros_lt (n : Nat) : Spec.SHA256.zeros n < 64 := by
  simp only [Spec.SHA256.zeros]; omega

theorem be64_eq (n : Nat) (h : n < 2 ^ 64) :
    (let bl : U64 := BitVec.ofNat 64 n
     [(bl >>> 56).setWidth 8, (bl >>> 48).setWidth 8, (bl >>> 40).setWidth 8,
      (bl >>> 32).setWidth 8, (bl >>> 24).setWidth 8, (bl >>> 16).setWidth 8, (bl >>> 8).setWidth 8,
      bl.setWidth 8]) = Spec.SHA256.be64 n := by
  have hs : ∀ s, ((BitVec.ofNat 64 n) >>> s).setWidth 8 = BitVec.ofNat 8 (n / 2 ^ s) := by
    intro s
    apply BitVec.eq_of_toNat_eq
    simp [BitVec.toNat_ushiftRight, Nat.shiftRight_eq_div_pow, Nat.mod_eq_of_lt h]
  have h0 : (BitVec.ofNat 64 n).setWidth 8 = BitVec.ofNat 8 (n / 2 ^ 0) := by
    have := hs 0
    simp
  simp only [hs, h0, Spec.SHA256.be64, List.map_cons, List.map_nil]

theorem be64_length (n : Nat) : (Spec.SHA256.be64 n).length = 8 := by simp [Spec.SHA256.be64]

/-- The padding routine produces the padded message if exactly enough room is left. -/
theorem padMessage_ok (m rest : List U8) (hm : m.length < 2 ^ 60)
    (hr : rest.length = 9 + Spec.SHA256.zeros m.length) :
    padMessage (m ++ rest) m.length = .ok (Spec.SHA256.pad m) := by
  cases rest with
  | nil => simp only [List.length_nil] at hr; omega
  | cons a rest =>
    simp only [List.length_cons] at hr
    rw [padMessage, Mem.wr_append_cons]
    simp only [Res.ok_bind]
    have hz := zeroLoop_ok m.length (Spec.SHA256.zeros m.length) 65 0 (m ++ [0x80]) rest (by omega)
      (by have := zeros_lt m.length; omega) (by omega)
    simp only [List.length_append, List.length_singleton, List.append_assoc, List.singleton_append] at hz
    rw [hz]
    simp only [Res.ok_bind]
    have hb := be64_eq (8 * m.length) (by omega)
    simp only at hb
    rw [hb]
    have := Mem.wrs_append (p := m ++ [0x80] ++ List.replicate (Spec.SHA256.zeros m.length) 0)
      (l := rest.drop (Spec.SHA256.zeros m.length)) (Spec.SHA256.be64 (8 * m.length))
      (by rw [be64_length, List.length_drop]; omega)
    have e : (m ++ [0x80] ++ List.replicate (Spec.SHA256.zeros m.length) (0 : U8)).length =
      m.length + 1 + Spec.SHA256.zeros m.length := by simp; omega
    rw [e] at this
    simp only [List.append_assoc, be64_length, List.cons_append, List.nil_append] at this ⊢
    rw [this]
    have hd : (rest.drop (Spec.SHA256.zeros m.length)).drop 8 = [] := by
      apply List.drop_eq_nil_of_le
      rw [List.length_drop]; omega
    simp [hd, Spec.SHA256.pad]

/-- With one byte of room only, the padding routine leaves the array. -/
theorem padMessage_oob (m : List U8) (a : U8) (hm : m.length % 64 = 63) :
    padMessage (m ++ [a]) m.length = .ub .outOfBounds := by
  rw [padMessage, Mem.wr_append_cons]
  have hz := zeroLoop_oob m.length (Spec.SHA256.zeros m.length) 65 0 (m ++ [0x80]) [] (by omega)
      (by have := zeros_lt m.length; omega) (by simp [Spec.SHA256.zeros]; omega)
  simp only [List.length_append, List.length_singleton, List.append_nil] at hz
  simp only [Res.ok_bind]
  rw [hz]
  rfl

theorem pad_length (m : List U8) : (Spec.SHA256.pad m).length = m.length + 9 + Spec.SHA256.zeros m.length := by
  simp [Spec.SHA256.pad, be64_length]; omega

/-! ### Functions -/

theorem bSigma0_eq (x : U32) : bSigma0 x = Spec.SHA256.bigSigma0 x := by
  simp only [bSigma0, Spec.SHA256.bigSigma0]
  rw [rotr32_eq _ (n := 2) (by omega) (by omega), rotr32_eq _ (n := 13) (by omega) (by omega), rotr32_eq _ (n := 22) (by omega) (by omega)]
theorem bSigma1_eq (x : U32) : bSigma1 x = Spec.SHA256.bigSigma1 x := by
  simp only [bSigma1, Spec.SHA256.bigSigma1]
  rw [rotr32_eq _ (n := 6) (by omega) (by omega), rotr32_eq _ (n := 11) (by omega) (by omega), rotr32_eq _ (n := 25) (by omega) (by omega)]
theorem sSigma0_eq (x : U32) : sSigma0 x = Spec.SHA256.smallSigma0 x := by
  simp only [sSigma0, Spec.SHA256.smallSigma0]
  rw [rotr32_eq _ (n := 7) (by omega) (by omega), rotr32_eq _ (n := 18) (by omega) (by omega)]
theorem sSigma1_eq (x : U32) : sSigma1 x = Spec.SHA256.smallSigma1 x := by
  simp only [sSigma1, Spec.SHA256.smallSigma1]
  rw [rotr32_eq _ (n := 17) (by omega) (by omega), rotr32_eq _ (n := 19) (by omega) (by omega)]

/-- Hash value of the specification as the array of the code. -/
def vec (v : Spec.SHA256.Vars) : Vector U32 8 := #v[v.a, v.b, v.c, v.d, v.e, v.f, v.g, v.h]

theorem round_eq (v : Spec.SHA256.Vars) (k w : U32) :
    round (vec v) k w = vec (Spec.SHA256.round v k w) := by
  have h0 : (vec v)[0] = v.a := rfl
  have h1 : (vec v)[1] = v.b := rfl
  have h2 : (vec v)[2] = v.c := rfl
  have h3 : (vec v)[3] = v.d := rfl
  have h4 : (vec v)[4] = v.e := rfl
  have h5 : (vec v)[5] = v.f := rfl
  have h6 : (vec v)[6] = v.g := rfl
  have h7 : (vec v)[7] = v.h := rfl
  simp only [round, h0, h1, h2, h3, h4, h5, h6, h7, bSigma0_eq, bSigma1_eq]
  rfl

theorem roundLoop_eq (W : List U32) (M : Nat → U32) (v : Spec.SHA256.Vars)
    (hW : ∀ t < 64, W.getD t 0 = Spec.SHA256.W M t) (n t : Nat) (h : t + n ≤ 64) :
    roundLoop W n t (vec (Spec.SHA256.rounds M v t)) = vec (Spec.SHA256.rounds M v (t + n)) := by
  induction n generalizing t with
  | zero => rfl
  | succ n ih =>
    rw [roundLoop, round_eq, K_eq t (by omega), hW t (by omega)]
    have := ih (t + 1) (by omega)
    rw [Spec.SHA256.rounds] at this
    rw [this]
    congr 2; omega

/-! ### Schedule -/

theorem be32_shift (b0 b1 b2 b3 : U8) :
    (b0.setWidth 32 <<< 24) ||| (b1.setWidth 32 <<< 16) ||| (b2.setWidth 32 <<< 8) ||| b3.setWidth 32 =
      be32 b0 b1 b2 b3 := by
  apply BitVec.eq_of_getLsbD_eq
  intro i hi
  rw [be32, BitVec.getLsbD_append, BitVec.getLsbD_append, BitVec.getLsbD_append]
  simp only [BitVec.getLsbD_or, BitVec.getLsbD_shiftLeft, BitVec.getLsbD_setWidth]
  by_cases h0 : i < 8
  · simp [h0, show i < 16 by omega, show i < 24 by omega, hi]
  · by_cases h1 : i < 16
    · simp [h0, h1, hi, show i < 24 by omega, show i - 8 < 8 by omega, show i - 8 < 32 by omega, BitVec.getLsbD_of_ge b3 i (by omega)]
    · by_cases h2 : i < 24
      · simp [h0, h1, h2, hi, show i - 16 < 8 by omega, show i - 16 < 32 by omega, BitVec.getLsbD_of_ge b3 i (by omega),
          BitVec.getLsbD_of_ge b2 (i - 8) (by omega), show i - 8 - 8 < 8 by omega, show i - 8 - 8 = i - 16 by omega,
          show ¬ (i - 8 < 8) by omega]
      · simp [h0, h1, h2, hi, BitVec.getLsbD_of_ge b3 i (by omega),
          BitVec.getLsbD_of_ge b2 (i - 8) (by omega), BitVec.getLsbD_of_ge b1 (i - 16) (by omega),
          show ¬ (i - 8 < 8) by omega, show ¬ (i - 16 < 8) by omega, show i - 8 - 8 - 8 = i - 24 by omega,
          show i - 8 - 8 = i - 16 by omega, show i - 16 - 8 = i - 24 by omega,
          show i - 24 < 32 by omega]

theorem getD_set {α} (l : List α) (i j : Nat) (v d : α) (h : i < l.length) :
    (l.set i v).getD j d = if i = j then v else l.getD j d := by
  simp only [List.getD_eq_getElem?_getD, List.getElem?_set, h, if_true]
  split <;> simp

theorem schedIn_ok (p : List U8) (i n t : Nat) (W : List U32) (hW : W.length = 64)
    (hn : t + n ≤ 16) (hp : 64 * i + 4 * (t + n) ≤ p.length) :
    ∃ W', schedIn p i n t W = .ok W' ∧ W'.length = 64 ∧
      (∀ j, t ≤ j → j < t + n → W'.getD j 0 = Spec.SHA256.M p i j) ∧ (∀ j, j < t → W'.getD j 0 = W.getD j 0) := by
  induction n generalizing t W with
  | zero => exact ⟨W, rfl, hW, by intro j _ _; omega, fun _ _ => rfl⟩
  | succ n ih =>
    rw [schedIn, Mem.rd_eq (by omega), Mem.rd_eq (by omega), Mem.rd_eq (by omega), Mem.rd_eq (by omega)]
    simp only [Res.ok_bind, be32_shift]
    obtain ⟨W', h, hl, h1, h2⟩ := ih (t + 1) (W.set t (be32 p[64 * i + 4 * t] p[64 * i + 4 * t + 1]
      p[64 * i + 4 * t + 2] p[64 * i + 4 * t + 3])) (by simp [hW]) (by omega) (by omega)
    refine ⟨W', h, hl, ?_, ?_⟩
    · intro j hj hj'
      by_cases e : j = t
      · subst e
        rw [h2 j (by omega), getD_set _ _ _ _ _ (by omega), if_pos rfl]
        simp only [Spec.SHA256.M, List.getD_eq_getElem?_getD]
        rw [List.getElem?_eq_getElem (show 64 * i + 4 * j + 0 < _ by omega),
          List.getElem?_eq_getElem (show 64 * i + 4 * j + 1 < _ by omega),
          List.getElem?_eq_getElem (show 64 * i + 4 * j + 2 < _ by omega),
          List.getElem?_eq_getElem (show 64 * i + 4 * j + 3 < _ by omega)]
        rfl
      · exact h1 j (by omega) (by omega)
    · intro j hj
      rw [h2 j (by omega), getD_set _ _ _ _ _ (by omega), if_neg (by omega)]

theorem schedExt_ok (M : Nat → U32) (n t : Nat) (W : List U32) (hW : W.length = 64) (ht : 16 ≤ t)
    (hn : t + n ≤ 64) (h : ∀ j < t, W.getD j 0 = Spec.SHA256.W M j) :
    ∀ j < t + n, (schedExt n t W).getD j 0 = Spec.SHA256.W M j := by
  induction n generalizing t W with
  | zero => exact h
  | succ n ih =>
    intro j hj
    rw [schedExt]
    refine ih (t + 1) _ (by simp [hW]) (by omega) (by omega) ?_ j (by omega)
    intro j hj
    rw [getD_set _ _ _ _ _ (by omega)]
    split
    · rename_i e
      subst e
      rw [h _ (by omega), h _ (by omega), h _ (by omega), h _ (by omega), sSigma0_eq, sSigma1_eq]
      conv => rhs; rw [Spec.SHA256.W]
      rw [dif_neg (by omega)]
    · exact h j (by omega)

theorem W_small (M : Nat → U32) (t : Nat) (h : t < 16) : Spec.SHA256.W M t = M t := by
  rw [Spec.SHA256.W, dif_pos h]

/-! ### Blocks -/

theorem addDigest_eq (v H : Spec.SHA256.Vars) : addDigest (vec v) (vec H) =
    vec { a := v.a + H.a, b := v.b + H.b, c := v.c + H.c, d := v.d + H.d,
          e := v.e + H.e, f := v.f + H.f, g := v.g + H.g, h := v.h + H.h } := rfl

theorem roundLoop_zero (W : List U32) (M : Nat → U32) (v : Spec.SHA256.Vars)
    (hW : ∀ t < 64, W.getD t 0 = Spec.SHA256.W M t) (n : Nat) (h : n ≤ 64) :
    roundLoop W n 0 (vec v) = vec (Spec.SHA256.rounds M v n) := by
  have := roundLoop_eq W M v hW n 0 (by omega)
  rw [Nat.zero_add] at this
  exact this

theorem compress_eq (W : List U32) (H : Spec.SHA256.Vars) (M : Nat → U32)
    (hW : ∀ t < 64, W.getD t 0 = Spec.SHA256.W M t) :
    addDigest (roundLoop W 64 0 (vec H)) (vec H) = vec (Spec.SHA256.compress H M) := by
  have := roundLoop_zero W M H hW 64 (Nat.le_refl _)
  rw [this, addDigest_eq, Spec.SHA256.compress]

theorem blockLoop_ok (p : List U8) (n i : Nat) (h : 64 * (i + n) ≤ p.length) :
    blockLoop p n i (vec (Spec.SHA256.hashAt p i)) = .ok (vec (Spec.SHA256.hashAt p (i + n))) := by
  induction n generalizing i with
  | zero => rfl
  | succ n ih =>
    rw [blockLoop]
    obtain ⟨W, hW, hl, h1, -⟩ := schedIn_ok p i 16 0 (List.replicate 64 0) (by simp) (by omega) (by omega)
    rw [hW]
    have hE := schedExt_ok (Spec.SHA256.M p i) 48 16 W hl (by omega) (by omega)
      (by intro j hj; rw [h1 j (by omega) (by omega), W_small _ _ hj])
    have hc := compress_eq (schedExt 48 16 W) (Spec.SHA256.hashAt p i) (Spec.SHA256.M p i) hE
    have := ih (i + 1) (by omega)
    rw [Spec.SHA256.hashAt, ← hc] at this
    simp only [Res.ok_bind]
    rw [this]
    congr 3; omega

theorem swapWord_bytes (x : U32) : bytesLE32 (swapWord x) = bytesBE32 x := by
  have hb : ∀ n < 4, byteN (swapWord x) n = byteN x (3 - n) := by
    intro n hn
    have : n = 0 ∨ n = 1 ∨ n = 2 ∨ n = 3 := by omega
    rcases this with h | h | h | h <;> subst h <;>
    · simp only [byteN, swapWord]
      ext i hi
      have hi' : i = 0 ∨ i = 1 ∨ i = 2 ∨ i = 3 ∨ i = 4 ∨ i = 5 ∨ i = 6 ∨ i = 7 := by omega
      rcases hi' with h | h | h | h | h | h | h | h <;> subst h <;> simp
  simp [bytesLE32, bytesBE32, hb]

theorem out_eq (v : Spec.SHA256.Vars) : wordsToBytesLE ((vec v).toList.map swapWord) = v.bytes := by
  have : (vec v).toList = [v.a, v.b, v.c, v.d, v.e, v.f, v.g, v.h] := rfl
  rw [this]
  simp only [List.map_cons, List.map_nil, wordsToBytesLE, List.flatMap_cons, List.flatMap_nil, swapWord_bytes,
    Spec.SHA256.Vars.bytes, List.append_assoc, List.append_nil]

theorem H0_vec (p : List U8) : H0 = vec (Spec.SHA256.hashAt p 0) := by
  have h := H0_all
  have e : (List.range 8).map Spec.SHA256.H0 = (vec (Spec.SHA256.hashAt p 0)).toList := rfl
  rw [e] at h
  exact (Vector.toList_inj.1 h).symm

theorem digest_length (m : List U8) : (Spec.SHA256.digest m).length = 32 := by
  simp [Spec.SHA256.digest, Spec.SHA256.Vars.bytes, bytesBE32_length]

/-! ### The whole function -/

theorem processWith_ok (grow : Nat → Bool) (junk : Nat → U8) (dst msg extra : List U8)
    (hg : grow msg.length = decide (msg.length % 64 ≥ 56)) (hs : msg.length + 128 < 2 ^ 31) (hd : 32 ≤ dst.length) :
    processWith grow junk dst (msg ++ extra) msg.length = .ok (Spec.SHA256.digest msg ++ dst.drop 32) := by
  have key : ∀ n, n % 64 = 0 → n < 2 ^ 31 → n = msg.length + 9 + Spec.SHA256.zeros msg.length →
      (do
        let m ← Mem.wrs ((List.range n).map junk) 0 (msg ++ extra |>.take msg.length)
        let m ← padMessage m msg.length
        let H ← blockLoop m (n / 64) 0 H0
        Mem.wrs dst 0 (wordsToBytesLE (H.toList.map swapWord))) = Res.ok (Spec.SHA256.digest msg ++ dst.drop 32) := by
    intro n hn0 hn1 hn
    rw [List.take_left]
    have h1 := Mem.wrs_eq (l := (List.range n).map junk) 0 msg (by simp; omega)
    rw [h1]
    simp only [Res.ok_bind, List.take_zero, List.nil_append, Nat.zero_add]
    rw [padMessage_ok msg _ (by omega) (by simp; omega)]
    simp only [Res.ok_bind]
    have hpl := pad_length msg
    have h2 := blockLoop_ok (Spec.SHA256.pad msg) (n / 64) 0 (by omega)
    rw [← H0_vec] at h2
    rw [h2]
    simp only [Res.ok_bind, Nat.zero_add]
    rw [out_eq]
    have e : (Spec.SHA256.hashAt (Spec.SHA256.pad msg) (n / 64)).bytes = Spec.SHA256.digest msg := by
      rw [Spec.SHA256.digest, hpl, hn]
    rw [e, Mem.wrs_eq _ _ (by rw [digest_length]; omega), digest_length]
    simp
  simp only [processWith, hg]
  by_cases hc : msg.length % 64 ≥ 56
  · simp only [hc, decide_true, if_true]
    rw [if_neg (by omega), if_neg (by simp)]
    exact key _ (by omega) (by omega) (by simp only [Spec.SHA256.zeros]; omega)
  · simp only [hc, decide_false]
    simp only [Bool.false_eq_true, if_false]
    rw [if_neg (by omega), if_neg (by simp)]
    exact key _ (by omega) (by omega) (by simp only [Spec.SHA256.zeros]; omega)

theorem processWith_oob (grow : Nat → Bool) (junk : Nat → U8) (dst msg extra : List U8)
    (hg : grow msg.length = false) (hm : msg.length % 64 = 63) :
    processWith grow junk dst (msg ++ extra) msg.length = .ub .outOfBounds := by
  simp only [processWith, hg]
  simp only [Bool.false_eq_true, if_false]
  split
  · rfl
  · rw [if_neg (by simp), List.take_left]
    have h1 := Mem.wrs_eq (l := (List.range (msg.length / 64 * 64 + 64)).map junk) 0 msg (by simp; omega)
    rw [h1]
    simp only [Res.ok_bind, List.take_zero, List.nil_append, Nat.zero_add]
    have hl : (((List.range (msg.length / 64 * 64 + 64)).map junk).drop msg.length).length = 1 := by
      simp; omega
    obtain ⟨a, ha⟩ := List.length_eq_one_iff.1 hl
    rw [ha, padMessage_oob msg a hm]
    rfl

end CT.SHA256
