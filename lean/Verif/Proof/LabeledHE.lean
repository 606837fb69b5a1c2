import Verif.Model.LabeledHE
import Verif.Proof.JoyeLibert
import Verif.Proof.HC128
import Verif.Spec.LabeledHE
import Mathlib.Data.Nat.Digits.Lemmas

namespace CT.LHE
open CT.Gmp CT.JL CT.Spec.JL

section
variable {n : ℕ} [NeZero n] {k : ℕ} {Y : (ZMod n)ˣ} {y : ℤ}

/-- `ct` is a ciphertext of `m` with label value `b`. -/
def Rep (k : ℕ) (Y : (ZMod n)ˣ) (ct : HeCt) (m b : ℤ) : Prop :=
  EncU k Y ct.beta b ∧ ct.a ≡ m - b [ZMOD 2 ^ k]

theorem two_ne : (2 : ℤ) ^ k ≠ 0 := by positivity

theorem evalAdd_rep {c1 c2 : HeCt} {m1 m2 b1 b2 : ℤ} (h1 : Rep k Y c1 m1 b1) (h2 : Rep k Y c2 m2 b2) :
    ∃ c, evalAdd c1 c2 n k = .ok c ∧ Rep k Y c (m1 + m2) (b1 + b2) := by
  refine ⟨⟨(c1.a + c2.a) % 2 ^ k, c1.beta * c2.beta % n⟩, ?_, h1.1.mul h2.1, ?_⟩
  · simp only [evalAdd, mod_ok two_ne, mod_ok n_ne, Res.ok_bind, Res.pure_eq]
  · refine (Int.mod_modEq _ _).trans ((h1.2.add h2.2).trans ?_)
    rw [show m1 - b1 + (m2 - b2) = m1 + m2 - (b1 + b2) by ring]

theorem evalSub_rep {c1 c2 : HeCt} {m1 m2 b1 b2 : ℤ} (h1 : Rep k Y c1 m1 b1) (h2 : Rep k Y c2 m2 b2) :
    ∃ c, evalSub c1 c2 n k = .ok c ∧ Rep k Y c (m1 - m2) (b1 - b2) := by
  obtain ⟨v, e1, e2⟩ := h2.1.invert
  refine ⟨⟨(c1.a + -c2.a % 2 ^ k) % 2 ^ k, c1.beta * v % n⟩, ?_, ?_, ?_⟩
  · simp only [evalSub, mod_ok two_ne, mod_ok n_ne, Res.ok_bind, Res.pure_eq, e1]
  · exact (h1.1.mul e2).of_eq (by ring)
  · refine (Int.mod_modEq _ _).trans ((h1.2.add ((Int.mod_modEq _ _).trans h2.2.neg)).trans ?_)
    rw [show m1 - b1 + -(m2 - b2) = m1 - m2 - (b1 - b2) by ring]

theorem evalCmult_rep {c1 : HeCt} {m1 b1 : ℤ} (h1 : Rep k Y c1 m1 b1) (t : ℤ) :
    ∃ c, evalCmult c1 t n k = .ok c ∧ Rep k Y c (t * m1) (t * b1) := by
  obtain ⟨v, e1, e2⟩ := h1.1.powm t
  refine ⟨⟨c1.a * t % 2 ^ k, v⟩, ?_, e2.of_eq (by ring), ?_⟩
  · simp only [evalCmult, mod_ok two_ne, Res.ok_bind, Res.pure_eq, e1]
  · refine (Int.mod_modEq _ _).trans ((h1.2.mul_right t).trans ?_)
    rw [show (m1 - b1) * t = t * m1 - t * b1 by ring]

theorem coprime_left {a b : ℤ} (h : IsCoprime (a * b % n) (n : ℤ)) : IsCoprime a (n : ℤ) := by
  obtain ⟨u, hu⟩ := unit_of_isCoprime h
  rw [ZMod.intCast_mod, Int.cast_mul] at hu
  have : IsUnit (a : ZMod n) := (IsUnit.mul_iff.mp (hu ▸ u.isUnit)).1
  obtain ⟨v, hv⟩ := this
  exact isCoprime_of_unit hv

theorem evalMult_enc (hY : (Y : ZMod n) = y) (g : Env) {fuel : ℕ} {s s' : g.State} {c1 c2 : HeCt}
    {m1 m2 b1 b2 alpha : ℤ} (h1 : Rep k Y c1 m1 b1) (h2 : Rep k Y c2 m2 b2)
    (h : evalMult g fuel s c1 c2 y n k = .ok (alpha, s')) (hc : IsCoprime alpha (n : ℤ)) :
    EncU k Y alpha (m1 * m2 - b1 * b2) := by
  obtain ⟨u, u1, u2⟩ := h2.1.powm c1.a
  obtain ⟨v, v1, v2⟩ := h1.1.powm c2.a
  simp only [evalMult, mod_ok two_ne, Res.ok_bind, u1, v1] at h
  obtain ⟨⟨al, s1⟩, e1, e2⟩ := Res.bind_eq_ok h
  simp only [mod_ok n_ne, Res.ok_bind, Res.pure_eq, Res.ok_inj, Prod.mk.injEq] at e2
  obtain ⟨rfl, rfl⟩ := e2
  obtain ⟨x, -, hx, -⟩ := encrypt_spec g hY e1
  have e := coprime_coin hx (coprime_left (coprime_left hc))
  refine ((e.mul v2).mul u2).congr ?_
  have q1 := h1.2
  have q2 := h2.2
  have q3 : c1.a * c2.a % 2 ^ k ≡ c1.a * c2.a [ZMOD 2 ^ k] := Int.mod_modEq _ _
  have q4 : c1.a * c2.a ≡ (m1 - b1) * (m2 - b2) [ZMOD 2 ^ k] := q1.mul q2
  refine (((q3.trans q4).add (q2.mul_left b1)).add (q1.mul_left b2)).trans ?_
  rw [show (m1 - b1) * (m2 - b2) + b1 * (m2 - b2) + b2 * (m1 - b1) = m1 * m2 - b1 * b2 by ring]

theorem evalMult_total (hY : (Y : ZMod n) = y) (g : Env) {fuel : ℕ} {s s' : g.State} {c1 c2 : HeCt}
    {m1 m2 b1 b2 x : ℤ} (h1 : Rep k Y c1 m1 b1) (h2 : Rep k Y c2 m2 b2)
    (h : pickX g n fuel s = .ok (x, s')) : ∃ alpha, evalMult g fuel s c1 c2 y n k = .ok (alpha, s') := by
  obtain ⟨u, u1, u2⟩ := h2.1.powm c1.a
  obtain ⟨v, v1, v2⟩ := h1.1.powm c2.a
  obtain ⟨c, hc⟩ := encrypt_total (k := k) g hY (c1.a * c2.a % 2 ^ k) h
  exact ⟨_, by simp only [evalMult, mod_ok two_ne, Res.ok_bind, u1, v1, hc, mod_ok n_ne, Res.pure_eq]; rfl⟩

theorem evalMult3_enc (hY : (Y : ZMod n) = y) (g : Env) {fuel : ℕ} {s s' : g.State} {c1 c2 c3 : HeCt}
    {m1 m2 m3 b1 b2 b3 t12 t13 t23 alpha : ℤ} (h1 : Rep k Y c1 m1 b1) (h2 : Rep k Y c2 m2 b2)
    (h3 : Rep k Y c3 m3 b3) (h12 : EncU k Y t12 (b1 * b2)) (h13 : EncU k Y t13 (b1 * b3))
    (h23 : EncU k Y t23 (b2 * b3))
    (h : evalMult3 g fuel s c1 c2 c3 t12 t13 t23 y n k = .ok (alpha, s')) (hc : IsCoprime alpha (n : ℤ)) :
    EncU k Y alpha (m1 * m2 * m3 - b1 * b2 * b3) := by
  obtain ⟨u1, e1, f1⟩ := h23.powm c1.a
  obtain ⟨u2, e2, f2⟩ := h13.powm c2.a
  obtain ⟨u3, e3, f3⟩ := h12.powm c3.a
  obtain ⟨v1, g1, i1⟩ := h3.1.powm c1.a
  obtain ⟨v2, g2, i2⟩ := i1.powm c2.a
  obtain ⟨v3, g3, i3⟩ := h2.1.powm c1.a
  obtain ⟨v4, g4, i4⟩ := i3.powm c3.a
  obtain ⟨v5, g5, i5⟩ := h1.1.powm c2.a
  obtain ⟨v6, g6, i6⟩ := i5.powm c3.a
  simp only [evalMult3, mod_ok two_ne, Res.ok_bind, e1, e2, e3, g1, g2, g3, g4, g5, g6] at h
  obtain ⟨⟨al, s1⟩, w1, w2⟩ := Res.bind_eq_ok h
  simp only [mod_ok n_ne, Res.ok_bind, Res.pure_eq, Res.ok_inj, Prod.mk.injEq] at w2
  obtain ⟨rfl, rfl⟩ := w2
  obtain ⟨x, -, hx, -⟩ := encrypt_spec g hY w1
  have e := coprime_coin hx (coprime_left (coprime_left (coprime_left (coprime_left (coprime_left
    (coprime_left hc))))))
  refine ((((((e.mul f1).mul f2).mul f3).mul i2).mul i4).mul i6).congr ?_
  have q1 := h1.2
  have q2 := h2.2
  have q3 := h3.2
  have r1 : c1.a * c2.a % 2 ^ k ≡ (m1 - b1) * (m2 - b2) [ZMOD 2 ^ k] :=
    (Int.mod_modEq _ _).trans (q1.mul q2)
  have r2 : c1.a * c2.a % 2 ^ k * c3.a % 2 ^ k ≡ (m1 - b1) * (m2 - b2) * (m3 - b3) [ZMOD 2 ^ k] :=
    (Int.mod_modEq _ _).trans (r1.mul q3)
  refine ((((((r2.add (q1.mul_left (b2 * b3))).add (q2.mul_left (b1 * b3))).add
    (q3.mul_left (b1 * b2))).add ((q1.mul_left b3).mul q2)).add ((q1.mul_left b2).mul q3)).add
    ((q2.mul_left b1).mul q3)).trans ?_
  rw [show (m1 - b1) * (m2 - b2) * (m3 - b3) + b2 * b3 * (m1 - b1) + b1 * b3 * (m2 - b2)
      + b1 * b2 * (m3 - b3) + b3 * (m1 - b1) * (m2 - b2) + b2 * (m1 - b1) * (m3 - b3)
      + b1 * (m2 - b2) * (m3 - b3) = m1 * m2 * m3 - b1 * b2 * b3 by ring]

theorem evalMult3_total (hY : (Y : ZMod n) = y) (g : Env) {fuel : ℕ} {s s' : g.State} {c1 c2 c3 : HeCt}
    {m1 m2 m3 b1 b2 b3 t12 t13 t23 d12 d13 d23 x : ℤ} (h1 : Rep k Y c1 m1 b1) (h2 : Rep k Y c2 m2 b2)
    (h3 : Rep k Y c3 m3 b3) (h12 : EncU k Y t12 d12) (h13 : EncU k Y t13 d13)
    (h23 : EncU k Y t23 d23) (h : pickX g n fuel s = .ok (x, s')) :
    ∃ alpha, evalMult3 g fuel s c1 c2 c3 t12 t13 t23 y n k = .ok (alpha, s') := by
  obtain ⟨u1, e1, f1⟩ := h23.powm c1.a
  obtain ⟨u2, e2, f2⟩ := h13.powm c2.a
  obtain ⟨u3, e3, f3⟩ := h12.powm c3.a
  obtain ⟨v1, g1, i1⟩ := h3.1.powm c1.a
  obtain ⟨v2, g2, i2⟩ := i1.powm c2.a
  obtain ⟨v3, g3, i3⟩ := h2.1.powm c1.a
  obtain ⟨v4, g4, i4⟩ := i3.powm c3.a
  obtain ⟨v5, g5, i5⟩ := h1.1.powm c2.a
  obtain ⟨v6, g6, i6⟩ := i5.powm c3.a
  obtain ⟨c, hc⟩ := encrypt_total (k := k) g hY (c1.a * c2.a % 2 ^ k * c3.a % 2 ^ k) h
  exact ⟨_, by
    simp only [evalMult3, mod_ok two_ne, Res.ok_bind, e1, e2, e3, g1, g2, g3, g4, g5, g6, hc,
      mod_ok n_ne, Res.pure_eq]
    rfl⟩

theorem evalAddA_enc {c1 c2 d1 d2 : ℤ} (h1 : EncU k Y c1 d1) (h2 : EncU k Y c2 d2) :
    ∃ c, evalAddA c1 c2 n = .ok c ∧ EncU k Y c (d1 + d2) :=
  ⟨_, mod_ok n_ne, h1.mul h2⟩

theorem evalSubA_enc {c1 c2 d1 d2 : ℤ} (h1 : EncU k Y c1 d1) (h2 : EncU k Y c2 d2) :
    ∃ c, evalSubA c1 c2 n = .ok c ∧ EncU k Y c (d1 - d2) := by
  obtain ⟨v, e1, e2⟩ := h2.invert
  exact ⟨_, by simp only [evalSubA, e1, Res.ok_bind, mod_ok n_ne], (h1.mul e2).of_eq (by ring)⟩

theorem evalCmultA_enc {c1 d1 : ℤ} (h1 : EncU k Y c1 d1) (t : ℤ) :
    ∃ c, evalCmultA c1 t n = .ok c ∧ EncU k Y c (t * d1) := by
  obtain ⟨v, e1, e2⟩ := h1.powm t
  exact ⟨v, e1, e2.of_eq (by ring)⟩

end

section
variable {k p q : ℕ} {y : ℤ}

theorem heEncrypt_split (g : Env) {fuel : ℕ} {s s' : g.State} {hc hc' : HC128.State} {junk : List U8}
    {m N label b : ℤ} {ct : HeCt}
    (h : heEncrypt g fuel s hc junk m y N label k = .ok (ct, b, hc', s')) :
    labelValue hc junk label k = .ok (b, hc') ∧ JL.encrypt g fuel s b y N k = .ok (ct.beta, s') ∧
      ct.a = (m - b) % 2 ^ k := by
  rw [heEncrypt] at h
  obtain ⟨⟨b1, hc1⟩, e1, h⟩ := Res.bind_eq_ok h
  obtain ⟨⟨be, s1⟩, e2, h⟩ := Res.bind_eq_ok h
  simp only [mod_ok two_ne, Res.ok_bind, Res.pure_eq, Res.ok_inj, Prod.mk.injEq] at h
  obtain ⟨rfl, rfl, rfl, rfl⟩ := h
  exact ⟨e1, e2, rfl⟩

theorem heEncrypt_rep (key : Key k p q y) (g : Env) {Y : (ZMod (p * q))ˣ} (hY : (Y : ZMod (p * q)) = y)
    {fuel : ℕ} {s s' : g.State} {hc hc' : HC128.State} {junk : List U8} {m label b : ℤ} {ct : HeCt}
    (h : heEncrypt g fuel s hc junk m y (p * q) label k = .ok (ct, b, hc', s'))
    (hco : IsCoprime ct.beta ((p : ℤ) * q)) : Rep k Y ct m b := by
  have := key.neZero
  obtain ⟨-, h2, h3⟩ := heEncrypt_split g h
  obtain ⟨x, -, hx, -⟩ := encrypt_spec g hY (by push_cast; exact h2)
  refine ⟨coprime_coin hx (by push_cast; exact hco), ?_⟩
  rw [h3]; exact Int.mod_modEq _ _

theorem heDecrypt_rep (key : Key k p q y) {Y : (ZMod (p * q))ˣ} (hY : (Y : ZMod (p * q)) = y) {ct : HeCt}
    {m b : ℤ} (h : Rep k Y ct m b) : heDecrypt ct p y k = .ok (m % 2 ^ k) := by
  have := key.neZero
  have hd := decrypt_encrypts key ((encrypts_iff rfl hY _ _).mpr h.1)
  simp only [heDecrypt, hd, Res.ok_bind, mod_ok two_ne]
  congr 1
  refine (h.2.add (Int.mod_modEq b _)).trans ?_
  rw [show m - b + b = m by ring]

theorem heDecryptA_enc (key : Key k p q y) {Y : (ZMod (p * q))ˣ} (hY : (Y : ZMod (p * q)) = y) {al m b b' : ℤ}
    (h : EncU k Y al (m - b)) (hb : b' ≡ b [ZMOD 2 ^ k]) :
    heDecryptA false false al b' p y k = .ok (m % 2 ^ k) := by
  have := key.neZero
  have hd := decrypt_encrypts key ((encrypts_iff rfl hY _ _).mpr h)
  simp only [heDecryptA, hd, Res.ok_bind, mod_ok two_ne, Bool.false_eq_true, if_false]
  congr 1
  refine ((Int.mod_modEq (m - b) _).add hb).trans ?_
  rw [show m - b + b = m by ring]

end

/-! ## Label values -/

theorem labelValue_eq (hc : HC128.State) (junk : List U8) (label : ℤ) (k : ℕ)
    (hl : (exportBytes label).length ≤ k / 8) (hj : k / 8 ≤ junk.length) (hk : k < 2 ^ 32) :
    labelValue hc junk label k = .ok
      (((importWords (k / 32) (xorBytes (exportBytes label ++ (junk.take (k / 8)).drop (exportBytes label).length)
        (HC128.pktKs hc (k / 8))) 0 : ℕ) : ℤ), HC128.pktNext hc (k / 8)) := by
  have hlen : (exportBytes label ++ (junk.take (k / 8)).drop (exportBytes label).length).length = k / 8 := by
    simp only [List.length_append, List.length_drop, List.length_take]; omega
  rw [labelValue]
  simp only []
  rw [if_neg (by omega), HC128.processPacket_eq hc (by omega) (by
    constructor <;> simp only [Io.src, if_true, hlen] <;> exact le_refl _)]
  generalize exportBytes label ++ (junk.take (k / 8)).drop (exportBytes label).length = buf at *
  simp only [Res.ok_bind, Res.pure_eq, Io.xored, Io.src, if_true, HC128.pktKs_length, ← hlen,
    List.take_length, List.drop_length, List.append_nil]

theorem exportBytes_length (label : ℤ) (n : ℕ) : (exportBytes label).length ≤ n ↔ label.natAbs < 256 ^ n := by
  rw [exportBytes, List.length_map, List.length_reverse]
  exact Nat.digits_length_le_iff (by decide) _

theorem exportBytes_eq (label : ℤ) (n : ℕ) (h : (exportBytes label).length = n) :
    exportBytes label = Spec.LHE.labelBytes n label.natAbs := by
  apply List.ext_getElem
  · simp [Spec.LHE.labelBytes, h]
  · intro i h1 h2
    have hd : (Nat.digits 256 label.natAbs).length = n := by
      rw [← h, exportBytes, List.length_map, List.length_reverse]
    have hi : i < n := by omega
    simp only [exportBytes, Spec.LHE.labelBytes, List.getElem_map, List.getElem_reverse, List.getElem_range]
    have hlt : (Nat.digits 256 label.natAbs).length - 1 - i < (Nat.digits 256 label.natAbs).length := by omega
    have e := Nat.getD_digits label.natAbs ((Nat.digits 256 label.natAbs).length - 1 - i) (b := 256) (by decide)
    rw [List.getD_eq_getElem?_getD, List.getElem?_eq_getElem hlt, Option.getD_some] at e
    rw [e, hd]
    apply BitVec.eq_of_toNat_eq
    simp [BitVec.toNat_ofNat]

theorem word_drop (bs : List U8) (i : ℕ) : Spec.LHE.word (bs.drop 4) i = Spec.LHE.word bs (i + 4) := by
  simp only [Spec.LHE.word, List.getD_eq_getElem?_getD, List.getElem?_drop]
  rw [show 4 + i = i + 4 by omega, show 4 + (i + 1) = i + 4 + 1 by omega,
    show 4 + (i + 2) = i + 4 + 2 by omega, show 4 + (i + 3) = i + 4 + 3 by omega]

theorem importWords_eq : ∀ (n : ℕ) (bs : List U8) (acc : ℕ),
    importWords n bs acc = acc * 2 ^ (32 * n) + Spec.LHE.value n bs := by
  intro n
  induction n with
  | zero => intro bs acc; simp [importWords, Spec.LHE.value]
  | succ n ih =>
    intro bs acc
    rw [importWords, ih]
    have hw : (le32 (bs.getD 0 0) (bs.getD 1 0) (bs.getD 2 0) (bs.getD 3 0)).toNat = Spec.LHE.word bs 0 := by
      rw [le32_toNat, Spec.LHE.word]; ring
    rw [hw]
    have hv : Spec.LHE.value (n + 1) bs = Spec.LHE.word bs 0 * 2 ^ (32 * n) + Spec.LHE.value n (bs.drop 4) := by
      rw [Spec.LHE.value, List.range_succ_eq_map, List.map_cons, List.sum_cons, List.map_map]
      congr 1
      rw [Spec.LHE.value]
      congr 1
      apply List.map_congr_left
      intro j hj
      rw [List.mem_range] at hj
      simp only [Function.comp, word_drop]
      rw [show 4 * j.succ = 4 * j + 4 by omega, show n + 1 - 1 - j.succ = n - 1 - j by omega]
    rw [hv, show 32 * (n + 1) = 32 + 32 * n by ring, pow_add]
    ring

end CT.LHE
